import Verif.Props.Game
import Verif.Proofs.MoveLegal2
/-!
# C60: a race always ends
-/

namespace Bkgm
open Pos
variable {N : Nat}

/-- Without contact and with a checker left, every die can be played. -/
theorem can_step_race {b : Spec.Board} (hx : ∀ i, 26 ≤ i → b.x i = 0) (h0 : b.x 0 = 0) (hc : ¬ Spec.Contact b) (h : ∃ i, 1 ≤ b.x i)
    {die : Nat} (hd : 1 ≤ die) (hd6 : die ≤ 6) : ∃ src, Spec.CanStep b src die := by
  obtain ⟨s, hs, hmax⟩ : ∃ s, 1 ≤ b.x s ∧ ∀ i, s < i → b.x i = 0 := by
    obtain ⟨i, hi⟩ := h
    have hP : ∃ n, ∀ j, n < j → b.x j = 0 := ⟨25, fun j hj => hx j hj⟩
    classical
    refine ⟨Nat.find hP, ?_, Nat.find_spec hP⟩
    by_contra hlt
    rcases Nat.eq_zero_or_pos (Nat.find hP) with e | hpos
    · have := Nat.find_spec hP i
      rw [e] at this
      rcases Nat.eq_zero_or_pos i with rfl | hi0
      · omega
      · have := this hi0; omega
    · refine Nat.find_min hP (m := Nat.find hP - 1) (by omega) fun j hj => ?_
      rcases Nat.lt_or_eq_of_le (show Nat.find hP ≤ j by omega) with h1 | h1
      · exact Nat.find_spec hP j h1
      · rw [← h1]; omega
  have hs0 : s ≠ 0 := by rintro rfl; omega
  have hs25 : s ≤ 25 := by by_contra hlt; have := hx s (by omega); omega
  refine ⟨s, ⟨by omega, hs25⟩, hs, fun hb => ?_, fun hlt => ?_, fun hle i hi => hmax i (by omega), fun hlt => hmax⟩
  · by_contra hne
    have := hmax 25 (by omega)
    omega
  · by_contra hgt
    exact hc ⟨s, s - die, hs, by omega, by omega⟩

/-- **C60** In a race every play brings the mover nearer to the end (at least one pip), and does not change the opponent's pip count. -/
theorem C60_race_progress (p c : Pos N) (hv : p.Valid) (dice : Dice) (hd : dice.Valid)
    (hp : p.phase = some (.ongoing .race)) (hc : c ∈ p.legalPositions dice) :
    c.view.pipsO < p.view.pipsX ∧ c.view.pipsX = p.view.pipsO := by
  have hg : p.gameState = .ongoing := by
    unfold phase at hp
    cases h : p.gameState with
    | ongoing => rfl
    | gameOver r => rw [h] at hp; simp at hp
  have hn : ¬ (p.xOff = N ∧ p.oOff = N) := by
    rintro ⟨h1, h2⟩
    rcases gameState_cases p with h | h | h | h | h | h | h <;> simp_all
  have hon := (C10_game_state p hn).1.1 hg
  have hcon := ((C12_phase p hv hn).2.2.2.1 hp).2
  obtain ⟨-, used, hu, hpl, hmax, -⟩ := (mem_legal hv.barsOK hd).1 hc
  obtain ⟨die, hdie, h1, h6⟩ : ∃ die, Spec.Uses (Spec.faces dice) [die] ∧ 1 ≤ die ∧ die ≤ 6 := by
    cases dice with
    | double d =>
      obtain ⟨h1, h2⟩ : 1 ≤ d ∧ d ≤ 6 := hd
      refine ⟨d, fun v => ?_, h1, h2⟩
      simp only [Spec.faces, List.count_cons, List.count_nil]
      split_ifs <;> omega
    | mixed b s =>
      obtain ⟨h1, h2, h3⟩ : 1 ≤ s ∧ s < b ∧ b ≤ 6 := hd
      refine ⟨b, fun v => ?_, by omega, h3⟩
      simp only [Spec.faces, List.count_cons, List.count_nil]
      split_ifs <;> omega
  obtain ⟨src, hs⟩ := can_step_race (b := p.view) (fun i hi => by simp [view, pip_ge hi]) hv.xBar hcon
    (exists_x_of_valid hv hon.1) h1 h6
  have hlen : 1 ≤ used.length := hmax [die] _ hdie (.cons hs (.nil _))
  obtain ⟨ms, rfl, hm⟩ := hpl.moves
  have hpos := uses_pos hd hu
  have he := hm.pipsX (fun m h => hpos _ (List.mem_map_of_mem h))
  obtain ⟨-, ho⟩ := no_contact_play hpos hpl hcon
  have hxx : c.view.pipsO = c.flip.view.pipsX := by rw [view_flip, (MoveText.pips_mirror _).1]
  have hoo : c.view.pipsX = c.flip.view.pipsO := by rw [view_flip, (MoveText.pips_mirror _).2]
  refine ⟨?_, ?_⟩
  · rw [hxx]
    have : 1 ≤ (ms.map fun m => min m.1 m.2).sum := by
      generalize p.view = b, c.flip.view = b' at hm
      cases hm with
      | nil => simp at hlen
      | @cons _ _ src die rest hcs _ =>
        have a := hcs.range.1
        have b := hpos die (by simp)
        simp only [List.map_cons, List.sum_cons]
        omega
    omega
  · rw [hoo]
    unfold Spec.Board.pipsO
    rw [ho]

example (c : Pos 3) (hc : c ∈ (Ex.cells 3 [0, 1, 1, 1, 0, 0, 0, 0, 0, 0, -3] 0 0).legalPositions (.mixed 2 1)) :=
  C60_race_progress (Ex.cells 3 [0, 1, 1, 1, 0, 0, 0, 0, 0, 0, -3] 0 0) c (by decide) (.mixed 2 1) (by decide) (by decide +kernel) hc

/-- `PlyLine p n q`: `n` plies of ordinary play (each from a position that is not over, with a legal roll) lead from `p` to `q`. -/
inductive PlyLine : Pos N → Nat → Pos N → Prop
  | nil (p : Pos N) : PlyLine p 0 p
  | cons {p c q : Pos N} {n : Nat} {dice : Dice} :
      p.gameState = .ongoing → dice.Valid → c ∈ p.legalPositions dice → PlyLine c n q → PlyLine p (n + 1) q

/-- **C60** A race ends after at most as many plies as both sides have pips to go, whatever is rolled and played. -/
theorem C60_race_ends (p q : Pos N) (hv : p.Valid) (hp : p.phase = some (.ongoing .race)) (n : Nat) (h : PlyLine p n q) :
    n + q.view.pipsX + q.view.pipsO ≤ p.view.pipsX + p.view.pipsO ∧
    (q.phase = some (.ongoing .race) ∨ ∃ r, q.phase = some (.gameOver r)) := by
  induction h with
  | nil => exact ⟨by omega, Or.inl hp⟩
  | @cons p c q n dice hg hd hc hl ih =>
    obtain ⟨h1, h2⟩ := C60_race_progress p c hv dice hd hp hc
    rcases (C13_race_stays p c hv dice hd hp hc).1 with h3 | ⟨r, h3⟩
    · obtain ⟨k1, k2⟩ := ih (C04_children_valid p c hv dice hd hc) h3
      exact ⟨by omega, k2⟩
    · cases hl with
      | nil => exact ⟨by omega, Or.inr ⟨r, h3⟩⟩
      | cons hg' _ _ _ =>
        unfold phase at h3
        rw [hg'] at h3
        simp only at h3
        split at h3
        · cases h3
        · split at h3 <;> simp at h3

example : Ex.bearPos.Valid ∧ Ex.bearPos.phase = some (.ongoing .race) ∧ Ex.bearPos.view.pipsX + Ex.bearPos.view.pipsO = 21 := by decide

example : ∃ q, PlyLine Ex.bearPos 1 q ∧ q.phase = some (.ongoing .race) := by
  refine ⟨((Ex.bearPos.mv 3 2).mv 2 1).flip, .cons (dice := .mixed 2 1) (by decide) (by decide) (by decide) (.nil _), by decide⟩

/-- The same for the positions of a variant. -/
theorem vpos_race {v : Variant} {q c : VPos} {dice : Dice} (hq : VPos.ValidFor v q) (hd : dice.Valid)
    (hp : q.phase = some (.ongoing .race)) (hc : c ∈ classicRules q dice) :
    c.view.pipsX + c.view.pipsO < q.view.pipsX + q.view.pipsO ∧
    (c.phase = some (.ongoing .race) ∨ ∃ r, c.gameState = .gameOver r) := by
  have key : ∀ {N : Nat} (p x : Pos N), Spec.Valid N p.view → p.phase = some (.ongoing .race) → x ∈ p.legalPositions dice →
      x.view.pipsX + x.view.pipsO < p.view.pipsX + p.view.pipsO ∧ (x.phase = some (.ongoing .race) ∨ ∃ r, x.gameState = .gameOver r) := by
    intro N p x h hp hx
    obtain ⟨h1, h2⟩ := C60_race_progress p x h dice hd hp hx
    refine ⟨by omega, ?_⟩
    rcases (C13_race_stays p x h dice hd hp hx).1 with h3 | ⟨r, h3⟩
    · exact Or.inl h3
    · refine Or.inr ⟨r, ?_⟩
      unfold phase at h3
      cases hg : x.gameState with
      | gameOver r' => rw [hg] at h3; simpa using h3
      | ongoing =>
        rw [hg] at h3
        simp only at h3
        split at h3
        · cases h3
        · split at h3 <;> simp at h3
  obtain ⟨rfl, h⟩ := hq
  cases q <;> (simp only [classicRules] at hc; obtain ⟨x, hx, rfl⟩ := List.mem_map.1 hc; exact key _ x h hp hx)

/-- A race position has pips left. -/
theorem vpos_race_pips {v : Variant} {q : VPos} (hq : VPos.ValidFor v q) (hp : q.phase = some (.ongoing .race)) :
    0 < q.view.pipsX + q.view.pipsO := by
  have h := hq.2
  obtain ⟨c, hc⟩ : ∃ c, c ∈ classicRules q (.double 1) := by
    have key : ∀ {N : Nat} (p : Pos N), Spec.Valid N p.view → ∃ c, c ∈ p.legalPositions (.double 1) := fun p h =>
      List.exists_mem_of_ne_nil _ (C02_never_empty p (Pos.Valid.barsOK h) (.double 1) (by decide))
    obtain ⟨rfl, h⟩ := hq
    cases q <;> (obtain ⟨c, hc⟩ := key _ h; exact ⟨_, List.mem_map_of_mem hc⟩)
  have := (vpos_race hq (dice := .double 1) (by decide) hp hc).1
  omega

theorem plies_race {σ π : Type} {gen : DiceGen σ} {pick : Game.Policy π}
    (h1 : ∀ s d s', gen.rollMixed s = some (d, s') → d.Valid) (h2 : ∀ s d s', gen.roll s = some (d, s') → d.Valid)
    {b : Bool} {p p' : VPos} {s s' : σ} {t t' : π} {l : List (Dice × Nat)} {v : Variant} (hv : VPos.ValidFor v p)
    (hp : p.phase = some (.ongoing .race)) (h : Plies classicRules gen pick b p s t l p' s' t') :
    l.length + (p'.view.pipsX + p'.view.pipsO) ≤ p.view.pipsX + p.view.pipsO ∧
    (p'.phase = some (.ongoing .race) ∨ ∃ r, p'.gameState = .gameOver r) := by
  induction h with
  | nil => exact ⟨by simp, Or.inl hp⟩
  | @cons first p q p' s s1 s' t t1 t' dice i l hr _ hq hg hl ih =>
    have hd : dice.Valid := by
      cases first
      · exact h2 _ _ _ (by simpa using hr)
      · exact h1 _ _ _ (by simpa using hr)
    obtain ⟨k1, k2⟩ := vpos_race hv hd hp (List.mem_of_getElem? hq)
    rcases k2 with k2 | ⟨r, k2⟩
    · obtain ⟨j1, j2⟩ := ih (classic_child hv hd (List.mem_of_getElem? hq)) k2
      exact ⟨by simp only [List.length_cons]; omega, j2⟩
    · have hnil : l = [] := by
        by_contra hne
        rw [hg hne] at k2
        cases k2
      subst hnil
      rw [plies_nil hl]
      exact ⟨by simp only [List.length_cons, List.length_nil]; omega, Or.inr ⟨r, k2⟩⟩

/-- **C60** `play_episode` on a race, with any source of legal dice and any policy: if it is allowed as many plies as both sides have
pips to go, it either plays the game to its end or stops because the policy chose an index out of range. -/
theorem C60_episode_finishes_race {σ π : Type} (gen : DiceGen σ) (pick : Game.Policy π)
    (h1 : ∀ s d s', gen.rollMixed s = some (d, s') → d.Valid) (h2 : ∀ s d s', gen.roll s = some (d, s') → d.Valid)
    (max : Nat) (g : Game) (hv : VPos.ValidFor g.variant g.position) (hp : g.position.phase = some (.ongoing .race))
    (hmax : g.position.view.pipsX + g.position.view.pipsO ≤ max) (s : σ) (t : π) (r : Game.EpisodeResult σ π)
    (h : Game.playEpisode classicRules gen pick max g s t = some r) (n : Nat) (hn : r.result = .ok n) :
    n ≤ g.position.view.pipsX + g.position.view.pipsO ∧ ∃ res, r.game.position.gameState = .gameOver res := by
  obtain ⟨-, l, s1, t1, hpl, hok, -, -⟩ := C21_play_episode classicRules gen pick max g s t r h
  obtain ⟨k1, k2⟩ := plies_race h1 h2 hv hp hpl
  obtain ⟨rfl, -, -⟩ := hok n hn
  refine ⟨by omega, ?_⟩
  rcases k2 with k2 | k2
  · have := vpos_race_pips (plies_valid h1 h2 hv hpl) k2
    exact (C21_classic_episode gen pick h1 h2 max g hv s t r h).2 _ hn (by omega)
  · exact k2

/-- A race of hypergammon, rolled with 6-1 only, first choice always: over after five plies. -/
example : VPos.ValidFor .hypergammon (.hypergammon Ex.bearPos) ∧ (VPos.hypergammon Ex.bearPos).phase = some (.ongoing .race) ∧
    (Game.playEpisode (σ := Unit) (π := Unit) classicRules
      ⟨fun s => some (.mixed 6 1, s), fun s => some (.mixed 6 1, s)⟩ (fun t _ _ _ => (0, t)) 21 ⟨.hypergammon, .hypergammon Ex.bearPos⟩ ()
      ()).map (fun r => r.result.toOption) = some (some 5) :=
  ⟨⟨rfl, (by decide : Ex.bearPos.Valid)⟩, by decide, by decide +kernel⟩

end Bkgm
