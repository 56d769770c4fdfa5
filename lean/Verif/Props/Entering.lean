import Verif.Props.VariantLevel
import Verif.Props.Scripted
import Verif.Spec.Entering
/-!
# C86: entering from the bar; C14: the no-hit rules keep all positions or none
-/

namespace Bkgm
open Spec
variable {N : Nat}

theorem bar_mv {p : Pos N} {i d : Nat} (hi : i < 25) (hd : 1 ≤ d) : (p.mv i d).pip 25 = p.pip 25 := by
  rw [Pos.pip_mv p (by omega) hd]
  have h1 : ¬ 25 = i := by omega
  have h2 : ¬ 25 = i - d := by omega
  simp [h1, h2]

theorem bar_movesFrom {p c : Pos N} {d : Nat} (hd : 1 ≤ d) {range : List Nat} (hr : ∀ i ∈ range, i < 25) (hc : c ∈ p.movesFrom d range) :
    c.pip 25 = p.pip 25 := by
  simp only [Pos.movesFrom, List.mem_flatMap] at hc
  obtain ⟨i, hi, hc⟩ := hc
  split_ifs at hc
  · rw [List.mem_singleton] at hc
    rw [hc, bar_mv (hr i hi) hd]
  · simp at hc

theorem bar_enter {p : Pos N} {d : Nat} (hd : 1 ≤ d) (hd6 : d ≤ 6) : (p.enter d).pip 25 = p.pip 25 - 1 := by
  unfold Pos.enter
  simp only
  have h1 : ¬ 25 = 25 - d := by omega
  have h2 : 25 - d < 26 := by omega
  split_ifs
  · simp only [Pos.pip_set _ (by decide : O_BAR < 26), Pos.pip_set _ h2, Pos.pip_set _ (by decide : X_BAR < 26)]; simp [h1]
  · simp only [Pos.pip_set _ h2, Pos.pip_set _ (by decide : X_BAR < 26)]; simp [h1]

theorem enter_other {p : Pos N} {d e : Nat} (hd : 1 ≤ d) (hd6 : d ≤ 6) (he : 1 ≤ e) (he6 : e ≤ 6) (hne : d ≠ e) : (p.enter d).canEnter e = p.canEnter e := by
  unfold Pos.enter Pos.canEnter
  simp only
  have h1 : ¬ 25 - e = 25 := by omega
  have h2 : 25 - d < 26 := by omega
  have h3 : ¬ 25 - e = 25 - d := by omega
  have h4 : ¬ 25 - e = 0 := by omega
  split_ifs
  · simp only [Pos.pip_set _ (by decide : O_BAR < 26), Pos.pip_set _ h2, Pos.pip_set _ (by decide : X_BAR < 26)]; simp [h1, h3, h4]
  · simp only [Pos.pip_set _ h2, Pos.pip_set _ (by decide : X_BAR < 26)]; simp [h1, h3]

theorem bar_double_after {p c : Pos N} {d e : Nat} (hd : 1 ≤ d) (hc : c ∈ p.doubleAfterEntering d e) : c.pip 25 = p.pip 25 := by
  unfold Pos.doubleAfterEntering at hc
  simp only at hc
  by_cases h0 : p.numberOfMovable d e = 0
  · rw [if_pos h0, List.mem_singleton] at hc; rw [hc]
  rw [if_neg h0] at hc
  simp only [List.mem_flatMap, List.mem_ite_nil_right] at hc
  obtain ⟨i1, hi1, -, hc⟩ := hc
  have l1 := (mem_rng.1 hi1).2
  by_cases h0 : p.numberOfMovable d e = 1
  · rw [if_pos h0, List.mem_singleton] at hc; rw [hc, bar_mv l1 hd]
  rw [if_neg h0] at hc
  simp only [List.mem_flatMap, List.mem_ite_nil_right] at hc
  obtain ⟨i2, hi2, -, hc⟩ := hc
  have l2 := (mem_rng.1 hi2).2
  by_cases h0 : p.numberOfMovable d e = 2
  · rw [if_pos h0, List.mem_singleton] at hc; rw [hc, bar_mv (by omega) hd, bar_mv l1 hd]
  rw [if_neg h0] at hc
  simp only [List.mem_flatMap, List.mem_ite_nil_right] at hc
  obtain ⟨i3, hi3, -, hc⟩ := hc
  have l3 := (mem_rng.1 hi3).2
  by_cases h0 : p.numberOfMovable d e = 3
  · rw [if_pos h0, List.mem_singleton] at hc; rw [hc, bar_mv (by omega) hd, bar_mv (by omega) hd, bar_mv l1 hd]
  rw [if_neg h0] at hc
  simp only [List.mem_flatMap, List.mem_ite_nil_right, List.mem_singleton] at hc
  obtain ⟨i4, hi4, -, hc⟩ := hc
  have l4 := (mem_rng.1 hi4).2
  rw [hc, bar_mv (by omega) hd, bar_mv (by omega) hd, bar_mv (by omega) hd, bar_mv l1 hd]

theorem bar_double {p c : Pos N} (hb : p.BarsOK) {d : Nat} (hd : 1 ≤ d) (hd6 : d ≤ 6) (hc : c ∈ p.doubleMoves d) :
    c.pip 25 = if p.pip (25 - d) < -1 then p.pip 25 else p.pip 25 - min 4 (p.pip 25) := by
  have hb := hb.2
  have h1 : ¬ 25 = 25 - d := by omega
  have h2 : 25 - d < 26 := by omega
  have hent : (p.afterEntering d).1.pip 25 = p.pip 25 - min 4 (p.pip 25) := by
    unfold Pos.afterEntering
    by_cases ha : p.pip 25 = 0
    · simp [ha]
    · rw [if_neg ha]
      have hn : min 4 (p.pip 25) > 0 := by omega
      simp only [if_pos hn]
      split_ifs
      · simp [Pos.pip_set _ (by decide : O_BAR < 26), Pos.pip_set _ h2, Pos.pip_set _ (by decide : X_BAR < 26), h1]
      · simp [Pos.pip_set _ h2, Pos.pip_set _ (by decide : X_BAR < 26), h1]
  unfold Pos.doubleMoves at hc
  split_ifs at hc with h3
  · rw [List.mem_singleton] at hc
    rw [hc, if_pos h3.2]
  · simp only at hc
    have key : c.pip 25 = (p.afterEntering d).1.pip 25 := by
      split_ifs at hc
      · rw [List.mem_singleton] at hc; rw [hc]
      · exact bar_double_after hd hc
    rw [key, hent]
    split_ifs
    · omega
    · rfl

theorem bar_mixed {p c : Pos N} (hb : p.BarsOK) {b s : Nat} (hs : 1 ≤ s) (hsb : s < b) (hb6 : b ≤ 6) (hc : c ∈ p.mixedMoves b s) :
    c.pip 25 = max 0 (p.pip 25 - (if p.canEnter b then 1 else 0) - (if p.canEnter s then 1 else 0)) := by
  have hb := hb.2
  unfold Pos.mixedMoves at hc
  split_ifs at hc with h0 h1
  · have key : c.pip 25 = p.pip 25 := by
      unfold Pos.mixed0 at hc
      simp only at hc
      have hone : ∀ {d}, 1 ≤ d → c ∈ p.oneCheckerMoves d → c.pip 25 = p.pip 25 := fun hd h =>
        bar_movesFrom hd (fun i hi => (mem_rng.1 hi).2) h
      have htwo : c ∈ p.smallFirst b s ++ p.bigFirst b s → c.pip 25 = p.pip 25 := by
        rw [List.mem_append]
        rintro (h | h)
        · simp only [Pos.smallFirst, List.mem_flatMap, List.mem_ite_nil_right, List.mem_reverse] at h
          obtain ⟨i, hi, -, h⟩ := h
          have hi := (mem_rng.1 hi).2
          rw [bar_movesFrom (by omega) (fun j hj => by rw [List.mem_reverse] at hj; have := (mem_rng.1 hj).2; omega) h, bar_mv hi hs]
        · simp only [Pos.bigFirst, List.mem_flatMap, List.mem_ite_nil_right] at h
          obtain ⟨i, hi, -, h⟩ := h
          have hi := (mem_rng.1 hi).2
          rw [bar_movesFrom (by omega) ?_ h, bar_mv hi (by omega)]
          intro j hj
          split_ifs at hj
          · have := (mem_rng.1 hj).2; omega
          · rw [List.mem_append] at hj
            rcases hj with hj | hj <;> have := (mem_rng.1 hj).2 <;> omega
      split_ifs at hc
      · rw [List.mem_singleton] at hc; rw [hc]
      · exact hone hs hc
      · exact hone (by omega) hc
      · exact htwo hc
    rw [key, h0]
    split_ifs <;> rfl
  · rw [h1]
    have hrange : ∀ {a e i : Nat}, e ≤ 25 → i ∈ rng a e → i < 25 := fun he hi => by have := (mem_rng.1 hi).2; omega
    have eB := bar_enter (p := p) (show 1 ≤ b by omega) hb6
    have eS := bar_enter (p := p) hs (show s ≤ 6 by omega)
    have mB : c ∈ (p.enter b).movesFrom s (rng (s + 1) 25) → c.pip 25 = 0 := fun h => by
      rw [bar_movesFrom hs (fun i hi => hrange le_rfl hi) h, eB, h1]; rfl
    have mS : ∀ {e f}, e ≤ 25 → f ≤ 25 → ∀ {a g}, c ∈ (p.enter s).movesFrom b (rng a e ++ rng g f) → c.pip 25 = 0 := fun he hf _ _ h => by
      rw [bar_movesFrom (by omega) ?_ h, eS, h1]; · rfl
      intro i hi
      rw [List.mem_append] at hi
      rcases hi with hi | hi
      · exact hrange he hi
      · exact hrange hf hi
    have mS' : c ∈ (p.enter s).movesFrom b (rng (b + 1) 25) → c.pip 25 = 0 := fun h =>
      mS (a := 0) (g := b + 1) (Nat.zero_le _) le_rfl (by simpa [rng] using h)
    unfold Pos.mixed1 at hc
    cases hB : p.canEnter b <;> cases hS : p.canEnter s
    · simp [hB, hS] at hc
      rw [hc, h1]; rfl
    · have h0 : c.pip 25 = 0 := by
        simp only [hB, hS, Bool.false_eq_true, if_false, if_true, List.nil_append] at hc
        split_ifs at hc
        all_goals first
          | exact mS' hc
          | exact mS (by omega) (by omega) hc
          | (rw [List.mem_singleton] at hc; rw [hc, eS, h1]; rfl)
          | skip
      rw [h0]; rfl
    · have h0 : c.pip 25 = 0 := by
        simp only [hB, hS, Bool.false_eq_true, if_false, if_true, List.append_nil] at hc
        split_ifs at hc
        all_goals first
          | exact mB hc
          | (rw [List.mem_singleton] at hc; rw [hc, eB, h1]; rfl)
          | skip
      rw [h0]; rfl
    · have h0 : c.pip 25 = 0 := by
        simp only [hB, hS, if_true] at hc
        split_ifs at hc
        all_goals first
          | (rw [List.mem_singleton] at hc; rw [hc, eB, h1]; rfl)
          | (rw [List.mem_append] at hc; rcases hc with hc | hc; · exact mB hc
             first | exact mS' hc | exact mS (by omega) (by omega) hc)
          | skip
      rw [h0]; rfl
  · unfold Pos.mixed2 at hc
    simp only [List.mem_singleton] at hc
    rw [hc]
    cases hB : p.canEnter b
    · simp only [Bool.false_eq_true, if_false]
      cases hS : p.canEnter s
      · simp; omega
      · simp only [if_true]; rw [bar_enter hs (by omega)]; omega
    · simp only [if_true]
      rw [enter_other (by omega) hb6 hs (by omega) (by omega)]
      cases hS : p.canEnter s
      · simp only [Bool.false_eq_true, if_false]; rw [bar_enter (by omega) hb6]; omega
      · simp only [if_true]; rw [bar_enter hs (by omega), bar_enter (by omega) hb6]; omega

/-- What is left on the mover's bar after a play. -/
theorem bar_played {p c : Pos N} (hb : p.BarsOK) {dice : Dice} (hd : dice.Valid) (hc : c ∈ p.playedPositions dice) :
    (c.pip 25).toNat = p.view.x 25 - p.view.openFaces dice := by
  have hop : ∀ d, decide (p.view.o (25 - d) ≤ 1) = p.canEnter d := fun d => by
    show decide ((-(p.pip (25 - d))).toNat ≤ 1) = decide (p.pip (25 - d) > -2)
    rw [decide_eq_decide]; omega
  have hx : p.view.x 25 = (p.pip 25).toNat := rfl
  rw [hx]
  cases dice with
  | double d =>
    have := bar_double hb hd.1 hd.2 hc
    simp only [Board.openFaces, faces, hop, List.filter_cons, List.filter_nil]
    rw [this]
    simp only [Pos.canEnter, decide_eq_true_eq]
    have := hb.2
    split_ifs <;> simp only [List.length_cons, List.length_nil] <;> omega
  | mixed b s =>
    have := bar_mixed hb hd.1 hd.2.1 hd.2.2 hc
    simp only [Board.openFaces, faces, hop, List.filter_cons, List.filter_nil]
    rw [this]
    split_ifs <;> simp only [List.length_cons, List.length_nil] <;> omega

/-- **C86** Whatever play is chosen, as many checkers enter from the bar as the dice allow: after every legal play the mover has left on the bar
exactly his checkers there less the number of rolled numbers whose point is open, or none. (In the child the mover is `o`, whose bar is 0.) -/
theorem C86_entering (p c : Pos N) (hb : p.BarsOK) (dice : Dice) (hd : dice.Valid) (hc : c ∈ p.legalPositions dice) :
    c.view.o 0 = p.view.x 25 - p.view.openFaces dice := by
  simp only [Pos.legalPositions, List.mem_map] at hc
  obtain ⟨q, hq, rfl⟩ := hc
  rw [← bar_played hb hd hq]
  show (-(q.flip.pip 0)).toNat = _
  rw [Pos.pip_flip q (by decide)]
  simp

/-- **C86** If checkers are left on the bar there is no choice: exactly one legal position. -/
theorem C86_forced (p : Pos N) (hb : p.BarsOK) (dice : Dice) (hd : dice.Valid) (h : p.view.openFaces dice < p.view.x 25) :
    ∃ c, p.legalPositions dice = [c] := by
  have hop : ∀ d, decide (p.view.o (25 - d) ≤ 1) = p.canEnter d := fun d => by
    show decide ((-(p.pip (25 - d))).toNat ≤ 1) = decide (p.pip (25 - d) > -2)
    rw [decide_eq_decide]; omega
  have hx : p.view.x 25 = (p.pip 25).toNat := rfl
  rw [hx] at h
  suffices h : ∃ q, p.playedPositions dice = [q] by
    obtain ⟨q, hq⟩ := h
    exact ⟨q.flip, by rw [Pos.legalPositions, hq, List.map_singleton]⟩
  cases dice with
  | double d =>
    show ∃ q, p.doubleMoves d = [q]
    simp only [Board.openFaces, faces, hop, List.filter_cons, List.filter_nil] at h
    unfold Pos.doubleMoves
    by_cases h3 : p.pip 25 > 0 ∧ p.pip (25 - d) < -1
    · exact ⟨p, by rw [if_pos h3]⟩
    · rw [if_neg h3]
      have hce : p.canEnter d = true := by
        simp only [Pos.canEnter, decide_eq_true_eq]
        by_contra hc
        exact h3 ⟨by omega, by omega⟩
      rw [hce] at h
      simp only [if_true, List.length_cons, List.length_nil] at h
      have h4 : (p.afterEntering d).2 = 4 := by
        unfold Pos.afterEntering
        rw [if_neg (by omega)]
        show (min 4 (p.pip 25)).toNat = 4
        omega
      simp only [h4, if_true]
      exact ⟨_, rfl⟩
  | mixed b s =>
    show ∃ q, p.mixedMoves b s = [q]
    simp only [Board.openFaces, faces, hop, List.filter_cons, List.filter_nil] at h
    unfold Pos.mixedMoves
    rw [if_neg (by omega)]
    by_cases h1 : p.pip 25 = 1
    · rw [if_pos h1]
      rw [h1] at h
      cases hB : p.canEnter b <;> cases hS : p.canEnter s <;> simp [hB, hS] at h
      exact ⟨p, by simp [Pos.mixed1, hB, hS]⟩
    · rw [if_neg h1]
      exact ⟨_, rfl⟩

/-- **C86** The same at the level of the variants. -/
theorem C86_variant (v : Variant) (q c : VPos) (hq : VPos.ValidFor v q) (dice : Dice) (hd : dice.Valid) (hc : c ∈ classicRules q dice) :
    c.view.o 0 = q.view.x 25 - q.view.openFaces dice := by
  obtain ⟨hv, hq⟩ := hq
  subst hv
  cases q <;> simp only [classicRules, List.mem_map] at hc <;> obtain ⟨a, ha, rfl⟩ := hc <;>
    exact C86_entering _ a (Pos.Valid.barsOK hq) dice hd ha

/-- **C14** The no-hit rules keep every legal position or none, whatever is hit: the list is empty exactly when the mover is left with more checkers on
the bar than the opponent has there. -/
theorem C14_all_or_nothing_partial (p : Pos N) (hb : p.BarsOK) (dice : Dice) (hd : dice.Valid) :
    p.noHitPositions dice = if p.view.x 25 - p.view.openFaces dice ≤ p.view.o 0 then p.legalPositions dice else [] := by
  unfold Pos.noHitPositions
  have key : ∀ c ∈ p.legalPositions dice, decide (c.oBar ≤ p.oBar) = decide (p.view.x 25 - p.view.openFaces dice ≤ p.view.o 0) := by
    intro c hc
    rw [← C86_entering p c hb dice hd hc]
    rfl
  rw [List.filter_congr key]
  split_ifs with h
  · simp [h]
  · simp [h]

theorem plies_noHit_valid {σ π : Type} {gen : DiceGen σ} {pick : Game.Policy π}
    (h1 : ∀ s d s', gen.rollMixed s = some (d, s') → d.Valid) (h2 : ∀ s d s', gen.roll s = some (d, s') → d.Valid)
    {b : Bool} {p p' : VPos} {s s' : σ} {t t' : π} {l : List (Dice × Nat)} {v : Variant} (hv : VPos.ValidFor v p)
    (h : Plies noHitRules gen pick b p s t l p' s' t') : VPos.ValidFor v p' := by
  induction h with
  | nil => exact hv
  | @cons first p q p' s s1 s' t t1 t' dice i l hr _ hq _ _ ih =>
    refine ih (classic_child hv ?_ ((C14_variant_partial _ _ _).1 (List.mem_of_getElem? hq)).1)
    cases first
    · exact h2 _ _ _ (by simpa using hr)
    · exact h1 _ _ _ (by simpa using hr)

/-- **C14** Played with the no-hit rules, an episode gives up without an error when a player stays on the bar: if from a valid position it returns
`Ok(n)` with `n < max` although the game is not over, then the player to move cannot bring in so many checkers with some roll that he is left with no more
on the bar than the opponent. -/
theorem C14_episode_gives_up_partial {σ π : Type} (gen : DiceGen σ) (pick : Game.Policy π)
    (h1 : ∀ s d s', gen.rollMixed s = some (d, s') → d.Valid) (h2 : ∀ s d s', gen.roll s = some (d, s') → d.Valid)
    (max : Nat) (g : Game) (hv : VPos.ValidFor g.variant g.position) (s : σ) (t : π) (r : Game.EpisodeResult σ π)
    (h : Game.playEpisode noHitRules gen pick max g s t = some r) (n : Nat) (hn : r.result = .ok n) (hlt : n < max)
    (ho : r.game.position.gameState = .ongoing) :
    ∃ dice : Dice, dice.Valid ∧ r.game.position.view.o 0 < r.game.position.view.x 25 - r.game.position.view.openFaces dice := by
  obtain ⟨-, l, s1, t1, hp, hr, -⟩ := playLoop_spec noHitRules gen pick max 0 g s t r h
  have hvalid := plies_noHit_valid h1 h2 hv hp
  rcases hr with ⟨ha, hb, hc⟩ | ⟨ha, -⟩
  · rw [hn] at ha
    injection ha with ha
    rcases hc with ⟨hc, -⟩ | ⟨-, ⟨res, hc⟩, -⟩ | ⟨dice, hc, hd, -⟩
    · omega
    · rw [ho] at hc; cases hc
    · have hdv : dice.Valid := by
        split_ifs at hc
        · exact h1 _ _ _ hc
        · exact h2 _ _ _ hc
      refine ⟨dice, hdv, ?_⟩
      obtain ⟨c, hcm⟩ := List.exists_mem_of_ne_nil _ (classic_nonempty hvalid hdv)
      rw [← C86_variant _ _ _ hvalid dice hdv hcm]
      by_contra hle
      have := (C14_variant_partial _ _ _).2 ⟨hcm, Nat.le_of_not_lt hle⟩
      rw [hd] at this
      simp at this
  · rw [hn] at ha; cases ha

/-- One checker on the bar, the 5 enters (hitting a blot), the 3 is closed: after 5-3 none is left there. With 3-3 it stays, and the no-hit rules return nothing. -/
example : Ex.barPos.Valid ∧ Ex.barPos.view.openFaces (.mixed 5 3) = 1 ∧ Ex.barPos.view.openFaces (.double 3) = 0 ∧ Ex.barPos.view.x 25 = 1 ∧
    (Ex.barPos.legalPositions (.mixed 5 3)).length = 2 ∧ Ex.barPos.noHitPositions (.double 3) = [] ∧
    Ex.barPos.noHitPositions (.mixed 5 3) = Ex.barPos.legalPositions (.mixed 5 3) := by decide +kernel

/-- An episode with the no-hit rules that gives up at once. -/
example : VPos.ValidFor .hypergammon (.hypergammon Ex.barPos) ∧ (VPos.hypergammon Ex.barPos).gameState = .ongoing ∧
    (Game.playEpisode (σ := Unit) (π := Unit) noHitRules
      ⟨fun s => some (.double 3, s), fun s => some (.double 3, s)⟩ (fun t _ _ _ => (0, t)) 7 ⟨.hypergammon, .hypergammon Ex.barPos⟩ ()
      ()).map (fun r => r.result.toOption) = some (some 0) :=
  ⟨⟨rfl, (by decide +kernel : Ex.barPos.Valid)⟩, by decide +kernel, by decide +kernel⟩

end Bkgm
