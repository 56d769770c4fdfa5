import Verif.Model.CheckedGame
import Verif.Props.PerftDebug
import Verif.Props.Checked
import Verif.Props.Game
import Verif.Spec.Examples
import Verif.Proofs.MoveApply
/-!
# C65, C66: games and move text do not panic (debug build)
-/

namespace Bkgm
open Pos
variable {N : Nat}

theorem chk_flip (p : Pos N) (hp : p.Valid) (hN : N ≤ 127) : Chk.flip p = some p.flip := by
  refine if_pos fun i => ?_
  have := (Chk.Bd.of_valid hp hN).pip_le i.isLt
  simp only [Pos.pip, i.isLt, dif_pos, Fin.eta] at this
  omega

theorem chk_gameState (p : Pos N) (h : p.xOff < N ∨ p.oOff < N) : Chk.gameState p = some p.gameState := by
  unfold Chk.gameState Chk.assert
  have : (decide (p.xOff < N) || decide (p.oOff < N)) = true := by simpa using h
  rw [this]
  rfl

theorem chk_oBar (p : Pos N) (hp : p.Valid) (hN : N ≤ 127) : Chk.oBar p = some p.oBar := by
  have h := (Chk.Bd.of_valid hp hN).pip_le (show O_BAR < 26 by decide)
  have hb := hp.barsOK.1
  unfold Chk.oBar Chk.get Chk.i8 oBar
  have : -128 ≤ -p.pip O_BAR ∧ -p.pip O_BAR ≤ 127 := by omega
  rw [if_pos (show O_BAR < 26 by decide)]
  simp only [Option.bind_eq_bind, Option.bind_some, if_pos this]
  have e : -p.pip O_BAR % 256 = -p.pip O_BAR := Int.emod_eq_of_lt (by omega) (by omega)
  rw [e]
  rfl

theorem filterM_some {α : Type} {f : α → Option Bool} {g : α → Bool} : ∀ {l : List α}, (∀ a ∈ l, f a = some (g a)) →
    Chk.filterM f l = some (l.filter g)
  | [], _ => rfl
  | a :: l, h => by
    rw [Chk.filterM, h a (by simp), filterM_some (l := l) fun b hb => h b (by simp [hb])]
    simp only [Option.bind_eq_bind, Option.bind_some]
    cases hg : g a <;> simp [hg]

theorem chk_noHit (p : Pos N) (hp : p.Valid) (hN : N ≤ 127) (hx : p.xOff < N) (ho : p.oOff < N) (dice : Dice) (hv : dice.Valid) :
    Chk.noHitPositions p dice = some (p.noHitPositions dice) := by
  unfold Chk.noHitPositions noHitPositions
  rw [C16_no_panic p hp hN hx ho dice hv]
  refine filterM_some fun c hc => ?_
  rw [chk_oBar c (C04_children_valid p c hp dice hv hc) hN, chk_oBar p hp hN]
  rfl

/-- Neither side of a valid position has more than `N` checkers off. -/
theorem off_lt {p : Pos N} (hp : p.Valid) (hg : p.gameState = .ongoing) : p.xOff < N ∧ p.oOff < N := by
  have hX := hp.sumX
  have hO := hp.sumO
  obtain ⟨gx, go⟩ := ongoing_iff.1 hg
  have x0 : p.view.xOff = p.xOff := rfl
  have o0 : p.view.oOff = p.oOff := rfl
  omega

/-- **C65** The rules do not panic on a valid unfinished position of any variant. -/
theorem C65_rules (v : Variant) (q : VPos) (hq : VPos.ValidFor v q) (hg : q.gameState = .ongoing) (dice : Dice) (hv : dice.Valid) :
    Chk.classicRules q dice = some (classicRules q dice) ∧ Chk.noHitRules q dice = some (noHitRules q dice) := by
  have key : ∀ {N : Nat} (p : Pos N), N ≤ 127 → Spec.Valid N p.view → p.gameState = .ongoing →
      Chk.legalPositions p dice = some (p.legalPositions dice) ∧ Chk.noHitPositions p dice = some (p.noHitPositions dice) := by
    intro N p hN hp hg
    obtain ⟨hx, ho⟩ := off_lt hp hg
    exact ⟨C16_no_panic p hp hN hx ho dice hv, chk_noHit p hp hN hx ho dice hv⟩
  obtain ⟨rfl, h⟩ := hq
  cases q with
  | backgammon p =>
    obtain ⟨h1, h2⟩ := key p (by omega) h hg
    simp only [Chk.classicRules, Chk.noHitRules, classicRules, noHitRules, h1, h2]
    exact ⟨rfl, rfl⟩
  | nackgammon p =>
    obtain ⟨h1, h2⟩ := key p (by omega) h hg
    simp only [Chk.classicRules, Chk.noHitRules, classicRules, noHitRules, h1, h2]
    exact ⟨rfl, rfl⟩
  | longgammon p =>
    obtain ⟨h1, h2⟩ := key p (by omega) h hg
    simp only [Chk.classicRules, Chk.noHitRules, classicRules, noHitRules, h1, h2]
    exact ⟨rfl, rfl⟩
  | hypergammon p =>
    obtain ⟨h1, h2⟩ := key p (by omega) h hg
    simp only [Chk.classicRules, Chk.noHitRules, classicRules, noHitRules, h1, h2]
    exact ⟨rfl, rfl⟩
  | hypergammon2 p =>
    obtain ⟨h1, h2⟩ := key p (by omega) h hg
    simp only [Chk.classicRules, Chk.noHitRules, classicRules, noHitRules, h1, h2]
    exact ⟨rfl, rfl⟩
  | hypergammon4 p =>
    obtain ⟨h1, h2⟩ := key p (by omega) h hg
    simp only [Chk.classicRules, Chk.noHitRules, classicRules, noHitRules, h1, h2]
    exact ⟨rfl, rfl⟩
  | hypergammon5 p =>
    obtain ⟨h1, h2⟩ := key p (by omega) h hg
    simp only [Chk.classicRules, Chk.noHitRules, classicRules, noHitRules, h1, h2]
    exact ⟨rfl, rfl⟩

example := C65_rules .hypergammon Variant.hypergammon.startPosition (C41_start_position _).1 (by decide +kernel) (.mixed 3 1) (by decide)

/-- The supplied rules, in the two models. -/
def Supplied (R : VariantRules) (C : Chk.VariantRules) : Prop :=
  R = classicRules ∧ C = Chk.classicRules ∨ R = noHitRules ∧ C = Chk.noHitRules

theorem Supplied.ok {R : VariantRules} {C : Chk.VariantRules} (h : Supplied R C) {v : Variant} {q : VPos} (hq : VPos.ValidFor v q)
    (hg : q.gameState = .ongoing) {dice : Dice} (hv : dice.Valid) : C q dice = some (R q dice) := by
  rcases h with ⟨rfl, rfl⟩ | ⟨rfl, rfl⟩
  · exact (C65_rules v q hq hg dice hv).1
  · exact (C65_rules v q hq hg dice hv).2

theorem Supplied.classic {R : VariantRules} {C : Chk.VariantRules} (h : Supplied R C) {q c : VPos} {dice : Dice} (hc : c ∈ R q dice) :
    c ∈ classicRules q dice := by
  rcases h with ⟨rfl, -⟩ | ⟨rfl, -⟩
  · exact hc
  · cases q <;>
    · simp only [noHitRules, classicRules] at *
      obtain ⟨x, hx, rfl⟩ := List.mem_map.1 hc
      exact List.mem_map.2 ⟨x, (List.mem_filter.1 hx).1, rfl⟩

/-- **C65** `apply_nth_legal_position` does not panic while the game is not over, whatever the index. -/
theorem C65_apply_nth (R : VariantRules) (C : Chk.VariantRules) (hR : Supplied R C) (g : Game) (hq : VPos.ValidFor g.variant g.position)
    (hg : g.position.gameState = .ongoing) (dice : Dice) (hv : dice.Valid) (i : Nat) :
    Chk.applyNth C g dice i = some (g.applyNth R dice i) := by
  unfold Chk.applyNth Game.applyNth Game.legalPositionsWith
  rw [hR.ok hq hg hv]
  simp only [Option.bind_eq_bind, Option.bind_some]
  split_ifs <;> rfl

example := C65_apply_nth noHitRules Chk.noHitRules (Or.inr ⟨rfl, rfl⟩) (Game.new .nackgammon) (C41_start_position _).1 (by decide +kernel) (.double 4) (by decide) 7

/-- The state of a child can be asked for. -/
theorem child_state {v : Variant} {q c : VPos} (hq : VPos.ValidFor v q) (hg : q.gameState = .ongoing) {dice : Dice} (hv : dice.Valid)
    (hc : c ∈ classicRules q dice) : Chk.gameStateV c = some c.gameState := by
  have key : ∀ {N : Nat} (p x : Pos N), Spec.Valid N p.view → p.gameState = .ongoing → x ∈ p.legalPositions dice →
      Chk.gameState x = some x.gameState := by
    intro N p x hp hg hx
    have e : x.xOff = p.oOff := (C05_turn_off_hits p x (Valid.barsOK hp) dice hv hx).2.2.2.1
    exact chk_gameState x (Or.inl (by rw [e]; exact (off_lt hp hg).2))
  obtain ⟨rfl, h⟩ := hq
  cases q <;>
  · simp only [classicRules] at hc
    obtain ⟨x, hx, rfl⟩ := List.mem_map.1 hc
    exact key _ x h hg hx

theorem chk_playLoop {σ π : Type} {R : VariantRules} {C : Chk.VariantRules} (hR : Supplied R C) (gen : DiceGen σ) (pick : Game.Policy π)
    (h1 : ∀ s d s', gen.roll s = some (d, s') → d.Valid) (h2 : ∀ s d s', gen.rollMixed s = some (d, s') → d.Valid) :
    ∀ (left ply : Nat) (g : Game) (s : σ) (t : π), VPos.ValidFor g.variant g.position → g.position.gameState = .ongoing →
      Chk.playLoop C gen pick left ply g s t = some (Game.playLoop R gen pick left ply g s t)
  | 0, ply, g, s, t, _, _ => rfl
  | left + 1, ply, g, s, t, hq, hg => by
    unfold Chk.playLoop Game.playLoop
    cases hr : (if ply = 0 then gen.rollMixed s else gen.roll s) with
    | none => rfl
    | some r =>
      have hd : r.1.Valid := by
        by_cases h : ply = 0
        · rw [if_pos h] at hr; exact h2 s r.1 r.2 hr
        · rw [if_neg h] at hr; exact h1 s r.1 r.2 hr
      simp only [Option.bind_some, hR.ok hq hg hd, Game.legalPositionsWith]
      by_cases he : (R g.position r.1).isEmpty = true
      · simp only [he, if_true]
      · simp only [he, if_false]
        by_cases hi : (pick t g.position r.1 (R g.position r.1)).1 ≥ (R g.position r.1).length
        · simp [hi]
        · simp only [dif_neg hi]
          have hc := hR.classic (List.getElem_mem (show (pick t g.position r.1 (R g.position r.1)).1 < (R g.position r.1).length by omega))
          rw [child_state hq hg hd hc]
          have hv := classic_child hq hd hc
          simp only [Option.bind_some]
          cases hs : VPos.gameState ((R g.position r.1)[(pick t g.position r.1 (R g.position r.1)).1]'(by omega)) with
          | gameOver x =>
            simp [hs]
            omega
          | ongoing =>
            have ih := chk_playLoop hR gen pick h1 h2 left (ply + 1)
              ⟨g.variant, (R g.position r.1)[(pick t g.position r.1 (R g.position r.1)).1]'(by omega)⟩ r.2
              (pick t g.position r.1 (R g.position r.1)).2 hv hs
            have hi' : ¬ (R g.position r.1).length ≤ (pick t g.position r.1 (R g.position r.1)).1 := hi
            simpa [hs, hi'] using ih

/-- **C65** `play_episode` never panics in a debug build: from any valid unfinished position of any variant, with either rule set, any
generator of legal dice and any policy (which may even return an index out of range). -/
theorem C65_episode {σ π : Type} (R : VariantRules) (C : Chk.VariantRules) (hR : Supplied R C) (gen : DiceGen σ) (pick : Game.Policy π)
    (h1 : ∀ s d s', gen.roll s = some (d, s') → d.Valid) (h2 : ∀ s d s', gen.rollMixed s = some (d, s') → d.Valid)
    (max : Nat) (g : Game) (hq : VPos.ValidFor g.variant g.position) (hg : g.position.gameState = .ongoing) (s : σ) (t : π) :
    Chk.playEpisode C gen pick max g s t = some (Game.playEpisode R gen pick max g s t) :=
  chk_playLoop hR gen pick h1 h2 max 0 g s t hq hg

/-- A generator that always rolls 2-1 and a policy that counts its calls and takes the first legal position. -/
example (max : Nat) := C65_episode noHitRules Chk.noHitRules (Or.inr ⟨rfl, rfl⟩) (σ := Unit) ⟨fun s => some (.mixed 2 1, s), fun s => some (.mixed 2 1, s)⟩
  (fun (n : Nat) _ _ _ => (0, n + 1)) (by rintro s d s' h; cases h; decide) (by rintro s d s' h; cases h; decide) max (Game.new .longgammon)
  (C41_start_position _).1 (by decide +kernel) () 0

/-- **C65** ... in particular a new game with the crate's own generator, whatever its random source. -/
theorem C65_new_game {σ π : Type} (rng : Rng σ) (hr : ∀ n s, 0 < n → (rng.below n s).1 < n) (pick : Game.Policy π) (max : Nat) (v : Variant)
    (s : σ) (t : π) :
    ∃ r, Chk.playEpisode Chk.classicRules (fastrandDice rng) pick max (Game.new v) s t = some (some r) ∧
      Game.playEpisode classicRules (fastrandDice rng) pick max (Game.new v) s t = some r := by
  have h1 : ∀ s d s', (fastrandDice rng).roll s = some (d, s') → d.Valid := by
    intro s d s' h
    obtain ⟨d', s'', e, hd⟩ := (C43_fastrand_legal rng hr s).1
    rw [h] at e
    simp only [Option.some.injEq, Prod.mk.injEq] at e
    rw [e.1]; exact hd
  have h2 : ∀ s d s', (fastrandDice rng).rollMixed s = some (d, s') → d.Valid := by
    intro s d s' h
    obtain ⟨b, m, s'', e, hd⟩ := (C43_fastrand_legal rng hr s).2
    rw [h] at e
    simp only [Option.some.injEq, Prod.mk.injEq] at e
    rw [e.1]; exact hd
  have hst := C41_start_position v
  have e := C65_episode classicRules Chk.classicRules (Or.inl ⟨rfl, rfl⟩) (fastrandDice rng) pick h1 h2 max (Game.new v) hst.1
    hst.2.2.2.2.2.1 s t
  have tot : ∀ (left ply : Nat) (g : Game) (s : σ) (t : π), ∃ r, Game.playLoop classicRules (fastrandDice rng) pick left ply g s t = some r := by
    intro left
    induction left with
    | zero => intro ply g s t; exact ⟨_, rfl⟩
    | succ left ih =>
      intro ply g s t
      unfold Game.playLoop
      have : ∃ r, (if ply = 0 then (fastrandDice rng).rollMixed s else (fastrandDice rng).roll s) = some r := by
        split_ifs
        · obtain ⟨b, m, s'', e, -⟩ := (C43_fastrand_legal rng hr s).2
          exact ⟨_, e⟩
        · obtain ⟨d, s'', e, -⟩ := (C43_fastrand_legal rng hr s).1
          exact ⟨_, e⟩
      obtain ⟨r, hr⟩ := this
      rw [hr, Option.bind_some]
      simp only
      split_ifs
      · exact ⟨_, rfl⟩
      · exact ⟨_, rfl⟩
      · split
        · exact ⟨_, rfl⟩
        · exact ih _ _ _ _
  obtain ⟨r, hr⟩ := tot max 0 (Game.new v) s t
  exact ⟨r, by rw [e]; exact congrArg some hr, hr⟩

/-- A random source that always returns 0 is in range. -/
example (max : Nat) := C65_new_game (σ := Unit) ⟨fun _ s => (0, s)⟩ (fun _ _ h => h) (fun (n : Nat) _ _ _ => (0, n + 1)) max .backgammon () 0

/-- **C65** On a finished game both calls panic in a debug build (as soon as dice are rolled): the caller has to look at `game_state` first. -/
theorem C65_finished_panics (v : Variant) (q : VPos) (hq : VPos.ValidFor v q) (r : GameResult) (hg : q.gameState = .gameOver r) (dice : Dice) :
    Chk.classicRules q dice = none ∧ (∀ i, Chk.applyNth Chk.classicRules ⟨v, q⟩ dice i = none) ∧
    ∀ {σ π : Type} (gen : DiceGen σ) (pick : Game.Policy π) (max : Nat) (s : σ) (t : π) (s' : σ), gen.rollMixed s = some (dice, s') →
      Chk.playEpisode Chk.classicRules gen pick (max + 1) ⟨v, q⟩ s t = none := by
  have h : Chk.classicRules q dice = none := by
    have key : ∀ {N : Nat} (p : Pos N), p.gameState = .gameOver r → Chk.legalPositions p dice = none := by
      intro N p hg
      refine C16_finished_panics p dice ?_
      by_contra hn
      have : p.gameState = .ongoing := ongoing_iff.2 (by omega)
      rw [this] at hg; cases hg
    cases q <;> (simp only [Chk.classicRules]; rw [key _ hg]; rfl)
  refine ⟨h, fun i => ?_, fun gen pick max s t s' hs => ?_⟩
  · unfold Chk.applyNth; rw [h]; rfl
  · unfold Chk.playEpisode Chk.playLoop
    simp only [if_true, hs, h, Option.bind_none]

/-- A finished valid game exists, so `C65_finished_panics` is not empty; and its opening position is in the range of `C65_episode`. -/
example : VPos.ValidFor .hypergammon (.hypergammon (Ex.cells 3 [-1, -2] 3 0)) ∧
    (VPos.hypergammon (Ex.cells 3 [-1, -2] 3 0)).gameState ≠ .ongoing ∧
    (Game.new .hypergammon).position.gameState = .ongoing := by
  refine ⟨⟨rfl, ?_⟩, by decide +kernel, by decide +kernel⟩
  show (Ex.cells 3 [-1, -2] 3 0).Valid
  decide +kernel

/-! ## C66 -/

open MoveText

theorem tryMove_valid {p q : Pos N} (hp : p.Valid) {f d : Nat} (h1 : 1 ≤ f) (h2 : f ≤ 25) (hd : 1 ≤ d ∧ d ≤ 6) (h : p.tryMove f d = some q) :
    q.Valid := by
  obtain ⟨hc, -, e⟩ := ((C08_try_move_single_checker p hp.barsOK f d ⟨h1, h2⟩ hd).2 q).1 h
  show Spec.Valid N q.view
  rw [e]
  exact Spec.Valid.after hp hd.1 hc

theorem findSomeM_ok {α β : Type} {f : α → Option (Option β)} {g : α → Option β} : ∀ {l : List α}, (∀ a ∈ l, f a = some (g a)) →
    Chk.findSomeM f l = some (l.findSome? g)
  | [], _ => rfl
  | a :: l, h => by
    rw [Chk.findSomeM, h a (by simp), List.findSome?_cons]
    cases g a with
    | none => exact findSomeM_ok (l := l) fun b hb => h b (by simp [hb])
    | some b => rfl

theorem anyM_ok {α : Type} {f : α → Option Bool} {g : α → Bool} : ∀ {l : List α}, (∀ a ∈ l, f a = some (g a)) →
    Chk.anyM f l = some (l.any g)
  | [], _ => rfl
  | a :: l, h => by
    rw [Chk.anyM, h a (by simp), List.any_cons]
    cases g a with
    | false => exact anyM_ok (l := l) fun b hb => h b (by simp [hb])
    | true => rfl

section
variable {p : Pos N} (hp : p.Valid) (hN : N ≤ 127)
include hp hN

theorem movable_ok {d : Nat} (hd : 1 ≤ d ∧ d ≤ 6) : Chk.anyM (Chk.movable p d) (rng 1 26) = some ((rng 1 26).any fun src => (p.tryMove src d).isSome) :=
  anyM_ok fun f hf => by
    have := mem_rng.1 hf
    unfold Chk.movable
    rw [C16_try_move_no_panic p hp hN f d (by omega) hd.1 hd.2]
    rfl
end

theorem chk_findSteps (hN : N ≤ 127) (target : Pos N) : ∀ (o : List Nat), (∀ d ∈ o, 1 ≤ d ∧ d ≤ 6) → ∀ p : Pos N, p.Valid →
    Chk.findSteps target o p = some (findSteps target o p)
  | [], _, p, _ => rfl
  | d :: rest, ho, p, hp => by
    have hd := ho d (by simp)
    have hrest : ∀ d ∈ rest, 1 ≤ d ∧ d ≤ 6 := fun e he => ho e (by simp [he])
    unfold Chk.findSteps findSteps
    rw [findSomeM_ok (g := fun src => (p.tryMove src d).bind fun next => (findSteps target rest next).map fun l => ⟨src, src - d⟩ :: l)]
    · simp only [Option.bind_eq_bind, Option.bind_some]
      cases (rng 1 26).findSome? fun src => (p.tryMove src d).bind fun next => (findSteps target rest next).map fun l => (⟨src, src - d⟩ : Step) :: l with
      | some l => rfl
      | none =>
        simp only [movable_ok hp hN hd, Option.bind_some]
        split_ifs
        · rfl
        · exact chk_findSteps hN target rest hrest p hp
    · intro f hf
      have := mem_rng.1 hf
      simp only [C16_try_move_no_panic p hp hN f d (by omega) hd.1 hd.2, Option.bind_eq_bind, Option.bind_some]
      cases h : p.tryMove f d with
      | none => rfl
      | some q =>
        simp only [chk_findSteps hN target rest hrest q (tryMove_valid hp (by omega) (by omega) hd h), Option.bind_some]
        rfl

/-- **C66** `encode_move` does not panic: on any two valid positions and any legal dice. -/
theorem C66_encode (hN : N ≤ 127) (start next : Pos N) (hs : start.Valid) (hn : next.Valid) (dice : Dice) (hv : dice.Valid) :
    Chk.encodeFor start next dice = some (encodeFor start next dice) := by
  unfold Chk.encodeFor encodeFor
  rw [chk_flip next hn hN]
  simp only [Option.bind_eq_bind, Option.bind_some]
  rw [findSomeM_ok fun o ho => chk_findSteps hN next.flip o (orders_dies hv o ho) start hs]
  simp only [Option.bind_some]
  cases (orders dice).findSome? fun o => findSteps next.flip o start <;> rfl

example := C66_encode (by omega) Ex.hitPos (Ex.hitPos.mv 10 5).flip (by decide) (by decide) (.mixed 6 5) (by decide)

theorem chk_applySteps (hN : N ≤ 127) (dice : List Nat) (hd : ∀ d ∈ dice, 1 ≤ d ∧ d ≤ 6) : ∀ (l : List Step), (∀ s ∈ l, 1 ≤ s.src ∧ s.src ≤ 25) →
    ∀ (p : Pos N) (used : List Nat), p.Valid → Chk.applySteps dice l p used = some (applySteps dice l p used)
  | [], _, p, used, _ => rfl
  | s :: l, hl, p, used, hp => by
    have hs := hl s (by simp)
    unfold Chk.applySteps applySteps
    refine findSomeM_ok fun idx hi => ?_
    have hi' : idx < dice.length := by simpa using hi
    have hdi : 1 ≤ dice.getD idx 0 ∧ dice.getD idx 0 ≤ 6 := by
      simp only [List.getD, List.getElem?_eq_getElem hi', Option.getD_some]
      exact hd _ (List.getElem_mem hi')
    split_ifs
    · rfl
    · rfl
    · simp only [C16_try_move_no_panic p hp hN s.src _ hs.2 hdi.1 hdi.2, Option.bind_eq_bind, Option.bind_some]
      cases h : p.tryMove s.src (dice.getD idx 0) with
      | none => rfl
      | some q =>
        simp only [Option.bind_some]
        exact chk_applySteps hN dice hd l (fun t ht => hl t (by simp [ht])) q _ (tryMove_valid hp hs.1 hs.2 hdi h)

theorem applySteps_valid (dice : List Nat) (hd : ∀ d ∈ dice, 1 ≤ d ∧ d ≤ 6) : ∀ (l : List Step), (∀ s ∈ l, 1 ≤ s.src ∧ s.src ≤ 25) →
    ∀ (p : Pos N) (used : List Nat) (r : Pos N × List Nat), p.Valid → applySteps dice l p used = some r → r.1.Valid
  | [], _, p, used, r, hp, h => by
    simp only [applySteps, Option.some.injEq] at h
    subst h; exact hp
  | s :: l, hl, p, used, r, hp, h => by
    have hs := hl s (by simp)
    unfold applySteps at h
    obtain ⟨idx, hi, h⟩ := List.exists_of_findSome?_eq_some h
    have hi' : idx < dice.length := by simpa using hi
    have hdi : 1 ≤ dice.getD idx 0 ∧ dice.getD idx 0 ≤ 6 := by
      simp only [List.getD, List.getElem?_eq_getElem hi', Option.getD_some]
      exact hd _ (List.getElem_mem hi')
    split_ifs at h
    obtain ⟨q, hq, h⟩ := Option.bind_eq_some_iff.1 h
    exact applySteps_valid dice hd l (fun t ht => hl t (by simp [ht])) q _ r (tryMove_valid hp hs.1 hs.2 hdi hq) h

theorem parsed_sources {t : Str} {l : List Step} (h : parseSteps t = some l) : ∀ s ∈ l, 1 ≤ s.src ∧ s.src ≤ 25 := by
  have from_ : ∀ {a : Str} {n : Nat}, parseFrom a = some n → 1 ≤ n ∧ n ≤ 25 := by
    intro a n h
    unfold parseFrom at h
    split_ifs at h
    · simp only [Option.some.injEq] at h; omega
    · obtain ⟨k, -, h⟩ := Option.bind_eq_some_iff.1 h
      split_ifs at h
      simp only [Option.some.injEq] at h; omega
  have tok : ∀ (ts : List Str) (l : List Step), parseTokens ts = some l → ∀ s ∈ l, 1 ≤ s.src ∧ s.src ≤ 25 := by
    intro ts
    induction ts with
    | nil => intro l h; simp only [parseTokens, Option.some.injEq] at h; subst h; simp
    | cons t ts ih =>
      intro l h
      rw [parseTokens] at h
      obtain ⟨⟨a, b⟩, -, h⟩ := Option.bind_eq_some_iff.1 h
      simp only at h
      split_ifs at h
      obtain ⟨src, h1, h⟩ := Option.bind_eq_some_iff.1 h
      obtain ⟨dst, -, h⟩ := Option.bind_eq_some_iff.1 h
      obtain ⟨r, hr, rfl⟩ := Option.map_eq_some_iff.1 h
      intro s hs
      rcases List.mem_cons.1 hs with rfl | hs
      · exact from_ h1
      · exact ih r hr s hs
  unfold parseSteps at h
  split_ifs at h
  · simp only [Option.some.injEq] at h; subst h; simp
  · exact tok _ _ h

/-- **C66** `apply_move` does not panic: on any valid position, any legal dice and any text whatsoever. -/
theorem C66_apply (hN : N ≤ 127) (p : Pos N) (hp : p.Valid) (dice : Dice) (hv : dice.Valid) (text : Str) :
    Chk.applyFor p dice text = some (applyFor p dice text) := by
  unfold Chk.applyFor applyFor
  cases hn : normalize text with
  | none => rfl
  | some t =>
    simp only [Option.bind_some]
    cases hs : parseSteps t with
    | none => rfl
    | some steps =>
      have hsrc := parsed_sources hs
      have hd : ∀ d ∈ diceBuf dice, 1 ≤ d ∧ d ≤ 6 := diceBuf_dies hv
      simp only [Option.bind_some, Option.bind_eq_bind, chk_applySteps hN _ hd steps hsrc p [] hp]
      cases ha : applySteps (diceBuf dice) steps p [] with
      | none => rfl
      | some r =>
        obtain ⟨cur, used⟩ := r
        have hc : cur.Valid := applySteps_valid _ hd steps hsrc p [] _ hp ha
        simp only [Option.bind_some]
        rw [anyM_ok (g := fun idx => !decide (idx ∈ used) && anyMove cur ((diceBuf dice).getD idx 0))]
        · show ((some (unusedPlayable (diceBuf dice) used cur)).bind fun b => if b = true then pure none else (Chk.flip cur).bind fun q => pure (some q)) = _
          simp only [Option.bind_some, chk_flip cur hc hN]
          cases unusedPlayable (diceBuf dice) used cur <;> rfl
        · intro idx hi
          have hi' : idx < (diceBuf dice).length := by simpa using hi
          split_ifs with hu
          · simp [hu]
          · simp only [hu, decide_false, Bool.not_false, Bool.true_and]
            refine movable_ok hc hN ?_
            simp only [List.getD, List.getElem?_eq_getElem hi', Option.getD_some]
            exact hd _ (List.getElem_mem hi')

example := C66_apply (by omega) Ex.hitPos (by decide) (.mixed 6 5) (by decide) "10/5* 8/2 junk".toList

theorem chk_paths (hN : N ≤ 127) : ∀ (o : List Nat), (∀ d ∈ o, 1 ≤ d ∧ d ≤ 6) → ∀ p : Pos N, p.Valid → Chk.paths o p = some (paths o p)
  | [], _, p, hp => by
    unfold Chk.paths paths
    rw [chk_flip p hp hN]; rfl
  | d :: rest, ho, p, hp => by
    have hd := ho d (by simp)
    have hrest : ∀ d ∈ rest, 1 ≤ d ∧ d ≤ 6 := fun e he => ho e (by simp [he])
    unfold Chk.paths paths
    rw [Chk.collect_ok (g := fun src => match p.tryMove src d with
        | some next => (paths rest next).map fun (l, q) => (⟨src, src - d⟩ :: l, q)
        | none => [])]
    · simp only [Option.bind_eq_bind, Option.bind_some, movable_ok hp hN hd]
      split_ifs
      · rfl
      · exact chk_paths hN rest hrest p hp
    · intro f hf
      have := mem_rng.1 hf
      simp only [C16_try_move_no_panic p hp hN f d (by omega) hd.1 hd.2, Option.bind_eq_bind, Option.bind_some]
      cases h : p.tryMove f d with
      | none => rfl
      | some q =>
        simp only [chk_paths hN rest hrest q (tryMove_valid hp (by omega) (by omega) hd h), Option.bind_some]
        rfl

/-- **C66** `legal_moves` does not panic on a valid unfinished position; on a finished one it does. -/
theorem C66_legal (hN : N ≤ 127) (p : Pos N) (hp : p.Valid) (dice : Dice) (hv : dice.Valid) :
    (p.gameState = .ongoing → Chk.legalFor p dice = some (legalFor p dice)) ∧
    (p.gameState ≠ .ongoing → Chk.legalFor p dice = none) := by
  constructor
  · intro hg
    obtain ⟨hx, ho⟩ := off_lt hp hg
    unfold Chk.legalFor legalFor
    rw [C16_no_panic p hp hN hx ho dice hv]
    have leaves : ∀ os : List (List Nat), (∀ o ∈ os, ∀ d ∈ o, 1 ≤ d ∧ d ≤ 6) →
        Chk.allLeaves p os = some (os.flatMap fun order => paths order p ++ paths order p.flip) := by
      intro os
      induction os with
      | nil => intro _; rfl
      | cons o os ih =>
        intro h
        unfold Chk.allLeaves
        rw [chk_paths hN o (h o (by simp)) p hp, chk_flip p hp hN, ih fun o ho => h o (by simp [ho])]
        simp only [Option.bind_eq_bind, Option.bind_some, chk_paths hN o (h o (by simp)) p.flip hp.flip]
        rfl
    simp only [Option.bind_eq_bind, Option.bind_some, leaves _ (orders_dies hv)]
    rfl
  · intro hg
    unfold Chk.legalFor
    rw [C16_finished_panics p dice]
    · rfl
    · have hX := hp.sumX
      have hO := hp.sumO
      by_contra hn
      exact hg (ongoing_iff.2 (by omega))

example : (Chk.applyFor BACKGAMMON (.mixed 6 1) "8/2 7/6".toList) = some none ∧
    ((Chk.applyFor BACKGAMMON (.mixed 6 1) "13/7/8".toList)) = some none ∧
    ((Chk.applyFor BACKGAMMON (.mixed 6 1) "13/7 8/7".toList)).isSome = true ∧ BACKGAMMON.Valid := by decide +kernel

end Bkgm
