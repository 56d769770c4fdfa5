import Verif.Props.Entering
import Verif.Props.Random
/-!
# C107: an episode with the no-hit rules is a classic episode that may break off
-/
namespace Bkgm
open MeasureTheory

namespace NoHitEpisode

/-- The mover is left with more checkers on the bar than the opponent has there, whatever he plays with this roll. -/
def Stuck (q : VPos) (dice : Dice) : Prop := q.view.o 0 < q.view.x 25 - q.view.openFaces dice

instance (q : VPos) (dice : Dice) : Decidable (Stuck q dice) := inferInstanceAs (Decidable (_ < _))

theorem noHit_eq {v : Variant} {q : VPos} (hq : VPos.ValidFor v q) {dice : Dice} (hd : dice.Valid) :
    noHitRules q dice = if Stuck q dice then [] else classicRules q dice := by
  have key : ∀ {N : Nat} (p : Pos N) (k : Pos N → VPos), Spec.Valid N p.view → (p.noHitPositions dice).map k =
      if p.view.o 0 < p.view.x 25 - p.view.openFaces dice then [] else (p.legalPositions dice).map k := by
    intro N p k hp
    rw [C14_all_or_nothing_partial p (Pos.Valid.barsOK hp) dice hd]
    split_ifs <;> first | rfl | omega
  obtain ⟨rfl, hq⟩ := hq
  cases q <;> exact key _ _ hq

end NoHitEpisode
open NoHitEpisode

namespace NoHitEpisode

/-- The episode breaks off after `k` more plies. -/
def Breaks {σ π : Type} (gen : DiceGen σ) (pick : Game.Policy π) (k ply : Nat) (g : Game) (s : σ) (t : π) : Prop :=
  ∃ r c, (∀ left, k < left → Game.playLoop noHitRules gen pick left ply g s t = some r) ∧ r.result = .ok (ply + k) ∧
    Game.playLoop classicRules gen pick k ply g s t = some c ∧ c.result = .ok (ply + k) ∧ c.game = r.game ∧ c.policy = r.policy ∧
    (g.position.gameState = .ongoing → r.game.position.gameState = .ongoing) ∧
    ∃ dice, (if ply + k = 0 then gen.rollMixed c.dice else gen.roll c.dice) = some (dice, r.dice) ∧ Stuck r.game.position dice

theorem step_eq {σ π : Type} {R : VariantRules} {gen : DiceGen σ} {pick : Game.Policy π} {m ply : Nat} {g : Game} {s s1 : σ} {t : π} {dice : Dice}
    {L : List VPos} (hL : R g.position dice = L) (hr : (if ply = 0 then gen.rollMixed s else gen.roll s) = some (dice, s1)) (hne : L ≠ []) :
    Game.playLoop R gen pick (m + 1) ply g s t =
      if h : (pick t g.position dice L).1 ≥ L.length then some ⟨g, s1, (pick t g.position dice L).2, .error .policyIndexOutOfBounds⟩
      else match (L[(pick t g.position dice L).1]'(by omega)).gameState with
        | .gameOver _ => some ⟨{ g with position := L[(pick t g.position dice L).1]'(by omega) }, s1, (pick t g.position dice L).2, .ok (ply + 1)⟩
        | .ongoing => Game.playLoop R gen pick m (ply + 1) { g with position := L[(pick t g.position dice L).1]'(by omega) } s1
            (pick t g.position dice L).2 := by
  subst hL
  have hne' : (R g.position dice).isEmpty = false := by simpa using hne
  rw [Game.playLoop, hr, Option.bind_some]
  simp only [Game.legalPositionsWith]
  exact (dif_neg (by simp [hne'])).trans rfl

theorem loop_cases {σ π : Type} (gen : DiceGen σ) (pick : Game.Policy π)
    (h1 : ∀ s d s', gen.rollMixed s = some (d, s') → d.Valid) (h2 : ∀ s d s', gen.roll s = some (d, s') → d.Valid) :
    ∀ (left ply : Nat) (g : Game) (s : σ) (t : π), VPos.ValidFor g.variant g.position →
      Game.playLoop noHitRules gen pick left ply g s t = Game.playLoop classicRules gen pick left ply g s t ∨
      ∃ k < left, Breaks gen pick k ply g s t := by
  intro left
  induction left with
  | zero => intros; exact Or.inl rfl
  | succ left ih =>
    intro ply g s t hv
    cases hr : (if ply = 0 then gen.rollMixed s else gen.roll s) with
    | none => left; simp only [Game.playLoop, hr, Option.bind_none]
    | some ds =>
      obtain ⟨dice, s1⟩ := ds
      have hd : dice.Valid := by
        split_ifs at hr
        · exact h1 _ _ _ hr
        · exact h2 _ _ _ hr
      have e := noHit_eq hv hd
      by_cases hs : Stuck g.position dice
      · right
        rw [if_pos hs] at e
        refine ⟨0, by omega, ⟨g, s1, t, .ok ply⟩, ⟨g, s, t, .ok ply⟩, ?_, rfl, rfl, rfl, rfl, rfl, id, dice, hr, hs⟩
        intro m hm
        obtain ⟨m, rfl⟩ : ∃ m', m = m' + 1 := ⟨m - 1, by omega⟩
        simp [Game.playLoop, hr, Game.legalPositionsWith, e]
      · rw [if_neg hs] at e
        have step := fun m => step_eq (R := noHitRules) (m := m) (pick := pick) (t := t) e hr (classic_nonempty hv hd)
        have step' := fun m => step_eq (R := classicRules) (m := m) (pick := pick) (t := t) rfl hr (classic_nonempty hv hd)
        by_cases hi : (pick t g.position dice (classicRules g.position dice)).1 ≥ (classicRules g.position dice).length
        · left; rw [step, step', dif_pos hi, dif_pos hi]
        · simp only [dif_neg hi] at step step'
          have hmem := List.getElem_mem (Nat.lt_of_not_le hi)
          generalize (pick t g.position dice (classicRules g.position dice)).2 = t1 at *
          generalize hq : (classicRules g.position dice)[(pick t g.position dice (classicRules g.position dice)).1]'(by omega) = q at *
          have hvq : VPos.ValidFor g.variant q := classic_child hv hd hmem
          cases hg : q.gameState with
          | gameOver res =>
            left; rw [step, step']; simp only [hg]
          | ongoing =>
            simp only [hg] at step step'
            rcases ih (ply + 1) { g with position := q } s1 t1 hvq with h | ⟨k, hk, r, c, a1, a2, a3, a4, a5, a6, a7, d', a8, a9⟩
            · left; rw [step, step', h]
            · right
              refine ⟨k + 1, by omega, r, c, ?_, by rw [a2]; congr 1; omega, by rw [step', a3], by rw [a4]; congr 1; omega, a5, a6,
                fun _ => a7 hg, d', ?_, a9⟩
              · intro m hm
                obtain ⟨m, rfl⟩ : ∃ m', m = m' + 1 := ⟨m - 1, by omega⟩
                rw [step, a1 m (by omega)]
              · rw [if_neg (by omega)] at a8 ⊢
                exact a8

end NoHitEpisode

/-- **C107** From a valid position, with the same dice and the same policy, an episode with the no-hit rules either is the classic episode, or it breaks off: there
is a number `n` of plies below the limit such that up to there it is the classic episode limited to `n` plies, the game is not over, and after one more roll it
returns `Ok(n)` because the mover would be left with more checkers on the bar than the opponent has there; then every limit above `n` gives the same result. -/
theorem C107_episode {σ π : Type} (gen : DiceGen σ) (pick : Game.Policy π)
    (h1 : ∀ s d s', gen.rollMixed s = some (d, s') → d.Valid) (h2 : ∀ s d s', gen.roll s = some (d, s') → d.Valid)
    (max : Nat) (g : Game) (hv : VPos.ValidFor g.variant g.position) (s : σ) (t : π) :
    Game.playEpisode noHitRules gen pick max g s t = Game.playEpisode classicRules gen pick max g s t ∨
    ∃ n < max, ∃ r c, (∀ max', n < max' → Game.playEpisode noHitRules gen pick max' g s t = some r) ∧ r.result = .ok n ∧
      Game.playEpisode classicRules gen pick n g s t = some c ∧ c.result = .ok n ∧ c.game = r.game ∧ c.policy = r.policy ∧
      (g.position.gameState = .ongoing → r.game.position.gameState = .ongoing) ∧
      ∃ dice, (if n = 0 then gen.rollMixed c.dice else gen.roll c.dice) = some (dice, r.dice) ∧
        r.game.position.view.o 0 < r.game.position.view.x 25 - r.game.position.view.openFaces dice := by
  rcases loop_cases gen pick h1 h2 max 0 g s t hv with h | ⟨k, hk, r, c, a1, a2, a3, a4, a5, a6, a7, d, a8, a9⟩
  · exact Or.inl h
  · rw [Nat.zero_add] at a2 a4 a8
    exact Or.inr ⟨k, hk, r, c, a1, a2, a3, a4, a5, a6, a7, d, a8, a9⟩

/-- **C107** With random dice, from a game that does not stand at a mutual close-out, an episode with the no-hit rules ends with probability one: from some limit
on it always gives the same result, and this is the end of the game, a policy index out of range, or a break-off of an unfinished game. -/
theorem C107_almost_surely {π : Type} (pick : Game.Policy π) (g : Game) (hv : VPos.ValidFor g.variant g.position)
    (hnd : ¬ Spec.Deadlock g.position.view) (t : π) (first : Fin 30) :
    ∀ᵐ ω ∂uniformRolls, ∃ n r, (∀ max, n ≤ max → Game.playEpisode noHitRules (fastrandDice (idealRng first ω)) pick max g 0 t = some r) ∧
      (r.result = .error .policyIndexOutOfBounds ∨ (∃ k res, k ≤ n ∧ r.result = .ok k ∧ r.game.position.gameState = .gameOver res) ∨
       ∃ k dice, k < n ∧ r.result = .ok k ∧ dice.Valid ∧
        r.game.position.view.o 0 < r.game.position.view.x 25 - r.game.position.view.openFaces dice) := by
  filter_upwards [C89_almost_surely pick g hv hnd t first] with ω hω
  obtain ⟨n, r, hr, hres⟩ := hω
  have h1 := ideal_mixed_valid first ω
  have h2 := ideal_roll_valid first ω
  have key := fun max => C107_episode (fastrandDice (idealRng first ω)) pick h1 h2 max g hv 0 t
  by_cases hb : ∀ max, Game.playEpisode noHitRules (fastrandDice (idealRng first ω)) pick max g 0 t =
      Game.playEpisode classicRules (fastrandDice (idealRng first ω)) pick max g 0 t
  · exact ⟨n, r, fun max hm => by rw [hb, hr max hm], hres.imp id Or.inl⟩
  · simp only [not_forall] at hb
    obtain ⟨max, hm⟩ := hb
    rcases key max with h | ⟨k, hk, r', c, a1, a2, a3, a4, a5, a6, a7, d, a8, a9⟩
    · exact absurd h hm
    · refine ⟨k + 1, r', fun m hm => a1 m (by omega), Or.inr (Or.inr ⟨k, d, by omega, a2, ?_, a9⟩)⟩
      split_ifs at a8
      · exact h1 _ _ _ a8
      · exact h2 _ _ _ a8

/-- A break-off at once, of an unfinished game: the only checker on the bar cannot enter with 3-3, and the classic episode goes on. -/
example : VPos.ValidFor .hypergammon (.hypergammon Ex.barPos) ∧ (VPos.hypergammon Ex.barPos).gameState = .ongoing ∧
    ((Game.playEpisode (σ := Unit) (π := Unit) noHitRules ⟨fun s => some (.double 3, s), fun s => some (.double 3, s)⟩ (fun t _ _ _ => (0, t)) 7
      ⟨.hypergammon, .hypergammon Ex.barPos⟩ () ()).map fun r => r.result.toOption) = some (some 0) ∧
    ((Game.playEpisode (σ := Unit) (π := Unit) classicRules ⟨fun s => some (.double 3, s), fun s => some (.double 3, s)⟩ (fun t _ _ _ => (0, t)) 2
      ⟨.hypergammon, .hypergammon Ex.barPos⟩ () ()).map fun r => r.result.toOption) = some (some 2) :=
  ⟨⟨rfl, (by decide +kernel : Ex.barPos.Valid)⟩, by decide +kernel, by decide +kernel, by decide +kernel⟩

end Bkgm
