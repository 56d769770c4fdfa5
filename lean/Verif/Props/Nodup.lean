import Verif.Proofs.Nodup
import Verif.Proofs.Boards
import Verif.Spec.Examples
/-!
# C03: duplicates in the list of legal positions
-/

namespace Bkgm
open Pos
variable {N : Nat}

theorem flip_injective : Function.Injective (Pos.flip (N := N)) := fun p q h => by
  rw [← Pos.flip_flip p, h, Pos.flip_flip]

/-- **C03 is false of the code** for some bear-offs: x: 3:1 2:1 1:1 with the roll 6-4 gives the same child twice. -/
theorem C03_duplicate_counterexample :
    ∃ (p : Pos 3) (dice : Dice), p.Valid ∧ dice.Valid ∧ ¬ (p.legalPositions dice).Nodup ∧
      ∃ c, p.legalPositions dice = [c, c] := by
  refine ⟨Ex.bearPos, .mixed 6 4, by decide, by decide, by decide, ((Ex.bearPos.mv 3 6).mv 2 4).flip, by decide⟩

/-- **C03 for doubles**: no duplicates at all. -/
theorem C03_doubles_nodup (p : Pos N) (hb : p.BarsOK) (d : Nat) (hv : (Dice.double d).Valid) :
    (p.legalPositions (.double d)).Nodup := by
  obtain ⟨h1, h2⟩ : 1 ≤ d ∧ d ≤ 6 := hv
  exact (List.nodup_map_iff flip_injective).2 (nodup_doubleMoves hb h1 h2)

example : Ex.start.BarsOK ∧ (Dice.double 3).Valid := by decide

/-- **C03 for mixed rolls, exact**: the list has a duplicate exactly when the mover has nothing on the bar, its
highest checker stands alone on a point not larger than the small die, and it has another checker on the board. -/
theorem C03_mixed_nodup_iff_partial (p : Pos N) (hb : p.BarsOK) (big small : Nat) (hv : (Dice.mixed big small).Valid) :
    (p.legalPositions (.mixed big small)).Nodup ↔
      ¬ (p.view.x 25 = 0 ∧ ∃ a b, a ≤ small ∧ p.view.x a = 1 ∧ (∀ i, a < i → p.view.x i = 0) ∧
        1 ≤ b ∧ b < a ∧ 1 ≤ p.view.x b) := by
  obtain ⟨h1, h2, h3⟩ : 1 ≤ small ∧ small < big ∧ big ≤ 6 := hv
  unfold legalPositions
  rw [List.nodup_map_iff flip_injective]
  simp only [playedPositions]
  rw [nodup_mixedMoves hb h1 h2 h3]
  have h25 := hb.2
  have e1 : p.pip 25 = 0 ↔ p.view.x 25 = 0 := by simp only [view]; omega
  have e2 : p.Twice small ↔ ∃ a b, a ≤ small ∧ p.view.x a = 1 ∧ (∀ i, a < i → p.view.x i = 0) ∧
        1 ≤ b ∧ b < a ∧ 1 ≤ p.view.x b := by
    unfold Twice
    constructor
    · rintro ⟨a, b, c1, c2, c3, c4, c5, c6⟩
      exact ⟨a, b, c1, by simp only [view]; omega, fun i hi => by have := c3 i hi; simp only [view]; omega, c4, c5,
        by simp only [view]; omega⟩
    · rintro ⟨a, b, c1, c2, c3, c4, c5, c6⟩
      simp only [view] at *
      exact ⟨a, b, c1, by omega, fun i hi => by have := c3 i hi; omega, c4, c5, by omega⟩
  rw [e1, e2]

/-- Both cases occur. -/
example : ¬ (Ex.bearPos.legalPositions (.mixed 6 4)).Nodup ∧ (Ex.bearPos.legalPositions (.mixed 6 2)).Nodup ∧
    (Ex.hitPos.legalPositions (.mixed 6 4)).Nodup := by decide

/-- Away from bear-offs in particular: a mover with a checker on the bar or beyond the small die gets no duplicates. -/
theorem C03_no_duplicates_outside_bearoff_partial (p : Pos N) (hb : p.BarsOK) (dice : Dice) (hv : dice.Valid)
    (i : Nat) (hi : 6 ≤ i) (hx : 1 ≤ p.view.x i) : (p.legalPositions dice).Nodup := by
  cases dice with
  | double d => exact C03_doubles_nodup p hb d hv
  | mixed big small =>
    rw [C03_mixed_nodup_iff_partial p hb big small hv]
    obtain ⟨h1, h2, h3⟩ : 1 ≤ small ∧ small < big ∧ big ≤ 6 := hv
    rintro ⟨-, a, b, c1, -, c3, -⟩
    have := c3 i (by omega)
    omega

example : 1 ≤ Ex.start.view.x 24 := by decide

end Bkgm
