import Verif.Proofs.TextDup2
import Mathlib.Algebra.Order.BigOperators.Group.Finset
/-!
# C100: exactly which lists of `legal_moves` repeat a text
-/

namespace Bkgm
open Pos MoveText
variable {N : Nat}

/-- The boards with a repeated text for the roll `b`-`s` (`b` the larger die), seen by the player `x` to move. Each side has one checker on the bar;
`x` has single checkers on the points `b` and `25 - b`, `o` on `s` and `25 - s`; `x` has a checker on `b + s`; on all other points the board is its own
mirror image, and both sides have borne off equally many checkers. -/
structure Spec.RepeatedText (B : Spec.Board) (b s : Nat) : Prop where
  barX : B.x 25 = 1
  barO : B.o 0 = 1
  bigX : B.x b = 1 ∧ B.x (25 - b) = 1
  smallO : B.o s = 1 ∧ B.o (25 - s) = 1
  source : 1 ≤ B.x (b + s)
  mirror : ∀ i, 1 ≤ i → i ≤ 24 → i ≠ b → i ≠ 25 - b → i ≠ s → i ≠ 25 - s → B.x i = B.o (25 - i)
  off : B.xOff = B.oOff

theorem repeatedText_iff {p : Pos N} {b s : Nat} (hb : p.BarsOK) (hv : (Dice.mixed b s).Valid) : RepeatCells p b s ↔ Spec.RepeatedText p.view b s := by
  obtain ⟨h1, h2, h3⟩ : 1 ≤ s ∧ s < b ∧ b ≤ 6 := hv
  constructor
  · rintro ⟨a1, a2, a3, a4, a5, a6, a7, a8, a9⟩
    refine ⟨?_, ?_, ⟨?_, ?_⟩, ⟨?_, ?_⟩, ?_, fun i i1 i2 i3 i4 i5 i6 => ?_, ?_⟩ <;> simp only [view]
    · omega
    · omega
    · omega
    · omega
    · omega
    · omega
    · omega
    · have := a9 i (by omega) i3 i4 i5 i6
      omega
    · exact a8
  · rintro ⟨a1, a2, ⟨a3, a3'⟩, ⟨a4, a4'⟩, a5, a6, a7⟩
    simp only [view] at a1 a2 a3 a3' a4 a4' a5 a6 a7
    have hb1 := hb.1
    have hb2 := hb.2
    refine ⟨by omega, by omega, by omega, by omega, by omega, by omega, by omega, a7, fun i i1 i2 i3 i4 i5 => ?_⟩
    by_cases e0 : i = 0
    · subst e0; simp only [Nat.sub_zero]; omega
    · by_cases e1 : i = 25
      · subst e1; simp only [Nat.sub_self]; omega
      · have m1 := a6 i (by omega) (by omega) i2 i3 i4 i5
        have m2 := a6 (25 - i) (by omega) (by omega) (by omega) (by omega) (by omega) (by omega)
        rw [show 25 - (25 - i) = i by omega] at m2
        omega

/-- **C100, the exact condition.** The list of `legal_moves` repeats a text if and only if the roll is not a double and the board is one of `Spec.RepeatedText`. -/
theorem C100_exact_partial (p : Pos N) (hb : p.BarsOK) (dice : Dice) (hv : dice.Valid) :
    ((legalFor p dice).map fun e => formatSteps e.1).Nodup ↔ ¬ ∃ b s, dice = .mixed b s ∧ Spec.RepeatedText p.view b s := by
  constructor
  · rintro hnd ⟨b, s, rfl, hr⟩
    obtain ⟨l, c, c', h, h', hne⟩ := cells_dup hb hv ((repeatedText_iff hb hv).2 hr)
    have := List.inj_on_of_nodup_map hnd h h' rfl
    exact hne (Prod.mk.inj this).2
  · intro hno
    rw [List.Nodup, List.pairwise_map]
    have hnd := (C35_children p hb dice hv).1
    rw [List.Nodup, List.pairwise_map] at hnd
    refine List.Pairwise.imp_of_mem ?_ hnd
    rintro ⟨l, c⟩ ⟨l', c'⟩ ha ha' hne e
    simp only at hne e
    obtain rfl := entry_text_inj hb hv ha ha' e
    obtain ⟨hor, ⟨b, s, rfl⟩, -⟩ := (C100_twice_partial p hb dice hv (formatSteps l)).2 c c' (List.mem_map.2 ⟨_, ha, rfl⟩) (List.mem_map.2 ⟨_, ha', rfl⟩) hne
    refine hno ⟨b, s, rfl, (repeatedText_iff hb hv).1 ?_⟩
    rcases hor with hr | hr
    · exact dup_cells hb hv ha ha' hr (by rw [hr]; exact fun e => hne (Option.some.inj e))
    · exact dup_cells hb hv ha' ha hr (by rw [hr]; exact fun e => hne (Option.some.inj e).symm)

/-- The counterexample is such a board. -/
example : Spec.RepeatedText Ex.bothBars.view 2 1 := by
  rw [← repeatedText_iff (by decide) (by decide)]
  exact ⟨by decide, by decide, by decide, by decide, by decide, by decide, by decide, by decide, by decide⟩

/-- It needs at least four checkers a side: in the variants with two or three checkers the texts are always different. -/
theorem C100_small_partial (p : Pos N) (hN : N ≤ 3) (hp : p.Valid) (dice : Dice) (hv : dice.Valid) :
    ((legalFor p dice).map fun e => formatSteps e.1).Nodup := by
  refine (C100_exact_partial p hp.barsOK dice hv).2 ?_
  rintro ⟨b, s, rfl, ⟨a1, a2, ⟨a3, a3'⟩, a4, a5, a6, a7⟩⟩
  obtain ⟨h1, h2, h3⟩ : 1 ≤ s ∧ s < b ∧ b ≤ 6 := hv
  have hs := hp.sumX
  have hsub : ({25, b, 25 - b, b + s} : Finset Nat) ⊆ Finset.range 26 := by
    intro i hi
    simp only [Finset.mem_insert, Finset.mem_singleton, Finset.mem_range] at hi ⊢
    omega
  have hle : ∑ i ∈ ({25, b, 25 - b, b + s} : Finset Nat), p.view.x i ≤ p.view.countX :=
    Finset.sum_le_sum_of_subset hsub
  rw [Finset.sum_insert (by simp only [Finset.mem_insert, Finset.mem_singleton]; omega),
    Finset.sum_insert (by simp only [Finset.mem_insert, Finset.mem_singleton]; omega),
    Finset.sum_insert (by simp only [Finset.mem_singleton]; omega), Finset.sum_singleton] at hle
  omega

/-- A contact position of three-checker hypergammon meets the hypotheses and has several plays. -/
example : Ex.dodge.Valid ∧ 2 ≤ (legalFor Ex.dodge (.mixed 2 1)).length := by decide +kernel

/-- **C100, the exact condition** for positions of every variant (`legal_moves`). -/
theorem C100_variant_exact_partial (q : VPos) (hx : q.view.x 0 = 0) (ho : q.view.o 25 = 0) (dice : Dice) (hv : dice.Valid) :
    ((legalV q dice).map Prod.fst).Nodup ↔ ¬ ∃ b s, dice = .mixed b s ∧ Spec.RepeatedText q.view b s := by
  have key : ∀ {N : Nat} (p : Pos N), p.view.x 0 = 0 → p.view.o 25 = 0 →
      (((legalFor p dice).map fun e => formatSteps e.1).Nodup ↔ ¬ ∃ b s, dice = .mixed b s ∧ Spec.RepeatedText p.view b s) := by
    intro N p h1 h2
    have hb : p.BarsOK := ⟨by simp only [view] at h1; omega, by simp only [view] at h2; omega⟩
    exact C100_exact_partial p hb dice hv
  cases q with
  | backgammon p => simpa [legalV, legalStepsV, Function.comp_def, VPos.view] using key p hx ho
  | nackgammon p => simpa [legalV, legalStepsV, Function.comp_def, VPos.view] using key p hx ho
  | longgammon p => simpa [legalV, legalStepsV, Function.comp_def, VPos.view] using key p hx ho
  | hypergammon p => simpa [legalV, legalStepsV, Function.comp_def, VPos.view] using key p hx ho
  | hypergammon2 p => simpa [legalV, legalStepsV, Function.comp_def, VPos.view] using key p hx ho
  | hypergammon4 p => simpa [legalV, legalStepsV, Function.comp_def, VPos.view] using key p hx ho
  | hypergammon5 p => simpa [legalV, legalStepsV, Function.comp_def, VPos.view] using key p hx ho

end Bkgm
