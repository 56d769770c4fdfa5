import Verif.Model.TryFrom
import Verif.Spec.Valid
import Verif.Spec.Examples
import Mathlib.Algebra.BigOperators.Fin
/-!
# C15: `Position::try_from`
-/

namespace Bkgm
open Pos
variable {N : Nat}

/-- Number of `x` checkers in an array of cells. -/
def cellsX (pips : Fin 26 → Int) : Nat := ∑ i, (pips i).toNat
/-- Number of `o` checkers in an array of cells. -/
def cellsO (pips : Fin 26 → Int) : Nat := ∑ i, (-pips i).toNat

theorem sum_nonneg' : ∀ l : List Int, (∀ v ∈ l, 0 ≤ v) → 0 ≤ l.sum
  | [], _ => by simp
  | v :: l, h => by
    have := sum_nonneg' l (fun v hv => h v (List.mem_cons_of_mem _ hv))
    have := h v (by simp)
    rw [List.sum_cons]; omega

theorem sum_nonpos' : ∀ l : List Int, (∀ v ∈ l, v ≤ 0) → l.sum ≤ 0
  | [], _ => by simp
  | v :: l, h => by
    have := sum_nonpos' l (fun v hv => h v (List.mem_cons_of_mem _ hv))
    have := h v (by simp)
    rw [List.sum_cons]; omega

theorem sumI8_pos (dbg : Bool) (l : List Int) (hl : ∀ v ∈ l, 0 < v) : ∀ acc, 0 ≤ acc → acc ≤ 127 →
    (acc + l.sum ≤ 127 → sumI8 dbg l acc = some (acc + l.sum)) ∧
    (127 < acc + l.sum → sumI8 true l acc = none) := by
  induction l with
  | nil => intro acc h0 h1; simp [sumI8]; omega
  | cons v l ih =>
    intro acc h0 h1
    have hv := hl v (by simp)
    have ih := ih (fun v hv => hl v (List.mem_cons_of_mem _ hv))
    have hs : 0 ≤ l.sum := sum_nonneg' l fun x hx => (hl x (List.mem_cons_of_mem _ hx)).le
    rw [List.sum_cons]
    by_cases h : acc + v ≤ 127
    · have e : ∀ b, i8 b (acc + v) = some (acc + v) := fun b => by unfold i8; rw [if_pos (by omega)]
      have := ih (acc + v) (by omega) h
      simp only [sumI8, e, Option.bind_some]
      constructor
      · intro h'; rw [this.1 (by omega)]; congr 1; omega
      · intro h'; exact this.2 (by omega)
    · constructor
      · intro; omega
      · intro _
        simp only [sumI8, i8]
        rw [if_neg (by omega)]; rfl

theorem sumI8_neg (dbg : Bool) (l : List Int) (hl : ∀ v ∈ l, v < 0) : ∀ acc, acc ≤ 0 → -128 ≤ acc →
    (-128 ≤ acc + l.sum → sumI8 dbg l acc = some (acc + l.sum)) ∧
    (acc + l.sum < -128 → sumI8 true l acc = none) := by
  induction l with
  | nil => intro acc h0 h1; simp [sumI8]; omega
  | cons v l ih =>
    intro acc h0 h1
    have hv := hl v (by simp)
    have ih := ih (fun v hv => hl v (List.mem_cons_of_mem _ hv))
    have hs : l.sum ≤ 0 := sum_nonpos' l fun x hx => (hl x (List.mem_cons_of_mem _ hx)).le
    rw [List.sum_cons]
    by_cases h : -128 ≤ acc + v
    · have e : ∀ b, i8 b (acc + v) = some (acc + v) := fun b => by unfold i8; rw [if_pos (by omega)]
      have := ih (acc + v) (by omega) h
      simp only [sumI8, e, Option.bind_some]
      constructor
      · intro h'; rw [this.1 (by omega)]; congr 1; omega
      · intro h'; exact this.2 (by omega)
    · constructor
      · intro; omega
      · intro _
        simp only [sumI8, i8]
        rw [if_neg (by omega)]; rfl

theorem sum_filter_pos (l : List Int) :
    (l.filter fun v => decide (v > 0)).sum = ((l.map Int.toNat).sum : Nat) := by
  induction l with
  | nil => rfl
  | cons v l ih =>
    rw [List.filter_cons]
    split_ifs with h <;> simp at h <;> simp [ih] <;> omega

theorem sum_filter_neg (l : List Int) :
    (l.filter fun v => decide (v < 0)).sum = - (((l.map fun v => (-v).toNat).sum : Nat) : Int) := by
  induction l with
  | nil => rfl
  | cons v l ih =>
    rw [List.filter_cons]
    split_ifs with h <;> simp at h <;> simp [ih] <;> omega

theorem cellsX_eq (pips : Fin 26 → Int) : cellsX pips = ((List.ofFn pips).map Int.toNat).sum := by
  rw [cellsX, List.map_ofFn, List.sum_ofFn]; rfl
theorem cellsO_eq (pips : Fin 26 → Int) : cellsO pips = ((List.ofFn pips).map fun v => (-v).toNat).sum := by
  rw [cellsO, List.map_ofFn, List.sum_ofFn]; rfl

/-- **C15, the part that holds**: as long as the `i8` sums do not overflow (at most 127 checkers of `x` and 128 of `o`
in the array), both builds agree, nothing panics, the boards accepted are exactly those with at most `N` checkers per
side and correctly signed bars, and the missing checkers become the off counts. -/
theorem C15_try_from_partial (dbg : Bool) (hN : N ≤ 127) (pips : Fin 26 → Int)
    (hx : cellsX pips ≤ 127) (ho : cellsO pips ≤ 128) :
    ∃ r, tryFrom dbg N pips = some r ∧
      ((∃ p, r = .ok p) ↔ cellsX pips ≤ N ∧ cellsO pips ≤ N ∧ 0 ≤ pips 25 ∧ pips 0 ≤ 0) ∧
      (∀ p, r = .ok p → p.turn = true ∧ p.pips = pips ∧ cellsX pips + p.xOff = N ∧ cellsO pips + p.oOff = N) := by
  have a := (sumI8_pos dbg ((List.ofFn pips).filter fun v => decide (v > 0)) (by simp) 0 (by omega) (by omega)).1
  have b := (sumI8_neg dbg ((List.ofFn pips).filter fun v => decide (v < 0)) (by simp) 0 (by omega) (by omega)).1
  rw [sum_filter_pos, ← cellsX_eq] at a
  rw [sum_filter_neg, ← cellsO_eq] at b
  unfold tryFrom
  rw [a (by omega), b (by omega)]
  simp only [Option.bind_some, zero_add]
  have c : i8 dbg ((N : Int) - cellsX pips) = some ((N : Int) - cellsX pips) := by unfold i8; rw [if_pos (by omega)]
  have d : i8 dbg ((N : Int) + -(cellsO pips : Int)) = some ((N : Int) + -(cellsO pips : Int)) := by
    unfold i8; rw [if_pos (by omega)]
  rw [c, d]
  simp only [Option.bind_some]
  refine ⟨_, rfl, ?_, ?_⟩
  · constructor
    · rintro ⟨p, hp⟩
      split_ifs at hp
      refine ⟨?_, ?_, ?_, ?_⟩ <;> omega
    · rintro ⟨h1, h2, h3, h4⟩
      rw [if_neg (by omega), if_neg (by omega), if_neg (by omega), if_neg (by omega)]
      exact ⟨_, rfl⟩
  · intro p hp
    split_ifs at hp
    injection hp with hp
    subst hp
    refine ⟨rfl, rfl, ?_, ?_⟩ <;> simp only <;> omega

example : cellsX Ex.start.pips = 15 ∧ cellsO Ex.start.pips = 15 := by decide

/-- **C15** The same, with the message of each refusal: which of the four is given, and in which order they are tried. (The text says 15 whatever the number of
checkers of the variant.) -/
theorem C15_refusals_partial (dbg : Bool) (hN : N ≤ 127) (pips : Fin 26 → Int) (hx : cellsX pips ≤ 127) (ho : cellsO pips ≤ 128) (e : String) :
    tryFrom dbg N pips = some (.error e) ↔
      N < cellsX pips ∧ e = "Player x has more than 15 checkers on the board." ∨
      cellsX pips ≤ N ∧ N < cellsO pips ∧ e = "Player o has more than 15 checkers on the board." ∨
      cellsX pips ≤ N ∧ cellsO pips ≤ N ∧ pips 25 < 0 ∧ e = "Index 25 is the bar for player x, number of checkers needs to be positive." ∨
      cellsX pips ≤ N ∧ cellsO pips ≤ N ∧ 0 ≤ pips 25 ∧ 0 < pips 0 ∧
        e = "Index 0 is the bar for player o, number of checkers needs to be negative." := by
  have a := (sumI8_pos dbg ((List.ofFn pips).filter fun v => decide (v > 0)) (by simp) 0 (by omega) (by omega)).1
  have b := (sumI8_neg dbg ((List.ofFn pips).filter fun v => decide (v < 0)) (by simp) 0 (by omega) (by omega)).1
  rw [sum_filter_pos, ← cellsX_eq] at a
  rw [sum_filter_neg, ← cellsO_eq] at b
  unfold tryFrom
  rw [a (by omega), b (by omega)]
  simp only [Option.bind_some, zero_add]
  have c : i8 dbg ((N : Int) - cellsX pips) = some ((N : Int) - cellsX pips) := by unfold i8; rw [if_pos (by omega)]
  have d : i8 dbg ((N : Int) + -(cellsO pips : Int)) = some ((N : Int) + -(cellsO pips : Int)) := by
    unfold i8; rw [if_pos (by omega)]
  rw [c, d]
  simp only [Option.bind_some]
  split_ifs with h1 h2 h3 h4
  · have p1 : N < cellsX pips := by omega
    have p2 : ¬ cellsX pips ≤ N := by omega
    simp only [Option.some.injEq, Except.error.injEq, p1, p2, true_and, false_and, or_false]
    exact eq_comm
  · have p1 : ¬ N < cellsX pips := by omega
    have p2 : cellsX pips ≤ N := by omega
    have p3 : N < cellsO pips := by omega
    have p4 : ¬ cellsO pips ≤ N := by omega
    simp only [Option.some.injEq, Except.error.injEq, p1, p2, p3, p4, true_and, false_and, or_false, false_or]
    exact eq_comm
  · have p1 : ¬ N < cellsX pips := by omega
    have p2 : cellsX pips ≤ N := by omega
    have p3 : ¬ N < cellsO pips := by omega
    have p4 : cellsO pips ≤ N := by omega
    have p5 : ¬ 0 ≤ pips 25 := by omega
    simp only [Option.some.injEq, Except.error.injEq, p1, p2, p3, p4, p5, h3, true_and, false_and, or_false, false_or]
    exact eq_comm
  · have p1 : ¬ N < cellsX pips := by omega
    have p2 : cellsX pips ≤ N := by omega
    have p3 : ¬ N < cellsO pips := by omega
    have p4 : cellsO pips ≤ N := by omega
    have p5 : 0 ≤ pips 25 := by omega
    have p6 : 0 < pips 0 := by omega
    simp only [Option.some.injEq, Except.error.injEq, p1, p2, p3, p4, p5, p6, h3, true_and, false_and, false_or]
    exact eq_comm
  · simp only [Option.some.injEq, reduceCtorEq, false_iff]
    rintro (h | h | h | h) <;> omega

example : tryFrom true 3 Ex.start.pips = some (.error "Player x has more than 15 checkers on the board.") :=
  (C15_refusals_partial true (by omega) _ (by decide) (by decide) _).2 (Or.inl ⟨by decide, rfl⟩)

/-- With the checkers of an array counted as on a board, acceptance is validity (`alone` is automatic). -/
theorem C15_accepted_is_valid_partial (dbg : Bool) (hN : N ≤ 127) (pips : Fin 26 → Int)
    (hx : cellsX pips ≤ 127) (ho : cellsO pips ≤ 128) (p : Pos N) (h : tryFrom dbg N pips = some (.ok p)) :
    p.Valid := by
  obtain ⟨r, h1, h2, h3⟩ := C15_try_from_partial dbg hN pips hx ho
  rw [h] at h1
  injection h1 with h1
  obtain ⟨ht, hp, hx', ho'⟩ := h3 p h1.symm
  obtain ⟨-, -, h25, h0⟩ := h2.1 ⟨p, h1.symm⟩
  have e1 : p.view.countX = cellsX pips := by
    unfold Spec.Board.countX cellsX
    rw [Finset.sum_range]
    refine Finset.sum_congr rfl fun i _ => ?_
    simp [view, pip, hp]
  have e2 : p.view.countO = cellsO pips := by
    unfold Spec.Board.countO cellsO
    rw [Finset.sum_range]
    refine Finset.sum_congr rfl fun i _ => ?_
    simp [view, pip, hp]
  refine ⟨?_, ?_, fun i _ => ?_, ?_, ?_⟩
  · have : p.pip 0 = pips 0 := by simp [pip, hp]
    simp only [view]; omega
  · have : p.pip 25 = pips 25 := by simp [pip, hp]
    simp only [view]; omega
  · simp only [view]; omega
  · rw [e1]; exact hx'
  · rw [e2]; exact ho'

example := C15_accepted_is_valid_partial (N := 15) true (by omega) Ex.start.pips (by decide) (by decide) Ex.start (by decide +kernel)

/-- Every valid position can be rebuilt from its cells (turn set to `x`). -/
theorem C15_valid_is_accepted (dbg : Bool) (hN : N ≤ 127) (p : Pos N) (hv : p.Valid) :
    tryFrom dbg N p.pips = some (.ok { p with turn := true }) := by
  have e1 : p.view.countX = cellsX p.pips := by
    unfold Spec.Board.countX cellsX
    rw [Finset.sum_range]
    exact Finset.sum_congr rfl fun i _ => by simp [view, pip]
  have e2 : p.view.countO = cellsO p.pips := by
    unfold Spec.Board.countO cellsO
    rw [Finset.sum_range]
    exact Finset.sum_congr rfl fun i _ => by simp [view, pip]
  have hx := hv.sumX
  have ho := hv.sumO
  rw [e1] at hx
  rw [e2] at ho
  have x0 : p.view.xOff = p.xOff := rfl
  have o0 : p.view.oOff = p.oOff := rfl
  obtain ⟨r, h1, h2, h3⟩ := C15_try_from_partial dbg hN p.pips (by omega) (by omega)
  have b0 := hv.xBar
  have b25 := hv.oBar
  have p0 : p.pip 0 = p.pips 0 := by simp [pip]
  have p25 : p.pip 25 = p.pips 25 := by simp [pip]
  simp only [view] at b0 b25
  obtain ⟨q, hq⟩ := h2.2 ⟨by omega, by omega, by omega, by omega⟩
  obtain ⟨a1, a2, a3, a4⟩ := h3 q hq
  have e : q = { p with turn := true } := Pos.ext a1 a2 (by simp only; omega) (by simp only; omega)
  rw [h1, hq, e]

example : Ex.barPos.Valid := by decide

/-- In a build with overflow checks the conversion panics exactly on the arrays excluded above. -/
theorem C15_debug_panic_partial (hN : N ≤ 127) (pips : Fin 26 → Int) :
    tryFrom true N pips = none ↔ 127 < cellsX pips ∨ 128 < cellsO pips := by
  constructor
  · intro h
    by_contra hc
    obtain ⟨r, h1, -⟩ := C15_try_from_partial true hN pips (by omega) (by omega)
    rw [h] at h1; cases h1
  · intro h
    have a := (sumI8_pos true ((List.ofFn pips).filter fun v => decide (v > 0)) (by simp) 0 (by omega) (by omega))
    have b := (sumI8_neg true ((List.ofFn pips).filter fun v => decide (v < 0)) (by simp) 0 (by omega) (by omega)).2
    rw [sum_filter_pos, ← cellsX_eq] at a
    rw [sum_filter_neg, ← cellsO_eq] at b
    unfold tryFrom
    by_cases hx : 127 < cellsX pips
    · rw [a.2 (by omega)]; rfl
    · rw [a.1 (by omega), b (by omega)]
      simp only [Option.bind_some, zero_add]
      cases i8 true ((N : Int) - cellsX pips) <;> rfl

example : tryFrom true 15 (fun _ => 127) = none := (C15_debug_panic_partial (by omega) _).2 (Or.inl (by decide))

/-- **C15 is false of the code**: 256 checkers of `x` (16 on each of 16 points) are accepted by a release build as a
position with 15 checkers off, and make a debug build panic. -/
theorem C15_try_from_counterexample :
    ∃ pips : Fin 26 → Int, cellsX pips = 256 ∧ (∀ i, -128 ≤ pips i ∧ pips i ≤ 127) ∧
      tryFrom true 15 pips = none ∧
      ∃ p, tryFrom false 15 pips = some (.ok p) ∧ p.pips = pips ∧ p.xOff = 15 ∧ ¬ p.Valid :=
  ⟨fun i => if 1 ≤ i.val ∧ i.val ≤ 16 then 16 else 0, by decide, by decide, by decide,
    ⟨true, fun i => if 1 ≤ i.val ∧ i.val ≤ 16 then 16 else 0, 15, 15⟩, by rfl, rfl, rfl, by decide⟩

end Bkgm
