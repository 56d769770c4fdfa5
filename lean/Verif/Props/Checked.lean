import Verif.Proofs.Checked
import Verif.Props.MoveGen
/-!
# C16: move generation never panics or overflows on valid positions
-/

namespace Bkgm
open Pos
variable {N : Nat}

/-- **C16** For a valid position in which neither side has finished (at most 127 checkers per side) and a legal roll, the
generator runs without an index out of range, an `i8`/`u8`/`usize` overflow or a failing `debug_assert!`, and returns exactly the
list of the unchecked model, to which all the other theorems refer. -/
theorem C16_no_panic (p : Pos N) (hp : p.Valid) (hN : N ≤ 127) (hx : p.xOff < N) (ho : p.oOff < N) (dice : Dice) (hv : dice.Valid) :
    Chk.legalPositions p dice = some (p.legalPositions dice) := by
  have hb := hp.barsOK
  have h := Chk.Bd.of_valid hp hN
  have hne := C02_never_empty p hb dice hv
  have hpl : (match dice with
      | .double die => Chk.doubleMoves p die
      | .mixed big small => Chk.mixedMoves p big small) = some (p.playedPositions dice) := by
    cases dice with
    | double d =>
      obtain ⟨h1, h2⟩ : 1 ≤ d ∧ d ≤ 6 := hv
      exact Chk.doubleMoves_ok h hb h1 h2 fun e => hne (by simp only [legalPositions, playedPositions, e, List.map_nil])
    | mixed big small =>
      obtain ⟨h1, h2, h3⟩ : 1 ≤ small ∧ small < big ∧ big ≤ 6 := hv
      exact Chk.mixedMoves_ok h hb h1 h2 h3
  have hfl : ∀ q ∈ p.playedPositions dice, ∀ i : Fin 26, -127 ≤ q.pips i ∧ q.pips i ≤ 127 := by
    intro q hq i
    have hc : q.flip.Valid := C04_children_valid p q.flip hp dice hv (List.mem_map.2 ⟨q, hq, rfl⟩)
    have hqv : q.Valid := by rw [← Pos.flip_flip q]; exact hc.flip
    have := (Chk.Bd.of_valid hqv hN).pip_le i.isLt
    simpa [pip] using this
  unfold Chk.legalPositions
  have ha : (decide (p.oOff < N) && decide (p.xOff < N)) = true := by simp [hx, ho]
  simp only [Chk.assert_ok ha, Option.bind_eq_bind, Option.bind_some]
  have e := Chk.flipAll_ok hfl
  have hne' : (!((p.playedPositions dice).map Pos.flip).isEmpty) = true := by simpa [legalPositions] using hne
  cases dice with
  | double d => simp only at hpl; simp only [hpl, e, Option.bind_some, Chk.assert_ok hne']; rfl
  | mixed b s => simp only at hpl; simp only [hpl, e, Option.bind_some, Chk.assert_ok hne']; rfl

example : Ex.start.Valid ∧ 15 ≤ 127 ∧ Ex.start.xOff < 15 ∧ Ex.start.oOff < 15 ∧ (Dice.double 6).Valid ∧
    (Chk.legalPositions Ex.start (.double 6)).isSome = true := by decide +kernel

/-- **C16** Every panic of a debug build on a valid position comes from the precondition: when a side has finished, the
`debug_assert!` at the entry fires. -/
theorem C16_finished_panics (p : Pos N) (dice : Dice) (h : N ≤ p.xOff ∨ N ≤ p.oOff) : Chk.legalPositions p dice = none := by
  unfold Chk.legalPositions
  have : (decide (p.oOff < N) && decide (p.xOff < N)) = false := by
    simp only [Bool.and_eq_false_iff, decide_eq_false_iff_not]; omega
  simp [Chk.assert, this]

example : (Chk.legalPositions (Ex.cells 1 [0, 0, 0, -1] 1 0) (.double 6)) = none := by decide +kernel

/-- **C16** `try_move_single_checker` does not panic on a valid position, for every source `0..=25` and die `1..=6`. -/
theorem C16_try_move_no_panic (p : Pos N) (hp : p.Valid) (hN : N ≤ 127) (src die : Nat) (hs : src ≤ 25) (h1 : 1 ≤ die) (h6 : die ≤ 6) :
    Chk.tryMove p src die = some (p.tryMove src die) := by
  have h := Chk.Bd.of_valid hp hN
  have hci : Chk.canMoveInternally p src die = some (p.canMoveInternally src die) := by
    unfold Chk.canMoveInternally canMoveInternally
    simp only [Chk.get_ok p (show src < 26 by omega), Option.bind_eq_bind, Option.bind_some]
    split_ifs with c1 c2 c3
    · rfl
    · simp only [Chk.sub_ok (Nat.le_of_lt c2), Chk.get_ok p (show src - die < 26 by omega), Option.bind_some]; rfl
    · rfl
    · simp only [Chk.assert_ok (decide_eq_true (show src + 1 ≤ 25 by omega)), Option.bind_some]; rfl
  have hc : Chk.canMove p src die = some (p.canMove src die) := by
    unfold Chk.canMove canMove
    simp only [Chk.get_ok p (show 25 < 26 by omega), Option.bind_eq_bind, Option.bind_some]
    by_cases c : (src == 25) == decide (p.pip 25 > 0)
    · rw [if_pos c, if_pos c, hci]
    · rw [if_neg c, if_neg c]; rfl
  unfold Chk.tryMove tryMove
  simp only [hc, Option.bind_eq_bind, Option.bind_some]
  by_cases c : p.canMove src die = true
  · rw [if_pos c, if_pos c]
    have hp1 : 1 ≤ p.pip src := by
      unfold canMove canMoveInternally at c
      by_contra hlt
      simp only [show p.pip src < 1 by omega, if_true] at c
      split_ifs at c
    rw [Chk.mv_ok h (by omega) h1 hp1]
    rfl
  · rw [if_neg c, if_neg c]; rfl

example : Ex.hitPos.Valid ∧ (Chk.tryMove Ex.hitPos 8 3).isSome = true ∧ (Chk.tryMove Ex.hitPos 26 3) = none := by decide +kernel

end Bkgm
