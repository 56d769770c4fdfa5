import Verif.Spec.Rules
import Mathlib.Algebra.BigOperators.Intervals
/-!
# Valid boards, pip counts, plays with their moves — specification
-/

namespace Spec

/-- Number of `x` checkers on the board (points and bar). -/
def Board.countX (b : Board) : Nat := ∑ i ∈ Finset.range 26, b.x i
/-- Number of `o` checkers on the board (points and bar). -/
def Board.countO (b : Board) : Nat := ∑ i ∈ Finset.range 26, b.o i
/-- Pips `x` still has to travel. -/
def Board.pipsX (b : Board) : Nat := ∑ i ∈ Finset.range 26, i * b.x i
/-- Pips `o` still has to travel (`o` moves upwards, its bar is number 0). -/
def Board.pipsO (b : Board) : Nat := ∑ i ∈ Finset.range 26, (25 - i) * b.o i

/-- A valid board with `N` checkers per side: nobody stands on the other side's bar, no point is shared,
and points, bar and borne-off checkers add up to `N` for both sides. -/
structure Valid (N : Nat) (b : Board) : Prop where
  xBar : b.x 0 = 0
  oBar : b.o 25 = 0
  alone : ∀ i, i < 26 → b.x i = 0 ∨ b.o i = 0
  sumX : b.countX + b.xOff = N
  sumO : b.countO + b.oOff = N

/-- The same board seen by the opponent. -/
def Board.mirror (b : Board) : Board where
  x i := if i < 26 then b.o (25 - i) else 0
  o i := if i < 26 then b.x (25 - i) else 0
  xOff := b.oOff
  oOff := b.xOff

/-- The sides are still in contact: some checker of `x` (bar included) has an opposing checker ahead of it. -/
def Contact (b : Board) : Prop := ∃ i j, 1 ≤ b.x i ∧ 1 ≤ b.o j ∧ j < i

/-- The points (1..24) where a single opposing checker of `b` was hit on the way to `b'`. -/
def hitPoints (b b' : Board) : Finset Nat :=
  (Finset.Icc 1 24).filter fun i => b.o i = 1 ∧ b'.o i = 0

/-- `Moves b ms b'`: the single-checker moves `ms` (source, die), in this order, lead from `b` to `b'`. -/
inductive Moves : Board → List (Nat × Nat) → Board → Prop
  | nil (b : Board) : Moves b [] b
  | cons {b b' : Board} {src die : Nat} {rest : List (Nat × Nat)} :
      CanStep b src die → Moves (after b src die) rest b' → Moves b ((src, die) :: rest) b'

end Spec

namespace Bkgm
/-- A model position is valid when the board it shows is. -/
def Pos.Valid {N : Nat} (p : Pos N) : Prop := Spec.Valid N p.view

instance {N : Nat} (p : Pos N) : Decidable p.Valid :=
  decidable_of_iff (p.view.x 0 = 0 ∧ p.view.o 25 = 0 ∧ (∀ i, i < 26 → p.view.x i = 0 ∨ p.view.o i = 0) ∧
      p.view.countX + p.xOff = N ∧ p.view.countO + p.oOff = N)
    ⟨fun ⟨a, b, c, d, e⟩ => ⟨a, b, c, d, e⟩, fun ⟨a, b, c, d, e⟩ => ⟨a, b, c, d, e⟩⟩
end Bkgm
