import Verif.Spec.Valid
/-!
# Positions in which nobody can ever move — specification
-/

namespace Spec

/-- Mutual close-out: both sides have a checker on the bar, and all six points on which either side would have to enter are held by at
least two opposing checkers (`x` enters on 19..24, `o` on 1..6). -/
structure Deadlock (b : Board) : Prop where
  xBar : 1 ≤ b.x 25
  oBar : 1 ≤ b.o 0
  xHome : ∀ i, 1 ≤ i → i ≤ 6 → 2 ≤ b.x i
  oHome : ∀ i, 19 ≤ i → i ≤ 24 → 2 ≤ b.o i

/-- The player to move (`x`) can move some checker with some die. -/
def CanMove (b : Board) : Prop := ∃ src die, 1 ≤ die ∧ die ≤ 6 ∧ CanStep b src die

end Spec
