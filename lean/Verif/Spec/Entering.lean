import Verif.Spec.Rules
/-!
# Entering from the bar — specification
-/

namespace Spec

/-- How many of the rolled numbers (a double counts four times) enter a checker from the bar: the point `25 - d` is not held by two or more
opposing checkers. -/
def Board.openFaces (b : Board) (dice : Bkgm.Dice) : Nat := ((faces dice).filter fun d => decide (b.o (25 - d) ≤ 1)).length

end Spec
