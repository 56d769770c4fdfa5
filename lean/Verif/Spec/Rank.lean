import Verif.Spec.Valid
import Mathlib.Data.Set.Card
/-!
# The number of a placement of checkers — specification

A placement of the `N` checkers of a side is the list of the numbers of its checkers off, on point 1, ..., on point 24 and on its bar.
Placements are listed with the most advanced first: the one with more checkers off, then with more on point 1, and so on. (The points are those of the
player `x` for both sides.)
-/

namespace Spec

/-- The placement of `x`. -/
def Board.placeX (b : Board) : List Nat := b.xOff :: (List.range 24).map (fun i => b.x (i + 1)) ++ [b.x 25]

/-- The placement of `o`. -/
def Board.placeO (b : Board) : List Nat := b.oOff :: (List.range 24).map (fun i => b.o (i + 1)) ++ [b.o 0]

/-- All placements of `N` checkers. -/
def placements (N : Nat) : Set (List Nat) := { w | w.length = 26 ∧ w.sum = N }

/-- The number of placements that are listed before `v`: those that are larger in the lexicographic order. -/
noncomputable def rank (N : Nat) (v : List Nat) : Nat := { w ∈ placements N | v < w }.ncard

/-- The number of the board: boards are listed by the placement of `x`, then by that of `o`. -/
noncomputable def Board.number (N : Nat) (b : Board) : Nat := rank N b.placeX * (placements N).ncard + rank N b.placeO

end Spec
