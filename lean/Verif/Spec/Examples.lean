import Verif.Spec.Valid
/-!
Concrete positions used in the examples beside the theorems.
-/
namespace Bkgm.Ex
open Bkgm

/-- A position from its list of 26 cells. -/
def cells (N : Nat) (l : List Int) (xOff oOff : Nat) : Pos N := ⟨true, fun i => l.getD i.val 0, xOff, oOff⟩

/-- Backgammon start position (as the list of cells 0..25). -/
def start : Pos 15 := cells 15 [0, -2, 0, 0, 0, 0, 5, 0, 3, 0, 0, 0, -5, 5, 0, 0, 0, -3, 0, -5, 0, 0, 0, 0, 2, 0] 0 0

/-- x: bar 1, 6:2; o: 20:1, 22:2 — three checkers each, `x` may hit from the bar. -/
def barPos : Pos 3 := cells 3 [0, 0, 0, 0, 0, 0, 2, 0, 0, 0, 0, 0, 0, 0, 0, 0, 0, 0, 0, 0, -1, 0, -2, 0, 0, 1] 0 0

/-- x: 3:1, 2:1, 1:1; o: 20:3 — bear-off. -/
def bearPos : Pos 3 := cells 3 [0, 1, 1, 1, 0, 0, 0, 0, 0, 0, 0, 0, 0, 0, 0, 0, 0, 0, 0, 0, -3, 0, 0, 0, 0, 0] 0 0

/-- x: bar 1, 6:2; o: 24:2, 23:1 — `x` cannot enter with 1. -/
def blockedPos : Pos 3 := cells 3 [0, 0, 0, 0, 0, 0, 2, 0, 0, 0, 0, 0, 0, 0, 0, 0, 0, 0, 0, 0, 0, 0, 0, -1, -2, 1] 0 0

/-- x: 10:2, 8:1; o: 5:1, 4:2 — contact with a blot to hit. -/
def hitPos : Pos 3 := cells 3 [0, 0, 0, 0, -2, -1, 0, 0, 1, 0, 2, 0, 0, 0, 0, 0, 0, 0, 0, 0, 0, 0, 0, 0, 0, 0] 0 0

end Bkgm.Ex
