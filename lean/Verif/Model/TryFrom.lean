import Verif.Model.Position
/-!
# Model of `TryFrom<[i8; 26]> for Position<N>` (src/position.rs 345-378) with its `i8` arithmetic

`dbg = true` models a build with overflow checks (debug): an overflow is a panic, `none`.
`dbg = false` models a release build: an overflow wraps.
-/

namespace Bkgm

/-- Two's complement wrap-around of `i8`. (`i8` arithmetic of src/position.rs 353-380.) -/
def wrap8 (z : Int) : Int := (z + 128) % 256 - 128

/-- Result of an `i8` operation with mathematical result `z`; `none` is the overflow panic. (src/position.rs 361-362.) -/
def i8 (dbg : Bool) (z : Int) : Option Int :=
  if -128 ≤ z ∧ z ≤ 127 then some z else if dbg then none else some (wrap8 z)

/-- `iter.sum::<i8>()`: a left fold of `i8` additions starting at 0. (src/position.rs 361-362.) -/
def sumI8 (dbg : Bool) : List Int → Int → Option Int
  | [], acc => some acc
  | v :: l, acc => (i8 dbg (acc + v)).bind (sumI8 dbg l)

/-- `try_from(pips)` (src/position.rs 352-377). The outer `none` is a panic. `N as i8` is exact for `N ≤ 127`,
which the theorems assume. -/
def tryFrom (dbg : Bool) (N : Nat) (pips : Fin 26 → Int) : Option (Except String (Pos N)) :=
  (sumI8 dbg ((List.ofFn pips).filter fun v => decide (v > 0)) 0).bind fun sx =>
  (i8 dbg ((N : Int) - sx)).bind fun xOff =>
  (sumI8 dbg ((List.ofFn pips).filter fun v => decide (v < 0)) 0).bind fun so =>
  (i8 dbg ((N : Int) + so)).bind fun oOff =>
  some <|
    if xOff < 0 then .error "Player x has more than 15 checkers on the board."
    else if oOff < 0 then .error "Player o has more than 15 checkers on the board."
    else if pips 25 < 0 then
      .error "Index 25 is the bar for player x, number of checkers needs to be positive."
    else if pips 0 > 0 then
      .error "Index 0 is the bar for player o, number of checkers needs to be negative."
    else .ok ⟨true, pips, xOff.toNat, oOff.toNat⟩

end Bkgm
