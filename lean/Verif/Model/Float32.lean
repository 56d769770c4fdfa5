import Mathlib.Data.Int.Log
import Mathlib.Data.Rat.Floor
import Mathlib.Algebra.Order.Floor.Ring
import Mathlib.Tactic.Linarith
import Mathlib.Tactic.Positivity
import Mathlib.Tactic.Ring
import Mathlib.Tactic.NormNum
import Mathlib.Tactic.FieldSimp
import Verif.Model.DiceGen
/-!
# `choose_index` with the arithmetic of `f32`

A finite non-negative `f32` is its value, a rational number. The IEEE 754 operations round the exact result to the nearest `f32`, ties
to even. Overflow to infinity is not part of the rounding function: the results below assume that the sum of the chances is below `2^128`,
and then no operation of `choose_index` overflows.
-/

namespace Bkgm.F32

/-- Round to the nearest integer, ties to even. (`f32` arithmetic of src/dice_gen.rs 56-72.) -/
def roundEven (y : ℚ) : ℤ :=
  if y - ⌊y⌋ < 1 / 2 then ⌊y⌋
  else if 1 / 2 < y - ⌊y⌋ then ⌊y⌋ + 1
  else if ⌊y⌋ % 2 = 0 then ⌊y⌋ else ⌊y⌋ + 1

/-- The exponent of the last place of the `f32`s around a positive `x`: 24 significant bits, not below that of the smallest `f32`. (src/dice_gen.rs 56-72.) -/
def place (x : ℚ) : ℤ := max (Int.log 2 x - 23) (-149)

/-- The `f32` nearest to `x ≥ 0`. (src/dice_gen.rs 56-72.) -/
def fl (x : ℚ) : ℚ := roundEven (x / 2 ^ place x) * 2 ^ place x

/-- `+` on `f32`. (src/dice_gen.rs 56-72.) -/
def add (x y : ℚ) : ℚ := fl (x + y)

/-- `chances.iter().sum::<f32>()` (src/dice_gen.rs 62). -/
def sum (chances : List ℚ) : ℚ := chances.foldl add 0

/-- The threshold for a random number (src/dice_gen.rs 58-62): `(sum / 1_000_000 as f32) * random_number as f32`; both integers are
`f32`s. -/
def threshold (chances : List ℚ) (random : Nat) : ℚ := fl (fl (sum chances / 1000000) * random)

/-- `FastrandDice::choose_index` (src/dice_gen.rs 56-72) for a given random number. -/
def chooseIndex (chances : List ℚ) (random : Nat) : Option Nat :=
  Bkgm.chooseIndex 0 add (fun a b => decide (a > b)) (threshold chances random) chances

end Bkgm.F32
