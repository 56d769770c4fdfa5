/-!
# Model of `src/dice.rs`
-/

namespace Bkgm

/-- `MixedDice` (src/dice.rs 17-22) is inlined into `mixed`; fields `big`, `small`.
`Dice` (src/dice.rs 1-6): `Mixed(MixedDice)` or `Double(usize)`. `usize` is `Nat`. -/
inductive Dice where
  | mixed (big small : Nat)
  | double (die : Nat)
  deriving DecidableEq, Repr

/-- `MixedDice::new` (src/dice.rs 142-150): sorts the two values. -/
def mixedNew (die1 die2 : Nat) : Dice :=
  if die1 > die2 then .mixed die1 die2 else .mixed die2 die1

/-- `Dice::new` (src/dice.rs 39-50). The four `debug_assert!`s (each die in 1..=6) are not part of
the result; callers' ranges are hypotheses of the theorems. -/
def Dice.new (die1 die2 : Nat) : Dice :=
  if die1 = die2 then .double die1 else mixedNew die1 die2

/-- `TryFrom<(usize, usize)> for Dice` (src/dice.rs 120-130). `none` is the `Err`. -/
def Dice.tryFrom (a b : Nat) : Option Dice :=
  if a < 1 ∨ a > 6 ∨ b < 1 ∨ b > 6 then none else some (Dice.new a b)

/-- Dice values that `Dice::new` and `try_from` can produce from faces 1 to 6: "values between 1 and 6",
"`big` is bigger than `small`" (src/dice.rs 1, 17). -/
def Dice.Valid : Dice → Prop
  | .mixed big small => 1 ≤ small ∧ small < big ∧ big ≤ 6
  | .double die => 1 ≤ die ∧ die ≤ 6

/-- Validity of a roll is decidable (no code of the crate; src/dice.rs 36-58 is the constructor it describes). -/
instance : DecidablePred Dice.Valid := fun d => by
  cases d <;> unfold Dice.Valid <;> infer_instance

/-- `Dice::all_6_double` (src/dice.rs 69-78). The `while` loop becomes a map over `0..6`. -/
def all6Double : List Dice := (List.range 6).map fun i => Dice.new (i + 1) (i + 1)

/-- `Dice::all_15_mixed` (src/dice.rs 80-97): nested loops `i in 0..6`, `j in i+1..6`. -/
def all15Mixed : List Dice :=
  (List.range 6).flatMap fun i =>
    (List.range' (i + 1) (6 - (i + 1))).map fun j => Dice.new (i + 1) (j + 1)

/-- `Dice::all_21` (src/dice.rs 99-117). -/
def all21 : List (Dice × Nat) :=
  (List.range 6).flatMap fun i =>
    (Dice.new (i + 1) (i + 1), 1) ::
      (List.range' (i + 1) (6 - (i + 1))).map fun j => (Dice.new (i + 1) (j + 1), 2)

/-- `Dice::all_441` (src/dice.rs 51-67). -/
def all441 : List ((Dice × Dice) × Nat) :=
  all21.flatMap fun a => all21.map fun b => ((a.1, b.1), a.2 * b.2)

end Bkgm
