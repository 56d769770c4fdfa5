import Verif.Model.Dice
/-!
# Model of `src/dice_gen.rs`

A generator with state `σ`. `none` means that the call does not return (a panic, or the endless loop of the default
`roll_mixed` on a source that only rolls doubles).
-/

namespace Bkgm

/-- `trait DiceGen` (src/dice_gen.rs 6-29) without `choose_index` (see `chooseIndex`). -/
structure DiceGen (σ : Type) where
  roll : σ → Option (Dice × σ)
  rollMixed : σ → Option (Dice × σ)

/-- The default `roll_mixed` (src/dice_gen.rs 11-21): roll until the dice are mixed. The `loop` is a least fixed point in
`Option`: `none` when it never ends. -/
def defaultRollMixed {σ : Type} (roll : σ → Option (Dice × σ)) (s : σ) : Option (Dice × σ) :=
  do
    let r ← roll s
    match r.1 with
    | .mixed b sm => some (.mixed b sm, r.2)
    | .double _ => defaultRollMixed roll r.2
partial_fixpoint

/-- The random source `fastrand::Rng`: `below n s` is `usize(0..n)`. External crate, abstract here. (src/dice_gen.rs 30-32.) -/
structure Rng (σ : Type) where
  below : Nat → σ → Nat × σ

/-- The arithmetic of `FastrandDice::roll` (src/dice_gen.rs 37-40). -/
def rollOf (random : Nat) : Dice :=
  let die1 := random / 6 + 1
  let die2 := random % 6 + 1
  Dice.new die1 die2

/-- The arithmetic of `FastrandDice::roll_mixed` (src/dice_gen.rs 44-54). -/
def rollMixedOf (random : Nat) : Dice :=
  let die1 := random / 6 + 1
  let die2 := random % 6 + 1
  let die1 := if die1 ≥ die2 then die1 + 1 else die1
  Dice.new die1 die2

/-- `FastrandDice` (src/dice_gen.rs 30-54). -/
def fastrandDice {σ : Type} (rng : Rng σ) : DiceGen σ where
  roll s := let r := rng.below 36 s; some (rollOf r.1, r.2)
  rollMixed s := let r := rng.below 30 s; some (rollMixedOf r.1, r.2)

/-- The loop of `choose_index` (src/dice_gen.rs 63-70). `F` stands for `f32` with arbitrary addition and comparison. -/
def chooseLoop {F : Type} (add : F → F → F) (gt : F → F → Bool) (threshold : F) : List F → F → Nat → Option Nat
  | [], _, _ => none
  | v :: l, sum, index =>
    let sum := add sum v
    if gt sum threshold then some index else chooseLoop add gt threshold l sum (index + 1)

/-- `FastrandDice::choose_index` (src/dice_gen.rs 56-72) for a given `threshold`. `none` is the underflow of `len() - 1` on
an empty slice. -/
def chooseIndex {F : Type} (zero : F) (add : F → F → F) (gt : F → F → Bool) (threshold : F) (chances : List F) :
    Option Nat :=
  match chooseLoop add gt threshold chances zero 0 with
  | some i => some i
  | none => if chances.length = 0 then none else some (chances.length - 1)

/-- `DiceGenMock` (src/dice_gen.rs 99-122): the state is the list and the number of calls; a roll beyond the list panics.
`roll_mixed` is the default. -/
def diceGenMock : DiceGen (List Dice × Nat) where
  roll s := s.1[s.2]?.map fun d => (d, (s.1, s.2 + 1))
  rollMixed := defaultRollMixed fun s => s.1[s.2]?.map fun d => (d, (s.1, s.2 + 1))

end Bkgm
