import Verif.Model.DiceGen
import Verif.Model.Str
/-!
# Model of the rest of `src/dice.rs` and `src/dice_gen.rs`: `Display`, the debug assertions of `Dice::new`, the mock's final check
-/

namespace Bkgm

/-- `Display for Dice` (src/dice.rs 8-15): `({small},{big})`, or the double's value twice. -/
def Dice.display : Dice → Str
  | .mixed big small => '(' :: showNat small ++ ',' :: showNat big ++ [')']
  | .double die => '(' :: showNat die ++ ',' :: showNat die ++ [')']

/-- `Dice::new` (src/dice.rs 39-50) with its four `debug_assert!`s when `dbg`; `none` is the panic. -/
def Dice.newChecked (dbg : Bool) (die1 die2 : Nat) : Option Dice :=
  if dbg && !(decide (die1 > 0) && decide (die1 < 7) && decide (die2 > 0) && decide (die2 < 7)) then none
  else some (Dice.new die1 die2)

/-- `MixedDice::small` (src/dice.rs 134-136) and `MixedDice::big` (138-141), read off a mixed roll. -/
def Dice.small : Dice → Option Nat
  | .mixed _ small => some small
  | .double _ => none
@[inherit_doc Dice.small]
def Dice.big : Dice → Option Nat
  | .mixed big _ => some big
  | .double _ => none

/-- `DiceGenMock::assert_all_dice_were_used` (src/dice_gen.rs 124-130): `none` is the failed assertion. -/
def mockAllUsed (s : List Dice × Nat) : Option Unit := if s.1.length = s.2 then some () else none

/-- A sequence of calls on the mock: `true` is `roll`, `false` is `roll_mixed` (src/dice_gen.rs 104-113 and the default 11-21). -/
def mockCalls : List Bool → List Dice × Nat → Option (List Dice × (List Dice × Nat))
  | [], s => some ([], s)
  | c :: cs, s =>
    (if c then diceGenMock.roll s else diceGenMock.rollMixed s).bind fun r => (mockCalls cs r.2).map fun q => (r.1 :: q.1, q.2)

end Bkgm
