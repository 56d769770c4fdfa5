import Verif.Spec.Fibs
import Verif.Model.Xgid
/-!
# What an XGID line says

Independent of the parser: the line is the ten fields separated by `:`, perhaps after `XGID=`, white space around it being ignored (`trim`).
-/
namespace Spec.Xgid
open Bkgm (Str trim)
open Bkgm.Xgid (XDice Error)
open Bkgm.Ubgi.Spec (Decimal)
open Spec.Fibs (Pieces Unsigned)

/-- The line without the optional `XGID=`. -/
def Payload (s p : Str) : Prop := trim s = "XGID=".toList ++ p ∨ trim s = p ∧ ¬ ∃ q, p = "XGID=".toList ++ q

/-- A board: 26 characters `-`, `a` to `p`, `A` to `P`. -/
def Board (t : Str) : Prop := t.length = 26 ∧ ∀ c ∈ t, c = '-' ∨ ('a' ≤ c ∧ c ≤ 'p') ∨ ('A' ≤ c ∧ c ≤ 'P')

/-- A number of at most `max`. -/
def Number (max : Nat) (t : Str) (n : Nat) : Prop := n ≤ max ∧ Unsigned t n

/-- Dice: `D` for an offered double, or two digits from 0 to 6. -/
def Dice (t : Str) : XDice → Prop
  | .doubleOffered => t = ['D']
  | .rolled a b => a ≤ 6 ∧ b ≤ 6 ∧ t = [Nat.digitChar a, Nat.digitChar b]

/-- The owner of the cube: -1, 0 or 1. -/
def Owner (t : Str) (z : Int) : Prop := -1 ≤ z ∧ z ≤ 1 ∧ Decimal t z

/-- Field `i` reads `t`, with the value `x` has there. -/
def FieldIs (x : Bkgm.Xgid.Xgid) (t : Str) : Nat → Prop
  | 0 => Board t ∧ x.board = t
  | 1 => Number 255 t x.maxCube
  | 2 => Number 65535 t x.matchLength
  | 3 => Number 255 t x.rules
  | 4 => Number 65535 t x.scoreX
  | 5 => Number 65535 t x.scoreO
  | 6 => Dice t x.dice
  | 7 => t = if x.moveFlag then ['1'] else ['0']
  | 8 => Owner t x.cubeOwner
  | 9 => Number 255 t x.cubePower
  | _ => False

/-- The text `t` can stand in field `i`. There is no eleventh field. -/
def Readable (t : Str) (i : Nat) : Prop := ∃ x, FieldIs x t i

/-- The line has exactly ten fields, with the values of `x`. -/
def Line (s : Str) (x : Bkgm.Xgid.Xgid) : Prop :=
  ∃ p ts, Payload s p ∧ Pieces ':' p ts ∧ ts.length = 10 ∧ ∀ i t, ts[i]? = some t → FieldIs x t i

/-- The error for a text that cannot stand in field `i`. -/
def errorOf : Nat → Error
  | 0 => .invalidField "board"
  | 6 => .invalidField "dice"
  | 7 => .invalidField "move_flag"
  | 8 => .invalidField "cube_owner"
  | _ => .invalidPayload

/-- The first thing wrong with the line is at field `k`: it is missing, or its text cannot stand there. -/
def Fails (s : Str) (e : Error) : Prop :=
  ∃ p ts k, Payload s p ∧ Pieces ':' p ts ∧ (∀ i < k, ∃ t, ts[i]? = some t ∧ Readable t i) ∧
    (k < 10 ∧ ts.length = k ∧ e = .invalidPayload ∨ ∃ t, ts[k]? = some t ∧ ¬ Readable t k ∧ e = errorOf k)

end Spec.Xgid
