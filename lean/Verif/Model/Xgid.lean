import Verif.Model.TryFrom
import Verif.Model.GnuId
/-!
# Model of `src/codecs/xgid.rs`

An outer `none` is a panic (only possible inside `Position::try_from`). `XgidBoard` (26 ASCII bytes) is a list of characters.
-/

namespace Bkgm.Xgid

/-- `enum XgidError` (src/codecs/xgid.rs 5-13). -/
inductive Error where
  | invalidPayload
  | invalidField (name : String)
  | invalidPosition
  deriving DecidableEq, Repr

/-- `enum XgidDice` (src/codecs/xgid.rs 46-50). -/
inductive XDice where
  | rolled (d1 d2 : Nat)
  | doubleOffered
  deriving DecidableEq, Repr

/-- `struct Xgid` (src/codecs/xgid.rs 29-41), integer fields as numbers (the ranges are in `Xgid.InRange`). -/
structure Xgid where
  board : Str
  maxCube : Nat
  matchLength : Nat
  rules : Nat
  scoreX : Nat
  scoreO : Nat
  dice : XDice
  moveFlag : Bool
  cubeOwner : Int
  cubePower : Nat
  deriving DecidableEq

/-- `b'a'..=b'p'`. (src/codecs/xgid.rs 191-206, 273.) -/
def isLow (c : Char) : Bool := decide ('a' ≤ c ∧ c ≤ 'p')
/-- `b'A'..=b'P'`. (src/codecs/xgid.rs 191-206, 274.) -/
def isUp (c : Char) : Bool := decide ('A' ≤ c ∧ c ≤ 'P')

/-- `parse_board` (src/codecs/xgid.rs 191-206). The length in bytes and in characters differ only for texts with a
non-ASCII character, which give the same error. -/
def parseBoard (s : Str) : Except Error Str :=
  if s.length ≠ 26 then .error (.invalidField "board")
  else if s.all fun c => c = '-' || isLow c || isUp c then .ok s
  else .error (.invalidField "board")

/-- `b'a' + (n - 1)` (src/codecs/xgid.rs 219, 231). Exact as a `u8` for `1 ≤ n ≤ 158`; ASCII for `n ≤ 31`. -/
def lowLetter (n : Nat) : Char := Char.ofNat (97 + n - 1)
/-- `b'A' + (n - 1)` (src/codecs/xgid.rs 224, 233). -/
def upLetter (n : Nat) : Char := Char.ofNat (65 + n - 1)

/-- The character of a cell (src/codecs/xgid.rs 217-237). -/
def cellChar (n : Int) : Char := if n > 0 then lowLetter n.toNat else if n < 0 then upLetter (-n).toNat else '-'

/-- `encode_for_position` (src/codecs/xgid.rs 214-242): character `0` is the bar of `x`, character `25` the bar of `o`, character `i`
the point `25 - i`. -/
def encode {N : Nat} (p : Pos N) : Str :=
  (if p.xBar > 0 then lowLetter p.xBar else '-') ::
    ((List.range' 1 24).map fun i => cellChar (p.pip (25 - i))) ++ [if p.oBar > 0 then upLetter p.oBar else '-']

/-- The number of a board character (src/codecs/xgid.rs 256-275). -/
def charCell (c : Char) : Int :=
  if isLow c then ((c.toNat - 97 + 1 : Nat) : Int) else if isUp c then -((c.toNat - 65 + 1 : Nat) : Int) else 0

/-- `decode_for_position` (src/codecs/xgid.rs 244-280). -/
def decode (dbg : Bool) (N : Nat) (s : Str) : Option (Except Error (Pos N)) :=
  match parseBoard s with
  | .error e => some (.error e)
  | .ok b =>
    if isUp (b.getD 0 '-') || isLow (b.getD 25 '-') then some (.error (.invalidField "board"))
    else (tryFrom dbg N fun i => charCell (b.getD (25 - i.val) '-')).map fun r =>
      match r with
      | .ok p => .ok p
      | .error _ => .error .invalidPosition

/-- `xgid::encode` (src/codecs/xgid.rs 80-90). -/
def encodeV (q : VPos) : Str := q.encodeWith fun _ p => encode p
/-- `xgid::decode` (src/codecs/xgid.rs 92-102). -/
def decodeV (dbg : Bool) (v : Variant) (s : Str) : Option (Except Error VPos) := v.decodeWith (decode dbg) s

/-- `parse_dice` (src/codecs/xgid.rs 282-300). -/
def parseDice (s : Str) : Except Error XDice :=
  if s = ['D'] then .ok .doubleOffered
  else match s with
    | [a, b] =>
      match digitVal a, digitVal b with
      | some d1, some d2 => if d1 > 6 ∨ d2 > 6 then .error (.invalidField "dice") else .ok (.rolled d1 d2)
      | _, _ => .error (.invalidField "dice")
    | _ => .error (.invalidField "dice")

/-- `parts.next().ok_or(InvalidPayload)?.parse().map_err(|_| InvalidPayload)?` for an unsigned field. (src/codecs/xgid.rs 104-169.) -/
def fieldNat (max : Nat) (s : Option Str) : Except Error Nat :=
  match s with
  | none => .error .invalidPayload
  | some s => match parseNat max s with
    | some n => .ok n
    | none => .error .invalidPayload

/-- `parts.next().ok_or(InvalidPayload)?`. (src/codecs/xgid.rs 104-169.) -/
def part (s : Option Str) : Except Error Str := match s with
  | none => .error .invalidPayload
  | some s => .ok s

/-- `match parts.next() { "0" => false, "1" => true, _ => return Err(..) }` (src/codecs/xgid.rs 136-140). -/
def parseFlag (s : Str) : Except Error Bool :=
  if s = ['0'] then .ok false else if s = ['1'] then .ok true else .error (.invalidField "move_flag")

/-- `cube_owner` (src/codecs/xgid.rs 141-148). -/
def parseOwner (s : Str) : Except Error Int :=
  match parseInt 127 s with
  | some z => if -1 ≤ z ∧ z ≤ 1 then .ok z else .error (.invalidField "cube_owner")
  | none => .error (.invalidField "cube_owner")

/-- `parse_xgid` (src/codecs/xgid.rs 104-169): the fields in the order of the code, each error as in the code. -/
def parse (input : Str) : Except Error Xgid := do
  let raw := trim input
  let payload := (stripPrefix "XGID=".toList raw).getD raw
  let parts := splitChar ':' payload
  let board ← parseBoard (← part parts[0]?)
  let maxCube ← fieldNat 255 parts[1]?
  let matchLength ← fieldNat 65535 parts[2]?
  let rules ← fieldNat 255 parts[3]?
  let scoreX ← fieldNat 65535 parts[4]?
  let scoreO ← fieldNat 65535 parts[5]?
  let dice ← parseDice (← part parts[6]?)
  let moveFlag ← parseFlag (← part parts[7]?)
  let cubeOwner ← parseOwner (← part parts[8]?)
  let cubePower ← fieldNat 255 parts[9]?
  if parts[10]?.isSome then .error .invalidPayload
  else .ok { board, maxCube, matchLength, rules, scoreX, scoreO, dice, moveFlag, cubeOwner, cubePower }

/-- The dice field (src/codecs/xgid.rs 172-175). -/
def showDice : XDice → Str
  | .rolled d1 d2 => showNat d1 ++ showNat d2
  | .doubleOffered => ['D']

/-- `format_xgid` (src/codecs/xgid.rs 171-189). -/
def format (x : Xgid) : Str :=
  "XGID=".toList ++ join [':'] [x.board, showNat x.maxCube, showNat x.matchLength, showNat x.rules, showNat x.scoreX,
    showNat x.scoreO, showDice x.dice, if x.moveFlag then ['1'] else ['0'], showInt x.cubeOwner, showNat x.cubePower]

end Bkgm.Xgid
