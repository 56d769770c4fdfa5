import Verif.Model.TryFrom
import Verif.Model.GnuId
/-!
# Model of `src/codecs/fibs.rs`

An outer `none` is a panic: an `i8` overflow in a build with overflow checks (`dbg = true`).
-/

namespace Bkgm.Fibs

/-- `enum FibsError` (src/codecs/fibs.rs 6-14). -/
inductive Error where
  | invalidPayload
  | invalidField (name : String)
  | invalidPosition
  deriving DecidableEq, Repr

/-- `format!("x{},o{}", x, o)` (src/codecs/fibs.rs 56-57). -/
def showCounts (x o : Nat) : Str := 'x' :: showNat x ++ ',' :: 'o' :: showNat o

/-- The text of one point (src/codecs/fibs.rs 60-69). `-n` is exact for `n > -128`. -/
def pointToken (n : Int) : Str :=
  if n > 0 then 'x' :: showInt n else if n < 0 then 'o' :: showInt (-n) else ['-']

/-- `encode_for_position` (src/codecs/fibs.rs 54-73). -/
def encode {N : Nat} (p : Pos N) : Str :=
  "turn=".toList ++ (if p.turn then ['x'] else ['o']) ++ ";bar=".toList ++ showCounts p.xBar p.oBar ++
    ";off=".toList ++ showCounts p.xOff p.oOff ++ ";points=".toList ++
    join [','] ((List.range' 1 24).reverse.map fun i => pointToken (p.pip i))

/-- The four `Option<String>` variables of `decode_for_position` (src/codecs/fibs.rs 76-79). -/
structure Fields where
  turn : Option Str := none
  bar : Option Str := none
  off : Option Str := none
  points : Option Str := none

/-- The loop over `text.split(';')` (src/codecs/fibs.rs 81-90). -/
def readFields : List Str → Fields → Except Error Fields
  | [], f => .ok f
  | part :: rest, f =>
    match splitOnce '=' part with
    | none => .error .invalidPayload
    | some (k, v) =>
      if trim k = "turn".toList then readFields rest { f with turn := some (trim v) }
      else if trim k = "bar".toList then readFields rest { f with bar := some (trim v) }
      else if trim k = "off".toList then readFields rest { f with off := some (trim v) }
      else if trim k = "points".toList then readFields rest { f with points := some (trim v) }
      else .error .invalidPayload

/-- The loop of `parse_two_counts` (src/codecs/fibs.rs 152-167). -/
def readCounts : List Str → Option Nat → Option Nat → Except Error (Option Nat × Option Nat)
  | [], x, o => .ok (x, o)
  | chunk :: rest, x, o =>
    match stripPrefix ['x'] (trim chunk) with
    | some r => match parseNat 255 r with
      | some n => readCounts rest (some n) o
      | none => .error (.invalidField "count")
    | none => match stripPrefix ['o'] (trim chunk) with
      | some r => match parseNat 255 r with
        | some n => readCounts rest x (some n)
        | none => .error (.invalidField "count")
      | none => .error (.invalidField "count")

/-- `parse_two_counts` (src/codecs/fibs.rs 149-172). -/
def parseTwoCounts (raw : Str) : Except Error (Nat × Nat) :=
  match readCounts (splitChar ',' raw) none none with
  | .error e => .error e
  | .ok (some x, some o) => .ok (x, o)
  | .ok _ => .error (.invalidField "count")

/-- `parse_point_token` (src/codecs/fibs.rs 174-190). The negation at line 186 overflows for `-128`. -/
def parsePoint (dbg : Bool) (token : Str) : Option (Except Error Int) :=
  if token = ['-'] then some (.ok 0)
  else match stripPrefix ['x'] token with
    | some r => match parseInt 127 r with
      | some z => some (.ok z)
      | none => some (.error (.invalidField "points"))
    | none => match stripPrefix ['o'] token with
      | some r => match parseInt 127 r with
        | some z => (i8 dbg (-z)).map .ok
        | none => some (.error (.invalidField "points"))
      | none => some (.error (.invalidField "points"))

/-- The loop over the 24 point tokens (src/codecs/fibs.rs 105-112), `n` tokens to go: the cells read, first token first. -/
def readPoints (dbg : Bool) : Nat → List Str → Option (Except Error (List Int))
  | 0, [] => some (.ok [])
  | 0, _ :: _ => some (.error .invalidPayload)
  | _ + 1, [] => some (.error .invalidPayload)
  | n + 1, t :: ts =>
    (parsePoint dbg (trim t)).bind fun
      | .error e => some (.error e)
      | .ok z => (readPoints dbg n ts).map fun
        | .error e => .error e
        | .ok l => .ok (z :: l)

/-- The array `pips` (src/codecs/fibs.rs 97-109): the bars, and point `24 - idx` from token `idx`. -/
def cells (xBar oBar : Int) (pts : List Int) : Fin 26 → Int := fun i =>
  if i.val = 25 then xBar else if i.val = 0 then oBar else pts.getD (24 - i.val) 0

/-- The end of `decode_for_position` (src/codecs/fibs.rs 114-123). -/
def finish {N : Nat} (turn : Str) (xOff oOff : Nat) (p : Pos N) : Except Error (Pos N) :=
  if turn = ['o'] then
    if p.flip.xOff ≠ xOff ∨ p.flip.oOff ≠ oOff then .error .invalidPosition else .ok p.flip
  else if turn ≠ ['x'] then .error (.invalidField "turn")
  else if p.xOff ≠ xOff ∨ p.oOff ≠ oOff then .error .invalidPosition else .ok p

/-- `decode_for_position` (src/codecs/fibs.rs 75-124). `x_bar as i8` wraps; `-(o_bar as i8)` overflows for 128. -/
def decode (dbg : Bool) (N : Nat) (text : Str) : Option (Except Error (Pos N)) :=
  match readFields (splitChar ';' text) {} with
  | .error e => some (.error e)
  | .ok f =>
    match f.turn, f.bar, f.off, f.points with
    | some turn, some bar, some off, some points =>
      match parseTwoCounts bar with
      | .error e => some (.error e)
      | .ok (xBar, oBar) =>
        match parseTwoCounts off with
        | .error e => some (.error e)
        | .ok (xOff, oOff) =>
          (i8 dbg (-(wrap8 oBar))).bind fun o =>
          (readPoints dbg 24 (splitChar ',' points)).bind fun
            | .error e => some (.error e)
            | .ok pts =>
              (tryFrom dbg N (cells (wrap8 xBar) o pts)).map fun
                | .error _ => .error .invalidPosition
                | .ok p => finish turn xOff oOff p
    | _, _, _, _ => some (.error .invalidPayload)

/-- `fibs::encode` (src/codecs/fibs.rs 30-40). -/
def encodeV (q : VPos) : Str := q.encodeWith fun _ p => encode p
/-- `fibs::decode` (src/codecs/fibs.rs 42-52). -/
def decodeV (dbg : Bool) (v : Variant) (s : Str) : Option (Except Error VPos) := v.decodeWith (decode dbg) s

end Bkgm.Fibs
