/-!
# Model of the Rust string operations used by the crate

A Rust `str` is modelled as its list of characters.
-/

namespace Bkgm

/-- `str` / `String` as its sequence of characters (all text of src/codecs, src/ubgi.rs, src/engine_spec.rs and src/bin; its UTF-8 bytes are in Model/Utf8.lean). -/
abbrev Str := List Char

/-- `char::is_whitespace` (Unicode `White_Space`). (`trim` and `split_whitespace` in src/codecs, src/ubgi.rs 278, src/ubgi/runtime.rs 87-281, src/engine_spec.rs 19-88, src/variants.rs 48.) -/
def isWs (c : Char) : Bool :=
  let n := c.toNat
  (9 ≤ n && n ≤ 13) || n == 0x20 || n == 0x85 || n == 0xA0 || n == 0x1680 || (0x2000 ≤ n && n ≤ 0x200A) ||
    n == 0x2028 || n == 0x2029 || n == 0x202F || n == 0x205F || n == 0x3000

/-- `str::trim_start`. (As part of `trim`, src/codecs/move_text.rs 145.) -/
def trimStart (s : Str) : Str := s.dropWhile isWs
/-- `str::trim_end`. (As part of `trim`, src/codecs/move_text.rs 145.) -/
def trimEnd (s : Str) : Str := (s.reverse.dropWhile isWs).reverse
/-- `str::trim`. (src/codecs/move_text.rs 145, 290, 385, src/codecs/xgid.rs 105, src/codecs/fibs.rs 83-87, src/ubgi/runtime.rs 87-181, src/engine_spec.rs 20-88, src/variants.rs 48.) -/
def trim (s : Str) : Str := trimEnd (trimStart s)

/-- `char::to_ascii_lowercase`. (src/codecs/move_text.rs 385, src/variants.rs 48.) -/
def lowerC (c : Char) : Char := if 'A' ≤ c ∧ c ≤ 'Z' then Char.ofNat (c.toNat + 32) else c
/-- `str::to_ascii_lowercase`. (src/codecs/move_text.rs 385, 398, 411, src/variants.rs 48, src/bin/bkgm-perft.rs 52.) -/
def lower (s : Str) : Str := s.map lowerC
/-- `str::eq_ignore_ascii_case`. (src/codecs/move_text.rs 145, 290.) -/
def eqIgnoreCase (s t : Str) : Bool := lower s == lower t

/-- `str::split(c)` for a single character: always at least one piece. (src/codecs/move_text.rs 151, src/codecs/xgid.rs 107, src/codecs/fibs.rs 81, 104, 152, src/engine_spec.rs 30.) -/
def splitChar (c : Char) : Str → List Str
  | [] => [[]]
  | x :: s =>
    if x = c then [] :: splitChar c s
    else
      match splitChar c s with
      | [] => [[x]]
      | t :: ts => (x :: t) :: ts

/-- `str::split_once(c)` for a single character: split at the first occurrence. (src/codecs/move_text.rs 295, src/codecs/fibs.rs 82, src/engine_spec.rs 19, 36, 84.) -/
def splitOnce (c : Char) : Str → Option (Str × Str)
  | [] => none
  | x :: s => if x = c then some ([], s) else (splitOnce c s).map fun (a, b) => (x :: a, b)

/-- `str::split_whitespace`: maximal runs of non-whitespace characters. (src/codecs/move_text.rs 149, src/ubgi.rs 278.) -/
def splitWsAux : Str → Str → List Str
  | [], acc => if acc.isEmpty then [] else [acc]
  | x :: s, acc =>
    if isWs x then (if acc.isEmpty then splitWsAux s [] else acc :: splitWsAux s [])
    else splitWsAux s (acc ++ [x])

/-- `str::split_whitespace`. (src/codecs/move_text.rs 149, 294, src/ubgi.rs 278, src/ubgi/runtime.rs 277.) -/
def splitWs (s : Str) : List Str := splitWsAux s []

/-- `str::strip_prefix`. (src/codecs/xgid.rs 106, src/codecs/fibs.rs 154-183, src/ubgi/runtime.rs 115-133.) -/
def stripPrefix : Str → Str → Option Str
  | [], s => some s
  | _ :: _, [] => none
  | p :: ps, c :: s => if p = c then stripPrefix ps s else none

/-- `[T]::join(sep)` on strings. (src/codecs/move_text.rs 163, 381, src/codecs/fibs.rs 71, src/ubgi.rs 197, 308, src/engine_spec.rs 79.) -/
def join (sep : Str) : List Str → Str
  | [] => []
  | [s] => s
  | s :: t :: l => s ++ sep ++ join sep (t :: l)

/-- Value of a decimal digit character. (As part of `parse`, src/codecs/move_text.rs 389.) -/
def digitVal (c : Char) : Option Nat := if '0' ≤ c ∧ c ≤ '9' then some (c.toNat - 48) else none

/-- Digits to a number, most significant first; `none` if a character is not a digit. (As part of `parse`, src/codecs/move_text.rs 389.) -/
def digitsVal : Str → Nat → Option Nat
  | [], acc => some acc
  | c :: s, acc => (digitVal c).bind fun d => digitsVal s (10 * acc + d)

/-- An optional leading `+`. (As part of `parse`, src/codecs/move_text.rs 389.) -/
def stripPlus : Str → Str
  | '+' :: t => t
  | s => s

/-- `s.parse::<uN>()` for an unsigned type with maximum `max`: an optional `+`, then at least one digit, value at most
`max`; anything else is an error (`none`). (src/codecs/move_text.rs 389, 402, 412, src/codecs/xgid.rs 112-151, src/codecs/fibs.rs 156, 161, src/ubgi/runtime.rs 281-282, src/bin/bkgm-perft.rs 15.) -/
def parseNat (max : Nat) (s : Str) : Option Nat :=
  if (stripPlus s).isEmpty then none
  else (digitsVal (stripPlus s) 0).bind fun n => if n ≤ max then some n else none

/-- `s.parse::<iN>()` for a signed type with range `-(max+1)..=max`: an optional `+` or `-`, then at least one digit. (src/codecs/fibs.rs 180, 185, src/ubgi.rs 241.) -/
def parseInt (max : Nat) (s : Str) : Option Int :=
  match s with
  | '-' :: t =>
    if t.isEmpty then none
    else (digitsVal t 0).bind fun n => if n ≤ max + 1 then some (-(n : Int)) else none
  | _ => (parseNat max s).map Int.ofNat

/-- `Display` of an unsigned integer. (Numbers in `format!`, src/codecs/xgid.rs 171-189, src/codecs/fibs.rs 54-73, src/codecs/move_text.rs 439-445.) -/
def showNat (n : Nat) : Str := Nat.toDigits 10 n
/-- `Display` of a signed integer. (Numbers in `format!`, src/codecs/fibs.rs 54-73, src/ubgi.rs 89-101.) -/
def showInt (z : Int) : Str := if z < 0 then '-' :: showNat z.natAbs else showNat z.toNat

end Bkgm
