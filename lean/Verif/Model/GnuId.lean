import Verif.Model.Variants
import Verif.Model.Str
/-!
# Model of `src/codecs/gnuid.rs`

`base64` is an external crate; its `general_purpose::STANDARD` engine (standard alphabet, canonical padding required,
unused bits must be zero) is modelled here by `b64Encode` / `b64Decode`. An outer `none` is a panic.
-/

namespace Bkgm

/-- The standard base64 alphabet. (`general_purpose::STANDARD` in src/codecs/gnuid.rs 56, 66.) -/
def b64Alphabet : List Char := "ABCDEFGHIJKLMNOPQRSTUVWXYZabcdefghijklmnopqrstuvwxyz0123456789+/".toList

/-- The character of a 6-bit value. (`general_purpose::STANDARD` in src/codecs/gnuid.rs 56.) -/
def enc6 (n : Nat) : Char := b64Alphabet.getD n '='
/-- The 6-bit value of a character. (`general_purpose::STANDARD` in src/codecs/gnuid.rs 66.) -/
def dec6 (c : Char) : Option Nat := b64Alphabet.findIdx? (· = c)

/-- `STANDARD.encode(bytes)`. (src/codecs/gnuid.rs 56.) -/
def b64Encode : List Nat → Str
  | [] => []
  | [a] => [enc6 (a / 4), enc6 (a % 4 * 16), '=', '=']
  | [a, b] => [enc6 (a / 4), enc6 (a % 4 * 16 + b / 16), enc6 (b % 16 * 4), '=']
  | a :: b :: c :: rest =>
    enc6 (a / 4) :: enc6 (a % 4 * 16 + b / 16) :: enc6 (b % 16 * 4 + c / 64) :: enc6 (c % 64) :: b64Encode rest

/-- `STANDARD.decode(text)`; `none` is a `DecodeError`. (src/codecs/gnuid.rs 66-67.) -/
def b64Decode : Str → Option (List Nat)
  | [] => some []
  | a :: b :: c :: d :: rest =>
    (dec6 a).bind fun va => (dec6 b).bind fun vb =>
    if c = '=' ∧ d = '=' ∧ rest = [] then
      if vb % 16 = 0 then some [va * 4 + vb / 16] else none
    else (dec6 c).bind fun vc =>
      if d = '=' ∧ rest = [] then
        if vc % 4 = 0 then some [va * 4 + vb / 16, vb % 16 * 16 + vc / 4] else none
      else (dec6 d).bind fun vd => (b64Decode rest).bind fun l =>
        some ((va * 4 + vb / 16) :: (vb % 16 * 16 + vc / 4) :: (vc % 4 * 64 + vd) :: l)
  | _ => none

namespace GnuId

/-- `key[bit_index / 8] |= 1 << (bit_index % 8)` (src/codecs/gnuid.rs 85 and three times more); `none` is the index panic. -/
def setBit (key : List Nat) (i : Nat) : Option (List Nat) :=
  if h : i / 8 < key.length then some (key.set (i / 8) (key[i / 8] ||| (1 <<< (i % 8)))) else none

/-- `for _ in 0..n { key[..] |= ..; bit_index += 1 }` (src/codecs/gnuid.rs 84-87). State: key and `bit_index`. -/
def writeOnes : Nat → List Nat × Nat → Option (List Nat × Nat)
  | 0, s => some s
  | n + 1, (key, i) => (setBit key i).bind fun key => writeOnes n (key, i + 1)

/-- The same followed by `bit_index += 1` (src/codecs/gnuid.rs 84-88). -/
def writeRun (n : Nat) (s : List Nat × Nat) : Option (List Nat × Nat) :=
  (writeOnes n s).map fun t => (t.1, t.2 + 1)

/-- `encode_key` (src/codecs/gnuid.rs 79-109). -/
def encodeKey {N : Nat} (p : Pos N) : Option (List Nat) :=
  ((List.range' 1 24).reverse.foldlM (fun s i => writeRun (-p.pip i).toNat s) (List.replicate 10 0, 0)).bind fun s =>
  (writeRun p.oBar s).bind fun s =>
  ((List.range' 1 24).foldlM (fun s i => writeRun (p.pip i).toNat s) s).bind fun s =>
  (writeOnes p.xBar s).map Prod.fst

/-- The bits `key[bit_index / 8] >> (bit_index % 8) & 1` for `bit_index = 0, 1, ...`, as long as the index is in range. (src/codecs/gnuid.rs 119-145.) -/
def keyBits (key : List Nat) : List Bool := key.flatMap fun b => (List.range 8).map b.testBit

/-- `while bit == 1 { count += 1; bit_index += 1 } bit_index += 1` (src/codecs/gnuid.rs 119-124, 126-131, 134-139), and the last
loop (141-145), whose position afterwards does not matter. The argument is the bits from `bit_index` on; running past
the last one is the index panic `none`. -/
def readRun : List Bool → Option (Nat × List Bool)
  | [] => none
  | false :: r => some (0, r)
  | true :: r => (readRun r).map fun t => (t.1 + 1, t.2)

/-- `k` such runs, one after the other. (src/codecs/gnuid.rs 118-145.) -/
def readRuns : Nat → List Bool → Option (List Nat × List Bool)
  | 0, r => some ([], r)
  | k + 1, r => (readRun r).bind fun t => (readRuns k t.2).map fun u => (t.1 :: u.1, u.2)

/-- `N - pieces` on `u8` (src/codecs/gnuid.rs 150-151): in a debug build an underflow panics. -/
def sub8 (dbg : Bool) (a b : Nat) : Option Nat :=
  if b ≤ a then some (a - b) else if dbg then none else some ((a + 256 - b) % 256)

/-- `decode_key` (src/codecs/gnuid.rs 111-153): the runs are, in this order, `o` on 24..1, `o` on the bar, `x` on 1..24, `x` on
the bar. A cell gets the number of `x` minus the number of `o`. -/
def decodeKey (dbg : Bool) (N : Nat) (key : List Nat) : Option (Pos N) :=
  (readRuns 25 (keyBits key)).bind fun o =>
  (readRuns 25 o.2).bind fun x =>
  (sub8 dbg N x.1.sum).bind fun xOff =>
  (sub8 dbg N o.1.sum).bind fun oOff =>
  some ⟨true, fun i =>
    (if i.val = 0 then 0 else (x.1.getD (i.val - 1) 0 : Int)) - (if i.val = 25 then 0 else (o.1.getD (24 - i.val) 0 : Int)),
    xOff, oOff⟩

/-- `enum GnuidError` (src/codecs/gnuid.rs 8-14). -/
inductive Error where
  | invalidPayload | keyLength
  deriving DecidableEq, Repr

/-- `encode_for_position` / `encode_position` (src/codecs/gnuid.rs 54-62). -/
def encode {N : Nat} (p : Pos N) : Option Str :=
  (encodeKey p).map fun key => (b64Encode key).take 14

/-- `decode_for_position::<N>` / `decode_position` (src/codecs/gnuid.rs 64-78). -/
def decode (dbg : Bool) (N : Nat) (id : Str) : Option (Except Error (Pos N)) :=
  match b64Decode (id ++ ['=', '=']) with
  | none => some (.error .invalidPayload)
  | some key => if key.length ≠ 10 then some (.error .keyLength) else (decodeKey dbg N key).map .ok

end GnuId

/-- The dispatch of the three codecs over `VariantPosition` when encoding (src/codecs/gnuid.rs 30-40, src/codecs/xgid.rs 79-89,
src/codecs/fibs.rs 31-41). -/
def VPos.encodeWith {α : Type} (f : ∀ N : Nat, Pos N → α) : VPos → α
  | .backgammon p => f 15 p
  | .nackgammon p => f 15 p
  | .longgammon p => f 15 p
  | .hypergammon p => f 3 p
  | .hypergammon2 p => f 2 p
  | .hypergammon4 p => f 4 p
  | .hypergammon5 p => f 5 p

/-- The dispatch of the three codecs over `Variant` when decoding (src/codecs/gnuid.rs 42-52, src/codecs/xgid.rs 91-101,
src/codecs/fibs.rs 43-53). -/
def Variant.decodeWith {ε : Type} (f : ∀ N : Nat, Str → Option (Except ε (Pos N))) (v : Variant) (s : Str) :
    Option (Except ε VPos) :=
  match v with
  | .backgammon => (f 15 s).map (·.map .backgammon)
  | .nackgammon => (f 15 s).map (·.map .nackgammon)
  | .longgammon => (f 15 s).map (·.map .longgammon)
  | .hypergammon => (f 3 s).map (·.map .hypergammon)
  | .hypergammon2 => (f 2 s).map (·.map .hypergammon2)
  | .hypergammon4 => (f 4 s).map (·.map .hypergammon4)
  | .hypergammon5 => (f 5 s).map (·.map .hypergammon5)

namespace GnuId
/-- `gnuid::encode` (src/codecs/gnuid.rs 30-40). -/
def encodeV (q : VPos) : Option Str := q.encodeWith fun _ p => encode p
/-- `gnuid::decode` (src/codecs/gnuid.rs 42-52). -/
def decodeV (dbg : Bool) (v : Variant) (s : Str) : Option (Except Error VPos) := v.decodeWith (decode dbg) s
end GnuId

end Bkgm
