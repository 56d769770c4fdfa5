import Verif.Model.CheckedGame
import Verif.Model.Xgid
import Verif.Model.Fibs
import Verif.Model.Debug
import Verif.Model.Utf8
/-!
# Text output of positions with every run-time check made explicit

As in `Verif.Model.Checked`: `none` is a panic of a debug build. The functions are transcribed a second time, with their `u8`/`i8` arithmetic and casts.
-/

namespace Bkgm
namespace Chk
variable {N : Nat}

/-- `v as u8` for an `i8` value. (src/codecs/xgid.rs 231-233, src/position.rs 219-228.) -/
def asU8 (v : Int) : Nat := (v % 256).toNat

/-- `n as i8` for a `u8` value. (src/position.rs 136, 141, 150, 156.) -/
def asI8 (n : Nat) : Int := if n < 128 then n else (n : Int) - 256

/-- `x_bar` (src/position.rs 218-222): `self.pips[X_BAR] as u8`. -/
def xBar (p : Pos N) : Option Nat := do
  let v ← get p X_BAR
  pure (asU8 v)

/-- `phase` (src/position.rs 268-291), with the `debug_assert!` of `game_state` and the two `expect`s. -/
def phase (p : Pos N) : Option GamePhase := do
  match ← gameState p with
  | .gameOver r => pure (.gameOver r)
  | .ongoing =>
    let lastOwn ← p.rposX
    let lastOpp ← p.posO
    pure (.ongoing (if lastOwn > lastOpp then .contact else .race))

/-! ## XGID (src/codecs/xgid.rs) -/

/-- `base + (n - 1)` on `u8` (src/codecs/xgid.rs 219, 224, 231, 233). -/
def letter (base n : Nat) : Option Nat := do
  let k ← sub n 1
  u8 (base + k)

/-- The byte of a cell (src/codecs/xgid.rs 227-237). -/
def cellByte (n : Int) : Option Nat :=
  if n > 0 then letter 97 (asU8 n)
  else if n < 0 then do
    let m ← i8 (-n)
    letter 65 (asU8 m)
  else some 45

/-- The byte of a bar (src/codecs/xgid.rs 217-225). -/
def barByte (base n : Nat) : Option Nat := if n > 0 then letter base n else some 45

/-- `range.map(f).collect()` where `f` may panic. (src/codecs/xgid.rs 214-242, src/codecs/fibs.rs 54-73, src/position.rs 128-158.) -/
def mapM {α β : Type} (f : α → Option β) : List α → Option (List β)
  | [] => some []
  | a :: l => do
    let b ← f a
    let r ← mapM f l
    pure (b :: r)

/-- `encode_for_position` (src/codecs/xgid.rs 214-242). -/
def xgidEncode (p : Pos N) : Option Str := do
  let xb ← xBar p
  let first ← barByte 97 xb
  let ob ← oBar p
  let last ← barByte 65 ob
  let mid ← mapM (fun i => do
    let pip ← sub 25 i
    let n ← get p pip
    cellByte n) (List.range' 1 24)
  Stdin.fromUtf8 ((first :: mid ++ [last]).map UInt8.ofNat)

/-! ## FIBS (src/codecs/fibs.rs) -/

/-- The text of one point (src/codecs/fibs.rs 60-69). -/
def fibsToken (n : Int) : Option Str :=
  if n > 0 then some ('x' :: showInt n)
  else if n < 0 then do
    let m ← i8 (-n)
    pure ('o' :: showInt m)
  else some ['-']

/-- `encode_for_position` (src/codecs/fibs.rs 54-73). -/
def fibsEncode (p : Pos N) : Option Str := do
  let xb ← xBar p
  let ob ← oBar p
  let points ← mapM (fun i => do
    let n ← get p i
    fibsToken n) (List.range' 1 24).reverse
  pure ("turn=".toList ++ (if p.turn then ['x'] else ['o']) ++ ";bar=".toList ++ Fibs.showCounts xb ob ++
    ";off=".toList ++ Fibs.showCounts p.xOff p.oOff ++ ";points=".toList ++ join [','] points)

/-! ## `{:?}` and `show` (src/position.rs) -/

/-- A `for` loop that changes a value and may panic. (`Debug for Position`, src/position.rs 383-421.) -/
def foldM {α β : Type} (f : β → α → Option β) : List α → β → Option β
  | [], b => some b
  | a :: l, b => do
    let b ← f b a
    foldM f l b

/-- The text of the `o` line just before the two `pop`s (src/position.rs 405-416): `-self.pips[i]`. -/
def debugO (p : Pos N) : Option Str := do
  let s := "o: {".toList
  let s := if p.oOff > 0 then s ++ ("off:".toList ++ showNat p.oOff ++ ", ".toList) else s
  let s ← foldM (fun s i => do
    let n ← get p i
    if n < 0 then
      let m ← i8 (-n)
      pure (s ++ (showNat i ++ ":".toList ++ showInt m ++ ", ".toList))
    else pure s) (rng 1 X_BAR).reverse s
  let b ← get p O_BAR
  if b < 0 then
    let m ← i8 (-b)
    pure (s ++ ("bar:".toList ++ showInt m ++ ", ".toList))
  else pure s

/-- `fmt::Debug for Position` (src/position.rs 383-421). The `x` line only reads cells `1..=25`. -/
def debugText (p : Pos N) : Option Str := do
  let o ← debugO p
  pure ("Position:\n".toList ++ (p.debugX.dropLast.dropLast ++ "}\n".toList) ++ (o.dropLast.dropLast ++ "}".toList))

/-- `State::print_point` (src/position.rs 160-168). `val.abs()` is evaluated in row 4 only and overflows for -128. -/
def printPoint (value row : Int) : Option Str :=
  if row = 4 then do
    let a ← i8 (if value < 0 then -value else value)
    pure (Pos.printPoint (if value < 0 then -a else a) row)
  else pure (Pos.printPoint value row)

/-- `State::show` (src/position.rs 128-158): the printed lines. -/
def showBoard (p : Pos N) : Option (List Str) := do
  let top ← mapM (fun row : Nat => do
    let cells ← mapM (fun point => do
      let n ← get p point
      let a ← printPoint n row
      if point = 18 then
        let ob ← oBar p
        let v ← i8 (-asI8 ob)
        let b ← printPoint v row
        pure (a ++ ("│".toList ++ b ++ "│".toList))
      else pure (a ++ [])) (rng 13 25)
    let v ← i8 (-asI8 p.oOff)
    let off ← printPoint v row
    pure ("│".toList ++ cells.flatten ++ "│".toList ++ off ++ "│".toList)) (List.range 5)
  let bottom ← mapM (fun row : Nat => do
    let cells ← mapM (fun point => do
      let pre ← if point = 6 then do
          let xb ← xBar p
          let b ← printPoint (asI8 xb) row
          pure ("│".toList ++ b ++ "│".toList)
        else pure []
      let n ← get p point
      let a ← printPoint n row
      pure (pre ++ a)) (rng 1 13).reverse
    let off ← printPoint (asI8 p.xOff) row
    pure ("│".toList ++ cells.flatten ++ "│".toList ++ off ++ "│".toList)) (List.range 5).reverse
  pure (["┌13─14─15─16─17─18─┬───┬19─20─21─22─23─24─┬───┐".toList] ++ top ++
    ["│                  │BAR│                  │OFF│".toList] ++ bottom ++
    ["└12─11─10──9──8──7─┴───┴─6──5──4──3──2──1─┴───┘".toList])

/-! ## Variants -/

/-- `xgid::encode` (src/codecs/xgid.rs 80-90). -/
def xgidEncodeV (q : VPos) : Option Str := q.encodeWith fun _ p => xgidEncode p
/-- `fibs::encode` (src/codecs/fibs.rs 30-40). -/
def fibsEncodeV (q : VPos) : Option Str := q.encodeWith fun _ p => fibsEncode p
/-- `VariantPosition::phase` (src/variants.rs 162-172). -/
def phaseV (q : VPos) : Option GamePhase := q.encodeWith fun _ p => phase p

end Chk
end Bkgm
