import Verif.Model.Position
import Verif.Model.Str
/-!
# Model of the text output of positions: `fmt::Debug` and `State::show`
-/

namespace Bkgm
namespace Pos
variable {N : Nat}

/-- The text `s` of the `x` line just before the two `pop`s (src/position.rs 388-399). -/
def debugX (p : Pos N) : Str :=
  let s := "x: {".toList
  let s := if p.pip X_BAR > 0 then s ++ ("bar:".toList ++ showInt (p.pip X_BAR) ++ ", ".toList) else s
  let s := (rng 1 X_BAR).reverse.foldl (fun s i =>
    if p.pip i > 0 then s ++ (showNat i ++ ":".toList ++ showInt (p.pip i) ++ ", ".toList) else s) s
  if p.xOff > 0 then s ++ ("off:".toList ++ showNat p.xOff ++ ", ".toList) else s

/-- The text `s` of the `o` line just before the two `pop`s (src/position.rs 405-416). -/
def debugO (p : Pos N) : Str :=
  let s := "o: {".toList
  let s := if p.oOff > 0 then s ++ ("off:".toList ++ showNat p.oOff ++ ", ".toList) else s
  let s := (rng 1 X_BAR).reverse.foldl (fun s i =>
    if p.pip i < 0 then s ++ (showNat i ++ ":".toList ++ showInt (-p.pip i) ++ ", ".toList) else s) s
  if p.pip O_BAR < 0 then s ++ ("bar:".toList ++ showInt (-p.pip O_BAR) ++ ", ".toList) else s

/-- `fmt::Debug for Position` (src/position.rs 383-421), the `{:?}` text. `s.pop()` is `List.dropLast`. The negation of
an `i8` is exact on the integers of the model (it overflows only for -128). -/
def debugText (p : Pos N) : Str :=
  "Position:\n".toList ++ (p.debugX.dropLast.dropLast ++ "}\n".toList) ++ (p.debugO.dropLast.dropLast ++ "}".toList)

/-- `State::print_point` (src/position.rs 160-168). The guards use `i8` numbers; `abs` is exact here. -/
def printPoint (value : Int) (row : Int) : Str :=
  if row = 4 ∧ value.natAbs > 9 then showNat value.natAbs ++ " ".toList
  else if row = 4 ∧ value.natAbs > 5 then " ".toList ++ showNat value.natAbs ++ " ".toList
  else if value > row then " X ".toList
  else if value < -row then " O ".toList
  else "   ".toList

/-- `State::show` (src/position.rs 128-158): the printed lines. `-(self.o_bar() as i8)` etc. are exact here. -/
def showBoard (p : Pos N) : List Str :=
  ["┌13─14─15─16─17─18─┬───┬19─20─21─22─23─24─┬───┐".toList] ++
  (List.range 5).map (fun row : Nat =>
    "│".toList ++
    ((rng 13 25).flatMap fun point =>
      printPoint (p.pip point) row ++
        (if point = 18 then "│".toList ++ printPoint (-(p.oBar : Int)) row ++ "│".toList else [])) ++
    "│".toList ++ printPoint (-(p.oOff : Int)) row ++ "│".toList) ++
  ["│                  │BAR│                  │OFF│".toList] ++
  (List.range 5).reverse.map (fun row : Nat =>
    "│".toList ++
    ((rng 1 13).reverse.flatMap fun point =>
      (if point = 6 then "│".toList ++ printPoint (p.xBar : Int) row ++ "│".toList else []) ++
        printPoint (p.pip point) row) ++
    "│".toList ++ printPoint (p.xOff : Int) row ++ "│".toList) ++
  ["└12─11─10──9──8──7─┴───┴─6──5──4──3──2──1─┴───┘".toList]

end Pos
end Bkgm
