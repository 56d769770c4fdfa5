import Verif.Model.MoveGen
import Verif.Model.Str
/-!
# Model of `src/variants.rs` and of the variant-level rules in `src/rules.rs`
-/

namespace Bkgm

/-- `enum Variant` (src/variants.rs 9-17). -/
inductive Variant where
  | backgammon | nackgammon | longgammon | hypergammon | hypergammon2 | hypergammon4 | hypergammon5
  deriving DecidableEq, Repr

/-- `VARIANTS` (src/variants.rs 19-27). -/
def variants : List Variant :=
  [.backgammon, .nackgammon, .longgammon, .hypergammon, .hypergammon2, .hypergammon4, .hypergammon5]

/-- `Display for Variant` (src/variants.rs 29-41). -/
def Variant.toText : Variant → Str
  | .backgammon => "backgammon".toList
  | .nackgammon => "nackgammon".toList
  | .longgammon => "longgammon".toList
  | .hypergammon => "hypergammon".toList
  | .hypergammon2 => "hypergammon2".toList
  | .hypergammon4 => "hypergammon4".toList
  | .hypergammon5 => "hypergammon5".toList

/-- `FromStr for Variant` (src/variants.rs 43-58). -/
def Variant.parse (s : Str) : Option Variant :=
  let t := lower (trim s)
  if t = "backgammon".toList then some .backgammon
  else if t = "nackgammon".toList then some .nackgammon
  else if t = "longgammon".toList then some .longgammon
  else if t = "hypergammon".toList then some .hypergammon
  else if t = "hypergammon2".toList then some .hypergammon2
  else if t = "hypergammon4".toList then some .hypergammon4
  else if t = "hypergammon5".toList then some .hypergammon5
  else none

/-- `enum VariantPosition` (src/variants.rs 60-69). -/
inductive VPos where
  | backgammon (p : Pos 15)
  | nackgammon (p : Pos 15)
  | longgammon (p : Pos 15)
  | hypergammon (p : Pos 3)
  | hypergammon2 (p : Pos 2)
  | hypergammon4 (p : Pos 4)
  | hypergammon5 (p : Pos 5)
  deriving DecidableEq

/-- A position constant from its 26 cells with nobody off (the `const`s below). (src/variants.rs 199-260.) -/
def constPos (N : Nat) (l : List Int) : Pos N := ⟨true, fun i => l.getD i.val 0, 0, 0⟩

/-- `BACKGAMMON` (src/variants.rs 199-206). -/
def BACKGAMMON : Pos 15 := constPos 15
  [0, -2, 0, 0, 0, 0, 5, 0, 3, 0, 0, 0, -5, 5, 0, 0, 0, -3, 0, -5, 0, 0, 0, 0, 2, 0]
/-- `NACKGAMMON` (src/variants.rs 208-215). -/
def NACKGAMMON : Pos 15 := constPos 15
  [0, -2, -2, 0, 0, 0, 4, 0, 3, 0, 0, 0, -4, 4, 0, 0, 0, -3, 0, -4, 0, 0, 0, 2, 2, 0]
/-- `HYPERGAMMON` (src/variants.rs 217-224). -/
def HYPERGAMMON : Pos 3 := constPos 3
  [0, -1, -1, -1, 0, 0, 0, 0, 0, 0, 0, 0, 0, 0, 0, 0, 0, 0, 0, 0, 0, 0, 1, 1, 1, 0]
/-- `HYPERGAMMON2` (src/variants.rs 226-233). -/
def HYPERGAMMON2 : Pos 2 := constPos 2
  [0, -1, -1, 0, 0, 0, 0, 0, 0, 0, 0, 0, 0, 0, 0, 0, 0, 0, 0, 0, 0, 0, 0, 1, 1, 0]
/-- `HYPERGAMMON4` (src/variants.rs 235-242). -/
def HYPERGAMMON4 : Pos 4 := constPos 4
  [0, -1, -1, -1, -1, 0, 0, 0, 0, 0, 0, 0, 0, 0, 0, 0, 0, 0, 0, 0, 0, 1, 1, 1, 1, 0]
/-- `HYPERGAMMON5` (src/variants.rs 244-251). -/
def HYPERGAMMON5 : Pos 5 := constPos 5
  [0, -1, -1, -1, -1, -1, 0, 0, 0, 0, 0, 0, 0, 0, 0, 0, 0, 0, 0, 0, 1, 1, 1, 1, 1, 0]
/-- `LONGGAMMON` (src/variants.rs 253-260). -/
def LONGGAMMON : Pos 15 := constPos 15
  [0, -15, 0, 0, 0, 0, 0, 0, 0, 0, 0, 0, 0, 0, 0, 0, 0, 0, 0, 0, 0, 0, 0, 0, 15, 0]

/-- `struct VariantSpec` (src/variants.rs 71-76). -/
structure VariantSpec where
  name : Str
  numCheckers : Nat
  start : VPos

/-- `Variant::spec` (src/variants.rs 78-118). -/
def Variant.spec : Variant → VariantSpec
  | .backgammon => ⟨"Backgammon".toList, 15, .backgammon BACKGAMMON⟩
  | .nackgammon => ⟨"Nackgammon".toList, 15, .nackgammon NACKGAMMON⟩
  | .longgammon => ⟨"Longgammon".toList, 15, .longgammon LONGGAMMON⟩
  | .hypergammon => ⟨"Hypergammon (3)".toList, 3, .hypergammon HYPERGAMMON⟩
  | .hypergammon2 => ⟨"Hypergammon (2)".toList, 2, .hypergammon2 HYPERGAMMON2⟩
  | .hypergammon4 => ⟨"Hypergammon (4)".toList, 4, .hypergammon4 HYPERGAMMON4⟩
  | .hypergammon5 => ⟨"Hypergammon (5)".toList, 5, .hypergammon5 HYPERGAMMON5⟩

/-- `Variant::start_position` (src/variants.rs 120-122). -/
def Variant.startPosition (v : Variant) : VPos := v.spec.start

namespace VPos

/-- `VariantPosition::variant` (src/variants.rs 126-136). -/
def variant : VPos → Variant
  | .backgammon _ => .backgammon
  | .nackgammon _ => .nackgammon
  | .longgammon _ => .longgammon
  | .hypergammon _ => .hypergammon
  | .hypergammon2 _ => .hypergammon2
  | .hypergammon4 _ => .hypergammon4
  | .hypergammon5 _ => .hypergammon5

/-- `VariantPosition::num_checkers` (src/variants.rs 138-148). -/
def numCheckers : VPos → Nat
  | .backgammon _ => 15
  | .nackgammon _ => 15
  | .longgammon _ => 15
  | .hypergammon _ => 3
  | .hypergammon2 _ => 2
  | .hypergammon4 _ => 4
  | .hypergammon5 _ => 5

/-- `VariantPosition::turn` (src/variants.rs 150-160). -/
def turn : VPos → Bool
  | .backgammon p => p.turn
  | .nackgammon p => p.turn
  | .longgammon p => p.turn
  | .hypergammon p => p.turn
  | .hypergammon2 p => p.turn
  | .hypergammon4 p => p.turn
  | .hypergammon5 p => p.turn

/-- `VariantPosition::phase` (src/variants.rs 162-172). -/
def phase : VPos → Option GamePhase
  | .backgammon p => p.phase
  | .nackgammon p => p.phase
  | .longgammon p => p.phase
  | .hypergammon p => p.phase
  | .hypergammon2 p => p.phase
  | .hypergammon4 p => p.phase
  | .hypergammon5 p => p.phase

/-- `VariantPosition::game_state` (src/variants.rs 174-184). -/
def gameState : VPos → GameState
  | .backgammon p => p.gameState
  | .nackgammon p => p.gameState
  | .longgammon p => p.gameState
  | .hypergammon p => p.gameState
  | .hypergammon2 p => p.gameState
  | .hypergammon4 p => p.gameState
  | .hypergammon5 p => p.gameState

/-- `==` on `VariantPosition` (derived, src/variants.rs 60): same variant and equal positions (turn ignored). -/
def eqv : VPos → VPos → Bool
  | .backgammon p, .backgammon q => p.eqv q
  | .nackgammon p, .nackgammon q => p.eqv q
  | .longgammon p, .longgammon q => p.eqv q
  | .hypergammon p, .hypergammon q => p.eqv q
  | .hypergammon2 p, .hypergammon2 q => p.eqv q
  | .hypergammon4 p, .hypergammon4 q => p.eqv q
  | .hypergammon5 p, .hypergammon5 q => p.eqv q
  | _, _ => false

end VPos

/-- `trait VariantRules` (src/rules.rs 9-11). -/
abbrev VariantRules := VPos → Dice → List VPos

/-- `VariantRules for ClassicRules` (src/rules.rs 36-68). -/
def classicRules : VariantRules
  | .backgammon p, dice => (p.legalPositions dice).map .backgammon
  | .nackgammon p, dice => (p.legalPositions dice).map .nackgammon
  | .longgammon p, dice => (p.legalPositions dice).map .longgammon
  | .hypergammon p, dice => (p.legalPositions dice).map .hypergammon
  | .hypergammon2 p, dice => (p.legalPositions dice).map .hypergammon2
  | .hypergammon4 p, dice => (p.legalPositions dice).map .hypergammon4
  | .hypergammon5 p, dice => (p.legalPositions dice).map .hypergammon5

/-- `VariantRules for NoHitRules` (src/rules.rs 84-117). -/
def noHitRules : VariantRules
  | .backgammon p, dice => (p.noHitPositions dice).map .backgammon
  | .nackgammon p, dice => (p.noHitPositions dice).map .nackgammon
  | .longgammon p, dice => (p.noHitPositions dice).map .longgammon
  | .hypergammon p, dice => (p.noHitPositions dice).map .hypergammon
  | .hypergammon2 p, dice => (p.noHitPositions dice).map .hypergammon2
  | .hypergammon4 p, dice => (p.noHitPositions dice).map .hypergammon4
  | .hypergammon5 p, dice => (p.noHitPositions dice).map .hypergammon5

end Bkgm
