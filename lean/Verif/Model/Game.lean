import Verif.Model.Variants
import Verif.Model.DiceGen
/-!
# Model of `src/game.rs`
-/

namespace Bkgm

/-- `enum GameError` (src/game.rs 7-15). -/
inductive GameError where
  | variantMismatch | legalMoveIndexOutOfBounds | policyIndexOutOfBounds
  deriving DecidableEq, Repr

/-- `struct Game` (src/game.rs 17-21). -/
structure Game where
  variant : Variant
  position : VPos
  deriving DecidableEq

namespace Game

/-- `Game::new` (src/game.rs 24-29). -/
def new (v : Variant) : Game := ⟨v, v.startPosition⟩

/-- `set_position` (src/game.rs 39-45): the new game and the returned `Result`. -/
def setPosition (g : Game) (q : VPos) : Game × Except GameError Unit :=
  if q.variant ≠ g.variant then (g, .error .variantMismatch)
  else ({ g with position := q }, .ok ())

/-- `reset` (src/game.rs 47-49). -/
def reset (g : Game) : Game := { g with position := g.variant.startPosition }

/-- `legal_positions_with::<R>` (src/game.rs 55-57); `legal_positions` is the instance `classicRules`. -/
def legalPositionsWith (R : VariantRules) (g : Game) (dice : Dice) : List VPos := R g.position dice

/-- `apply_nth_legal_position_with::<R>` (src/game.rs 63-74). -/
def applyNth (R : VariantRules) (g : Game) (dice : Dice) (index : Nat) : Game × Except GameError Unit :=
  let legal := g.legalPositionsWith R dice
  if h : index ≥ legal.length then (g, .error .legalMoveIndexOutOfBounds)
  else ({ g with position := legal[index]'(by omega) }, .ok ())

/-- A policy `FnMut(VariantPosition, &Dice, &[VariantPosition]) -> usize` with its captured state. (src/game.rs 88-91.) -/
abbrev Policy (π : Type) := π → VPos → Dice → List VPos → Nat × π

/-- Everything a call of `play_episode_with` changes or returns. (src/game.rs 84-120.) -/
structure EpisodeResult (σ π : Type) where
  game : Game
  dice : σ
  policy : π
  result : Except GameError Nat

/-- The `for ply in 0..max_plies` loop of `play_episode_with` (src/game.rs 84-120), with `ply` done and `left` remaining
plies. `none`: a dice call does not return. -/
def playLoop {σ π : Type} (R : VariantRules) (gen : DiceGen σ) (pick : Policy π) :
    (left ply : Nat) → Game → σ → π → Option (EpisodeResult σ π)
  | 0, ply, g, s, t => some ⟨g, s, t, .ok ply⟩
  | left + 1, ply, g, s, t =>
    (if ply = 0 then gen.rollMixed s else gen.roll s).bind fun r =>
      let dice := r.1
      let s := r.2
      let legal := g.legalPositionsWith R dice
      if legal.isEmpty then some ⟨g, s, t, .ok ply⟩
      else
        let c := pick t g.position dice legal
        if h : c.1 ≥ legal.length then some ⟨g, s, c.2, .error .policyIndexOutOfBounds⟩
        else
          let g := { g with position := legal[c.1]'(by omega) }
          match g.position.gameState with
          | .gameOver _ => some ⟨g, s, c.2, .ok (ply + 1)⟩
          | .ongoing => playLoop R gen pick left (ply + 1) g s c.2

/-- `play_episode_with::<R, D, P>` (src/game.rs 84-120); `play_episode` is the instance `classicRules`. -/
def playEpisode {σ π : Type} (R : VariantRules) (gen : DiceGen σ) (pick : Policy π) (maxPlies : Nat) (g : Game) (s : σ)
    (t : π) : Option (EpisodeResult σ π) := playLoop R gen pick maxPlies 0 g s t

end Game
end Bkgm
