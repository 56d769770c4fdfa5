import Verif.Model.Game
import Verif.Spec.Valid
/-!
# Game histories — specification
-/

namespace Bkgm

/-- The board shown by a variant position. -/
def VPos.view : VPos → Spec.Board
  | .backgammon p | .nackgammon p | .longgammon p => p.view
  | .hypergammon p => p.view
  | .hypergammon2 p => p.view
  | .hypergammon4 p => p.view
  | .hypergammon5 p => p.view

/-- The documented number of checkers per side of a variant. -/
def Variant.checkers : Variant → Nat
  | .backgammon | .nackgammon | .longgammon => 15
  | .hypergammon => 3
  | .hypergammon2 => 2
  | .hypergammon4 => 4
  | .hypergammon5 => 5

/-- A valid position of the variant `v`. -/
def VPos.ValidFor (v : Variant) (q : VPos) : Prop := q.variant = v ∧ Spec.Valid v.checkers q.view

/-- The positions of a game of variant `v`: the start position, and every legal child (for some legal roll) of a position of
the game. -/
inductive Reachable (v : Variant) : VPos → Prop
  | start : Reachable v v.startPosition
  | ply {q c : VPos} {dice : Dice} : Reachable v q → dice.Valid → c ∈ classicRules q dice → Reachable v c

/-- The same, but a ply is only made while the game is not over. -/
inductive Played (v : Variant) : VPos → Prop
  | start : Played v v.startPosition
  | ply {q c : VPos} {dice : Dice} : Played v q → q.gameState = .ongoing → dice.Valid → c ∈ classicRules q dice → Played v c

/-- The operations on a `Game` (with either supplied rule set). -/
inductive GameStep : Game → Game → Prop
  | setPosition (g : Game) (q : VPos) : GameStep g (g.setPosition q).1
  | reset (g : Game) : GameStep g g.reset
  | applyNth (g : Game) (R : VariantRules) (hR : R = classicRules ∨ R = noHitRules) (dice : Dice) (i : Nat) :
      GameStep g (g.applyNth R dice i).1
  | playEpisode {σ π : Type} (g : Game) (R : VariantRules) (hR : R = classicRules ∨ R = noHitRules) (gen : DiceGen σ)
      (pick : Game.Policy π) (max : Nat) (s : σ) (t : π) (r : Game.EpisodeResult σ π)
      (h : Game.playEpisode R gen pick max g s t = some r) : GameStep g r.game

/-- Any sequence of operations. -/
inductive GameSteps : Game → Game → Prop
  | refl (g : Game) : GameSteps g g
  | step {g h k : Game} : GameSteps g h → GameStep h k → GameSteps g k

/-- `Plies R gen pick first p s t l p' s' t'`: the plies `l` (dice and chosen index), played one after the other from position
`p`: the dice come from `gen` (the first roll of the episode by `roll_mixed`, the others by `roll`), the index from the
policy, which is shown the position, the dice and the legal positions; the next position is the legal position with
that index; and no ply is made from a position reached in the episode at which the game is over. -/
inductive Plies {σ π : Type} (R : VariantRules) (gen : DiceGen σ) (pick : Game.Policy π) :
    Bool → VPos → σ → π → List (Dice × Nat) → VPos → σ → π → Prop
  | nil (first : Bool) (p : VPos) (s : σ) (t : π) : Plies R gen pick first p s t [] p s t
  | cons {first : Bool} {p q p' : VPos} {s s1 s' : σ} {t t1 t' : π} {dice : Dice} {i : Nat} {l : List (Dice × Nat)} :
      (if first then gen.rollMixed s else gen.roll s) = some (dice, s1) →
      pick t p dice (R p dice) = (i, t1) →
      (R p dice)[i]? = some q →
      (l ≠ [] → q.gameState = .ongoing) →
      Plies R gen pick false q s1 t1 l p' s' t' →
      Plies R gen pick first p s t ((dice, i) :: l) p' s' t'

end Bkgm
