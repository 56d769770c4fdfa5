import Verif.Spec.Game
import Mathlib.Probability.ProductMeasure
import Mathlib.Probability.Distributions.Uniform
/-!
# Random dice — specification
-/

namespace Bkgm
open MeasureTheory

/-- An ideal random source: numbers `ω 0, ω 1, ...` below 36 for the ordinary rolls, and a number `first` below 30 for the first roll of an
episode. (If it were asked for a number below `n` other than 30 and 36, it would give a remainder.) -/
def idealRng (first : Fin 30) (ω : Nat → Fin 36) : Rng Nat where
  below n k := if n = 30 then (first, k) else (ω k % n, k + 1)

/-- The numbers of the source are independent, and each of the 36 is equally likely. -/
noncomputable def uniformRolls : Measure (Nat → Fin 36) := Measure.infinitePi fun _ => (PMF.uniformOfFintype (Fin 36)).toMeasure

/-- The episode of at most `max` plies with these dice leaves the game unfinished: `max` plies were played, and the game is not over. -/
def Unfinished {π : Type} (pick : Game.Policy π) (g : Game) (t : π) (first : Fin 30) (max : Nat) (ω : Nat → Fin 36) : Prop :=
  ∃ r, Game.playEpisode classicRules (fastrandDice (idealRng first ω)) pick max g 0 t = some r ∧ r.result = .ok max ∧
    r.game.position.gameState = .ongoing

/-- The chance of a roll: 1 in 36 for a double, 2 in 36 for any other. -/
noncomputable def chance : Dice → ENNReal
  | .double _ => 1 / 36
  | .mixed _ _ => 2 / 36

end Bkgm
