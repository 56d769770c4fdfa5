import Verif.Spec.Finish
/-!
# Dice that end a game whatever the players do — specification
-/

namespace Bkgm

/-- `Forced n q`: rolls can be chosen, each one after seeing the position, so that whichever legal positions the two players choose, the game
that stands at `q` is over within `n` plies. -/
def Forced : Nat → VPos → Prop
  | 0, q => q.gameState ≠ .ongoing
  | n + 1, q => q.gameState ≠ .ongoing ∨ ∃ dice : Dice, dice.Valid ∧ ∀ c ∈ classicRules q dice, Forced n c

/-- A sequence of positions played with the rolls `dice`: every position at which the game is not over is followed by a legal position for the
roll made there. How the players choose is left open. -/
def PlayedWith (pos : Nat → VPos) (dice : Nat → Dice) : Prop :=
  ∀ n, (pos n).gameState = .ongoing → (dice n).Valid ∧ pos (n + 1) ∈ classicRules (pos n) (dice n)

/-- The dice leave nothing out for ever: when a position comes up again and again, every legal roll is made there again and again. (Nothing is
asked of the players.) -/
def FairDice (pos : Nat → VPos) (dice : Nat → Dice) : Prop :=
  ∀ (q : VPos) (d : Dice), d.Valid → Recurs pos q → ∀ n, ∃ m, n ≤ m ∧ pos m = q ∧ dice m = d

end Bkgm
