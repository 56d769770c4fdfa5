import Verif.Spec.Game
/-!
# Lines of play and fair sequences of plies — specification
-/

namespace Bkgm

/-- `Leads q n r`: `n` plies of ordinary play lead from `q` to `r`; each is made with a legal roll, to a legal position, and from a position
at which the game is not over. -/
inductive Leads : VPos → Nat → VPos → Prop
  | nil (q : VPos) : Leads q 0 q
  | cons {q c r : VPos} {n : Nat} {dice : Dice} :
      q.gameState = .ongoing → dice.Valid → c ∈ classicRules q dice → Leads c n r → Leads q (n + 1) r

/-- Few checkers are left: the player to move has at most four and the opponent at most eleven, or both have at most five. -/
def FewLeft (v : Variant) (q : VPos) : Prop :=
  v.checkers ≤ q.view.xOff + 4 ∧ v.checkers ≤ q.view.oOff + 11 ∨ v.checkers ≤ q.view.xOff + 5 ∧ v.checkers ≤ q.view.oOff + 5

/-- A sequence of positions in which every position at which the game is not over is followed by a legal position for some legal roll. (What
follows a position at which the game is over does not matter.) -/
def Run (pos : Nat → VPos) : Prop :=
  ∀ n, (pos n).gameState = .ongoing → ∃ dice : Dice, dice.Valid ∧ pos (n + 1) ∈ classicRules (pos n) dice

/-- The position `q` comes up again and again. -/
def Recurs (pos : Nat → VPos) (q : VPos) : Prop := ∀ n, ∃ m, n ≤ m ∧ pos m = q

/-- Nothing is left out for ever: when a position at which the game is not over comes up again and again, then for every legal roll every legal
position is played from it again and again. (Random dice and a policy that gives every legal position a positive chance are fair with
probability one.) -/
def Fair (pos : Nat → VPos) : Prop :=
  ∀ (q c : VPos) (dice : Dice), q.gameState = .ongoing → dice.Valid → c ∈ classicRules q dice → Recurs pos q →
    ∀ n, ∃ m, n ≤ m ∧ pos m = q ∧ pos (m + 1) = c

end Bkgm
