import Verif.Model.MoveGen
/-!
# The rules of backgammon, stated independently of the code

A `Board` is seen by the player to move, called `x`. Points are numbered by the distance `x` still has
to travel: 1..24, with 25 for `x`'s bar. The opponent `o` moves the other way; number 0 is `o`'s bar.
`Board.x i`, `Board.o i` are the numbers of checkers at number `i`.
-/

namespace Spec

structure Board where
  x : Nat → Nat
  o : Nat → Nat
  xOff : Nat
  oOff : Nat

/-- Point-wise update of a counting function. -/
def upd (f : Nat → Nat) (i v : Nat) : Nat → Nat := fun j => if j = i then v else f j

/-- The rules for moving one checker of `x` from `src` (25 = bar) by `die` pips. -/
structure CanStep (b : Board) (src die : Nat) : Prop where
  /-- the checker comes from a point or the bar -/
  range : 1 ≤ src ∧ src ≤ 25
  /-- there is a checker of `x` there -/
  own : 1 ≤ b.x src
  /-- as long as `x` has a checker on the bar, only bar checkers may move -/
  barFirst : 1 ≤ b.x 25 → src = 25
  /-- a point held by two or more opposing checkers is blocked -/
  unblocked : die < src → b.o (src - die) ≤ 1
  /-- bearing off needs all checkers in the home board (points 1..6) -/
  home : src ≤ die → ∀ i, 7 ≤ i → b.x i = 0
  /-- bearing off with a die larger than the point needs no checker further back -/
  noneBehind : src < die → ∀ i, src < i → b.x i = 0

/-- The board after such a move: bear off, hit a blot, or simply move. -/
def after (b : Board) (src die : Nat) : Board :=
  if src ≤ die then
    { b with x := upd b.x src (b.x src - 1), xOff := b.xOff + 1 }
  else
    let t := src - die
    let x' := upd (upd b.x src (b.x src - 1)) t (b.x t + 1)
    if b.o t = 1 then { b with x := x', o := upd (upd b.o t 0) 0 (b.o 0 + 1) }
    else { b with x := x' }

/-- `Play b used b'`: single-checker moves with the dice `used`, in this order, lead from `b` to `b'`. -/
inductive Play : Board → List Nat → Board → Prop
  | nil (b : Board) : Play b [] b
  | cons {b b' : Board} {src die : Nat} {rest : List Nat} :
      CanStep b src die → Play (after b src die) rest b' → Play b (die :: rest) b'

/-- `used` uses each of the available `dice` at most once (as multisets). -/
def Uses (dice used : List Nat) : Prop := ∀ v, used.count v ≤ dice.count v

/-- A complete legal play for the rolled `dice`: as many dice as possible are used, and if only one
can be used, no larger die could have been used instead. -/
def Legal (dice : List Nat) (b b' : Board) : Prop :=
  ∃ used, Uses dice used ∧ Play b used b' ∧
    (∀ used' b'', Uses dice used' → Play b used' b'' → used'.length ≤ used.length) ∧
    (∀ d d' b'', used = [d] → Uses dice [d'] → Play b [d'] b'' → d' ≤ d)

/-- The dice at the player's disposal: two different numbers, or four times the same. -/
def faces : Bkgm.Dice → List Nat
  | .mixed big small => [big, small]
  | .double die => [die, die, die, die]

end Spec

namespace Bkgm
/-- Abstraction: the board shown by a model position, from the point of view of its player `x`
(positive cells are `x`'s checkers, negative cells are `o`'s). -/
def Pos.view {N : Nat} (p : Pos N) : Spec.Board where
  x i := (p.pip i).toNat
  o i := (-p.pip i).toNat
  xOff := p.xOff
  oOff := p.oOff

/-- The only well-formedness used by the rules: cell 25 is `x`'s bar, cell 0 is `o`'s bar. -/
def Pos.BarsOK {N : Nat} (p : Pos N) : Prop := p.pip 0 ≤ 0 ∧ 0 ≤ p.pip 25

instance {N : Nat} (p : Pos N) : Decidable p.BarsOK := by unfold Pos.BarsOK; infer_instance
end Bkgm
