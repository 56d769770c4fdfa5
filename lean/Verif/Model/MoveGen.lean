import Verif.Model.Position
/-!
# Model of the move generator
`src/position/double_moves.rs`, `src/position/mixed_moves.rs`, `src/position.rs` 526-549,
`src/rules.rs`.
-/

namespace Bkgm
namespace Pos
variable {N : Nat}

/-! ## Doubles (`src/position/double_moves.rs`) -/

/-- `position_after_entering_checkers` (src/position/double_moves.rs 33-51). -/
def afterEntering (p : Pos N) (die : Nat) : Pos N × Nat :=
  if p.pip X_BAR = 0 then (p, 0)
  else
    let n : Int := min 4 (p.pip X_BAR)
    let q :=
      if n > 0 then
        let q := p.set X_BAR (p.pip X_BAR - n)
        if p.pip (X_BAR - die) = -1 then
          let q := q.set O_BAR (q.pip O_BAR - 1)
          q.set (X_BAR - die) n
        else q.set (X_BAR - die) (q.pip (X_BAR - die) + n)
      else p
    (q, n.toNat)

/-- The `while` loop of `number_of_movable_checkers` (src/position/double_moves.rs 113-126). State: current
`pip`, `number_of_checkers`, `position`. -/
def movableLoop (die maxReturn : Nat) : Nat → Nat → Pos N → Nat × Pos N
  | 0, c, p => (c, p)
  | pip + 1, c, p =>
    if c < maxReturn ∧ pip + 1 > die then
      if p.canMoveB (pip + 1) die then
        let k := p.pip (pip + 1)
        let q := p.set (pip + 1) 0
        let q :=
          if q.pip (pip + 1 - die) = -1 then q.set (pip + 1 - die) k
          else q.set (pip + 1 - die) (q.pip (pip + 1 - die) + k)
        movableLoop die maxReturn pip (c + k.toNat) q
      else movableLoop die maxReturn pip c p
    else (c, p)

/-- `number_of_movable_checkers` (src/position/double_moves.rs 102-151). -/
def numberOfMovable (p : Pos N) (die entered : Nat) : Nat :=
  let maxReturn := 4 - entered
  let (c, q) := movableLoop die maxReturn 24 0 p
  if c ≥ maxReturn then maxReturn
  else
    match q.rposX with
    | none => c
    | some biggest =>
      let bearoff : Nat :=
        if biggest > 6 then 0
        else if biggest > die then (max 0 (q.pip die)).toNat
        else ((((rng 1 (die + 1)).map q.pip).filter (fun v => decide (v > 0))).sum).toNat
      min (c + bearoff) maxReturn

/-- `double_moves_after_entering_into` (src/position/double_moves.rs 53-100): four nested loops. -/
def doubleAfterEntering (p : Pos N) (die entered : Nat) : List (Pos N) :=
  let nr := p.numberOfMovable die entered
  if nr = 0 then [p]
  else
    (rng (p.smallestPip die) X_BAR).flatMap fun i1 =>
      if p.canMoveB i1 die then
        let p1 := p.mv i1 die
        if nr = 1 then [p1]
        else (rng (p1.smallestPip die) (i1 + 1)).flatMap fun i2 =>
          if p1.canMoveB i2 die then
            let p2 := p1.mv i2 die
            if nr = 2 then [p2]
            else (rng (p2.smallestPip die) (i2 + 1)).flatMap fun i3 =>
              if p2.canMoveB i3 die then
                let p3 := p2.mv i3 die
                if nr = 3 then [p3]
                else (rng (p3.smallestPip die) (i3 + 1)).flatMap fun i4 =>
                  if p3.canMoveB i4 die then [p3.mv i4 die] else []
              else []
          else []
      else []

/-- `all_positions_after_double_move_into` (src/position/double_moves.rs 15-31). -/
def doubleMoves (p : Pos N) (die : Nat) : List (Pos N) :=
  if p.pip X_BAR > 0 ∧ p.pip (X_BAR - die) < -1 then [p]
  else
    let (q, entered) := p.afterEntering die
    if entered = 4 then [q] else q.doubleAfterEntering die entered

/-! ## Mixed rolls (`src/position/mixed_moves.rs`) -/

/-- `can_enter` (src/position/mixed_moves.rs 174-180). -/
def canEnter (p : Pos N) (die : Nat) : Bool := decide (p.pip (X_BAR - die) > -2)

/-- `enter_single_checker` (src/position/mixed_moves.rs 188-206). -/
def enter (p : Pos N) (die : Nat) : Pos N :=
  let p := p.set X_BAR (p.pip X_BAR - 1)
  if p.pip (X_BAR - die) = -1 then
    let p := p.set (X_BAR - die) 1
    p.set O_BAR (p.pip O_BAR - 1)
  else p.set (X_BAR - die) (p.pip (X_BAR - die) + 1)

/-- One generator loop: for each `i` of the range, if the checker can move, push the result. (src/position/mixed_moves.rs 41-46, 61-66, 105-110, 125-130, 150-155, src/position/double_moves.rs 88-93.) -/
def movesFrom (p : Pos N) (die : Nat) (range : List Nat) : List (Pos N) :=
  range.flatMap fun i => if p.canMoveB i die then [p.mv i die] else []

/-- `moves_with_1_checker_on_bar_into` (src/position/mixed_moves.rs 31-78). -/
def mixed1 (p : Pos N) (big small : Nat) : List (Pos N) :=
  let enterBig := if p.canEnter big then some (p.enter big) else none
  let movesBig :=
    match enterBig with
    | some q => q.movesFrom small (rng (small + 1) X_BAR)
    | none => []
  let differentOutcomes := decide (p.pip (X_BAR - big) < 0) || decide (p.pip (X_BAR - small) < 0)
  let enterSmall := if p.canEnter small then some (p.enter small) else none
  let movesSmall :=
    match enterSmall with
    | some q =>
      let range :=
        if differentOutcomes then rng (big + 1) X_BAR
        else rng (big + 1) (X_BAR - small) ++ rng (X_BAR - small + 1) X_BAR
      q.movesFrom big range
    | none => []
  let moves := movesBig ++ movesSmall
  if moves.isEmpty then
    match enterBig with
    | some q => [q]
    | none =>
      match enterSmall with
      | some q => [q]
      | none => [p]
  else moves

/-- `one_checker_moves` (src/position/mixed_moves.rs 100-111). -/
def oneCheckerMoves (p : Pos N) (die : Nat) : List (Pos N) :=
  p.movesFrom die (rng (p.smallestPip die) X_BAR)

/-- First half of `two_checker_moves_into` (src/position/mixed_moves.rs 114-131): `small` first. -/
def smallFirst (p : Pos N) (big small : Nat) : List (Pos N) :=
  (rng (p.smallestPip small) X_BAR).reverse.flatMap fun i =>
    if p.canMoveB i small then
      let q := p.mv i small
      q.movesFrom big (rng (q.smallestPip big) (i + 1)).reverse
    else []

/-- Second half of `two_checker_moves_into` (src/position/mixed_moves.rs 133-158): `big` first. -/
def bigFirst (p : Pos N) (big small : Nat) : List (Pos N) :=
  (rng (p.smallestPip big) X_BAR).flatMap fun i =>
    if p.canMoveB i big then
      let q := p.mv i big
      let differentOutcomes :=
        decide (i ≥ big) && (decide (p.pip (i - big) < 0) || decide (p.pip (i - small) < 0))
      let smallestPip := q.smallestPip small
      let range :=
        if differentOutcomes then rng smallestPip i
        else
          let omitted := i - big
          rng smallestPip omitted ++ rng (max smallestPip (omitted + 1)) i
      q.movesFrom small range
    else []

/-- `moves_with_0_checkers_on_bar_into` (src/position/mixed_moves.rs 80-98). -/
def mixed0 (p : Pos N) (big small : Nat) : List (Pos N) :=
  let two := p.smallFirst big small ++ p.bigFirst big small
  if two.isEmpty then
    let one := p.oneCheckerMoves big
    if one.isEmpty then
      let one := p.oneCheckerMoves small
      if one.isEmpty then [p] else one
    else one
  else two

/-- `moves_with_2_checkers_on_bar_into` (src/position/mixed_moves.rs 160-172). -/
def mixed2 (p : Pos N) (big small : Nat) : List (Pos N) :=
  let q := if p.canEnter big then p.enter big else p
  let q := if q.canEnter small then q.enter small else q
  [q]

/-- `all_positions_after_mixed_move_into` (src/position/mixed_moves.rs 17-29). -/
def mixedMoves (p : Pos N) (big small : Nat) : List (Pos N) :=
  if p.pip X_BAR = 0 then p.mixed0 big small
  else if p.pip X_BAR = 1 then p.mixed1 big small
  else p.mixed2 big small

/-- The `match dice` of `generate_legal_positions_in` (src/position.rs 541-544): the positions after the
play, still seen by the mover. -/
def playedPositions (p : Pos N) : Dice → List (Pos N)
  | .double die => p.doubleMoves die
  | .mixed big small => p.mixedMoves big small

/-- `generate_legal_positions(_in)` (src/position.rs 526-549), which is `ClassicRules`
(src/rules.rs 30-34): every generated position is flipped. The `debug_assert!`s are treated in the
checked model. -/
def legalPositions (p : Pos N) (dice : Dice) : List (Pos N) := (p.playedPositions dice).map flip

/-- `NoHitRules` (src/rules.rs 71-82). -/
def noHitPositions (p : Pos N) (dice : Dice) : List (Pos N) :=
  (p.legalPositions dice).filter fun next => decide (next.oBar ≤ p.oBar)

end Pos
end Bkgm
