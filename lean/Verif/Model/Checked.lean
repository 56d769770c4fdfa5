import Verif.Model.MoveGen
/-!
# The move generator with every run-time check made explicit

The same functions as in `Verif.Model.MoveGen`, transcribed a second time as functions into `Option`, where `none` is a panic of a
debug build: an array index outside `0..26`, an `i8` result outside `-128..=127`, a `u8` result above 255, a `usize`/`u32`
subtraction below zero, or a failing `debug_assert!`. (A release build has only the index checks and wraps the arithmetic; a run
without panic in a debug build is the same run in a release build.)
-/

namespace Bkgm
namespace Chk
variable {N : Nat}

/-- `debug_assert!`. (The assertions of src/position.rs 101, 238, 540, 548, src/dice.rs 41-44, src/position/double_moves.rs 30, 38 and src/position/mixed_moves.rs 23-193.) -/
def assert (c : Bool) : Option Unit := if c then some () else none

/-- `a - b` on an unsigned type. (`usize`, `u32` and `u8` subtractions in src/position.rs 428-549, src/position/double_moves.rs and src/position/mixed_moves.rs.) -/
def sub (a b : Nat) : Option Nat := if b ≤ a then some (a - b) else none

/-- An `i8` result. (Arithmetic on the cells `pips: [i8; 26]`, src/position.rs 173-183.) -/
def i8 (v : Int) : Option Int := if -128 ≤ v ∧ v ≤ 127 then some v else none

/-- A `u8` result. (Arithmetic on `x_off`, `o_off: u8`, src/position.rs 173-183.) -/
def u8 (v : Nat) : Option Nat := if v ≤ 255 then some v else none

/-- `self.pips[i]` with the bounds check. (Cells of src/position.rs 173-183.) -/
def get (p : Pos N) (i : Nat) : Option Int := if i < 26 then some (p.pip i) else none

/-- `self.pips[i] = v` with the bounds check. (Cells of src/position.rs 173-183.) -/
def put (p : Pos N) (i : Nat) (v : Int) : Option (Pos N) := if i < 26 then some (p.set i v) else none

/-- `range.for_each(|i| ...)` where each pass may push results. (Loops of src/position/mixed_moves.rs 31-158, src/position/double_moves.rs 53-100.) -/
def collect {α : Type} (f : Nat → Option (List α)) : List Nat → Option (List α)
  | [] => some []
  | i :: l => do
    let a ← f i
    let b ← collect f l
    pure (a ++ b)

/-- `move_single_checker` (src/position.rs 428-443). -/
def mv (p : Pos N) (src die : Nat) : Option (Pos N) := do
  let v ← get p src
  let v ← i8 (v - 1)
  let p ← put p src v
  if src > die then
    let t ← sub src die
    let w ← get p t
    if w = -1 then
      let p ← put p t 1
      let b ← get p O_BAR
      let b ← i8 (b - 1)
      put p O_BAR b
    else
      let w ← i8 (w + 1)
      put p t w
  else
    let k ← u8 (p.xOff + 1)
    pure { p with xOff := k }

/-- `can_move_internally` (src/position.rs 453-470); the slices `pips[a..b]` need `a <= b <= 26`. -/
def canMoveInternally (p : Pos N) (src die : Nat) : Option Bool := do
  let v ← get p src
  if v < 1 then pure false
  else if src > die then
    let t ← sub src die
    let w ← get p t
    pure (decide (w > -2))
  else if src = die then pure (!p.anyX 7 X_BAR)
  else
    assert (decide (src + 1 ≤ X_BAR))
    pure (!p.anyX (src + 1) X_BAR)

/-- `can_move` (src/position.rs 473-479). -/
def canMove (p : Pos N) (src die : Nat) : Option Bool := do
  let b ← get p X_BAR
  if (src == X_BAR) == decide (b > 0) then canMoveInternally p src die else pure false

/-- `try_move_single_checker` (src/position.rs 517-523). -/
def tryMove (p : Pos N) (src die : Nat) : Option (Option (Pos N)) := do
  let c ← canMove p src die
  if c then
    let q ← mv p src die
    pure (some q)
  else pure none

/-- `can_move_when_bearoff_is_legal` (src/position.rs 481-495). -/
def canMoveB (p : Pos N) (src die : Nat) : Option Bool := do
  let v ← get p src
  if v < 1 then pure false
  else if src > die then
    let t ← sub src die
    let w ← get p t
    pure (decide (w > -2))
  else pure true

/-- One generator loop: `if position.can_move_when_bearoff_is_legal(i, die) { moves.push(...) }`. (src/position/mixed_moves.rs 31-158, src/position/double_moves.rs 53-100.) -/
def movesFrom (p : Pos N) (die : Nat) (range : List Nat) : Option (List (Pos N)) :=
  collect (fun i => do
    let c ← canMoveB p i die
    if c then
      let q ← mv p i die
      pure [q]
    else pure []) range

/-! ## Doubles (src/position/double_moves.rs) -/

/-- `position_after_entering_checkers` (src/position/double_moves.rs 33-51). -/
def afterEntering (p : Pos N) (die : Nat) : Option (Pos N × Nat) := do
  let bar ← get p X_BAR
  if bar = 0 then pure (p, 0)
  else
    let t ← sub X_BAR die
    let w ← get p t
    assert (decide (w > -2))
    let n : Int := min 4 bar
    if n > 0 then
      let b ← get p X_BAR
      let b ← i8 (b - n)
      let q ← put p X_BAR b
      if w = -1 then
        let o ← get q O_BAR
        let o ← i8 (o - 1)
        let q ← put q O_BAR o
        let q ← put q t n
        pure (q, n.toNat)
      else
        let v ← get q t
        let v ← i8 (v + n)
        let q ← put q t v
        pure (q, n.toNat)
    else pure (p, n.toNat)

/-- The `while` loop of `number_of_movable_checkers` (src/position/double_moves.rs 113-126). `pip` counts down from 24 and the loop stops at
`die` at the latest, so that `pip -= 1` cannot underflow. -/
def movableLoop (die maxReturn : Nat) : Nat → Nat → Pos N → Option (Nat × Pos N)
  | 0, c, p => some (c, p)
  | pip + 1, c, p =>
    if c < maxReturn ∧ pip + 1 > die then do
      let ok ← canMoveB p (pip + 1) die
      if ok then
        let k ← get p (pip + 1)
        let q ← put p (pip + 1) 0
        let t ← sub (pip + 1) die
        let w ← get q t
        let q ← if w = -1 then put q t k else do
          let w ← i8 (w + k)
          put q t w
        movableLoop die maxReturn pip (c + k.toNat) q
      else movableLoop die maxReturn pip c p
    else some (c, p)

/-- `.iter().filter(|&&p| p > 0).sum::<i8>()`: every partial sum is an `i8`. (src/position/double_moves.rs 141-145.) -/
def sumI8 : List Int → Int → Option Int
  | [], acc => some acc
  | v :: l, acc => do
    let acc ← i8 (acc + v)
    sumI8 l acc

/-- `number_of_movable_checkers` (src/position/double_moves.rs 102-151). -/
def numberOfMovable (p : Pos N) (die entered : Nat) : Option Nat := do
  let maxReturn ← sub 4 entered
  let r ← movableLoop die maxReturn 24 0 p
  let c := r.1
  let q := r.2
  if c ≥ maxReturn then pure maxReturn
  else
    match q.rposX with
    | none => pure c
    | some biggest => do
      let bearoff ← (if biggest > 6 then pure 0
        else if biggest > die then do
          let v ← get q die
          pure (max 0 v).toNat
        else do
          assert (decide (1 ≤ die + 1 ∧ die + 1 ≤ 26))
          let s ← sumI8 (((rng 1 (die + 1)).map q.pip).filter fun v => decide (v > 0)) 0
          pure s.toNat : Option Nat)
      pure (min (c + bearoff) maxReturn)

/-- `double_moves_after_entering_into` (src/position/double_moves.rs 53-100). -/
def doubleAfterEntering (p : Pos N) (die entered : Nat) : Option (List (Pos N)) := do
  let nr ← numberOfMovable p die entered
  if nr = 0 then pure [p]
  else
    collect (fun i1 => do
      let c ← canMoveB p i1 die
      if c then
        let p1 ← mv p i1 die
        if nr = 1 then pure [p1]
        else collect (fun i2 => do
          let c ← canMoveB p1 i2 die
          if c then
            let p2 ← mv p1 i2 die
            if nr = 2 then pure [p2]
            else collect (fun i3 => do
              let c ← canMoveB p2 i3 die
              if c then
                let p3 ← mv p2 i3 die
                if nr = 3 then pure [p3]
                else movesFrom p3 die (rng (p3.smallestPip die) (i3 + 1))
              else pure []) (rng (p2.smallestPip die) (i2 + 1))
          else pure []) (rng (p1.smallestPip die) (i1 + 1))
      else pure []) (rng (p.smallestPip die) X_BAR)

/-- `all_positions_after_double_move_into` (src/position/double_moves.rs 15-31). -/
def doubleMoves (p : Pos N) (die : Nat) : Option (List (Pos N)) := do
  let b ← get p X_BAR
  let t ← sub X_BAR die
  let w ← get p t
  if b > 0 ∧ w < -1 then pure [p]
  else
    let r ← afterEntering p die
    if r.2 = 4 then pure [r.1]
    else
      let moves ← doubleAfterEntering r.1 die r.2
      assert (!moves.isEmpty)
      pure moves

/-! ## Mixed rolls (src/position/mixed_moves.rs) -/

/-- `can_enter` (src/position/mixed_moves.rs 174-180). -/
def canEnter (p : Pos N) (die : Nat) : Option Bool := do
  let b ← get p X_BAR
  assert (decide (b > 0))
  let t ← sub X_BAR die
  let w ← get p t
  pure (decide (w > -2))

/-- `enter_single_checker` (src/position/mixed_moves.rs 188-206). -/
def enter (p : Pos N) (die : Nat) : Option (Pos N) := do
  let b ← get p X_BAR
  assert (decide (b > 0))
  let t ← sub X_BAR die
  let w ← get p t
  assert (decide (w > -2))
  let b ← i8 (b - 1)
  let p ← put p X_BAR b
  let w ← get p t
  if w = -1 then
    let p ← put p t 1
    let o ← get p O_BAR
    let o ← i8 (o - 1)
    put p O_BAR o
  else
    let w ← i8 (w + 1)
    put p t w

/-- `moves_with_1_checker_on_bar_into` (src/position/mixed_moves.rs 31-78). -/
def mixed1 (p : Pos N) (big small : Nat) : Option (List (Pos N)) := do
  let b ← get p X_BAR
  assert (decide (b = 1))
  let cb ← canEnter p big
  let enterBig ← (if cb then do let q ← enter p big; pure (some q) else pure none : Option (Option (Pos N)))
  let movesBig ← match enterBig with
    | some q => movesFrom q small (rng (small + 1) X_BAR)
    | none => pure []
  let tb ← sub X_BAR big
  let vb ← get p tb
  let differentOutcomes ← (if vb < 0 then pure true else do
    let ts ← sub X_BAR small
    let vs ← get p ts
    pure (decide (vs < 0)) : Option Bool)
  let cs ← canEnter p small
  let enterSmall ← (if cs then do let q ← enter p small; pure (some q) else pure none : Option (Option (Pos N)))
  let movesSmall ← match enterSmall with
    | some q => do
      let ts ← sub X_BAR small
      let range :=
        if differentOutcomes then rng (big + 1) X_BAR
        else rng (big + 1) ts ++ rng (ts + 1) X_BAR
      movesFrom q big range
    | none => pure []
  let moves := movesBig ++ movesSmall
  if moves.isEmpty then
    match enterBig with
    | some q => pure [q]
    | none =>
      match enterSmall with
      | some q => pure [q]
      | none => pure [p]
  else pure moves

/-- `one_checker_moves` (src/position/mixed_moves.rs 100-111). -/
def oneCheckerMoves (p : Pos N) (die : Nat) : Option (List (Pos N)) := do
  let b ← get p X_BAR
  assert (decide (b = 0))
  movesFrom p die (rng (p.smallestPip die) X_BAR)

/-- First half of `two_checker_moves_into` (src/position/mixed_moves.rs 114-131). -/
def smallFirst (p : Pos N) (big small : Nat) : Option (List (Pos N)) :=
  collect (fun i => do
    let c ← canMoveB p i small
    if c then
      let q ← mv p i small
      movesFrom q big (rng (q.smallestPip big) (i + 1)).reverse
    else pure []) (rng (p.smallestPip small) X_BAR).reverse

/-- Second half of `two_checker_moves_into` (src/position/mixed_moves.rs 133-158). -/
def bigFirst (p : Pos N) (big small : Nat) : Option (List (Pos N)) :=
  collect (fun i => do
    let c ← canMoveB p i big
    if c then
      let q ← mv p i big
      let differentOutcomes ← (if i ≥ big then do
          let t ← sub i big
          let v ← get p t
          if v < 0 then pure true else
            let t ← sub i small
            let v ← get p t
            pure (decide (v < 0))
        else pure false : Option Bool)
      let smallestPip := q.smallestPip small
      let range :=
        if differentOutcomes then rng smallestPip i
        else
          let omitted := i - big
          rng smallestPip omitted ++ rng (max smallestPip (omitted + 1)) i
      movesFrom q small range
    else pure []) (rng (p.smallestPip big) X_BAR)

/-- `two_checker_moves_into` (src/position/mixed_moves.rs 113-158). -/
def twoCheckerMoves (p : Pos N) (big small : Nat) : Option (List (Pos N)) := do
  let b ← get p X_BAR
  assert (decide (b = 0))
  let l ← smallFirst p big small
  let m ← bigFirst p big small
  pure (l ++ m)

/-- `moves_with_0_checkers_on_bar_into` (src/position/mixed_moves.rs 80-98). -/
def mixed0 (p : Pos N) (big small : Nat) : Option (List (Pos N)) := do
  let b ← get p X_BAR
  assert (decide (b = 0))
  let two ← twoCheckerMoves p big small
  if two.isEmpty then
    let one ← oneCheckerMoves p big
    if one.isEmpty then
      let one ← oneCheckerMoves p small
      if one.isEmpty then pure [p] else pure one
    else pure one
  else pure two

/-- `moves_with_2_checkers_on_bar_into` (src/position/mixed_moves.rs 160-172). -/
def mixed2 (p : Pos N) (big small : Nat) : Option (List (Pos N)) := do
  let b ← get p X_BAR
  assert (decide (b > 1))
  let c ← canEnter p big
  let q ← if c then enter p big else pure p
  let c ← canEnter q small
  let q ← if c then enter q small else pure q
  pure [q]

/-- `all_positions_after_mixed_move_into` (src/position/mixed_moves.rs 17-29). -/
def mixedMoves (p : Pos N) (big small : Nat) : Option (List (Pos N)) := do
  assert (decide (big > small))
  let b ← get p X_BAR
  if b = 0 then mixed0 p big small
  else if b = 1 then mixed1 p big small
  else mixed2 p big small

/-- `flip` (src/position.rs 301-313): the negation of an `i8`. -/
def flip (p : Pos N) : Option (Pos N) :=
  if ∀ i : Fin 26, -128 ≤ -p.pips i ∧ -p.pips i ≤ 127 then some p.flip else none

/-- `for p in out.iter_mut() { *p = p.flip(); }`. (src/position.rs 545-547.) -/
def flipAll : List (Pos N) → Option (List (Pos N))
  | [] => some []
  | p :: l => do
    let q ← flip p
    let m ← flipAll l
    pure (q :: m)

/-- `generate_legal_positions_in` (src/position.rs 535-549), with its `debug_assert!`s. -/
def legalPositions (p : Pos N) (dice : Dice) : Option (List (Pos N)) := do
  assert (decide (p.oOff < N) && decide (p.xOff < N))
  let out ← match dice with
    | .double die => doubleMoves p die
    | .mixed big small => mixedMoves p big small
  let out ← flipAll out
  assert (!out.isEmpty)
  pure out

end Chk
end Bkgm
