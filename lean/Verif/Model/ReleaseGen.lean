import Verif.Model.Checked
import Verif.Model.TryFrom
/-!
# The move generator of a release build

The functions of `Verif.Model.Checked`, transcribed for a build without overflow checks and `debug_assert!`s: `i8`, `u8` and `usize` results wrap; `none` is a
panic, which only an index or a slice out of range can cause. `pips[i]`, `pips[i] = v` and the loops are those of the checked model (`Chk.get`, `Chk.put`,
`Chk.collect`), and `Chk.assert` stands for the bounds check of a slice.
-/

namespace Bkgm
namespace Rel
variable {N : Nat}

/-- `a - b` on `usize`. (src/position.rs 428-495, src/position/double_moves.rs, src/position/mixed_moves.rs.) -/
def sub (a b : Nat) : Nat := (a + 2 ^ 64 - b) % 2 ^ 64

/-- An `i8` cast to `u32`. (src/position/double_moves.rs 50, 123, 145.) -/
def asU32 (v : Int) : Nat := (v % 2 ^ 32).toNat

/-- `move_single_checker` (src/position.rs 428-443). -/
def mv (p : Pos N) (src die : Nat) : Option (Pos N) := do
  let v ← Chk.get p src
  let p ← Chk.put p src (wrap8 (v - 1))
  if src > die then
    let w ← Chk.get p (sub src die)
    if w = -1 then
      let p ← Chk.put p (sub src die) 1
      let b ← Chk.get p O_BAR
      Chk.put p O_BAR (wrap8 (b - 1))
    else
      Chk.put p (sub src die) (wrap8 (w + 1))
  else
    pure { p with xOff := (p.xOff + 1) % 256 }

/-- `can_move_internally` (src/position.rs 453-470); the slices `pips[a..b]` need `a <= b <= 26`. -/
def canMoveInternally (p : Pos N) (src die : Nat) : Option Bool := do
  let v ← Chk.get p src
  if v < 1 then pure false
  else if src > die then
    let w ← Chk.get p (sub src die)
    pure (decide (w > -2))
  else if src = die then pure (!p.anyX 7 X_BAR)
  else
    Chk.assert (decide (src + 1 ≤ X_BAR))
    pure (!p.anyX (src + 1) X_BAR)

/-- `can_move` (src/position.rs 473-479). -/
def canMove (p : Pos N) (src die : Nat) : Option Bool := do
  let b ← Chk.get p X_BAR
  if (src == X_BAR) == decide (b > 0) then canMoveInternally p src die else pure false

/-- `try_move_single_checker` (src/position.rs 517-523). -/
def tryMove (p : Pos N) (src die : Nat) : Option (Option (Pos N)) := do
  let c ← canMove p src die
  if c then
    let q ← mv p src die
    pure (some q)
  else pure none

/-- `can_move_when_bearoff_is_legal` (src/position.rs 481-495). -/
def canMoveB (p : Pos N) (src die : Nat) : Option Bool := do
  let v ← Chk.get p src
  if v < 1 then pure false
  else if src > die then
    let w ← Chk.get p (sub src die)
    pure (decide (w > -2))
  else pure true

/-- One generator loop: `if position.can_move_when_bearoff_is_legal(i, die) { moves.push(...) }`. (src/position/mixed_moves.rs 31-158, src/position/double_moves.rs 53-100.) -/
def movesFrom (p : Pos N) (die : Nat) (range : List Nat) : Option (List (Pos N)) :=
  Chk.collect (fun i => do
    let c ← canMoveB p i die
    if c then
      let q ← mv p i die
      pure [q]
    else pure []) range

/-! ## Doubles (src/position/double_moves.rs) -/

/-- `position_after_entering_checkers` (src/position/double_moves.rs 33-51). -/
def afterEntering (p : Pos N) (die : Nat) : Option (Pos N × Nat) := do
  let bar ← Chk.get p X_BAR
  if bar = 0 then pure (p, 0)
  else
    let n : Int := min 4 bar
    if n > 0 then
      let b ← Chk.get p X_BAR
      let q ← Chk.put p X_BAR (wrap8 (b - n))
      let w ← Chk.get p (sub X_BAR die)
      if w = -1 then
        let o ← Chk.get q O_BAR
        let q ← Chk.put q O_BAR (wrap8 (o - 1))
        let q ← Chk.put q (sub X_BAR die) n
        pure (q, asU32 n)
      else
        let v ← Chk.get q (sub X_BAR die)
        let q ← Chk.put q (sub X_BAR die) (wrap8 (v + n))
        pure (q, asU32 n)
    else pure (p, asU32 n)

/-- The `while` loop of `number_of_movable_checkers` (src/position/double_moves.rs 113-126). `pip` counts down from 24 and the loop stops at
`die` at the latest. `number_to_move as u32` is exact because the number is positive, and the sum is at most 3 + 127. -/
def movableLoop (die maxReturn : Nat) : Nat → Nat → Pos N → Option (Nat × Pos N)
  | 0, c, p => some (c, p)
  | pip + 1, c, p =>
    if c < maxReturn ∧ pip + 1 > die then do
      let ok ← canMoveB p (pip + 1) die
      if ok then
        let k ← Chk.get p (pip + 1)
        let q ← Chk.put p (pip + 1) 0
        let w ← Chk.get q (sub (pip + 1) die)
        let q ← if w = -1 then Chk.put q (sub (pip + 1) die) k else Chk.put q (sub (pip + 1) die) (wrap8 (w + k))
        movableLoop die maxReturn pip (c + k.toNat) q
      else movableLoop die maxReturn pip c p
    else some (c, p)

/-- `number_of_movable_checkers` (src/position/double_moves.rs 102-151). `max(0, pips[die]) as u32` is exact, and the sum is at most 3 + 127. -/
def numberOfMovable (p : Pos N) (die entered : Nat) : Option Nat := do
  let maxReturn := (4 + 2 ^ 32 - entered) % 2 ^ 32
  let r ← movableLoop die maxReturn 24 0 p
  let c := r.1
  let q := r.2
  if c ≥ maxReturn then pure maxReturn
  else
    match q.rposX with
    | none => pure c
    | some biggest => do
      let total ← (if biggest > 6 then pure c
        else if biggest > die then do
          let v ← Chk.get q die
          pure (c + (max 0 v).toNat)
        else do
          Chk.assert (decide (1 ≤ die + 1 ∧ die + 1 ≤ 26))
          let s := (((rng 1 (die + 1)).map q.pip).filter fun v => decide (v > 0)).foldl (fun acc v => wrap8 (acc + v)) 0
          pure ((c + asU32 s) % 2 ^ 32) : Option Nat)
      pure (min total maxReturn)

/-- `double_moves_after_entering_into` (src/position/double_moves.rs 53-100). -/
def doubleAfterEntering (p : Pos N) (die entered : Nat) : Option (List (Pos N)) := do
  let nr ← numberOfMovable p die entered
  if nr = 0 then pure [p]
  else
    Chk.collect (fun i1 => do
      let c ← canMoveB p i1 die
      if c then
        let p1 ← mv p i1 die
        if nr = 1 then pure [p1]
        else Chk.collect (fun i2 => do
          let c ← canMoveB p1 i2 die
          if c then
            let p2 ← mv p1 i2 die
            if nr = 2 then pure [p2]
            else Chk.collect (fun i3 => do
              let c ← canMoveB p2 i3 die
              if c then
                let p3 ← mv p2 i3 die
                if nr = 3 then pure [p3]
                else movesFrom p3 die (rng (p3.smallestPip die) (i3 + 1))
              else pure []) (rng (p2.smallestPip die) (i2 + 1))
          else pure []) (rng (p1.smallestPip die) (i1 + 1))
      else pure []) (rng (p.smallestPip die) X_BAR)

/-- `all_positions_after_double_move_into` (src/position/double_moves.rs 15-31). -/
def doubleMoves (p : Pos N) (die : Nat) : Option (List (Pos N)) := do
  let b ← Chk.get p X_BAR
  let w ← Chk.get p (sub X_BAR die)
  if b > 0 ∧ w < -1 then pure [p]
  else
    let r ← afterEntering p die
    if r.2 = 4 then pure [r.1]
    else doubleAfterEntering r.1 die r.2

/-! ## Mixed rolls (src/position/mixed_moves.rs) -/

/-- `can_enter` (src/position/mixed_moves.rs 174-180). -/
def canEnter (p : Pos N) (die : Nat) : Option Bool := do
  let w ← Chk.get p (sub X_BAR die)
  pure (decide (w > -2))

/-- `enter_single_checker` (src/position/mixed_moves.rs 188-206). -/
def enter (p : Pos N) (die : Nat) : Option (Pos N) := do
  let b ← Chk.get p X_BAR
  let p ← Chk.put p X_BAR (wrap8 (b - 1))
  let w ← Chk.get p (sub X_BAR die)
  if w = -1 then
    let p ← Chk.put p (sub X_BAR die) 1
    let o ← Chk.get p O_BAR
    Chk.put p O_BAR (wrap8 (o - 1))
  else
    Chk.put p (sub X_BAR die) (wrap8 (w + 1))

/-- `moves_with_1_checker_on_bar_into` (src/position/mixed_moves.rs 31-78). -/
def mixed1 (p : Pos N) (big small : Nat) : Option (List (Pos N)) := do
  let cb ← canEnter p big
  let enterBig ← (if cb then do let q ← enter p big; pure (some q) else pure none : Option (Option (Pos N)))
  let movesBig ← match enterBig with
    | some q => movesFrom q small (rng (small + 1) X_BAR)
    | none => pure []
  let vb ← Chk.get p (sub X_BAR big)
  let differentOutcomes ← (if vb < 0 then pure true else do
    let vs ← Chk.get p (sub X_BAR small)
    pure (decide (vs < 0)) : Option Bool)
  let cs ← canEnter p small
  let enterSmall ← (if cs then do let q ← enter p small; pure (some q) else pure none : Option (Option (Pos N)))
  let movesSmall ← match enterSmall with
    | some q =>
      let range :=
        if differentOutcomes then rng (big + 1) X_BAR
        else rng (big + 1) (sub X_BAR small) ++ rng (sub X_BAR small + 1) X_BAR
      movesFrom q big range
    | none => pure []
  let moves := movesBig ++ movesSmall
  if moves.isEmpty then
    match enterBig with
    | some q => pure [q]
    | none =>
      match enterSmall with
      | some q => pure [q]
      | none => pure [p]
  else pure moves

/-- `one_checker_moves` (src/position/mixed_moves.rs 100-111). -/
def oneCheckerMoves (p : Pos N) (die : Nat) : Option (List (Pos N)) :=
  movesFrom p die (rng (p.smallestPip die) X_BAR)

/-- First half of `two_checker_moves_into` (src/position/mixed_moves.rs 114-131). -/
def smallFirst (p : Pos N) (big small : Nat) : Option (List (Pos N)) :=
  Chk.collect (fun i => do
    let c ← canMoveB p i small
    if c then
      let q ← mv p i small
      movesFrom q big (rng (q.smallestPip big) (i + 1)).reverse
    else pure []) (rng (p.smallestPip small) X_BAR).reverse

/-- Second half of `two_checker_moves_into` (src/position/mixed_moves.rs 133-158). -/
def bigFirst (p : Pos N) (big small : Nat) : Option (List (Pos N)) :=
  Chk.collect (fun i => do
    let c ← canMoveB p i big
    if c then
      let q ← mv p i big
      let differentOutcomes ← (if i ≥ big then do
          let v ← Chk.get p (sub i big)
          if v < 0 then pure true else
            let v ← Chk.get p (sub i small)
            pure (decide (v < 0))
        else pure false : Option Bool)
      let smallestPip := q.smallestPip small
      let range :=
        if differentOutcomes then rng smallestPip i
        else
          let omitted := i - big
          rng smallestPip omitted ++ rng (max smallestPip (omitted + 1)) i
      movesFrom q small range
    else pure []) (rng (p.smallestPip big) X_BAR)

/-- `two_checker_moves_into` (src/position/mixed_moves.rs 113-158). -/
def twoCheckerMoves (p : Pos N) (big small : Nat) : Option (List (Pos N)) := do
  let l ← smallFirst p big small
  let m ← bigFirst p big small
  pure (l ++ m)

/-- `moves_with_0_checkers_on_bar_into` (src/position/mixed_moves.rs 80-98). -/
def mixed0 (p : Pos N) (big small : Nat) : Option (List (Pos N)) := do
  let two ← twoCheckerMoves p big small
  if two.isEmpty then
    let one ← oneCheckerMoves p big
    if one.isEmpty then
      let one ← oneCheckerMoves p small
      if one.isEmpty then pure [p] else pure one
    else pure one
  else pure two

/-- `moves_with_2_checkers_on_bar_into` (src/position/mixed_moves.rs 160-172). -/
def mixed2 (p : Pos N) (big small : Nat) : Option (List (Pos N)) := do
  let c ← canEnter p big
  let q ← if c then enter p big else pure p
  let c ← canEnter q small
  let q ← if c then enter q small else pure q
  pure [q]

/-- `all_positions_after_mixed_move_into` (src/position/mixed_moves.rs 17-29). -/
def mixedMoves (p : Pos N) (big small : Nat) : Option (List (Pos N)) := do
  let b ← Chk.get p X_BAR
  if b = 0 then mixed0 p big small
  else if b = 1 then mixed1 p big small
  else mixed2 p big small

/-- `flip` (src/position.rs 301-313): the negation of an `i8`, which wraps for -128. -/
def flip (p : Pos N) : Pos N :=
  { turn := !p.turn
    pips := fun i => wrap8 (- p.pips ⟨25 - i.val, by omega⟩)
    xOff := p.oOff
    oOff := p.xOff }

/-- `generate_legal_positions_in` (src/position.rs 535-549). -/
def legalPositions (p : Pos N) (dice : Dice) : Option (List (Pos N)) := do
  let out ← match dice with
    | .double die => doubleMoves p die
    | .mixed big small => mixedMoves p big small
  pure (out.map flip)

end Rel
end Bkgm
