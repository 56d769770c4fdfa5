import Verif.Model.MoveGen
/-!
# The move generator with its output buffer

The functions of `src/position/{mixed,double}_moves.rs` write into a `&mut Vec`: they clear it, push to it inside nested loops, and ask whether it is empty.
`Model/MoveGen.lean` replaces this by lists built with `flatMap`. Here the buffer is explicit: every function takes the contents of the buffer before and returns
the contents after. `Props/Buffer.lean` proves that both agree, whatever the buffer contained.
-/

namespace Bkgm
namespace Pos
variable {N : Nat}

/-- `range.for_each(|i| body)`, where the body may push to the buffer (all loops of src/position/mixed_moves.rs and src/position/double_moves.rs). -/
def forEach (range : List Nat) (body : Nat → List (Pos N) → List (Pos N)) (buf : List (Pos N)) : List (Pos N) :=
  range.foldl (fun b i => body i b) buf

/-- `moves.push(position)`. (src/position/mixed_moves.rs 44-171, src/position/double_moves.rs 19-91.) -/
def push (q : Pos N) (buf : List (Pos N)) : List (Pos N) := buf ++ [q]

/-- The innermost body: `if p.can_move_when_bearoff_is_legal(i, die) { moves.push(p.clone_and_move_single_checker(i, die)) }`. (src/position/mixed_moves.rs 42-45, 62-65, 106-109, 126-129, 151-154, src/position/double_moves.rs 89-92.) -/
def pushMove (p : Pos N) (die i : Nat) (buf : List (Pos N)) : List (Pos N) :=
  if p.canMoveB i die then push (p.mv i die) buf else buf

/-- `moves_with_1_checker_on_bar_into` (src/position/mixed_moves.rs 31-78). -/
def mixed1Into (p : Pos N) (big small : Nat) (moves : List (Pos N)) : List (Pos N) :=
  let enterBig := if p.canEnter big then some (p.enter big) else none
  let moves := match enterBig with
    | some q => forEach (rng (small + 1) X_BAR) (fun i b => q.pushMove small i b) moves
    | none => moves
  let differentOutcomes := decide (p.pip (X_BAR - big) < 0) || decide (p.pip (X_BAR - small) < 0)
  let enterSmall := if p.canEnter small then some (p.enter small) else none
  let moves := match enterSmall with
    | some q =>
      let range :=
        if differentOutcomes then rng (big + 1) X_BAR
        else rng (big + 1) (X_BAR - small) ++ rng (X_BAR - small + 1) X_BAR
      forEach range (fun i b => q.pushMove big i b) moves
    | none => moves
  if moves.isEmpty then
    match enterBig with
    | some q => push q moves
    | none =>
      match enterSmall with
      | some q => push q moves
      | none => push p moves
  else moves

/-- `one_checker_moves` (src/position/mixed_moves.rs 100-111). -/
def oneCheckerInto (p : Pos N) (die : Nat) (moves : List (Pos N)) : List (Pos N) :=
  forEach (rng (p.smallestPip die) X_BAR) (fun i b => p.pushMove die i b) moves

/-- `two_checker_moves_into` (src/position/mixed_moves.rs 114-158). -/
def twoCheckerInto (p : Pos N) (big small : Nat) (moves : List (Pos N)) : List (Pos N) :=
  let moves := forEach (rng (p.smallestPip small) X_BAR).reverse (fun i b =>
    if p.canMoveB i small then
      let q := p.mv i small
      forEach (rng (q.smallestPip big) (i + 1)).reverse (fun j b => q.pushMove big j b) b
    else b) moves
  forEach (rng (p.smallestPip big) X_BAR) (fun i b =>
    if p.canMoveB i big then
      let q := p.mv i big
      let differentOutcomes := decide (i ≥ big) && (decide (p.pip (i - big) < 0) || decide (p.pip (i - small) < 0))
      let smallestPip := q.smallestPip small
      let range :=
        if differentOutcomes then rng smallestPip i
        else
          let omitted := i - big
          rng smallestPip omitted ++ rng (max smallestPip (omitted + 1)) i
      forEach range (fun j b => q.pushMove small j b) b
    else b) moves

/-- `moves_with_0_checkers_on_bar_into` (src/position/mixed_moves.rs 80-98). -/
def mixed0Into (p : Pos N) (big small : Nat) (moves : List (Pos N)) : List (Pos N) :=
  let moves := p.twoCheckerInto big small moves
  if moves.isEmpty then
    let moves := p.oneCheckerInto big moves
    if moves.isEmpty then
      let moves := p.oneCheckerInto small moves
      if moves.isEmpty then push p moves else moves
    else moves
  else moves

/-- `moves_with_2_checkers_on_bar_into` (src/position/mixed_moves.rs 160-172). -/
def mixed2Into (p : Pos N) (big small : Nat) (moves : List (Pos N)) : List (Pos N) :=
  let q := if p.canEnter big then p.enter big else p
  let q := if q.canEnter small then q.enter small else q
  push q moves

/-- `all_positions_after_mixed_move_into` (src/position/mixed_moves.rs 17-29): `moves.clear()` first. -/
def mixedMovesInto (p : Pos N) (big small : Nat) (_moves : List (Pos N)) : List (Pos N) :=
  let moves := []
  if p.pip X_BAR = 0 then p.mixed0Into big small moves
  else if p.pip X_BAR = 1 then p.mixed1Into big small moves
  else p.mixed2Into big small moves

/-- `double_moves_after_entering_into` (src/position/double_moves.rs 53-100): `moves.clear()`, then four nested loops; `return` leaves one iteration. -/
def doubleAfterEnteringInto (p : Pos N) (die entered : Nat) (_moves : List (Pos N)) : List (Pos N) :=
  let moves := []
  let nr := p.numberOfMovable die entered
  if nr = 0 then push p moves
  else
    forEach (rng (p.smallestPip die) X_BAR) (fun i1 b =>
      if p.canMoveB i1 die then
        let p1 := p.mv i1 die
        if nr = 1 then push p1 b
        else forEach (rng (p1.smallestPip die) (i1 + 1)) (fun i2 b =>
          if p1.canMoveB i2 die then
            let p2 := p1.mv i2 die
            if nr = 2 then push p2 b
            else forEach (rng (p2.smallestPip die) (i2 + 1)) (fun i3 b =>
              if p2.canMoveB i3 die then
                let p3 := p2.mv i3 die
                if nr = 3 then push p3 b
                else forEach (rng (p3.smallestPip die) (i3 + 1)) (fun i4 b => p3.pushMove die i4 b) b
              else b) b
          else b) b
      else b) moves

/-- `all_positions_after_double_move_into` (src/position/double_moves.rs 15-31). -/
def doubleMovesInto (p : Pos N) (die : Nat) (_moves : List (Pos N)) : List (Pos N) :=
  let moves := []
  if p.pip X_BAR > 0 ∧ p.pip (X_BAR - die) < -1 then push p moves
  else
    let (q, entered) := p.afterEntering die
    if entered = 4 then push q moves else q.doubleAfterEnteringInto die entered moves

/-- `for p in out.iter_mut() { *p = p.flip(); }` (src/position.rs 545-547): one cell after the other is overwritten. -/
def flipInPlace (out : List (Pos N)) : List (Pos N) :=
  (List.range out.length).foldl (fun b i => match b[i]? with | some p => b.set i p.flip | none => b) out

/-- `generate_legal_positions_in` (src/position.rs 535-549). -/
def legalPositionsIn (p : Pos N) (dice : Dice) (out : List (Pos N)) : List (Pos N) :=
  let out := match dice with
    | .double die => p.doubleMovesInto die out
    | .mixed big small => p.mixedMovesInto big small out
  flipInPlace out

/-- `generate_legal_positions_len_in` (src/position.rs 551-559). -/
def legalPositionsLenIn (p : Pos N) (dice : Dice) (scratch : List (Pos N)) : Nat × List (Pos N) :=
  let scratch := p.legalPositionsIn dice scratch
  (scratch.length, scratch)

/-- `for_each_legal_position_in` (src/position.rs 561-574) with a closure acting on a state `σ`. -/
def forEachLegalIn {σ : Type} (p : Pos N) (dice : Dice) (scratch : List (Pos N)) (f : σ → Pos N → σ) (s : σ) : σ × List (Pos N) :=
  let scratch := p.legalPositionsIn dice scratch
  (scratch.foldl f s, scratch)

/-- A loop that reuses one scratch buffer for several positions and rolls and collects the contents after each call. (Callers of `legal_positions_in`, src/position.rs 535-549, as in src/bin/bkgm-perft.rs and src/rules.rs 30-34.) -/
def reuse : List (Pos N × Dice) → List (Pos N) → List (List (Pos N))
  | [], _ => []
  | (p, dice) :: rest, scratch => let scratch := p.legalPositionsIn dice scratch; scratch :: reuse rest scratch

end Pos
end Bkgm
