import Verif.Model.Dice
/-!
# Model of `src/position.rs` (data type, queries, single-checker moves)
-/

namespace Bkgm

/-- `X_BAR` (src/position.rs 16). -/
notation "X_BAR" => (25 : Nat)
/-- `O_BAR` (src/position.rs 17). -/
notation "O_BAR" => (0 : Nat)

/-- `enum GameResult` (src/position.rs 25-33). -/
inductive GameResult where
  | winNormal | winGammon | winBackgammon | loseNormal | loseGammon | loseBackgammon
  deriving DecidableEq, Repr

/-- `GameResult::reverse` (src/position.rs 36-45). -/
def GameResult.reverse : GameResult → GameResult
  | .winNormal => .loseNormal
  | .winGammon => .loseGammon
  | .winBackgammon => .loseBackgammon
  | .loseNormal => .winNormal
  | .loseGammon => .winGammon
  | .loseBackgammon => .winBackgammon

/-- `GameResult::is_win` (src/position.rs 47-52). -/
def GameResult.isWin : GameResult → Bool
  | .winNormal | .winGammon | .winBackgammon => true
  | .loseNormal | .loseGammon | .loseBackgammon => false

/-- `GameResult::value` (src/position.rs 54-63). The `f32` constants are small integers. -/
def GameResult.value : GameResult → Int
  | .winNormal => 1
  | .winGammon => 2
  | .winBackgammon => 3
  | .loseNormal => -1
  | .loseGammon => -2
  | .loseBackgammon => -3

/-- `enum GameState` (src/position.rs 66-70). -/
inductive GameState where
  | ongoing
  | gameOver (r : GameResult)
  deriving DecidableEq, Repr

/-- `enum OngoingPhase` (src/position.rs 72-76). -/
inductive OngoingPhase where
  | contact | race
  deriving DecidableEq, Repr

/-- `enum GamePhase` (src/position.rs 78-82). -/
inductive GamePhase where
  | ongoing (p : OngoingPhase)
  | gameOver (r : GameResult)
  deriving DecidableEq, Repr

/-- `struct Position<const N: u8>` (src/position.rs 173-183). `pips: [i8; 26]` is a function on
`Fin 26` with unbounded integers; `x_off`, `o_off: u8` are naturals. -/
@[ext] structure Pos (N : Nat) where
  turn : Bool
  pips : Fin 26 → Int
  xOff : Nat
  oOff : Nat

/-- Equality of 26-cell arrays is decidable (the derived `==` of `[i8; 26]`). (src/position.rs 185-189.) -/
instance instDecEqPips : DecidableEq (Fin 26 → Int) := fun f g =>
  decidable_of_iff (∀ i, f i = g i) ⟨funext, fun h _ => h ▸ rfl⟩

/-- Sameness of all fields of two positions is decidable (model only: the `==` of src/position.rs 185-189, which ignores `turn`, is `Pos.eqv`). -/
instance (N : Nat) : DecidableEq (Pos N) := fun p q =>
  decidable_of_iff (p.turn = q.turn ∧ p.pips = q.pips ∧ p.xOff = q.xOff ∧ p.oOff = q.oOff)
    ⟨fun ⟨a, b, c, d⟩ => Pos.ext a b c d, fun h => by subst h; simp⟩

namespace Pos
variable {N : Nat}

/-- `self.pips[i]` / `State::pip` (src/position.rs 230-234). Total: 0 outside `0..26`, where the
Rust code would panic (see the checked model). -/
def pip (p : Pos N) (i : Nat) : Int := if h : i < 26 then p.pips ⟨i, h⟩ else 0

/-- `self.pips[i] = v`. (src/position.rs 428-443.) -/
def set (p : Pos N) (i : Nat) (v : Int) : Pos N :=
  { p with pips := fun j => if j.val = i then v else p.pips j }

/-- `PartialEq for Position` (src/position.rs 185-189): `turn` is ignored. -/
def eqv (p q : Pos N) : Bool :=
  decide (p.pips = q.pips) && decide (p.xOff = q.xOff) && decide (p.oOff = q.oOff)

/-- What `Hash for Position` feeds to the hasher (src/position.rs 193-200): the 26 cells and the two
off counts, in this order. -/
def hashInput (p : Pos N) : List Int := List.ofFn p.pips ++ [(p.xOff : Int), (p.oOff : Int)]

/-- `x_bar` (src/position.rs 218-222): `self.pips[X_BAR] as u8` (non-negative on valid positions). -/
def xBar (p : Pos N) : Nat := (p.pip X_BAR).toNat

/-- `o_bar` (src/position.rs 224-228): `-self.pips[O_BAR] as u8`. -/
def oBar (p : Pos N) : Nat := (-p.pip O_BAR).toNat

end Pos

/-- The Rust range `a..b`. (src/position.rs 245-282, 463-467, src/position/mixed_moves.rs, src/position/double_moves.rs.) -/
def rng (a b : Nat) : List Nat := List.range' a (b - a)

namespace Pos
variable {N : Nat}

/-- `self.pips[a..b].iter().any(|p| p > &0)`. (src/position.rs 253, 463, 467.) -/
def anyX (p : Pos N) (a b : Nat) : Bool := (rng a b).any fun i => decide (p.pip i > 0)
/-- `self.pips[a..b].iter().any(|p| p < &0)`. (src/position.rs 245.) -/
def anyO (p : Pos N) (a b : Nat) : Bool := (rng a b).any fun i => decide (p.pip i < 0)

/-- `Position::game_state`, the override (src/position.rs 236-261). The `debug_assert!` that not
both sides have finished is a hypothesis of the theorems. -/
def gameState (p : Pos N) : GameState :=
  if p.xOff = N then
    if p.oOff > 0 then .gameOver .winNormal
    else if p.anyO O_BAR 7 then .gameOver .winBackgammon
    else .gameOver .winGammon
  else if p.oOff = N then
    if p.xOff > 0 then .gameOver .loseNormal
    else if p.anyX 19 (X_BAR + 1) then .gameOver .loseBackgammon
    else .gameOver .loseGammon
  else .ongoing

/-- `State::game_state`, the trait's default implementation (src/position.rs 100-124). -/
def gameStateDefault (p : Pos N) : GameState :=
  if p.xOff = N then
    if p.oOff > 0 then .gameOver .winNormal
    else if p.oBar > 0 || (rng 1 7).any (fun i => decide (p.pip i < 0)) then .gameOver .winBackgammon
    else .gameOver .winGammon
  else if p.oOff = N then
    if p.xOff > 0 then .gameOver .loseNormal
    else if p.xBar > 0 || (rng 19 25).any (fun i => decide (p.pip i > 0)) then
      .gameOver .loseBackgammon
    else .gameOver .loseGammon
  else .ongoing

/-- `self.pips.iter().rposition(|&p| p > 0)` (used at src/position.rs 274-278 and 503). -/
def rposX (p : Pos N) : Option Nat := (List.range 26).reverse.find? fun i => decide (p.pip i > 0)

/-- `self.pips.iter().position(|&p| p < 0)` (src/position.rs 280-284). -/
def posO (p : Pos N) : Option Nat := (List.range 26).find? fun i => decide (p.pip i < 0)

/-- `Position::phase` (src/position.rs 268-291). `none` is the panic of `.expect(..)`. -/
def phase (p : Pos N) : Option GamePhase :=
  match p.gameState with
  | .gameOver r => some (.gameOver r)
  | .ongoing =>
    match p.rposX with
    | none => none
    | some lastOwn =>
      match p.posO with
      | none => none
      | some lastOpp => some (.ongoing (if lastOwn > lastOpp then .contact else .race))

/-- `Position::flip` (src/position.rs 301-313). -/
def flip (p : Pos N) : Pos N :=
  { turn := !p.turn
    pips := fun i => - p.pips ⟨25 - i.val, by omega⟩
    xOff := p.oOff
    oOff := p.xOff }

/-- `move_single_checker` (src/position.rs 428-443). -/
def mv (p : Pos N) (src die : Nat) : Pos N :=
  let p := p.set src (p.pip src - 1)
  if src > die then
    if p.pip (src - die) = -1 then
      let p := p.set (src - die) 1
      p.set O_BAR (p.pip O_BAR - 1)
    else
      p.set (src - die) (p.pip (src - die) + 1)
  else
    { p with xOff := p.xOff + 1 }

/-- `can_move_internally` (src/position.rs 453-470). -/
def canMoveInternally (p : Pos N) (src die : Nat) : Bool :=
  if p.pip src < 1 then false
  else if src > die then decide (p.pip (src - die) > -2)
  else if src = die then !p.anyX 7 X_BAR
  else !p.anyX (src + 1) X_BAR

/-- `can_move` (src/position.rs 473-479). -/
def canMove (p : Pos N) (src die : Nat) : Bool :=
  if (src == X_BAR) == decide (p.pip X_BAR > 0) then p.canMoveInternally src die else false

/-- `can_move_when_bearoff_is_legal` (src/position.rs 481-495). -/
def canMoveB (p : Pos N) (src die : Nat) : Bool :=
  if p.pip src < 1 then false
  else if src > die then decide (p.pip (src - die) > -2)
  else true

/-- `smallest_pip_to_check` (src/position.rs 497-515). -/
def smallestPip (p : Pos N) (die : Nat) : Nat :=
  match p.rposX with
  | none => X_BAR + 1
  | some biggest => if biggest > 6 then die + 1 else min biggest die

/-- `try_move_single_checker` (src/position.rs 517-523). -/
def tryMove (p : Pos N) (src die : Nat) : Option (Pos N) :=
  if p.canMove src die then some (p.mv src die) else none

end Pos
end Bkgm
