import Verif.Model.MoveGen
import Verif.Model.FromMaps
import Verif.Model.GnuId
import Verif.Model.Debug
import Verif.Model.Variants
/-!
# The crate's own unit tests, run on the model: moves

The unit tests of src/position.rs, src/position/mixed_moves.rs and src/position/double_moves.rs, evaluated by the kernel on the model
instead of on the Rust code. They are tests of the model's fidelity (the same inputs must give the outputs the authors of the crate
expect, in the same order), not proofs of any property, and no claim rests on them.
-/

namespace Bkgm.RepoTests

/-- `pos!(x ...; o ...)` of the tests (src/position/conversion.rs 10-29), the model's `posMacro`; a panicking call is not used below. -/
def ps (x o : List (Nat × Nat)) : Pos 15 := (posMacro true x o).getD ⟨true, fun _ => 0, 0, 0⟩

/-- `assert_eq!` on two vectors of positions. -/
def same : List (Pos 15) → List (Pos 15) → Bool
  | [], [] => true
  | p :: l, q :: m => p.eqv q && same l m
  | _, _ => false

/-! ## src/position.rs -/

/-- `x_off` (src/position.rs 91). -/
example : (ps [(3, 15)] [(1, 1)]).xOff = 0 ∧ (ps [(3, 10)] [(1, 1)]).xOff = 5 := by decide +kernel

/-- `o_off` (src/position.rs 92). -/
example : (ps [(1, 1)] [(3, 15)]).oOff = 0 ∧ (ps [(1, 1)] [(3, 10)]).oOff = 5 := by decide +kernel

/-- `game_state_bg_when_on_bar` (src/position.rs 598). -/
example : (ps [(25, 1), (1, 14)] []).gameState = .gameOver .loseBackgammon ∧ (ps [(25, 1), (1, 14)] []).flip.gameState = .gameOver .winBackgammon := by decide +kernel

/-- `game_state_bg_when_not_on_bar` (src/position.rs 608). -/
example : (ps [(19, 15)] []).gameState = .gameOver .loseBackgammon ∧ (ps [(19, 15)] []).flip.gameState = .gameOver .winBackgammon := by decide +kernel

/-- `game_state_gammon` (src/position.rs 618). -/
example : (ps [(18, 15)] []).gameState = .gameOver .loseGammon ∧ (ps [(18, 15)] []).flip.gameState = .gameOver .winGammon := by decide +kernel

/-- `game_state_ongoing` (src/position.rs 634). -/
example : (ps [(19, 14)] [(1, 4)]).gameState = .ongoing ∧ (ps [(19, 14)] [(1, 4)]).flip.gameState = .ongoing := by decide +kernel

/-- `game_phase_win_or_lose_normal` (src/position.rs 641). -/
example : (ps [(1, 1)] []).phase = some (.gameOver .loseNormal) ∧ (ps [(1, 1)] []).flip.phase = some (.gameOver .winNormal) := by decide +kernel

/-- `game_phase_win_or_lose_gammon` (src/position.rs 648). -/
example : (ps [(12, 15)] []).phase = some (.gameOver .loseGammon) ∧ (ps [(12, 15)] []).flip.phase = some (.gameOver .winGammon) := by decide +kernel

/-- `game_phase_win_or_lose_bg` (src/position.rs 655). -/
example : (ps [(20, 15)] []).phase = some (.gameOver .loseBackgammon) ∧ (ps [(20, 15)] []).flip.phase = some (.gameOver .winBackgammon) := by decide +kernel

/-- `game_phase_contact` (src/position.rs 662). -/
example : (ps [(12, 1)] [(2, 1)]).phase = some (.ongoing .contact) := by decide +kernel

/-- `game_phase_contact_enclosing` (src/position.rs 668). -/
example : (ps [(12, 1)] [(20, 1), (2, 1)]).phase = some (.ongoing .contact) ∧ (ps [(20, 1), (2, 1)] [(12, 1)]).phase = some (.ongoing .contact) := by decide +kernel

/-- `game_phase_contact_when_x_on_bar` (src/position.rs 677). -/
example : (ps [(25, 1)] [(2, 1)]).phase = some (.ongoing .contact) := by decide +kernel

/-- `game_phase_contact_when_o_on_bar` (src/position.rs 683). -/
example : (ps [(1, 1)] [(0, 1)]).phase = some (.ongoing .contact) := by decide +kernel

/-- `game_phase_race` (src/position.rs 689). -/
example : (ps [(1, 1)] [(2, 1)]).phase = some (.ongoing .race) := by decide +kernel

/-- `all_positions_after_moving_double` (src/position.rs 695). -/
example : same ((ps [(25, 2), (4, 1), (3, 1)] [(24, 2)]).legalPositions (Dice.new 3 3)) [ps [(1, 2)] [(3, 1), (6, 1), (22, 1), (24, 1)], ps [(1, 2)] [(3, 1), (9, 1), (21, 1), (22, 1)], ps [(1, 2)] [(6, 2), (21, 1), (22, 1)]] = true := by decide +kernel

/-- `all_positions_after_moving_mixed` (src/position.rs 708). -/
example : same ((ps [(25, 1)] [(22, 1)]).legalPositions (Dice.new 2 3)) [ps [(25, 1)] [(5, 1)], ps [(3, 1)] [(5, 1)]] = true := by decide +kernel

/-- `switch_sides` (src/position.rs 745). -/
example : (Pos.mk (N := 15) true (fun i => [2, 2, 1, 1, 1, 1, 1, 1, 1, 1, 1, 1, 1, 0, -2, 0, -2, 0, -2, 0, -2, 0, -2, 0, -2, 0].getD i.val 0) 0 3).flip =
    ⟨false, fun i => [0, 2, 0, 2, 0, 2, 0, 2, 0, 2, 0, 2, 0, -1, -1, -1, -1, -1, -1, -1, -1, -1, -1, -1, -2, -2].getD i.val 0, 3, 0⟩ := by decide +kernel

/-- `from` (src/position.rs 348). -/
example : ps [(25, 2), (3, 2), (1, 1)] [(24, 5), (23, 4), (22, 6)] =
    ⟨true, fun i => [0, 1, 0, 2, 0, 0, 0, 0, 0, 0, 0, 0, 0, 0, 0, 0, 0, 0, 0, 0, 0, 0, -6, -4, -5, 2].getD i.val 0, 10, 0⟩ := by decide +kernel

/-- The array of the `try_from` tests: the given cells, zero elsewhere. -/
def cells (l : List (Nat × Int)) : Fin 26 → Int := fun i => ((l.find? fun e => e.1 == i.val).map (·.2)).getD 0

/-- The error of `try_from`, if it is one. -/
def errorOf (l : List (Nat × Int)) : Option String :=
  match tryFrom true 15 (cells l) with
  | some (.error e) => some e
  | _ => none

/-- `try_from_legal` (src/position.rs 785). -/
example : tryFrom true 15 (cells [(25, 2), (10, 10), (11, -11), (0, -3)]) =
    some (.ok ⟨true, cells [(25, 2), (10, 10), (11, -11), (0, -3)], 3, 1⟩) := by rfl

/-- `try_from_fails_too_many_x_checkers` (src/position.rs 805). -/
example : errorOf [(25, 10), (10, 10), (11, -10)] = some "Player x has more than 15 checkers on the board." := by decide +kernel

/-- `try_from_fails_too_many_o_checkers` (src/position.rs 821). -/
example : errorOf [(10, 10), (11, -10), (0, -10)] = some "Player o has more than 15 checkers on the board." := by decide +kernel

/-- `try_from_fails_o_checker_on_x_bar` (src/position.rs 837). -/
example : errorOf [(25, -10), (10, 1), (11, -1)] =
    some "Index 25 is the bar for player x, number of checkers needs to be positive." := by decide +kernel

/-- `try_from_fails_x_checker_on_o_bar` (src/position.rs 853). -/
example : errorOf [(10, 1), (11, -1), (0, 10)] =
    some "Index 0 is the bar for player o, number of checkers needs to be negative." := by decide +kernel

/-- `debug` (src/position.rs 869). -/
example : (ps [(25, 2), (3, 5), (1, 1)] [(24, 7), (23, 4), (0, 3)]).debugText =
    "Position:\nx: {bar:2, 3:5, 1:1, off:7}\no: {off:1, 24:7, 23:4, bar:3}".toList := by decide +kernel

/-- `starting_position_is_correct_and_symmetric` (src/position.rs 959). -/
example : BACKGAMMON.eqv (ps [(24, 2), (13, 5), (8, 3), (6, 5)] [(19, 5), (17, 3), (12, 5), (1, 2)]) = true ∧
    BACKGAMMON.eqv BACKGAMMON.flip = true := by decide +kernel

/-- `move_single_checker_mixed_move` (src/position.rs 967). -/
example : ((ps [(4, 10)] []).mv 4 2).eqv (ps [(4, 9), (2, 1)] []) = true := by decide +kernel

/-- `move_single_checker_hit_opponent` (src/position.rs 975). -/
example : ((ps [(4, 10)] [(2, 1)]).mv 4 2).eqv (ps [(4, 9), (2, 1)] [(0, 1)]) = true := by decide +kernel

/-- `move_single_checker_bearoff_mixed` (src/position.rs 983). -/
example : ((ps [(4, 10)] []).mv 4 4).eqv (ps [(4, 9)] []) = true := by decide +kernel

/-- `move_single_checker_bearoff_from_lower_pip` (src/position.rs 991). -/
example : ((ps [(4, 10)] []).mv 4 5).eqv (ps [(4, 9)] []) = true := by decide +kernel

/-- `cannot_move_no_checker` (src/position.rs 999). -/
example : (ps [(4, 10)] []).canMove 5 2 = false := by decide +kernel

/-- `cannot_move_opposing_checker` (src/position.rs 1005). -/
example : (ps [] [(4, 10)]).canMove 4 2 = false := by decide +kernel

/-- `cannot_move_would_land_on_two_opposing_checkers` (src/position.rs 1011). -/
example : (ps [(4, 10)] [(2, 2)]).canMove 4 2 = false := by decide +kernel

/-- `can_move_will_land_on_one_opposing_checker` (src/position.rs 1017). -/
example : (ps [(4, 10)] [(2, 1)]).canMove 4 2 = true := by decide +kernel

/-- `can_move_will_land_on_checkers` (src/position.rs 1023). -/
example : (ps [(4, 10)] [(2, 1)]).canMove 4 2 = true := by decide +kernel

/-- `cannot_move_bear_off_illegal_because_other_checkers` (src/position.rs 1029). -/
example : (ps [(10, 2), (4, 10)] []).canMove 4 4 = false := by decide +kernel

/-- `can_move_will_bear_off_exactly` (src/position.rs 1035). -/
example : (ps [(4, 10)] []).canMove 4 4 = true := by decide +kernel

/-- `cannot_move_bear_off_skipping_illegal_because_other_checkers` (src/position.rs 1041). -/
example : (ps [(10, 2), (4, 10)] []).canMove 4 6 = false := by decide +kernel

/-- `can_move_will_bear_off_skipping` (src/position.rs 1047). -/
example : (ps [(4, 10)] []).canMove 4 6 = true := by decide +kernel

/-- `number_of_moves` of the test below (src/position.rs 930-937), on a decoded GNU id; `none` if the id is refused. -/
def numberOfMoves (id : String) (a b : Nat) : Option Nat :=
  match GnuId.decode true 15 id.toList with
  | some (.ok p) =>
    let all := p.legalPositions (Dice.new a b)
    some (if all.length = 1 ∧ (all.map fun q => q.flip.eqv p) = [true] then 0 else all.length)
  | _ => none

/-! `number_of_moves_for_various_positions_and_dice` (src/position.rs 876-948), all rows but the one with 2220 moves. -/

example : numberOfMoves "4HPwATDgc/ABMA" 4 4 = some 52 := by decide +kernel
example : numberOfMoves "4HPwATDgc/ABMA" 3 1 = some 16 := by decide +kernel
example : numberOfMoves "4HPwATDgc/ABMA" 1 3 = some 16 := by decide +kernel
example : numberOfMoves "0HPwATDgc/ABMA" 6 4 = some 15 := by decide +kernel
example : numberOfMoves "0HPwATDgc/ABMA" 4 6 = some 15 := by decide +kernel
example : numberOfMoves "4DnyATDgc/ABMA" 6 4 = some 14 := by decide +kernel
example : numberOfMoves "4DnyATDgc/ABMA" 4 6 = some 14 := by decide +kernel
example : numberOfMoves "4HPwATDgc/ABUA" 6 6 = some 0 := by decide +kernel
example : numberOfMoves "4HPwATDgc/ABUA" 5 6 = some 4 := by decide +kernel
example : numberOfMoves "4HPwATDgc/ABUA" 5 2 = some 7 := by decide +kernel
example : numberOfMoves "0HPwATDgc/ABUA" 5 2 = some 8 := by decide +kernel
example : numberOfMoves "4HPwATDgc/ABYA" 5 2 = some 1 := by decide +kernel
example : numberOfMoves "sHPwATDgc/ABYA" 5 2 = some 1 := by decide +kernel
example : numberOfMoves "hnPwATDgc/ABYA" 5 2 = some 1 := by decide +kernel
example : numberOfMoves "sHPwATDgc/ABYA" 2 2 = some 12 := by decide +kernel
example : numberOfMoves "sHPwATDgOfgAcA" 2 2 = some 4 := by decide +kernel
example : numberOfMoves "sHPwATDgHHwAeA" 2 2 = some 1 := by decide +kernel
example : numberOfMoves "sHPwATDgHDwAfA" 2 2 = some 1 := by decide +kernel
example : numberOfMoves "sHPwATDgHDwAfA" 2 1 = some 1 := by decide +kernel
example : numberOfMoves "sHPwATDgHDwAfA" 6 1 = some 1 := by decide +kernel
example : numberOfMoves "xOfgATDgc/ABUA" 4 3 = some 10 := by decide +kernel
example : numberOfMoves "lOfgATDgc/ABUA" 4 3 = some 10 := by decide +kernel
example : numberOfMoves "sNvBATBw38ABMA" 6 6 = some 1 := by decide +kernel
example : numberOfMoves "YNsWADZsuzsAAA" 6 5 = some 1 := by decide +kernel
example : numberOfMoves "YNsWADNm7zkAAA" 6 5 = some 1 := by decide +kernel
example : numberOfMoves "4BwcMBvgAYABAA" 4 3 = some 1 := by decide +kernel
example : numberOfMoves "4DgcMBvgAYABAA" 4 3 = some 1 := by decide +kernel
example : numberOfMoves "wAYAMBsAAAQAAA" 4 3 = some 1 := by decide +kernel
example : numberOfMoves "GBsAmA0EACAAAA" 4 3 = some 2 := by decide +kernel
example : numberOfMoves "MBsAsA0EACAAAA" 4 3 = some 2 := by decide +kernel
example : numberOfMoves "2G4bADDOAgAAAA" 5 1 = some 2 := by decide +kernel
example : numberOfMoves "2G4bADDObgAAAA" 4 2 = some 7 := by decide +kernel
example : numberOfMoves "AwAACAAAAAAAAA" 4 2 = some 1 := by decide +kernel
example : numberOfMoves "AwAAYDsAAAAAAA" 6 5 = some 1 := by decide +kernel
example : numberOfMoves "AwAAYDsAAAAAAA" 6 2 = some 3 := by decide +kernel
example : numberOfMoves "2+4OAADs3hcAAA" 4 3 = some 12 := by decide +kernel
example : numberOfMoves "tN0dAATb3AMAAA" 4 2 = some 9 := by decide +kernel
example : numberOfMoves "tN0dAATb3AMAAA" 2 2 = some 38 := by decide +kernel
example : numberOfMoves "2L07AAC274YAAA" 6 5 = some 3 := by decide +kernel
example : numberOfMoves "2L07AAC23wYBAA" 6 5 = some 2 := by decide +kernel
example : numberOfMoves "27ZFAAR7swEAAA" 6 2 = some 4 := by decide +kernel
example : numberOfMoves "27ZFAAR7swEAAA" 2 6 = some 4 := by decide +kernel
example : numberOfMoves "v0MChgK7HwgAAA" 5 6 = some 1 := by decide +kernel
example : numberOfMoves "u20DAAP77hEAAA" 6 3 = some 3 := by decide +kernel
example : numberOfMoves "u20DYAD77hEAAA" 6 3 = some 3 := by decide +kernel
example : numberOfMoves "ABDAEBIAAAAAAA" 6 2 = some 1 := by decide +kernel

/-! ## src/position/mixed_moves.rs and src/position/double_moves.rs -/

/-- `cannot_enter_with_two_checkers_on_bar` (src/position/mixed_moves.rs 217). -/
example : same ((ps [(25, 2), (10, 2)] [(22, 2), (20, 2)]).mixedMoves 5 3) [ps [(25, 2), (10, 2)] [(22, 2), (20, 2)]] = true := by decide +kernel

/-- `can_enter_bigger_die_with_two_on_the_bar` (src/position/mixed_moves.rs 228). -/
example : same ((ps [(25, 2), (10, 2)] [(22, 2)]).mixedMoves 5 3) [ps [(25, 1), (20, 1), (10, 2)] [(22, 2)]] = true := by decide +kernel

/-- `can_enter_smaller_die_with_two_on_the_bar` (src/position/mixed_moves.rs 239). -/
example : same ((ps [(25, 2), (10, 2)] [(22, 1), (20, 2)]).mixedMoves 5 3) [ps [(25, 1), (22, 1), (10, 2)] [(20, 2), (0, 1)]] = true := by decide +kernel

/-- `can_enter_both_with_three_on_the_bar` (src/position/mixed_moves.rs 250). -/
example : same ((ps [(25, 3), (10, 2)] [(20, 1)]).mixedMoves 5 3) [ps [(25, 1), (22, 1), (20, 1), (10, 2)] [(0, 1)]] = true := by decide +kernel

/-- `cannot_enter_with_one_checker_on_bar` (src/position/mixed_moves.rs 263). -/
example : same ((ps [(25, 1), (10, 2)] [(22, 2), (20, 2)]).mixedMoves 5 3) [ps [(25, 1), (10, 2)] [(22, 2), (20, 2)]] = true := by decide +kernel

/-- `can_enter_with_bigger_die_but_no_other_movement` (src/position/mixed_moves.rs 273). -/
example : same ((ps [(25, 1), (10, 2)] [(22, 2), (20, 1), (17, 2), (7, 3)]).mixedMoves 5 3) [ps [(20, 1), (10, 2)] [(22, 2), (17, 2), (7, 3), (0, 1)]] = true := by decide +kernel

/-- `can_enter_with_smaller_die_but_no_other_movement` (src/position/mixed_moves.rs 284). -/
example : same ((ps [(25, 1)] [(19, 2), (14, 2)]).mixedMoves 6 5) [ps [(20, 1)] [(19, 2), (14, 2)]] = true := by decide +kernel

/-- `could_enter_with_either_die_but_must_use_bigger_one` (src/position/mixed_moves.rs 295). -/
example : same ((ps [(25, 1)] [(20, 2)]).mixedMoves 3 2) [ps [(22, 1)] [(20, 2)]] = true := by decide +kernel

/-- `only_entering_with_smaller_die_allows_two_checkers_to_move` (src/position/mixed_moves.rs 306). -/
example : same ((ps [(25, 1), (12, 1)] [(20, 2), (10, 2)]).mixedMoves 3 2) [ps [(23, 1), (9, 1)] [(20, 2), (10, 2)]] = true := by decide +kernel

/-- `only_entering_with_bigger_die_allows_two_checkers_to_move` (src/position/mixed_moves.rs 317). -/
example : same ((ps [(25, 1), (12, 1)] [(20, 2), (9, 2)]).mixedMoves 3 2) [ps [(22, 1), (10, 1)] [(20, 2), (9, 2)]] = true := by decide +kernel

/-- `entering_with_either_die_allowed_but_only_one_final_position` (src/position/mixed_moves.rs 328). -/
example : same ((ps [(25, 1)] [(9, 2)]).mixedMoves 3 2) [ps [(20, 1)] [(9, 2)]] = true := by decide +kernel

/-- `final_position_but_different_move_because_die1_hits_opponent` (src/position/mixed_moves.rs 339). -/
example : same ((ps [(25, 1)] [(22, 1)]).mixedMoves 3 2) [ps [(20, 1)] [(0, 1)], ps [(20, 1)] [(22, 1)]] = true := by decide +kernel

/-- `final_position_but_different_move_because_die2_hits_opponent` (src/position/mixed_moves.rs 351). -/
example : same ((ps [(25, 1)] [(23, 1)]).mixedMoves 3 2) [ps [(20, 1)] [(23, 1)], ps [(20, 1)] [(0, 1)]] = true := by decide +kernel

/-- `cannot_user_either_die` (src/position/mixed_moves.rs 365). -/
example : same ((ps [(10, 2), (2, 3)] [(8, 2), (6, 2)]).mixedMoves 4 2) [ps [(10, 2), (2, 3)] [(8, 2), (6, 2)]] = true := by decide +kernel

/-- `forced_only_smaller_die` (src/position/mixed_moves.rs 375). -/
example : same ((ps [(7, 2)] [(2, 2)]).mixedMoves 5 2) [ps [(7, 1), (5, 1)] [(2, 2)]] = true := by decide +kernel

/-- `forced_smaller_die_first_then_bear_off` (src/position/mixed_moves.rs 386). -/
example : same ((ps [(8, 1), (4, 3)] [(1, 2)]).mixedMoves 4 3) [ps [(5, 1), (4, 2)] [(1, 2)]] = true := by decide +kernel

/-- `bigger_die_cannot_move_initially` (src/position/mixed_moves.rs 397). -/
example : same ((ps [(20, 1)] [(16, 3)]).mixedMoves 4 3) [ps [(13, 1)] [(16, 3)]] = true := by decide +kernel

/-- `smaller_first_allows_bear_off` (src/position/mixed_moves.rs 408). -/
example : same ((ps [(9, 1), (5, 1)] [(20, 2)]).mixedMoves 5 3) [ps [(5, 1), (1, 1)] [(20, 2)], ps [(6, 1)] [(20, 2)], ps [(4, 1), (2, 1)] [(20, 2)]] = true := by decide +kernel

/-- `could_bear_off_but_could_do_other_moves_as_well` (src/position/mixed_moves.rs 421). -/
example : same ((ps [(5, 2), (4, 3), (3, 1)] [(20, 1)]).mixedMoves 4 3) [ps [(4, 3), (3, 1), (2, 1), (1, 1)] [(20, 1)], ps [(5, 1), (4, 2), (3, 1), (2, 1)] [(20, 1)], ps [(5, 2), (4, 1), (3, 1), (1, 1)] [(20, 1)], ps [(5, 2), (4, 2)] [(20, 1)], ps [(5, 1), (4, 3), (1, 1)] [(20, 1)], ps [(5, 1), (4, 2), (3, 1), (1, 2)] [(20, 1)]] = true := by decide +kernel

/-- `only_one_move_if_order_is_not_important` (src/position/mixed_moves.rs 440). -/
example : same ((ps [(20, 1)] [(22, 2)]).mixedMoves 4 3) [ps [(13, 1)] [(22, 2)]] = true := by decide +kernel

/-- `only_one_move_in_home_board_if_order_is_not_important` (src/position/mixed_moves.rs 451). -/
example : same ((ps [(5, 1)] [(22, 2)]).mixedMoves 2 1) [ps [(2, 1)] [(22, 2)]] = true := by decide +kernel

/-- `two_moves_if_bigger_die_hits_opponent` (src/position/mixed_moves.rs 462). -/
example : same ((ps [(10, 1)] [(6, 1)]).mixedMoves 4 2) [ps [(4, 1)] [(6, 1)], ps [(4, 1)] [(0, 1)]] = true := by decide +kernel

/-- `two_moves_if_smaller_die_hits_opponent` (src/position/mixed_moves.rs 474). -/
example : same ((ps [(5, 1)] [(4, 1)]).mixedMoves 3 1) [ps [(1, 1)] [(0, 1)], ps [(1, 1)] [(4, 1)]] = true := by decide +kernel

/-- `two_bear_offs_from_same_pip` (src/position/mixed_moves.rs 486). -/
example : same ((ps [(1, 5)] [(24, 8)]).mixedMoves 6 4) [ps [(1, 3)] [(24, 8)]] = true := by decide +kernel

/-- `bear_off_from_same_pip_with_either_big_or_small_die` (src/position/mixed_moves.rs 497). -/
example : same ((ps [(2, 1), (1, 5)] []).mixedMoves 6 1) [ps [(1, 5)] [], ps [(1, 4)] []] = true := by decide +kernel

/-- `use_smaller_die_from_bigger_pip_case_when_bigger_pip_in_last_quarter` (src/position/mixed_moves.rs 509). -/
example : same ((ps [(7, 1), (6, 3)] [(2, 2)]).mixedMoves 5 4) [ps [(6, 2), (3, 1), (1, 1)] [(2, 2)]] = true := by decide +kernel

/-- `use_smaller_die_from_bigger_pip_case_when_bigger_in_first_quarter` (src/position/mixed_moves.rs 520). -/
example : same ((ps [(24, 1), (8, 1), (6, 5)] [(20, 4), (19, 3), (18, 4), (16, 2), (4, 2)]).mixedMoves 6 2) [ps [(22, 1), (6, 5), (2, 1)] [(20, 4), (19, 3), (18, 4), (16, 2), (4, 2)]] = true := by decide +kernel

/-- `bearoff_with_same_checker_after_moving_small_first` (src/position/mixed_moves.rs 531). -/
example : same ((ps [(9, 1), (5, 3), (3, 2)] [(24, 10), (23, 3), (1, 2)]).mixedMoves 6 4) [ps [(5, 3), (3, 2)] [(24, 10), (23, 3), (1, 2)]] = true := by decide +kernel

/-- `cannot_enter_from_the_bar` (src/position/double_moves.rs 159). -/
example : same ((ps [(25, 4)] [(22, 2)]).doubleMoves 3) [ps [(25, 4)] [(22, 2)]] = true := by decide +kernel

/-- `enter_all_four_from_the_bar` (src/position/double_moves.rs 169). -/
example : same ((ps [(25, 4)] [(22, 2), (20, 2)]).doubleMoves 4) [ps [(21, 4)] [(22, 2), (20, 2)]] = true := by decide +kernel

/-- `enter_one_and_move_one_more_and_no_bearoff` (src/position/double_moves.rs 180). -/
example : same ((ps [(25, 1), (15, 1), (10, 1), (4, 1)] [(22, 2), (20, 2), (17, 3), (11, 2), (6, 1), (2, 2)]).doubleMoves 4) [ps [(21, 1), (15, 1), (6, 1), (4, 1)] [(22, 2), (20, 2), (17, 3), (11, 2), (2, 2), (0, 1)]] = true := by decide +kernel

/-- `enter_two_and_move_two_out_of_many` (src/position/double_moves.rs 191). -/
example : same ((ps [(25, 2), (4, 1), (3, 1)] [(24, 2)]).doubleMoves 3) [ps [(22, 1), (19, 1), (3, 1), (1, 1)] [(24, 2)], ps [(22, 1), (16, 1), (4, 1), (3, 1)] [(24, 2)], ps [(19, 2), (4, 1), (3, 1)] [(24, 2)]] = true := by decide +kernel

/-- `bearoff_4_or_bearoff_less` (src/position/double_moves.rs 204). -/
example : same ((ps [(4, 1), (3, 1), (2, 4)] [(22, 2)]).doubleMoves 2) [ps [(4, 1), (3, 1)] [(22, 2)], ps [(4, 1), (2, 1), (1, 1)] [(22, 2)], ps [(3, 1), (2, 2)] [(22, 2)], ps [(2, 3), (1, 1)] [(22, 2)]] = true := by decide +kernel

/-- `no_checkers_on_the_bar_but_would_hit_opponent_if_entering` (src/position/double_moves.rs 221). -/
example : same ((ps [(10, 4)] [(22, 1), (4, 2)]).doubleMoves 3) [ps [(7, 4)] [(22, 1), (4, 2)]] = true := by decide +kernel

/-- `hits_opponent_when_entering_and_cannot_move_afterwards` (src/position/double_moves.rs 232). -/
example : same ((ps [(25, 2)] [(22, 1), (19, 2)]).doubleMoves 3) [ps [(22, 2)] [(19, 2), (0, 1)]] = true := by decide +kernel

/-- `number_of_movable_checkers_when_completely_blocked` (src/position/double_moves.rs 248). -/
example : (ps [(20, 2)] [(16, 2)]).numberOfMovable 4 0 = 0 := by decide +kernel

/-- `number_of_movable_checkers_when_many_moves_would_be_possible` (src/position/double_moves.rs 258). -/
example : (ps [(20, 2)] [(16, 1)]).numberOfMovable 4 0 = 4 := by decide +kernel

/-- `number_of_movable_checkers_when_one_checker_was_entered_from_bar` (src/position/double_moves.rs 268). -/
example : (ps [(20, 2)] []).numberOfMovable 4 1 = 3 := by decide +kernel

/-- `number_of_movable_checkers_when_blocked_after_one_move` (src/position/double_moves.rs 278). -/
example : (ps [(20, 2)] [(12, 2)]).numberOfMovable 4 0 = 2 := by decide +kernel

end Bkgm.RepoTests
