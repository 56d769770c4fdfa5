import Verif.Model.Ubgi
import Verif.Model.EngineSpec
import Verif.Model.DbHash
import Verif.Model.MoveText
import Verif.Model.Xgid
import Verif.Model.Fibs
import Verif.Model.DiceText
/-!
# The crate's own unit tests, run on the model: texts, dice, games

The remaining unit tests of the crate (src/engine_spec.rs, src/utils.rs, src/ubgi.rs, src/codecs/*.rs, src/game.rs, src/rules.rs,
src/dice.rs, src/dice_gen.rs), evaluated by the kernel on the model. As in `Verif/Tests/Moves.lean`: tests of the model's fidelity, not
proofs. The four tests of `FastrandDice` with fixed seeds are left out (the random source is abstract in the model).
-/

namespace Bkgm.RepoTests

/-! ## src/engine_spec.rs -/

/-- `parse_and_format_roundtrip_basic` (src/engine_spec.rs 98-104). -/
example : (match EngineSpec.parse "hawk:ply=2".toList with
    | .ok s => decide (s.aliasName = "hawk".toList) && decide (s.version = none) &&
        decide (EngineSpec.get "engine.ply".toList s.options = some "2".toList) && decide (EngineSpec.format s = "hawk:ply=2".toList)
    | .error _ => false) = true := by decide +kernel

/-- `parse_and_format_roundtrip_with_version_and_sort` (src/engine_spec.rs 107-110). -/
example : (match EngineSpec.parse "hawk@v1.3:top_k=8,ply=2".toList with
    | .ok s => decide (EngineSpec.format s = "hawk@v1.3:ply=2,top_k=8".toList)
    | .error _ => false) = true := by decide +kernel

/-- `format_from_struct` (src/engine_spec.rs 113-122). -/
example : EngineSpec.format ⟨"gnubg".toList, none, EngineSpec.insert "engine.ply".toList "1".toList []⟩ = "gnubg:ply=1".toList := by
  decide +kernel

/-! ## src/utils.rs -/

/-- `test_comb` (src/utils.rs 20-23). -/
example : comb .debug 10 4 = some 210 ∧ comb .debug 52 5 = some 2598960 := by decide +kernel

/-- `test_mcomb` (src/utils.rs 26-32). -/
example : mcomb .debug 7 15 = some 54264 ∧ mcomb .debug 26 3 = some 3276 ∧ mcomb .debug 25 3 = some 2925 ∧
    mcomb .debug 24 3 = some 2600 ∧ mcomb .debug 23 3 = some 2300 := by decide +kernel

/-! ## src/ubgi.rs -/

open Ubgi

/-- `emits_minor_marker` (src/ubgi.rs). -/
example : (OptionSpec.mkInteger "engine.threads".toList 1 64 8).setMinor.toKeyLine = "key engine.threads int 1..64 8 !".toList := by
  decide +kernel

/-- `parses_minor_marker_and_description` (src/ubgi.rs). -/
example : (parseKeyLine "key engine.seed int 0..999999 42 ! rng seed".toList).map (fun k => (k.minor, k.name, k.default, k.description)) =
    some (true, "engine.seed".toList, "42".toList, "rng seed".toList) := by decide +kernel

/-- `supports_unbounded_int_emit_and_parse` (src/ubgi.rs). -/
example : (OptionSpec.mkUnbounded "engine.seed".toList 42).toKeyLine = "key engine.seed int 42".toList ∧
    (parseKeyLine "key engine.seed int 42".toList).map (fun k => (k.keyType, k.domain, k.default)) =
      some ("int".toList, none, "42".toList) := by decide +kernel

/-- `parses_bool_without_domain` (src/ubgi.rs). -/
example : (parseKeyLine "key engine.debug bool false ! logging toggles".toList).map (fun k => (k.keyType, k.domain, k.default, k.minor)) =
    some ("bool".toList, none, "false".toList, true) := by decide +kernel

/-- `rejects_out_of_range_integer_set_value` (src/ubgi.rs). -/
example : (match (OptionSpec.mkInteger "engine.ply".toList 1 4 2).parseValue "7".toList with
    | .error e => e.drop 17 | .ok _ => []) = "1..4".toList := by decide +kernel

/-- `rejects_invalid_boolean_set_value` (src/ubgi.rs). -/
example : (match (OptionSpec.mkBoolean "engine.debug".toList false).parseValue "yes".toList with
    | .error e => (e.drop 14).take 10 | .ok _ => []) = "true|false".toList := by decide +kernel

/-- `parses_valid_boolean_set_value` (src/ubgi.rs). -/
example : (match (OptionSpec.mkBoolean "engine.debug".toList false).parseValue "true".toList with
    | .ok v => some v | .error _ => none) = some (.bool true) := by decide +kernel

/-! ## src/codecs -/

/-- `normalize_supports_bar_off_and_chains` (src/codecs/move_text.rs). -/
example : MoveText.normalize "bar/22 6/off 13/8/5".toList = some "bar/22 6/off 13/8 8/5".toList := by decide +kernel

/-- `normalize_rejects_numeric_bar_off_aliases` (src/codecs/move_text.rs). -/
example : MoveText.normalize "25/22".toList = none ∧ MoveText.normalize "6/0".toList = none := by decide +kernel

/-- The position of `apply_supports_hitting_move` (src/codecs/move_text.rs). -/
def hitting : VPos := .backgammon ⟨true, fun i => if i.val = 8 then 1 else if i.val = 5 then -1 else if i.val = 4 then -2 else 0, 14, 12⟩

/-- `apply_supports_hitting_move` (src/codecs/move_text.rs). -/
example : (match MoveText.applyV hitting (Dice.new 3 1) "8/5".toList with
    | some next => (MoveText.legalV hitting (Dice.new 3 1)).any fun e => decide (e.1 = "8/5".toList) && e.2.eqv next
    | none => false) = true := by decide +kernel

/-- `move_texts_exist_for_start_position` (src/codecs/move_text.rs). -/
example : (let m := MoveText.legalV (Game.new .backgammon).position (Dice.new 6 1); !m.isEmpty && m.all fun e => !e.1.isEmpty) = true := by
  decide +kernel

/-- `legal_moves_apply_roundtrip_for_multiple_rolls` (src/codecs/move_text.rs), its three mixed rolls. -/
example : ([Dice.new 6 1, Dice.new 5 3, Dice.new 2 1].all fun d => (MoveText.legalV (Game.new .backgammon).position d).all fun e =>
    match MoveText.applyV (Game.new .backgammon).position d e.1 with
    | some q => decide (GnuId.encodeV q = GnuId.encodeV e.2)
    | none => false) = true := by decide +kernel

/-- `encode_move_roundtrips_to_same_child` (src/codecs/move_text.rs). -/
example : (((Game.new .backgammon).legalPositionsWith classicRules (Dice.new 6 1)).all fun child =>
    match MoveText.encodeV (Game.new .backgammon).position child (Dice.new 6 1) with
    | .ok mv => (match MoveText.applyV (Game.new .backgammon).position (Dice.new 6 1) mv with
      | some q => decide (GnuId.encodeV q = GnuId.encodeV child)
      | none => false)
    | .error _ => false) = true := by decide +kernel

/-- `gnuid_string_roundtrip` (src/codecs/gnuid.rs). -/
example : (["4HPwATDgc/ABMA", "jGfkASjg8wcBMA", "zGbiIQgxH/AAWA", "zGbiIYCYD3gALA"].all fun id =>
    match GnuId.decodeV true .backgammon id.toList with
    | some (.ok q) => decide (GnuId.encodeV q = some id.toList)
    | _ => false) = true := by decide +kernel

/-- The position of the three `..._roundtrip_with_bars_and_off` tests. -/
def barsOff : VPos := .backgammon ⟨true, fun i => [-1, 0, 0, 0, 0, 0, 2, 0, 3, 0, 0, 0, 0, 0, 0, 0, 0, -1, 0, -2, 0, 0, 0, 0, 0, 2].getD i.val 0, 8, 11⟩

/-- `gnuid_roundtrip_with_bars_and_off` (src/codecs/gnuid.rs). -/
example : (match (GnuId.encodeV barsOff).bind (GnuId.decodeV true .backgammon) with
    | some (.ok q) => decide (GnuId.encodeV q = GnuId.encodeV barsOff)
    | _ => false) = true := by decide +kernel

/-- `xgid_board_roundtrip`, `xgid_board_roundtrip_with_bars_and_off` (src/codecs/xgid.rs). -/
example : ([(Game.new .backgammon).position, barsOff].all fun q => match Xgid.decodeV true .backgammon (Xgid.encodeV q) with
    | some (.ok r) => decide (GnuId.encodeV r = GnuId.encodeV q)
    | _ => false) = true := by decide +kernel

/-- `xgid_full_roundtrip` (src/codecs/xgid.rs). -/
example : (let x : Xgid.Xgid := ⟨Xgid.encodeV (Game.new .backgammon).position, 0, 0, 1, 0, 0, .rolled 6 1, true, 0, 0⟩
    match Xgid.parse (Xgid.format x) with
    | .ok y => decide (y = x)
    | .error _ => false) = true := by decide +kernel

/-- `fibs_board_roundtrip_start_position`, `fibs_board_roundtrip_with_bars_and_off` (src/codecs/fibs.rs). -/
example : ([(Game.new .backgammon).position, barsOff].all fun q => match Fibs.decodeV true .backgammon (Fibs.encodeV q) with
    | some (.ok r) => decide (GnuId.encodeV r = GnuId.encodeV q)
    | _ => false) = true := by decide +kernel

/-! ## src/game.rs and src/rules.rs -/

/-- `play_episode_uses_policy_and_advances` (src/game.rs 140-148); the first roll is the mixed one. The mock's `roll_mixed` is a least
fixed point, which the kernel does not compute, so the mock is the one of the test with `roll_mixed` = `roll` (the first dice are mixed). -/
example : (match Game.playEpisode classicRules { diceGenMock with rollMixed := diceGenMock.roll } (fun t _ _ _ => (0, t)) 3
      (Game.new .backgammon) ([Dice.new 6 1, Dice.new 5 3, Dice.new 4 2], 0) () with
    | some ⟨_, _, _, .ok n⟩ => n
    | _ => 0) = 3 := by decide +kernel

/-- `play_episode_fails_on_out_of_bounds_policy_index` (src/game.rs 151-160). -/
example : (match Game.playEpisode classicRules { diceGenMock with rollMixed := diceGenMock.roll } (fun t _ _ l => (l.length, t)) 1
      (Game.new .backgammon) ([Dice.new 6 1], 0) () with
    | some ⟨_, _, _, .error e⟩ => some e
    | _ => none) = some .policyIndexOutOfBounds := by decide +kernel

/-- `no_hit_rules_filter_positions_that_put_opponent_on_bar` (src/rules.rs 151-158). -/
example : (let l := BACKGAMMON.noHitPositions (Dice.new 6 1); !l.isEmpty && l.all fun q => decide (q.oBar ≤ BACKGAMMON.oBar)) = true := by
  decide +kernel

/-! ## src/dice.rs and src/dice_gen.rs -/

/-- `all_441` (src/dice.rs 160-172). -/
example : (all441.map (·.2)).sum = 1296 ∧ (all441.all fun e => match e.1 with
    | (.mixed _ _, .mixed _ _) => e.2 == 4
    | (.double _, .mixed _ _) => e.2 == 2
    | (.mixed _ _, .double _) => e.2 == 2
    | (.double _, .double _) => e.2 == 1) = true := by decide +kernel

/-- `all_441_has_distinct_dice` (src/dice.rs 175-186). -/
example : (all441.map (·.1)).eraseDups.length = 441 := by decide +kernel

/-- `roll_returns_given_dice`, `assert_all_dice_were_used`, `panics_when_roll_is_called_too_often` (src/dice_gen.rs 220-240). -/
example : (match diceGenMock.roll ([Dice.new 3 2, Dice.new 1 6], 0) with
      | some (d, s) => decide (d = Dice.new 3 2) && decide ((diceGenMock.roll s).map (·.1) = some (Dice.new 1 6)) &&
          decide (mockAllUsed s = none)
      | none => false) = true ∧
    ((diceGenMock.roll ([Dice.new 3 2], 0)).bind fun r => diceGenMock.roll r.2) = none := by decide +kernel

end Bkgm.RepoTests
