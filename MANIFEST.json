{
 "claims": [
  {
   "property": "C01",
   "status": "proved",
   "theorems": [
    "Bkgm.C01_legal_positions_iff",
    "Bkgm.C01_every_play_is_listed"
   ],
   "note": "Refinement of the whole generator to Spec.Legal for all positions with correctly signed bars, all N, all rolls."
  },
  {
   "property": "C02",
   "status": "proved",
   "theorems": [
    "Bkgm.C02_never_empty",
    "Bkgm.C02_no_move"
   ],
   "note": ""
  },
  {
   "property": "C03",
   "status": "partial",
   "theorems": [
    "Bkgm.C03_duplicate_counterexample",
    "Bkgm.C03_doubles_nodup",
    "Bkgm.C03_mixed_nodup_iff_partial",
    "Bkgm.C03_no_duplicates_outside_bearoff_partial",
    "Bkgm.C03_twice_partial",
    "Bkgm.C03_duplicates_partial",
    "Bkgm.C03_uniform"
   ],
   "note": "The property is false of the code for some mixed rolls: counterexample proved. Doubles never repeat; the exact condition for mixed rolls is proved. When a list has duplicates it is one position, exactly twice, so every entry always occurs equally often."
  },
  {
   "property": "C04",
   "status": "proved",
   "theorems": [
    "Bkgm.C04_children_valid"
   ],
   "note": ""
  },
  {
   "property": "C05",
   "status": "proved",
   "theorems": [
    "Bkgm.C05_turn_off_hits"
   ],
   "note": ""
  },
  {
   "property": "C06",
   "status": "proved",
   "theorems": [
    "Bkgm.C06_pip_accounting"
   ],
   "note": ""
  },
  {
   "property": "C07",
   "status": "proved",
   "theorems": [
    "Bkgm.C07_dice_new",
    "Bkgm.C07_same_positions"
   ],
   "note": ""
  },
  {
   "property": "C08",
   "status": "proved",
   "theorems": [
    "Bkgm.C08_try_move_single_checker"
   ],
   "note": ""
  },
  {
   "property": "C09",
   "status": "proved",
   "theorems": [
    "Bkgm.C09_flip"
   ],
   "note": ""
  },
  {
   "property": "C10",
   "status": "proved",
   "theorems": [
    "Bkgm.C10_game_state",
    "Bkgm.C10_default_agrees"
   ],
   "note": ""
  },
  {
   "property": "C100",
   "status": "partial",
   "theorems": [
    "Bkgm.C100_distinct_partial",
    "Bkgm.C100_twice_partial",
    "Bkgm.C100_variant_partial",
    "Bkgm.C100_exact_partial",
    "Bkgm.C100_variant_exact_partial",
    "Bkgm.C100_small_partial",
    "Bkgm.C100_counterexample"
   ],
   "note": "False of the code (counterexample proved). The exact condition is proved (C100_exact_partial: a text is repeated iff the roll is not a double and the board is a Spec.RepeatedText), so the property holds in full for two and three checkers. Proved with doubles and whenever not both sides have a checker on the bar; in general a text occurs at most twice, and apply_move turns it into one of the two children."
  },
  {
   "property": "C101",
   "status": "proved",
   "theorems": [
    "Bkgm.C101_same_text",
    "Bkgm.C101_no_hit",
    "Bkgm.C101_variant",
    "Bkgm.C101_different"
   ],
   "note": ""
  },
  {
   "property": "C102",
   "status": "proved",
   "theorems": [
    "Bkgm.C102_encode_chosen",
    "Bkgm.C102_listed_chosen",
    "Bkgm.C102_variant"
   ],
   "note": ""
  },
  {
   "property": "C103",
   "status": "proved",
   "theorems": [
    "Bkgm.Ubgi.C103_dialogue",
    "Bkgm.Ubgi.C103_game",
    "Bkgm.Ubgi.C103_can_end",
    "Bkgm.Ubgi.C103_engine"
   ],
   "note": "For engines that answer with a text of a legal child (Spec.PlaysLegally); firstEngine_legal shows that the engine that plays the first listed position and writes it with encode_move is one."
  },
  {
   "property": "C104",
   "status": "proved",
   "theorems": [
    "Bkgm.C104_names",
    "Bkgm.C104_variant"
   ],
   "note": "The database number is compared when both exist without overflow (with 15 checkers wrapped numbers can collide: C30)."
  },
  {
   "property": "C105",
   "status": "proved",
   "theorems": [
    "Bkgm.C105_record",
    "Bkgm.C105_injective"
   ],
   "note": ""
  },
  {
   "property": "C106",
   "status": "proved",
   "theorems": [
    "Bkgm.C106_fibs",
    "Bkgm.C106_xgid",
    "Bkgm.C106_builds"
   ],
   "note": "a possible board adds up to the number of checkers modulo 256, as a release build counts; when a debug build panics is C29 and C93"
  },
  {
   "property": "C107",
   "status": "proved",
   "theorems": [
    "Bkgm.C107_episode",
    "Bkgm.C107_almost_surely"
   ],
   "note": "openFaces is in Spec/Entering.lean; the ideal random source in Spec/Random.lean"
  },
  {
   "property": "C11",
   "status": "proved",
   "theorems": [
    "Bkgm.C11_flip_reverses",
    "Bkgm.C11_reverse"
   ],
   "note": ""
  },
  {
   "property": "C12",
   "status": "proved",
   "theorems": [
    "Bkgm.C12_phase",
    "Bkgm.C12_any_board",
    "Bkgm.C12_decoded",
    "Bkgm.C12_decoded_counterexample",
    "Bkgm.C12_release"
   ],
   "note": "beyond valid positions: exact on every board. The GNUBG decoder accepts ids with both sides on one point, on which phase can panic (C12_decoded_counterexample); such boards are not valid positions"
  },
  {
   "property": "C13",
   "status": "proved",
   "theorems": [
    "Bkgm.C13_race_stays"
   ],
   "note": ""
  },
  {
   "property": "C14",
   "status": "partial",
   "theorems": [
    "Bkgm.C14_no_hit_counterexample",
    "Bkgm.C14_no_hit_partial",
    "Bkgm.C14_variant_partial",
    "Bkgm.C14_hits_are_kept_partial",
    "Bkgm.C14_all_or_nothing_partial",
    "Bkgm.C14_episode_gives_up_partial"
   ],
   "note": "The property is false of the code: counterexample proved. The exact behaviour of the filter is proved instead."
  },
  {
   "property": "C15",
   "status": "partial",
   "theorems": [
    "Bkgm.C15_try_from_partial",
    "Bkgm.C15_accepted_is_valid_partial",
    "Bkgm.C15_valid_is_accepted",
    "Bkgm.C15_refusals_partial",
    "Bkgm.C15_debug_panic_partial",
    "Bkgm.C15_try_from_counterexample"
   ],
   "note": "The property is false of the code: the i8 sums overflow (panic in debug, wrong acceptance in release). Counterexample proved; exact behaviour proved for arrays whose sums fit, and the exact panic condition."
  },
  {
   "property": "C16",
   "status": "proved",
   "theorems": [
    "Bkgm.C16_no_panic",
    "Bkgm.C16_finished_panics",
    "Bkgm.C16_try_move_no_panic",
    "Bkgm.C16_flip_panics_iff"
   ],
   "note": "Second transcription of the generator into Option (none = panic of a debug build): index out of range, i8/u8/usize overflow, failing debug_assert. At most 127 checkers per side."
  },
  {
   "property": "C17",
   "status": "proved",
   "theorems": [
    "Bkgm.C17_reachable_valid"
   ],
   "note": ""
  },
  {
   "property": "C18",
   "status": "proved",
   "theorems": [
    "Bkgm.C18_one_winner"
   ],
   "note": ""
  },
  {
   "property": "C19",
   "status": "proved",
   "theorems": [
    "Bkgm.C19_variant_invariant",
    "Bkgm.C19_set_position"
   ],
   "note": "For both supplied rule sets; a user-written VariantRules may return positions of another variant."
  },
  {
   "property": "C20",
   "status": "proved",
   "theorems": [
    "Bkgm.C20_apply_nth",
    "Bkgm.C20_first_is_accepted"
   ],
   "note": ""
  },
  {
   "property": "C21",
   "status": "proved",
   "theorems": [
    "Bkgm.C21_play_episode",
    "Bkgm.C21_first_roll_mixed",
    "Bkgm.C21_generators_first_roll_mixed",
    "Bkgm.C21_classic_episode"
   ],
   "note": ""
  },
  {
   "property": "C22",
   "status": "proved",
   "theorems": [
    "Bkgm.C22_round_trip",
    "Bkgm.C22_injective",
    "Bkgm.C22_variant_round_trip"
   ],
   "note": "For at most 15 checkers per side (all variants of the crate)."
  },
  {
   "property": "C23",
   "status": "partial",
   "theorems": [
    "Bkgm.C23_panic_counterexample",
    "Bkgm.C23_panic_iff_partial",
    "Bkgm.C23_release_panic_iff_partial",
    "Bkgm.C23_accepted_partial",
    "Bkgm.C23_ok_iff",
    "Bkgm.C23_panic_iff",
    "Bkgm.C23_error_iff"
   ],
   "note": "The property is false of the code: some ids panic, some give invalid positions (witnesses proved). The exact panic condition in both build profiles and the exact validity condition are proved."
  },
  {
   "property": "C24",
   "status": "partial",
   "theorems": [
    "Bkgm.C24_reencode_partial",
    "Bkgm.C24_reencode_iff_partial",
    "Bkgm.C24_stray_bit_counterexample",
    "Bkgm.C24_encoded_ids_qualify",
    "Bkgm.C24_decodes_iff",
    "Bkgm.C24_encodes_iff"
   ],
   "note": "The property is false of the code: bits after the last run are ignored (witness proved). Proved for ids without such stray bits, and that this condition is exact."
  },
  {
   "property": "C25",
   "status": "proved",
   "theorems": [
    "Bkgm.C25_round_trip",
    "Bkgm.C25_reencode",
    "Bkgm.C25_variant_round_trip"
   ],
   "note": "up to 16 checkers per side, any turn; decode returns x to move"
  },
  {
   "property": "C26",
   "status": "proved",
   "theorems": [
    "Bkgm.C26_round_trip",
    "Bkgm.C26_parse_in_range",
    "Bkgm.C26_surrounding_space",
    "Bkgm.C26_accept_iff",
    "Bkgm.C26_error_iff"
   ],
   "note": "parse is a total function in the model: no arithmetic or indexing in parse_xgid can panic"
  },
  {
   "property": "C27",
   "status": "partial",
   "theorems": [
    "Bkgm.C27_decode_partial",
    "Bkgm.C27_debug_partial",
    "Bkgm.C27_overflow_counterexample",
    "Bkgm.C27_accept_iff",
    "Bkgm.C27_errors",
    "Bkgm.C27_release_no_panic"
   ],
   "note": "The claim is false in general: more than 127 checkers in the text overflow i8 in Position::try_from (panic in debug, acceptance of an invalid board in release); proved for all other texts and, in debug builds, all panics characterised"
  },
  {
   "property": "C28",
   "status": "partial",
   "theorems": [
    "Bkgm.C28_round_trip_partial",
    "Bkgm.C28_o_to_move_partial",
    "Bkgm.C28_variant_round_trip_partial",
    "Bkgm.C28_counterexample"
   ],
   "note": "False of the code with o to move (witnesses proved; the exact result of decoding the text is proved for every valid position). Proved with x to move."
  },
  {
   "property": "C29",
   "status": "partial",
   "theorems": [
    "Bkgm.C29_accept_iff",
    "Bkgm.C29_debug_valid",
    "Bkgm.C29_builds_agree",
    "Bkgm.C29_panic_iff",
    "Bkgm.C29_release_no_panic",
    "Bkgm.C29_errors",
    "Bkgm.C29_verdict",
    "Bkgm.C29_counterexample"
   ],
   "note": "False of the code for adversarial texts: i8 overflow panics (debug) or accepts an invalid board (release), witnesses proved. What holds is exact, against an independent grammar (Spec/Fibs.lean): which texts give which valid position in both builds, exactly which texts panic in a debug build, that release never panics, and what each error means."
  },
  {
   "property": "C30",
   "status": "proved",
   "theorems": [
    "Bkgm.C30_perfect_hash",
    "Bkgm.C30_release_collision_counterexample"
   ],
   "note": "Under no overflow, as the property says; with 15 checkers a release build has colliding wrapped hashes (witness proved)."
  },
  {
   "property": "C31",
   "status": "partial",
   "theorems": [
    "Bkgm.C31_no_overflow_partial",
    "Bkgm.C31_sizes_partial",
    "Bkgm.C31_overflow_counterexample"
   ],
   "note": "False for 15 checkers per side (the backgammon start position overflows: proved). Proved for at most 12 checkers per side, and that 12 is the exact bound; which positions overflow for every number of checkers is C96_number."
  },
  {
   "property": "C32",
   "status": "proved",
   "theorems": [
    "Bkgm.C32_comb",
    "Bkgm.C32_mcomb",
    "Bkgm.C32_mcomb_excluded",
    "Bkgm.fit_spec"
   ],
   "note": ""
  },
  {
   "property": "C33",
   "status": "proved",
   "theorems": [
    "Bkgm.C33_encode_apply",
    "Bkgm.C33_variant_encode_apply"
   ],
   "note": "every position with the bars in order, every roll, every legal child"
  },
  {
   "property": "C34",
   "status": "partial",
   "theorems": [
    "Bkgm.C34_accepted_partial",
    "Bkgm.C34_legal_partial",
    "Bkgm.C34_counterexample",
    "Bkgm.C34_counterexample_two_dice"
   ],
   "note": "False of the code: a one-step text for a mixed roll is accepted although the rules demand the larger die or both dice (two witnesses proved). Proved: every accepted text is a sequence of permitted single-checker moves after which no remaining die can be played, and it is a legal play except for one-step texts with a mixed roll. The exact acceptance condition is C70."
  },
  {
   "property": "C35",
   "status": "proved",
   "theorems": [
    "Bkgm.C35_children",
    "Bkgm.C35_variant_children"
   ],
   "note": "for every position with the bars in order and every roll; a repeated child keeps its last place"
  },
  {
   "property": "C36",
   "status": "partial",
   "theorems": [
    "Bkgm.C36_text_partial",
    "Bkgm.C36_exact_partial",
    "Bkgm.C36_variant_exact_partial",
    "Bkgm.C36_wrong_text_partial",
    "Bkgm.C36_counterexample"
   ],
   "note": "False of the code: legal_for_steps also walks the flipped board, and with a mixed roll a hitting play can get the text of an opposing play (witness proved). Proved for all doubles and for every play that hits nothing; where the text is wrong it is a play of the opponent that ends on the same board."
  },
  {
   "property": "C37",
   "status": "proved",
   "theorems": [
    "Bkgm.C37_parse_format",
    "Bkgm.C37_normalize_format",
    "Bkgm.C37_format_injective"
   ],
   "note": "every list of steps in range; text as list of characters"
  },
  {
   "property": "C38",
   "status": "proved",
   "theorems": [
    "Bkgm.C38_normalize_idempotent"
   ],
   "note": "every text; totality (no panic) is by construction of the model: parse functions are total"
  },
  {
   "property": "C39",
   "status": "proved",
   "theorems": [
    "Bkgm.C39_whitespace",
    "Bkgm.C39_marks",
    "Bkgm.C39_chain",
    "Bkgm.C39_marks_alone"
   ],
   "note": "every variant position, roll and text; C39_marks_alone shows the stated restriction is necessary"
  },
  {
   "property": "C40",
   "status": "proved",
   "theorems": [
    "Bkgm.C40_parse_iff",
    "Bkgm.C40_round_trip",
    "Bkgm.C40_spec_names"
   ],
   "note": ""
  },
  {
   "property": "C41",
   "status": "proved",
   "theorems": [
    "Bkgm.C41_start_position",
    "Bkgm.C41_layout"
   ],
   "note": ""
  },
  {
   "property": "C42",
   "status": "proved",
   "theorems": [
    "Bkgm.C42_all_21",
    "Bkgm.C42_all_441",
    "Bkgm.C42_singles_doubles"
   ],
   "note": ""
  },
  {
   "property": "C43",
   "status": "proved",
   "theorems": [
    "Bkgm.C43_roll_unbiased",
    "Bkgm.C43_roll_mixed_unbiased",
    "Bkgm.C43_fastrand_legal"
   ],
   "note": "fastrand itself is an abstract source."
  },
  {
   "property": "C44",
   "status": "proved",
   "theorems": [
    "Bkgm.C44_default_roll_mixed",
    "Bkgm.C44_mock_replays",
    "Bkgm.C44_mock_calls"
   ],
   "note": ""
  },
  {
   "property": "C45",
   "status": "proved",
   "theorems": [
    "Bkgm.C45_choose_index"
   ],
   "note": "Holds for any meaning of the floating-point operations."
  },
  {
   "property": "C46",
   "status": "proved",
   "theorems": [
    "Bkgm.C46_round_trip",
    "Bkgm.C46_reparse",
    "Bkgm.C46_reparse_counterexample"
   ],
   "note": "The round trip holds for every well-formed spec; keys with a second \"engine.\" or white space after \"engine.\" are outside it (witnesses proved)."
  },
  {
   "property": "C47",
   "status": "proved",
   "theorems": [
    "Bkgm.C47_ok",
    "Bkgm.C47_last_override_wins",
    "Bkgm.C47_fails_iff"
   ],
   "note": ""
  },
  {
   "property": "C48",
   "status": "proved",
   "theorems": [
    "Bkgm.Ubgi.C48_round_trip",
    "Bkgm.Ubgi.C48_injective",
    "Bkgm.Ubgi.C48_constructors",
    "Bkgm.Ubgi.C48_defaults",
    "Bkgm.Ubgi.C48_empty_default"
   ],
   "note": "every well-formed option (key, choices and default are single words); C48_empty_default shows that the restriction is needed"
  },
  {
   "property": "C49",
   "status": "proved",
   "theorems": [
    "Bkgm.Ubgi.C49_accepts_exactly",
    "Bkgm.Ubgi.C49_round_trip",
    "Bkgm.Ubgi.C49_same_text",
    "Bkgm.Ubgi.C49_refusals",
    "Bkgm.Ubgi.C49_one_sided_bound"
   ],
   "note": "every option and text; a bound is enforced only if both bounds are given (C49_one_sided_bound)"
  },
  {
   "property": "C50",
   "status": "proved",
   "theorems": [
    "Bkgm.Ubgi.C50_session",
    "Bkgm.Ubgi.C50_determined"
   ],
   "note": "every engine, every list of lines on which gnuid::decode does not panic; panics of the engine itself are not modelled"
  },
  {
   "property": "C51",
   "status": "proved",
   "theorems": [
    "Bkgm.Ubgi.C51_get",
    "Bkgm.Ubgi.C51_read_your_writes",
    "Bkgm.Ubgi.C51_read_variant",
    "Bkgm.Ubgi.C53_error_unchanged"
   ],
   "note": "every engine and every history"
  },
  {
   "property": "C52",
   "status": "proved",
   "theorems": [
    "Bkgm.Ubgi.C52_go",
    "Bkgm.Ubgi.C52_missing_dice_iff"
   ],
   "note": "every engine and every history"
  },
  {
   "property": "C53",
   "status": "proved",
   "theorems": [
    "Bkgm.Ubgi.C53_commands",
    "Bkgm.Ubgi.C53_error_unchanged",
    "Bkgm.Ubgi.C53_quit",
    "Bkgm.Ubgi.C53_every_line_read",
    "Bkgm.Ubgi.C53_blank",
    "Bkgm.Ubgi.C53_replies",
    "Bkgm.Ubgi.C53_set_replies",
    "Bkgm.Ubgi.C53_dice_position_replies"
   ],
   "note": "every engine and every list of lines"
  },
  {
   "property": "C54",
   "status": "proved",
   "theorems": [
    "Bkgm.C54_perft_counts",
    "Bkgm.C54_perft_counts_weighted",
    "Bkgm.C54_perft_zero",
    "Bkgm.C54_perft_lower"
   ],
   "note": "Lines of play are sequences of (roll, index in the list of legal positions); weighted: ordered dice. The u128 counter wraps modulo 2^128 in the model (release build)."
  },
  {
   "property": "C55",
   "status": "proved",
   "theorems": [
    "Bkgm.C55_eq_and_hash"
   ],
   "note": ""
  },
  {
   "property": "C56",
   "status": "proved",
   "theorems": [
    "Bkgm.C56_debug_lists",
    "Bkgm.C56_debug_injective",
    "Bkgm.C56_no_checkers_counterexample"
   ],
   "note": "N >= 1 is needed: with N = 0 the two pops eat the brace."
  },
  {
   "property": "C57",
   "status": "proved",
   "theorems": [
    "Bkgm.C57_turn_flag"
   ],
   "note": "every position, roll and flag; also no-hit rules, equality and hash"
  },
  {
   "property": "C58",
   "status": "proved",
   "theorems": [
    "Bkgm.Ubgi.C58_move_round_trip",
    "Bkgm.Ubgi.C58_move_parsed"
   ],
   "note": "every list of steps, every text"
  },
  {
   "property": "C59",
   "status": "proved",
   "theorems": [
    "Bkgm.C59_show_diagram",
    "Bkgm.C59_show_shape",
    "Bkgm.C59_show_injective"
   ],
   "note": "Width and injectivity for at most 99 checkers per side."
  },
  {
   "property": "C60",
   "status": "proved",
   "theorems": [
    "Bkgm.C60_race_progress",
    "Bkgm.C60_race_ends",
    "Bkgm.C60_episode_finishes_race"
   ],
   "note": "Each race ply lowers the total pip count; play_episode finishes."
  },
  {
   "property": "C61",
   "status": "proved",
   "theorems": [
    "Bkgm.C61_map_order",
    "Bkgm.C61_from_maps",
    "Bkgm.C61_round_trip",
    "Bkgm.C61_cells_round_trip",
    "Bkgm.C61_builds_agree",
    "Bkgm.C61_pos_macro",
    "Bkgm.C61_cast_counterexample"
   ],
   "note": "HashMap = list of entries with distinct keys in any order. Exact condition for counts <= 127; the cast quirk is a counterexample theorem."
  },
  {
   "property": "C62",
   "status": "proved",
   "theorems": [
    "Bkgm.C62_debug_perft",
    "Bkgm.C62_builds_agree",
    "Bkgm.C62_game_length",
    "Bkgm.C62_branching",
    "Bkgm.C62_debug_perft_total",
    "Bkgm.C62_start_positions"
   ],
   "note": "Debug-build transcription of perft on top of the checked generator."
  },
  {
   "property": "C63",
   "status": "proved",
   "theorems": [
    "Bkgm.PerftCli.C63_flag",
    "Bkgm.PerftCli.C63_variant",
    "Bkgm.PerftCli.C63_perft_mode",
    "Bkgm.PerftCli.C63_single_roll_mode",
    "Bkgm.PerftCli.C63_default"
   ],
   "note": "Debug build; printed values as a record, times not modelled."
  },
  {
   "property": "C64",
   "status": "proved",
   "theorems": [
    "Bkgm.Corpus.C64_load",
    "Bkgm.Corpus.C64_load_iff",
    "Bkgm.Corpus.C64_load_spec",
    "Bkgm.Corpus.C64_bad_line",
    "Bkgm.Corpus.C64_run_once",
    "Bkgm.Corpus.C64_main"
   ],
   "note": "File contents and paths are parameters."
  },
  {
   "property": "C65",
   "status": "proved",
   "theorems": [
    "Bkgm.C65_rules",
    "Bkgm.C65_apply_nth",
    "Bkgm.C65_episode",
    "Bkgm.C65_new_game",
    "Bkgm.C65_finished_panics"
   ],
   "note": "Debug-build transcription; the policy and the dice generator themselves are assumed not to panic."
  },
  {
   "property": "C66",
   "status": "proved",
   "theorems": [
    "Bkgm.C66_encode",
    "Bkgm.C66_apply",
    "Bkgm.C66_legal"
   ],
   "note": "Debug-build transcription of the move text functions on a position (the variant wrappers only dispatch)."
  },
  {
   "property": "C67",
   "status": "proved",
   "theorems": [
    "Bkgm.Ubgi.C67_panic_iff",
    "Bkgm.Ubgi.C67_no_position_no_panic",
    "Bkgm.Ubgi.C67_valid_ids_no_panic",
    "Bkgm.Ubgi.C67_panic_counterexample",
    "Bkgm.Ubgi.C67_default_engine"
   ],
   "note": "Engine methods are assumed not to panic. The two crashes are real defects of the code (counterexample theorem)."
  },
  {
   "property": "C68",
   "status": "proved",
   "theorems": [
    "Bkgm.F32.C68_no_overflow",
    "Bkgm.F32.C68_zero_chance",
    "Bkgm.F32.C68_proportional",
    "Bkgm.F32.C68_sum",
    "Bkgm.F32.C68_rounding",
    "Bkgm.F32.C68_subnormal_counterexample"
   ],
   "note": "f32 is modelled by rationals with IEEE round-to-nearest-even; NaN, infinities and negative chances are outside."
  },
  {
   "property": "C69",
   "status": "proved",
   "theorems": [
    "Bkgm.C69_try_from",
    "Bkgm.C69_new_panics",
    "Bkgm.C69_accessors",
    "Bkgm.C69_display",
    "Bkgm.C69_display_injective"
   ],
   "note": ""
  },
  {
   "property": "C70",
   "status": "proved",
   "theorems": [
    "Bkgm.C70_accept_iff",
    "Bkgm.C70_variant_accept_iff"
   ],
   "note": ""
  },
  {
   "property": "C71",
   "status": "proved",
   "theorems": [
    "Bkgm.C71_buffer_irrelevant",
    "Bkgm.C71_buffer_legal",
    "Bkgm.C71_len_and_visit",
    "Bkgm.C71_reuse"
   ],
   "note": ""
  },
  {
   "property": "C72",
   "status": "proved",
   "theorems": [
    "Bkgm.C72_phase",
    "Bkgm.C72_xgid",
    "Bkgm.C72_xgid_panics_iff",
    "Bkgm.C72_fibs",
    "Bkgm.C72_debug",
    "Bkgm.C72_show",
    "Bkgm.C72_variants",
    "Bkgm.C72_bounds_sharp"
   ],
   "note": ""
  },
  {
   "property": "C73",
   "status": "proved",
   "theorems": [
    "Bkgm.C73_children",
    "Bkgm.C73_never_empty",
    "Bkgm.C73_game_state",
    "Bkgm.C73_phase",
    "Bkgm.C73_eq",
    "Bkgm.C73_num_checkers"
   ],
   "note": ""
  },
  {
   "property": "C74",
   "status": "proved",
   "theorems": [
    "Bkgm.C74_encode_sound",
    "Bkgm.C74_encode_ok_iff",
    "Bkgm.C74_variant_mismatch",
    "Bkgm.C74_variant",
    "Bkgm.C74_illegal_child_counterexample"
   ],
   "note": ""
  },
  {
   "property": "C75",
   "status": "proved",
   "theorems": [
    "Bkgm.C75_gnuid_text",
    "Bkgm.C75_xgid_text",
    "Bkgm.C75_fibs_text"
   ],
   "note": ""
  },
  {
   "property": "C76",
   "status": "proved",
   "theorems": [
    "Bkgm.C15_debug_iff",
    "Bkgm.C15_release_iff",
    "Bkgm.C27_debug_iff",
    "Bkgm.C27_release_iff",
    "Bkgm.C27_accept_iff",
    "Bkgm.C27_errors",
    "Bkgm.C27_release_no_panic",
    "Bkgm.C29_accept_iff",
    "Bkgm.C29_debug_valid",
    "Bkgm.C29_builds_agree",
    "Bkgm.C29_release_iff",
    "Bkgm.C29_panic_iff",
    "Bkgm.C29_release_no_panic",
    "Bkgm.C29_errors",
    "Bkgm.C23_ok_iff",
    "Bkgm.C23_panic_iff",
    "Bkgm.C23_error_iff",
    "Bkgm.C24_decodes_iff",
    "Bkgm.C24_encodes_iff"
   ],
   "note": "The true counterpart of the partial claims C15, C23, C24, C27, C29: what the decoders do is characterised exactly, including where they accept impossible boards or panic."
  },
  {
   "property": "C77",
   "status": "proved",
   "theorems": [
    "Bkgm.C77_normalize_iff",
    "Bkgm.C77_unambiguous",
    "Bkgm.C77_parse_iff",
    "Bkgm.C77_apply_iff",
    "Bkgm.C77_variant_apply_iff"
   ],
   "note": "The grammar is in Spec/MoveText.lean; it uses only the standard-library operations split_whitespace and to_ascii_lowercase, themselves characterised in Props/StrSpec.lean."
  },
  {
   "property": "C78",
   "status": "proved",
   "theorems": [
    "Bkgm.C78_accept_iff",
    "Bkgm.C78_error_iff",
    "Bkgm.C78_format_iff"
   ],
   "note": "The grammar is in Spec/EngineSpec.lean."
  },
  {
   "property": "C79",
   "status": "proved",
   "theorems": [
    "Bkgm.C79_key_line_iff",
    "Bkgm.C79_move_iff"
   ],
   "note": "The grammars are in Spec/KeyLine.lean and Spec/MoveText.lean."
  },
  {
   "property": "C80",
   "status": "proved",
   "theorems": [
    "Bkgm.PerftCli.C80_command_line",
    "Bkgm.PerftCli.C80_run",
    "Bkgm.PerftCli.C80_bad_id",
    "Bkgm.Corpus.C80_corpus"
   ],
   "note": "The reading of the command lines and of the corpus files is specified in Spec/CommandLine.lean. Debug build; times not modelled. Ids whose counts clash on a point (C23) are outside the run statements."
  },
  {
   "property": "C81",
   "status": "proved",
   "theorems": [
    "Bkgm.Stdin.C81_utf8",
    "Bkgm.Stdin.C81_lines",
    "Bkgm.Stdin.C81_stops",
    "Bkgm.Stdin.C81_inputs",
    "Bkgm.Stdin.C81_output",
    "Bkgm.Stdin.C81_client",
    "Bkgm.Stdin.C81_only_lines"
   ],
   "note": "Reads and writes are assumed not to fail otherwise (writing errors are ignored by the code). Tidy is a condition on the engine only."
  },
  {
   "property": "C82",
   "status": "proved",
   "theorems": [
    "Bkgm.C82_stuck_iff",
    "Bkgm.C82_in_and_out",
    "Bkgm.C82_never_stuck",
    "Bkgm.C82_needs_thirteen",
    "Bkgm.C82_episode_runs_out"
   ],
   "note": "The close-out and CanMove are specified in Spec/Deadlock.lean with the rules of Spec/Rules.lean. That games can be brought to an end is C87 and C88."
  },
  {
   "property": "C83",
   "status": "proved",
   "theorems": [
    "Bkgm.C83_endless",
    "Bkgm.C83_no_bound"
   ],
   "note": ""
  },
  {
   "property": "C84",
   "status": "proved",
   "theorems": [
    "Bkgm.C84_only_hits_prolong",
    "Bkgm.C84_backgammon"
   ],
   "note": "Histories are specified in Spec/History.lean."
  },
  {
   "property": "C85",
   "status": "proved",
   "theorems": [
    "Bkgm.C85_scripted",
    "Bkgm.C85_panics_iff",
    "Bkgm.C85_enough_dice",
    "Bkgm.C85_all_dice_used",
    "Bkgm.C85_returns_unless"
   ],
   "note": "Leading doubles are specified in Spec/Script.lean."
  },
  {
   "property": "C86",
   "status": "proved",
   "theorems": [
    "Bkgm.C86_entering",
    "Bkgm.C86_forced",
    "Bkgm.C86_variant"
   ],
   "note": "Spec/Entering.lean."
  },
  {
   "property": "C87",
   "status": "proved",
   "theorems": [
    "Bkgm.C87_can_finish",
    "Bkgm.C87_can_finish_other",
    "Bkgm.C87_small_variants",
    "Bkgm.C87_fair_play_ends",
    "Bkgm.C87_fair_games_end"
   ],
   "note": "Leads, Run and Fair are in Spec/Finish.lean. When more checkers are left than FewLeft allows see C88, with a weaker bound on the number of plies."
  },
  {
   "property": "C88",
   "status": "proved",
   "theorems": [
    "Bkgm.C88_dice_can_end",
    "Bkgm.C88_exactly",
    "Bkgm.C88_every_game",
    "Bkgm.C88_can_finish",
    "Bkgm.C88_fair_dice"
   ],
   "note": "Forced, PlayedWith and FairDice are in Spec/Forced.lean."
  },
  {
   "property": "C89",
   "status": "proved",
   "theorems": [
    "Bkgm.C89_tail",
    "Bkgm.C89_almost_surely",
    "Bkgm.C89_every_game",
    "Bkgm.C89_expected_length",
    "Bkgm.C89_close_out"
   ],
   "note": "The ideal random source is in Spec/Random.lean; that fastrand behaves like it is an assumption of the claim, not proved."
  },
  {
   "property": "C90",
   "status": "proved",
   "theorems": [
    "Bkgm.Io.C90_dialogue",
    "Bkgm.Io.C90_only_input",
    "Bkgm.Io.C90_pipe",
    "Bkgm.Io.C90_prefix"
   ],
   "note": "World, Happens, Dialogue, heard and said are in Spec/Io.lean. write is write_all as a whole; that bytes of a failed write may have got out is left open."
  },
  {
   "property": "C91",
   "status": "proved",
   "theorems": [
    "Bkgm.C91_rolls",
    "Bkgm.C91_first_roll",
    "Bkgm.C91_default_ends",
    "Bkgm.C91_default_uniform"
   ],
   "note": "fastrand itself is an ideal source here (Spec/Random.lean)."
  },
  {
   "property": "C92",
   "status": "proved",
   "theorems": [
    "Bkgm.C92_texts_distinct",
    "Bkgm.C92_xgid",
    "Bkgm.C92_decoders",
    "Bkgm.C92_engine_spec"
   ],
   "note": ""
  },
  {
   "property": "C93",
   "status": "proved",
   "theorems": [
    "Bkgm.C93_gnuid",
    "Bkgm.C93_xgid",
    "Bkgm.C93_fibs",
    "Bkgm.C93_encode"
   ],
   "note": "the meaning of a GNU id for a variant is Spec/VariantCodecs.lean; C50, C53 and C67 use it"
  },
  {
   "property": "C94",
   "status": "proved",
   "theorems": [
    "Bkgm.MoveBench.C94_samples",
    "Bkgm.MoveBench.C94_no_panic",
    "Bkgm.MoveBench.C94_contact",
    "Bkgm.MoveBench.C94_race",
    "Bkgm.MoveBench.C94_count",
    "Bkgm.MoveBench.C94_release",
    "Bkgm.MoveBench.C94_release_count"
   ],
   "note": "the random source is any that keeps to its bounds; probability one is for independent uniform answers"
  },
  {
   "property": "C95",
   "status": "proved",
   "theorems": [
    "Bkgm.C95_valid",
    "Bkgm.C95_boards",
    "Bkgm.C95_counted",
    "Bkgm.C95_over",
    "Bkgm.C95_gnuid",
    "Bkgm.C95_try_move",
    "Bkgm.C95_never_panics",
    "Bkgm.C95_try_move_panics_iff",
    "Bkgm.C95_flip"
   ],
   "note": "the release transcription is Model/ReleaseGen.lean"
  },
  {
   "property": "C96",
   "status": "proved",
   "theorems": [
    "Bkgm.C96_number",
    "Bkgm.C96_order"
   ],
   "note": "placements, rank and number are in Spec/Rank.lean"
  },
  {
   "property": "C97",
   "status": "proved",
   "theorems": [
    "Bkgm.C97_rules",
    "Bkgm.C97_apply_nth",
    "Bkgm.C97_episode",
    "Bkgm.C97_builds_agree",
    "Bkgm.C97_never_panics",
    "Bkgm.C97_play_on",
    "Bkgm.C97_episode_after_end"
   ],
   "note": "the release transcription is Model/ReleaseGame.lean; policy and dice generator are assumed not to panic"
  },
  {
   "property": "C98",
   "status": "proved",
   "theorems": [
    "Bkgm.C98_encode",
    "Bkgm.C98_apply",
    "Bkgm.C98_legal",
    "Bkgm.C98_never_panics"
   ],
   "note": "the release transcription is Model/ReleaseGame.lean"
  },
  {
   "property": "C99",
   "status": "proved",
   "theorems": [
    "Bkgm.C99_perft",
    "Bkgm.C99_perft_total",
    "Bkgm.PerftCli.C99_command_line",
    "Bkgm.PerftCli.C99_run",
    "Bkgm.PerftCli.C99_any_id",
    "Bkgm.Corpus.C99_corpus"
   ],
   "note": "the release transcription is Model/ReleaseCli.lean; reading of arguments is the model of C63/C80"
  }
 ]
}