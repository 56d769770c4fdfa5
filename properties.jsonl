{"id": "C01", "title": "Move generation is sound and complete", "statement": "For a position and a legal pair of dice, the list returned by legal_positions contains exactly the positions (seen from the opponent's side, turn passed) that can be reached by a legal backgammon play: single-checker moves obeying bar-entry, blocking, hitting and bear-off rules, using each die at most once (four times for a double), as many dice as possible, and the larger die when only one of two can be played.", "quantifier": "every position whose two bar cells have the right sign, every number of checkers, all 21 rolls, every candidate child position", "why_tests_cant": "the generator reorders plays, skips pips and omits 'duplicate' orders; a missed play needs one of ~10^18 positions", "anchors": ["src/position.rs: generate_legal_positions, can_move_when_bearoff_is_legal, smallest_pip_to_check", "src/position/mixed_moves.rs: all_positions_after_mixed_move_into", "src/position/double_moves.rs: all_positions_after_double_move_into", "src/rules.rs: legal_positions"]}
{"id": "C02", "title": "There is always at least one legal position", "statement": "legal_positions under the classic rules never returns an empty list; when no checker can move it returns exactly the flipped input position.", "quantifier": "every position, every roll", "why_tests_cant": "emptiness would need a position where the generator and its fallbacks all miss", "anchors": ["src/position.rs: generate_legal_positions_in", "src/position/mixed_moves.rs", "src/position/double_moves.rs"]}
{"id": "C03", "title": "No duplicate children", "statement": "The list of legal positions contains no position twice (callers index into it, count it in perft and choose uniformly from it).", "quantifier": "every position, every roll", "why_tests_cant": "duplicates appear only in special bear-off positions", "anchors": ["src/position/mixed_moves.rs: two_checker_moves_into", "src/position/double_moves.rs: double_moves_after_entering_into"]}
{"id": "C04", "title": "Checkers are conserved", "statement": "Every child of a valid position (N checkers per side counting points, bar and off) is again a valid position with N checkers per side.", "quantifier": "every valid position, every roll, every child", "why_tests_cant": "needs all positions; an off-by-one in a hit or bear-off loses a checker only there", "anchors": ["src/position.rs: move_single_checker", "src/position/double_moves.rs: position_after_entering_checkers"]}
{"id": "C05", "title": "Turn passes and borne-off counts are monotone", "statement": "Every child has the opposite turn, the mover's borne-off count never decreases and grows by at most the number of dice, the opponent's borne-off count is unchanged, and the opponent's checkers change only by being hit (each opponent point either keeps its checkers or a single checker there moved to the bar).", "quantifier": "every position, every roll, every child", "why_tests_cant": "universal over positions and children", "anchors": ["src/position.rs: move_single_checker, flip, generate_legal_positions_in"]}
{"id": "C06", "title": "Pip count accounting of a play", "statement": "For every child, the mover's pip count drops by at most the total of the dice, and by exactly the sum of the dice used when no checker is borne off with a die larger than its point; the opponent's pip count never drops and rises by 25 minus its point for each hit blot.", "quantifier": "every valid position, every roll, every child", "why_tests_cant": "arithmetic over all positions", "anchors": ["src/position.rs: move_single_checker", "src/rules.rs: legal_positions"]}
{"id": "C07", "title": "Order of the two dice is irrelevant", "statement": "Dice::new(a,b) and Dice::new(b,a) are the same value, hence give the same legal positions, moves and encodings; Dice::new yields Double exactly when a=b and otherwise big > small.", "quantifier": "all dice values", "why_tests_cant": "finite, but lifted to every API that takes dice", "anchors": ["src/dice.rs: Dice::new, MixedDice::new"]}
{"id": "C08", "title": "try_move_single_checker implements the single-checker rule", "statement": "try_move_single_checker(from, die) returns Some exactly when moving one checker from that point (25 = bar) by that die is allowed by the rules (own checker there, bar first, target not held by two or more opponents, bear-off only with all checkers home and either an exact die or no checker further back), and the returned board is the board after that move including the hit.", "quantifier": "every position, from 1..25, die 1..6", "why_tests_cant": "conditions interact; all positions", "anchors": ["src/position.rs: try_move_single_checker, can_move, can_move_internally, move_single_checker"]}
{"id": "C09", "title": "flip is an involution that swaps sides", "statement": "flip().flip() returns the same position including turn; flip swaps bars and off counts and mirrors and negates each point; it preserves validity.", "quantifier": "every position", "why_tests_cant": "universal", "anchors": ["src/position.rs: State::flip"]}
{"id": "C10", "title": "game_state reports the right result", "statement": "game_state is Ongoing iff neither side has borne off all N checkers; otherwise it reports a win for the side that did, Normal if the loser has borne off at least one, Backgammon if the loser has none off and a checker on the bar or in the winner's home, else Gammon; the trait's default and the Position override agree.", "quantifier": "every valid position with not both sides finished", "why_tests_cant": "all positions; two implementations", "anchors": ["src/position.rs: State::game_state (default and override)"]}
{"id": "C11", "title": "game_state of the flipped position is the reversed result", "statement": "game_state(flip p) = reverse(game_state p), so both players agree on who won and by how much; reverse is an involution and value(reverse r) = -value(r).", "quantifier": "every valid position with not both sides finished", "why_tests_cant": "universal", "anchors": ["src/position.rs: game_state, flip, GameResult::reverse, GameResult::value"]}
{"id": "C12", "title": "phase never panics on valid positions and classifies contact correctly", "statement": "On a valid position that is not finished for both sides, phase returns the game-over result when the game is over, and otherwise Contact iff some x checker (bar included) is still behind some o checker, else Race; it never hits its 'There must be a checker' panic. On any other board it panics exactly if the game is not over and one side has no checker on the board (a GNUBG id with checkers of both sides on one point can decode to such a board), and classifies by the same rule.", "quantifier": "every valid position, and every board", "why_tests_cant": "universal; panic-freedom", "anchors": ["src/position.rs: phase"]}
{"id": "C13", "title": "A race stays a race", "statement": "If phase is Race then after any legal play the phase is Race or game over; no hit is possible any more.", "quantifier": "every valid race position, every roll, every child", "why_tests_cant": "history property over all plays", "anchors": ["src/position.rs: phase", "src/rules.rs: legal_positions"]}
{"id": "C14", "title": "NoHitRules forbids hitting", "statement": "Under NoHitRules every returned position is a classic legal position in which the opponent's bar count (the player who did not move) is not larger than before the move, and all such classic legal positions are returned.", "quantifier": "every position, every roll", "why_tests_cant": "the filter inspects a flipped position; needs positions with checkers on both bars to expose", "anchors": ["src/rules.rs: NoHitRules"]}
{"id": "C15", "title": "Position::try_from accepts exactly the valid boards", "statement": "try_from(pips) returns Ok iff x has at most N checkers, o has at most N checkers, index 25 is not negative and index 0 is not positive, and then the off counts are the missing checkers; otherwise it returns Err, never panics.", "quantifier": "every [i8;26] array, every N up to 127", "why_tests_cant": "sums of i8 may overflow only for extreme arrays", "anchors": ["src/position.rs: TryFrom<[i8;26]>"]}
{"id": "C16", "title": "Move generation never panics or overflows on valid positions", "statement": "For a valid position and a legal roll, no array index is out of range, no i8/u8/usize arithmetic overflows and no debug_assert fires during generation, as long as neither side has finished.", "quantifier": "every valid position with N up to 127 checkers, not over, every roll", "why_tests_cant": "panic-freedom for every input", "anchors": ["src/position.rs", "src/position/mixed_moves.rs", "src/position/double_moves.rs"]}
{"id": "C17", "title": "Every position reachable in a game is valid", "statement": "From any variant's start position, any sequence of rolls and choices of legal positions only visits valid positions with the variant's number of checkers.", "quantifier": "every variant, every history of rolls and choices", "why_tests_cant": "histories are unbounded", "anchors": ["src/game.rs: apply_nth_legal_position", "src/variants.rs: start positions"]}
{"id": "C18", "title": "Not both sides can have finished", "statement": "In every game history played while the state is Ongoing, at most one side has borne off all checkers (the debug assertion in game_state never fires), and once a child is game over it is a loss for the side to move, i.e. a win for the mover.", "quantifier": "every variant, every history", "why_tests_cant": "histories are unbounded", "anchors": ["src/position.rs: game_state", "src/game.rs"]}
{"id": "C19", "title": "A Game never changes its variant", "statement": "Whatever sequence of Game operations is performed (set_position, reset, apply_nth_legal_position, play_episode with either supplied rule set and any dice and policy), position().variant() equals variant() and variant() never changes; set_position with another variant's position is rejected and changes nothing.", "quantifier": "every operation sequence", "why_tests_cant": "histories are unbounded", "anchors": ["src/game.rs: Game"]}
{"id": "C20", "title": "apply_nth_legal_position is exact", "statement": "apply_nth_legal_position(dice,i) succeeds iff i < number of legal positions and then sets the position to the i-th one; otherwise it returns LegalMoveIndexOutOfBounds and leaves the game unchanged.", "quantifier": "every game, roll, index, rule set", "why_tests_cant": "universal", "anchors": ["src/game.rs: apply_nth_legal_position_with"]}
{"id": "C21", "title": "play_episode plays legal plies and reports their number", "statement": "play_episode(dice, max, policy) performs a sequence of legal plies, each chosen by the policy among the legal positions for the dice rolled; its first roll is never a double; Ok(n) means exactly n plies were made, n <= max, and n < max only if the game ended (or, with custom rules, no position was legal); it stops at the first game-over position; an out-of-range policy index returns PolicyIndexOutOfBounds with the position after the plies made so far.", "quantifier": "every game, dice generator, policy and max_plies", "why_tests_cant": "unbounded histories and arbitrary callbacks", "anchors": ["src/game.rs: play_episode_with, play_episode"]}
{"id": "C22", "title": "GNUBG id round trip", "statement": "Decoding the GNU position id of a position gives back the same board and off counts (turn set to x), and the id always has 14 characters; therefore different boards have different ids.", "quantifier": "every valid position with at most 15 checkers per side", "why_tests_cant": "bit-level layout over all positions", "anchors": ["src/codecs/gnuid.rs: encode, decode, encode_key, decode_key"]}
{"id": "C23", "title": "GNUBG id decoding is total", "statement": "Decoding arbitrary text as a GNU position id returns Ok with a valid position or Err; it never panics.", "quantifier": "every string, every variant", "why_tests_cant": "adversarial strings", "anchors": ["src/codecs/gnuid.rs: decode_for_position, decode_key"]}
{"id": "C24", "title": "Accepted GNUBG ids re-encode to themselves", "statement": "If decoding a 14-character id yields a valid position whose two sides share no point, encoding it gives back the same id (canonical form).", "quantifier": "every id", "why_tests_cant": "all 2^80 keys", "anchors": ["src/codecs/gnuid.rs"]}
{"id": "C25", "title": "XGID board round trip", "statement": "xgid::decode(encode p) = p up to turn for valid positions of at most 16 checkers; every board string that decodes re-encodes to the same 26 characters.", "quantifier": "every valid position; every string", "why_tests_cant": "all positions/strings", "anchors": ["src/codecs/xgid.rs: encode_for_position, decode_for_position, parse_board"]}
{"id": "C26", "title": "Full XGID lines: round trip, grammar, errors", "statement": "parse_xgid(format_xgid x) = Ok x for every Xgid value whose dice digits are at most 6 and cube owner is -1, 0 or 1; parse_xgid never panics and accepts exactly the lines, with surrounding white space and an optional 'XGID=', of ten ':'-separated fields that each can be read (board, numbers in range, dice, flag, cube owner), with the values they say; otherwise the error is that of the first field missing or unreadable (InvalidField for board, dice, move_flag and cube_owner, else InvalidPayload).", "quantifier": "every Xgid value; every string", "why_tests_cant": "unbounded strings, decimal parsing", "anchors": ["src/codecs/xgid.rs: parse_xgid, format_xgid, parse_dice, parse_board"]}
{"id": "C27", "title": "XGID decode rejects impossible boards", "statement": "If xgid::decode returns Ok p then p is a valid position (at most N checkers per side, off counts consistent); it never panics.", "quantifier": "every string, every variant", "why_tests_cant": "i8 overflow needs >127 checkers in the string", "anchors": ["src/codecs/xgid.rs: decode_for_position", "src/position.rs: try_from"]}
{"id": "C28", "title": "FIBS text round trip", "statement": "fibs::decode(encode p) = Ok p including turn for every valid position.", "quantifier": "every valid position, both turns", "why_tests_cant": "the o-to-move branch flips", "anchors": ["src/codecs/fibs.rs: encode_for_position, decode_for_position"]}
{"id": "C29", "title": "FIBS decode yields only valid positions", "statement": "If fibs::decode returns Ok p then p is a valid position with the announced off counts; malformed text gives Err, never a panic.", "quantifier": "every string, every variant", "why_tests_cant": "adversarial strings; signed counts; i8 overflow", "anchors": ["src/codecs/fibs.rs: decode_for_position, parse_point_token, parse_two_counts"]}
{"id": "C30", "title": "dbhash is a perfect hash", "statement": "Two valid positions with the same N have equal dbhash iff they are equal (turn ignored), and dbhash is less than the square of the number of multisets, as long as no overflow occurs.", "quantifier": "every pair of valid positions", "why_tests_cant": "injectivity over all pairs", "anchors": ["src/position.rs: dbhash", "src/utils.rs: mcomb"]}
{"id": "C31", "title": "dbhash does not overflow", "statement": "Computing dbhash of a valid position does not overflow a 64-bit usize.", "quantifier": "every valid position of every variant", "why_tests_cant": "depends on N; overflow silently wraps in release", "anchors": ["src/position.rs: dbhash"]}
{"id": "C32", "title": "comb and mcomb are binomials", "statement": "comb(n,k) is the binomial coefficient for n >= 1, and mcomb(n,k) counts multisets of size k from n kinds for n>=1 and n+k>=2; the values at the excluded points are 0 as coded.", "quantifier": "every n, k (unbounded integers)", "why_tests_cant": "recursion over all inputs", "anchors": ["src/utils.rs: comb, mcomb"]}
{"id": "C33", "title": "encode_move is complete and applying its text restores the child", "statement": "For every legal child of a position, encode_move returns Ok text, and apply_move of that text with the same dice returns that child.", "quantifier": "every position, roll and legal child", "why_tests_cant": "search with skipping of unplayable dice", "anchors": ["src/codecs/move_text.rs: encode_for, find_steps_for_target, apply_for, format_move_steps, normalize"]}
{"id": "C34", "title": "apply_move only accepts legal plays", "statement": "If apply_move(dice, text) returns Some child, then child is one of the legal positions for those dice.", "quantifier": "every position, roll and text", "why_tests_cant": "needs the position where one die blocks the other", "anchors": ["src/codecs/move_text.rs: apply_for, apply_steps"]}
{"id": "C35", "title": "legal_moves lists every legal child exactly once", "statement": "legal_moves returns Ok, and its list of positions contains every legal position exactly once (even where the generator emits duplicates), in generator order, and nothing else.", "quantifier": "every position, every roll", "why_tests_cant": "dedup through hash maps and two traversals", "anchors": ["src/codecs/move_text.rs: legal_for_steps, collect_paths"]}
{"id": "C36", "title": "The text paired with a child by legal_moves is a play leading to it", "statement": "For every (text, child) returned by legal_moves, apply_move(text) = child.", "quantifier": "every position, every roll, every entry", "why_tests_cant": "the traversal also walks the flipped board; needs a coincidence of two-hit plays", "anchors": ["src/codecs/move_text.rs: legal_for_steps, collect_paths, apply_for"]}
{"id": "C37", "title": "Move-step text round trip", "statement": "parse_move_steps(format_move_steps s) = Some s for every list of steps with from in 1..25 and to in 0..24; normalize leaves formatted text unchanged.", "quantifier": "every list of steps", "why_tests_cant": "unbounded lists", "anchors": ["src/codecs/move_text.rs: parse_move_steps, format_move_steps, normalize"]}
{"id": "C38", "title": "normalize_move_text is idempotent and its output parses", "statement": "If normalize(t) = Some u then normalize(u) = Some u and parse_move_steps(u) succeeds; normalize never panics.", "quantifier": "every string", "why_tests_cant": "all strings", "anchors": ["src/codecs/move_text.rs: normalize, parse_path_points"]}
{"id": "C39", "title": "Hit marks, commas and spacing do not matter", "statement": "apply_move and normalize_move_text give the same result for any two texts with the same whitespace-separated tokens; for a text whose tokens all contain '/', removing every '*' and ',' changes nothing; a chained token a/b/c means a/b b/c. (A mark standing alone, or after pass, makes a text invalid.)", "quantifier": "every text, position, roll", "why_tests_cant": "all strings", "anchors": ["src/codecs/move_text.rs: normalize, apply_for"]}
{"id": "C40", "title": "Variants have distinct names that parse back", "statement": "Parsing a variant's displayed name (in any ASCII case and with surrounding whitespace) gives that variant; parsing succeeds only for those names.", "quantifier": "every variant, every string", "why_tests_cant": "all strings", "anchors": ["src/variants.rs: Display, FromStr"]}
{"id": "C41", "title": "Start positions are valid and symmetric", "statement": "Each variant's start position is a valid ongoing position with its declared checker count, x to move, equal to its own flip, in the Contact phase; variant(start) is that variant.", "quantifier": "every variant", "why_tests_cant": "finite table, lifted to all histories that start there", "anchors": ["src/variants.rs: spec, start_position, num_checkers"]}
{"id": "C42", "title": "Dice tables are exact", "statement": "ALL_21 contains every roll exactly once with weight 1 for doubles and 2 otherwise, the weights sum to 36; ALL_441 is the product table with weights summing to 1296; ALL_SINGLES lists the 15 mixed rolls once; every roll's weight is the number of ordered dice pairs producing it.", "quantifier": "every roll", "why_tests_cant": "finite tables filled by loops; exactness of weights as counts", "anchors": ["src/dice.rs: ALL_21, ALL_441, ALL_SINGLES, all_6_double"]}
{"id": "C43", "title": "Generated dice are legal and unbiased given a uniform source", "statement": "FastrandDice.roll maps the 36 source values bijectively to ordered pairs of dice; roll_mixed maps 30 source values bijectively to ordered pairs of different dice; both always yield values 1..6.", "quantifier": "every value of the random source", "why_tests_cant": "distribution claims cannot be settled by sampling", "anchors": ["src/dice_gen.rs: FastrandDice::roll, roll_mixed"]}
{"id": "C44", "title": "Default roll_mixed returns the first non-double", "statement": "The default roll_mixed discards doubles and returns the first mixed roll of the generator's sequence, consuming exactly the rolls up to it; a mock generator replays its list in order.", "quantifier": "every sequence of rolls containing a mixed one", "why_tests_cant": "unbounded retries", "anchors": ["src/dice_gen.rs: DiceGen::roll_mixed, DiceGenMock"]}
{"id": "C45", "title": "choose_index stays in range", "statement": "choose_index on a non-empty slice of chances returns an index smaller than its length.", "quantifier": "every slice of chances, every random draw", "why_tests_cant": "floating point and arbitrary chances", "anchors": ["src/dice_gen.rs: FastrandDice::choose_index"]}
{"id": "C46", "title": "Engine specs round trip", "statement": "parse_engine_spec(format_engine_spec s) = Ok s for every well-formed spec (non-empty alias, keys prefixed by engine., no separators or outer whitespace inside fields).", "quantifier": "every well-formed spec", "why_tests_cant": "unbounded strings and option maps", "anchors": ["src/engine_spec.rs: parse_engine_spec, format_engine_spec"]}
{"id": "C47", "title": "Engine spec parsing normalises options", "statement": "Every successful parse gives a non-empty trimmed alias, all option keys start with 'engine.', later duplicates override earlier ones, and it fails iff the alias is empty or a non-empty override has no '='.", "quantifier": "every string", "why_tests_cant": "all strings", "anchors": ["src/engine_spec.rs: parse_engine_spec, parse_alias_version"]}
{"id": "C48", "title": "UBGI key lines round trip", "statement": "parse_key_line(to_key_line(o)) recovers key, type, domain, default and minor flag of every option whose key, choices and default are single non-empty tokens.", "quantifier": "every option specification", "why_tests_cant": "unbounded strings, i64 ranges", "anchors": ["src/ubgi.rs: to_key_line, parse_key_line, looks_like_int_domain"]}
{"id": "C49", "title": "UBGI option values are validated", "statement": "parse_value accepts exactly the values allowed by the option (an i64 within the range if both bounds are given, true/false, a listed choice, any text), and parse_value(to_wire v) = v for every allowed value.", "quantifier": "every option, every value string", "why_tests_cant": "unbounded strings, i64 boundaries", "anchors": ["src/ubgi.rs: parse_value, to_wire"]}
{"id": "C50", "title": "UBGI session keeps game and variant consistent", "statement": "After any sequence of protocol lines, the session's game has the session's variant, stored dice are legal, and the position is the last one set successfully (or the start position after newgame / set game.variant).", "quantifier": "every engine and every sequence of input lines (gnubgid payloads that decode without panic)", "why_tests_cant": "unbounded histories", "anchors": ["src/ubgi/runtime.rs: handle_command, handle_set, handle_dice"]}
{"id": "C51", "title": "UBGI read-your-writes", "statement": "After a 'set key value' that is answered without error, 'get key' answers with that value until the next successful set of that key; a set answered with an error changes no option, variant, game or dice.", "quantifier": "every engine and every history", "why_tests_cant": "unbounded histories", "anchors": ["src/ubgi/runtime.rs: handle_set, handle_get"]}
{"id": "C52", "title": "UBGI go uses the current position and dice", "statement": "'go' answers 'error bad_state missing.dice' iff no dice were accepted since the last newgame; otherwise the engine is asked about exactly the current position and the last accepted dice, and the answer is the formatted move or a bad_state error; go does not change the session.", "quantifier": "every engine and every history", "why_tests_cant": "unbounded histories", "anchors": ["src/ubgi/runtime.rs: handle_go, handle_dice"]}
{"id": "C53", "title": "UBGI errors leave the session unchanged and quit ends it", "statement": "Any command answered with an 'error' line leaves variant, game, dice and option values unchanged; every input line after quit is ignored; blank lines produce no reply; every non-setting command gets the replies the protocol prescribes.", "quantifier": "every engine and every sequence of input lines", "why_tests_cant": "unbounded histories", "anchors": ["src/ubgi/runtime.rs: run_ubgi_stdio, parse_command, handle_command"]}
{"id": "C54", "title": "perft counts plays", "statement": "perft(p, d) equals the number of paths of d (roll, legal position) choices from p, weighted by roll multiplicity when requested; perft(p,0)=1.", "quantifier": "every position, every depth", "why_tests_cant": "unbounded depth", "anchors": ["src/bin/bkgm-perft.rs: perft_all_rolls_n"]}
{"id": "C55", "title": "Equality and hashing ignore turn consistently", "statement": "Two positions are equal iff they have the same points, bars and off counts; equal positions feed identical data to the hasher (so hash sets and maps work), and turn never matters.", "quantifier": "every pair of positions", "why_tests_cant": "universal over pairs", "anchors": ["src/position.rs: PartialEq, Hash"]}
{"id": "C56", "title": "Debug text of a position is unambiguous", "statement": "The Debug rendering lists exactly the occupied points, bars and off counts; two valid positions with N >= 1 render equal iff they are equal (up to turn).", "quantifier": "every pair of valid positions", "why_tests_cant": "injectivity over all pairs", "anchors": ["src/position.rs: fmt::Debug"]}
{"id": "C57", "title": "The set of legal positions does not depend on whose turn flag is set", "statement": "Changing only the turn field of a position changes only the turn field of its legal children, codec ids (gnuid, xgid), game_state, phase and dbhash do not change.", "quantifier": "every position, every roll", "why_tests_cant": "universal", "anchors": ["src/position.rs", "src/rules.rs", "src/codecs/gnuid.rs", "src/codecs/xgid.rs"]}
{"id": "C58", "title": "UBGI moves round trip", "statement": "parse_ubgi_move reads back the move text of every bestmove reply (steps from a point or the bar to a point or off); on any other text it returns such steps or the error bad_value move.invalid.", "quantifier": "every list of steps, every text", "why_tests_cant": "unbounded lists of steps and arbitrary texts", "anchors": ["src/ubgi.rs: parse_ubgi_move", "src/codecs/move_text.rs: format_move_steps"]}
{"id": "C59", "title": "The printed board shows the position", "statement": "show() prints 13 lines of equal width; every pile is drawn with one symbol per checker (the number on the fifth cell when there are more than five); two valid positions print the same board iff they are equal.", "quantifier": "every valid position (up to 99 checkers for the fixed width)", "why_tests_cant": "injectivity over all pairs of positions", "anchors": ["src/position.rs: State::show, State::print_point"]}
{"id": "C60", "title": "A race always ends", "statement": "In a race (phase race) every legal play lowers the mover's pip count by at least one and leaves the opponent's unchanged, so a race is over after at most as many plies as both sides have pips to go; play_episode allowed that many plies plays the game to its end unless the policy returns an index out of range.", "quantifier": "every valid race position, every roll, every choice of plays, every source of legal dice, every policy", "why_tests_cant": "termination over all lines of play", "anchors": ["src/position.rs: State::phase, State::legal_positions", "src/game.rs: Game::play_episode"]}
{"id": "C61", "title": "Positions built from maps and from cells", "statement": "from_hash_maps and the pos! macro give a position that does not depend on the iteration order of the maps; in a debug build they succeed exactly when every key is at most 25, no point holds checkers of both sides, the two bars are the right ones and the counts fit, and the position then has exactly the given checkers, x to move; the maps (and the 26 cells) of a valid position give it back; a release build gives the same position whenever the debug build does. Counts above 127 wrap in `as i8`: pos!(x 24:255) places one o checker.", "quantifier": "every pair of maps (any iteration order), every valid position, both builds", "why_tests_cant": "HashMap iteration order is randomised; all maps and all positions", "anchors": ["src/position/conversion.rs: pos!, from_hash_maps", "src/position.rs: From<Position> for [i8;26], TryFrom<[i8;26]>"]}
{"id": "C62", "title": "Perft in a debug build", "statement": "In a debug build bkgm-perft's counter returns n iff no line of fewer than `depth` plies ends the game (otherwise the generator's debug assertion fires), n is the number of lines of `depth` plies (weighted: by ordered dice) and n fits u128; a release build then returns the same. From every variant's start position depths up to 3 (6 for the 15-checker games and hypergammon4/5) are safe. A roll has at most 390625 legal positions.", "quantifier": "every valid position (up to 127 checkers a side), every depth, weighted or not", "why_tests_cant": "all positions, depths, lines of play; overflow and assertion behaviour at depths no test can reach", "anchors": ["src/bin/bkgm-perft.rs: perft_all_rolls_n", "src/position.rs: State::legal_positions"]}
{"id": "C63", "title": "The command line of bkgm-perft", "statement": "A flag's value is the word after its first occurrence; the variant is the named one in any case (official or short name), backgammon by default, anything else panics; given the id of a valid position of the variant (or none: the start position) the program prints perft of that position at the requested depth however many iterations are asked for, or, when both dice are given, panics unless both are 1..6 and otherwise prints iterations times the number of legal positions.", "quantifier": "every argument list, every variant, every valid position", "why_tests_cant": "all argument vectors and all positions", "anchors": ["src/bin/bkgm-perft.rs: main, parse_usize_flag, has_flag, parse_variant_flag, run_perft, run_single_roll"]}
{"id": "C64", "title": "The corpus benchmark counts every legal position", "statement": "corpus-bench loads a file of ids (one per line, blank lines and CRLF allowed) as exactly these positions in order; a line that is not blank and not an id, for instance an id with a space beside it, panics; it reports the number of positions, the number of iterations, and the number of legal positions summed over the positions and the 21 rolls.", "quantifier": "every file of ids of valid unfinished positions, every argument list", "why_tests_cant": "all files", "anchors": ["src/bin/corpus-bench.rs: load_positions, run_once, bench, main"]}
{"id": "C65", "title": "Playing a game never panics in a debug build", "statement": "From every valid unfinished position, under either supplied rule set, listing the legal positions, applying the n-th legal position (any index) and playing an episode with any generator of legal dice and any policy (whatever index it returns) raises no panic in a build with overflow checks and debug assertions, and returns what a release build returns; in particular a new game of any variant with the crate's dice generator runs to an end. On a finished position the same calls do panic.", "quantifier": "every variant, valid position, rule set, dice generator, policy, index and ply limit", "why_tests_cant": "all positions, policies and dice sequences; panics in rare positions", "anchors": ["src/game.rs: apply_nth_legal_position_with, play_episode_with", "src/rules.rs: ClassicRules, NoHitRules", "src/position.rs: o_bar, game_state"]}
{"id": "C66", "title": "Move text functions never panic", "statement": "In a debug build, encoding a move between any two valid positions, applying any text whatsoever to any valid position, and listing the legal moves of a valid unfinished position raise no panic (index, overflow, assertion) and return what a release build returns; listing the legal moves of a finished position panics.", "quantifier": "every valid position up to 127 checkers a side, all legal dice, every text", "why_tests_cant": "all texts and all positions", "anchors": ["src/codecs/move_text.rs: encode_for, apply_for, legal_for_steps, collect_paths, find_steps_for_target"]}
{"id": "C67", "title": "What can crash a UBGI session", "statement": "A UBGI session panics exactly when, before any quit, a `position gnubgid` line carries an id on which the decoder panics for the variant of that moment; no other input crashes it. If all ids sent are ids of valid positions (of any variant) a release build never panics, and a debug build never panics unless the variant is changed. Both escape conditions are needed: there are lines that crash every build, and a variant change followed by a backgammon id that crashes a debug build. An engine that overrides no default method is always ready, has the variant key only and refuses every other key.", "quantifier": "every engine, every list of input lines, both builds", "why_tests_cant": "all input histories", "anchors": ["src/ubgi/runtime.rs: run_ubgi_stdio, handle_command", "src/codecs/gnuid.rs: decode", "src/ubgi.rs: UbgiEngine"]}
{"id": "C68", "title": "choose_index picks in proportion to the chances", "statement": "With f32 arithmetic (round to nearest even), for non-negative finite chances whose f32 sum is finite and at least 2^-106: no operation overflows; an index with chance zero is never returned; and of the 1000000 equally likely random numbers the number leading to index i differs from 1000000*chances[i]/sum by less than 1.5, where the f32 sum is the true sum up to a relative error of 2^-23 per summand. For sums in the subnormal range a zero-chance index can be returned.", "quantifier": "every list of chances, every random number", "why_tests_cant": "all float lists; a test samples one list and a few draws", "anchors": ["src/dice_gen.rs: FastrandDice::choose_index"]}
{"id": "C69", "title": "Dice from outside numbers, and their text", "statement": "Dice::try_from((a,b)) is Ok exactly when both numbers are between 1 and 6, and then shows these two numbers in either order; every legal roll arises this way. Dice::new panics exactly in a debug build with a number out of range. The accessors small() and big() give the smaller and larger number. Display writes \"(small,big)\", and different rolls have different texts.", "quantifier": "all pairs of numbers, both build profiles", "why_tests_cant": "unbounded inputs", "anchors": ["src/dice.rs: TryFrom<(usize, usize)>, Dice::new, Display, MixedDice::small, MixedDice::big"]}
{"id": "C70", "title": "Exactly which move texts apply_move accepts", "statement": "apply_move(dice, text) returns Some child if and only if the normal form of the text lists single-checker moves allowed by the rules one after the other, each made with a die of its own, they lead to child with the turn passed, and no remaining die can then be played by any checker.", "quantifier": "every position with correctly signed bars, every roll, every text, every child", "why_tests_cant": "all texts and positions; completeness of a backtracking search", "anchors": ["src/codecs/move_text.rs: apply_for, apply_steps, any_move_for_die"]}
{"id": "C71", "title": "The caller's buffer does not influence move generation", "statement": "Generating legal positions into a caller-supplied buffer gives the same list, in the same order, as into a new one, whatever the buffer held before: the counts, the positions visited by a closure, and the results of any sequence of calls sharing one scratch buffer are those of separate calls.", "quantifier": "every position, roll, buffer content, closure, and every sequence of calls sharing a buffer", "why_tests_cant": "all buffer contents and call histories", "anchors": ["src/position.rs: generate_legal_positions_in, generate_legal_positions_len_in, for_each_legal_position_in", "src/position/mixed_moves.rs: *_into", "src/position/double_moves.rs: *_into"]}
{"id": "C72", "title": "Writing a position as text never panics", "statement": "For every valid position of every variant, encoding it as XGID, FIBS text or GNU id, formatting it with {:?}, printing it with show and asking for its phase never panics in a debug build and gives the text the other properties speak about. Generically: phase, FIBS, {:?} and show for up to 127 checkers per side, XGID for up to 31 (from 32 on it panics exactly when 32 x or 64 o checkers share a cell), GNU ids up to 15.", "quantifier": "every valid position, all variants; generic checker counts within the stated bounds", "why_tests_cant": "all positions; overflow and UTF-8 failures occur at extreme stacks only", "anchors": ["src/codecs/xgid.rs: encode_for_position", "src/codecs/fibs.rs: encode_for_position", "src/codecs/gnuid.rs: encode_key", "src/position.rs: phase, fmt::Debug, show, print_point, x_bar, o_bar"]}
{"id": "C73", "title": "The variant-level API follows the rules", "statement": "For positions of every variant: the legal positions are exactly those of the same variant with the turn passed whose board arises by a complete legal play, and there is always one; game_state and phase report the result, contact or race of the board with the variant's number of checkers; two positions are equal exactly when variant and board agree, turn ignored; num_checkers is the variant's number.", "quantifier": "every position of every variant, every roll", "why_tests_cant": "all positions of seven variants through seven-way dispatches", "anchors": ["src/variants.rs: VariantPosition", "src/rules.rs: ClassicRules, NoHitRules, VariantRules"]}
{"id": "C74", "title": "What encode_move returns", "statement": "encode_move succeeds exactly if, for some order of the dice, single-checker moves allowed by the rules lead to the given child, a die being passed over only when it cannot be played; the text returned is that of such moves. Otherwise the error is 'target not reachable', and 'variant mismatch' exactly for positions of different variants. (It may encode children that are not legal.)", "quantifier": "every position with correctly signed bars, every target, every roll, all variants", "why_tests_cant": "completeness of a search over all positions and targets", "anchors": ["src/codecs/move_text.rs: encode, encode_steps, encode_for, find_steps_for_target"]}
{"id": "C75", "title": "The codecs write the published text forms", "statement": "The GNU id of every valid position (up to 15 checkers a side) is the base64 text, 14 letters, of the 80 bits that give the 50 checker counts in unary (opponent's points 1-24 and bar, then own points 1-24 and bar), filled up with zeros. The XGID board is the 26 letters from x's bar over the points 24 to 1 to o's bar, '-' for empty, a-p for x's and A-P for o's checkers. The FIBS text says the side to move, the bars, the borne-off counts and the points 24 to 1 of the board.", "quantifier": "every valid position, generic checker counts within the stated bounds", "why_tests_cant": "all positions; round trips alone would also hold of a wrong but invertible format", "anchors": ["src/codecs/gnuid.rs: encode, encode_key", "src/codecs/xgid.rs: encode_for_position", "src/codecs/fibs.rs: encode_for_position"]}
{"id": "C76", "title": "Exactly what the position decoders accept, in both builds", "statement": "For every array of 26 cells, and every text read as GNU id, XGID board or FIBS text, and for every position p: in a debug build the array, XGID board or FIBS text is accepted as p exactly when p is a valid position with those cells / that XGID board / those FIBS fields; in a release build checkers are counted modulo 256 (and FIBS bar counts read as signed bytes), so exactly the boards that add up to N modulo 256 are accepted. A GNU id is accepted as p exactly when it is the text of an 80-bit key that starts with the 50 counts of p (minus for o, off counts the missing ones); it panics exactly when the key has fewer than 50 counts or (debug) more than N checkers; it is refused exactly when it is not such a text. Release builds never panic on XGID boards and FIBS texts.", "quantifier": "every input, every position, both builds, up to 127 checkers a side", "why_tests_cant": "all texts and arrays; includes adversarial inputs that overflow i8", "anchors": ["src/position.rs: TryFrom<[i8; 26]>", "src/codecs/gnuid.rs: decode", "src/codecs/xgid.rs: decode_for_position, parse_board", "src/codecs/fibs.rs: decode_for_position"]}
{"id": "C77", "title": "Move texts mean exactly what their grammar says", "statement": "A move text is pass, or words separated by white space, each the path from/.../to of one checker with point numbers 1-24, bar only at the start and off only at the end, letters in either case and the marks * and , ignored. normalize_move gives the normal text (one from/to word for each hop, single spaces, pass if there are none) of exactly the texts of this grammar and None for every other text; a text never says two different moves. The strict parser of move steps accepts exactly pass and lists of from/to words without marks. apply_move accepts a text exactly if the hops it says are single-checker moves with the rolled dice, each legal where it is made, leaving no die that could still be played; it returns the resulting board with the turn passed.", "quantifier": "every text, every position without checkers of the wrong side on a bar, every roll, every variant", "why_tests_cant": "all texts; acceptance and refusal are both exact", "anchors": ["src/codecs/move_text.rs: normalize, parse_path_points, parse_from_point, parse_to_point, parse_mid_point, parse_move_steps, apply_for", "src/codecs/fibs.rs: normalize_move, apply_move"]}
{"id": "C78", "title": "Engine specs mean exactly what their grammar says", "statement": "parse_engine_spec accepts a text with a result exactly if the text, read by the grammar name[@version][:key=value,...], says it: outer white space is ignored, blank overrides are skipped, engine. is put before keys that lack it, the last override of a key wins. It fails with InvalidSpec exactly if the name is empty, and with InvalidOverride exactly for the first override without '=' after a good name. format_engine_spec writes name[@version], then ply, then top_k, then the other options in the order of their keys, each without the leading engine. however often it stands there.", "quantifier": "every text, every engine spec", "why_tests_cant": "all texts and specs; acceptance, results and errors are exact", "anchors": ["src/engine_spec.rs: parse_engine_spec, parse_alias_version, format_engine_spec"]}
{"id": "C79", "title": "UBGI key lines and move texts mean exactly what their grammar says", "statement": "parse_key_line accepts a line with a result exactly if its words are key, name, type, a domain (unless the type is bool, or int followed by a word without ..), default, perhaps ! for a minor key, and the description, and the result has these parts; it gives None for every other line. parse_ubgi_move reads a text as a list of steps exactly if the text says these hops by the grammar of move texts (C77), and refuses every other text with the bad value move.invalid.", "quantifier": "every line, every text", "why_tests_cant": "all texts; acceptance, result and refusal are exact", "anchors": ["src/ubgi.rs: parse_key_line, looks_like_int_domain, parse_ubgi_move"]}
{"id": "C80", "title": "The two programs do exactly what their command lines say", "statement": "Every argument list of bkgm-perft either asks for help (exactly then the usage is printed), or names an unknown variant (panic), or asks for exactly one setting: the value of a flag is the word after its first occurrence, a number is a decimal of at most 64 bits and anything else counts as absent, long names go before short ones, defaults are depth 2, one iteration (at least one), backgammon, the start position. For an id of a valid position it then prints a result exactly if (both dice given) the dice are 1..6, the game is not over and iterations times the number of legal positions fits 64 bits, or (otherwise) no line shorter than the depth ends the game and the number of lines fits 128 bits, and the result is that number; otherwise it panics. An id that is not the text of a key with at most the variant's checkers on each side panics. corpus-bench on two files of ids (one per line, LF or CRLF, blank lines ignored) reports exactly the counts, and panics exactly if a game is over or a sum overflows.", "quantifier": "every argument list, file system, variant, valid position, file content", "why_tests_cant": "all argument vectors, positions and files; printed value and panics are characterised exactly", "anchors": ["src/bin/bkgm-perft.rs: main, parse_usize_flag, has_flag, parse_variant_flag, run_perft, run_single_roll", "src/bin/corpus-bench.rs: load_positions, run_once, bench, main"]}
{"id": "C81", "title": "A UBGI session over standard input and output, byte by byte", "statement": "run_ubgi_stdio sees exactly the lines of the text whose UTF-8 bytes arrive, whether they end in LF or CRLF and with or without a final newline; bytes that are not UTF-8 end the session without an answer to their line or to anything after it, and every byte stream is of one of these kinds. What it writes is the session's replies in order, each followed by a newline and nothing else; if a line makes it panic, the replies to the lines before have been written. If the texts of the engine (name, version, options, returned values, error messages) contain no line break, then a client that reads the output line by line sees exactly the replies, whatever bytes came in: text from the client that is echoed (key names, values) can never add or split a line.", "quantifier": "every engine, every byte stream on standard input, debug and release build", "why_tests_cant": "all byte streams and all engines", "anchors": ["src/ubgi/runtime.rs: run_ubgi_stdio, reply"]}
{"id": "C82", "title": "A game never gets stuck", "statement": "In a valid position of an unfinished game neither side can do anything but pass, whatever either rolls, exactly if it is a mutual close-out: both sides are on the bar and each holds all six points of its home board with at least two checkers. No legal play leads into such a position except the pass from one, so no game from a start position ever reaches one: as long as a game is not over, one of the two players can move a checker with some roll. A mutual close-out needs 13 checkers a side. A game set to one stays in one: an episode played from it passes until its plies are used up.", "quantifier": "every valid position, every roll, every game history of every variant, every dice source and policy", "why_tests_cant": "all positions and all unbounded histories; needs an argument from any blocked position and an invariant backwards in time", "anchors": ["src/position.rs: legal_positions", "src/game.rs: play_episode_with"]}
{"id": "C83", "title": "There is no bound on the length of a game", "statement": "In every variant there is an infinite legal game: from the start position, a first roll that is no double and then legal rolls for ever, a legal position chosen at every ply, a checker moved at every ply, and never over. Hence for every number max of plies there are a dice source and a policy for which play_episode makes all max plies from the start position and returns Ok(max) with the game not over: the max_plies argument is needed.", "quantifier": "every variant, every number of plies", "why_tests_cant": "an infinite history; all values of max_plies", "anchors": ["src/game.rs: play_episode_with", "src/position.rs: legal_positions"]}
{"id": "C84", "title": "Only hits prolong a game", "statement": "Along every history of legal plies from a valid position, the number of plies in which a checker was moved plus the pips both sides still have to go never exceeds the pips at the beginning plus 24 for every checker hit. A game of backgammon with h hits so far has at most 334 + 24 h plies in which a checker moved.", "quantifier": "every variant, every valid position, every history of legal plies of any length", "why_tests_cant": "all unbounded histories; needs pip accounting over every ply", "anchors": ["src/position.rs: legal_positions", "src/rules.rs: ClassicRules"]}
{"id": "C85", "title": "A scripted episode plays exactly the script", "statement": "An episode played with DiceGenMock plays the dice of the script in order, one for each ply and without gaps, after passing over the doubles at its start (the first roll of a game is not a double). The mock is left having given out the leading doubles, one roll for each ply, and one more only if the last roll gave no position or the policy's answer to it was refused; with the classic rules, legal dice and a valid position, Ok(n) for n > 0 means exactly n dice after the leading doubles were used, so assert_all_dice_were_used passes exactly if n is the number of those dice. The call panics exactly when all of these dice have been played, fewer than max_plies plies were made and the game is not over; a script with at least max_plies dice after the leading doubles never panics. With any generator, an episode returns unless it needs a roll that the generator does not deliver.", "quantifier": "every script, rule set, policy, game and number of plies; every generator for the last sentence", "why_tests_cant": "all scripts of any length and all policies", "anchors": ["src/dice_gen.rs: DiceGenMock", "src/game.rs: play_episode_with"]}
{"id": "C86", "title": "Entering from the bar is exact", "statement": "After every legal play the mover has on the bar exactly the checkers he had there less the number of rolled numbers whose entry point is open (a double counts four times), or none if there are at least as many: no legal position leaves a checker on the bar that could have entered, none brings in more, and this number does not depend on which play is chosen. If checkers are left on the bar, there is exactly one legal position.", "quantifier": "every position with well-formed bars, every roll, every legal position; every variant", "why_tests_cant": "all boards and rolls", "anchors": ["src/position/mixed_moves.rs", "src/position/double_moves.rs", "src/position.rs: generate_legal_positions"]}
{"id": "C87", "title": "With few checkers left a game can be finished, and fair play finishes it", "statement": "From every position of an unfinished game in which one side has at most four checkers left and the other at most eleven, or both have at most five (so from every position of hypergammon with two, three, four or five checkers) some rolls and legal plays lead to the end of the game; twice the pips of the player to move (or, if it is the other one who has at most four checkers left, twice that one's pips plus one) are plies enough (50 for each checker in the hypergammons). Hence a sequence of plies ends the game if nothing is left out for ever, that is if from a position that comes up again and again every legal position for every roll is played again and again, as random dice with a policy that gives every legal position a positive chance do with probability one.", "quantifier": "every valid position with so few checkers left, of every variant; every fair infinite sequence of plies", "why_tests_cant": "all such positions and all infinite sequences", "anchors": ["src/rules.rs", "src/position.rs: legal_positions", "src/game.rs: play_episode"]}
{"id": "C88", "title": "Good dice end every game, whatever the players do", "statement": "From every position of a game (every valid position that is not a mutual close-out) rolls can be chosen, each one after seeing the position, so that whichever legal positions the two players choose the game is over within 2600 plies for each checker of a side; from a mutual close-out this is impossible for every number of plies. So every unfinished game can be brought to an end, and an infinite sequence of plies in which every roll is made again and again at each position that comes up again and again does end the game, however the players play.", "quantifier": "every valid position of every variant; every choice of both players; every infinite sequence of plies with fair dice", "why_tests_cant": "all positions, all strategies of both players, all infinite sequences", "anchors": ["src/rules.rs", "src/position.rs: legal_positions", "src/game.rs: play_episode"]}
{"id": "C89", "title": "With random dice every game ends with probability one", "statement": "When the numbers drawn for the rolls are independent and uniform, play_episode, for any first roll, any policy (with memory) and any game that does not stand at a mutual close-out, leaves the game unfinished after 1 + m K plies with probability at most (1 - 36^-K)^m, where K is 2600 times the number of checkers of a side; with probability one there is a limit from which on the episode ends the game (or the policy answers with an index out of range; never, if it answers in range), and its expected length is finite. From a mutual close-out no episode ends the game, whatever the dice.", "quantifier": "every game state not in a mutual close-out, every policy, every first roll; almost every sequence of random numbers", "why_tests_cant": "a statement about the probability of infinitely many rolls, for all policies", "anchors": ["src/game.rs: play_episode", "src/dice_gen.rs: FastrandDice", "src/rules.rs"]}
{"id": "C90", "title": "A UBGI session in conversation", "statement": "With any client and any behaviour of standard input and output, errors of writing and flushing included: the session reads a line, writes and flushes its replies to that line, and only then reads the next one, so a client that waits for the replies before it sends the next line gets them; what is answered to lines received does not depend on what is sent later; failing output does not change what the session does with later lines; reading errors, bytes that are not UTF-8, the end of the input and quit end it with nothing more written; before a panic all replies to earlier lines have been written. With all of the input in a pipe it writes exactly what C81 says.", "quantifier": "every engine, every environment (state machine that delivers lines and takes bytes, with errors at any time), every number of turns, every split of the input", "why_tests_cant": "all interleavings of input, output and I/O errors", "anchors": ["src/ubgi/runtime.rs: run_ubgi_stdio, reply"]}
{"id": "C91", "title": "The probabilities of the rolls", "statement": "When the numbers drawn are independent and uniform, successive calls of FastrandDice::roll give independent rolls, with chance 1/36 for each double and 2/36 for each other roll; roll_mixed gives each of the 15 rolls that are not doubles with chance 1/15; and the default roll_mixed of the trait, which rolls until the dice differ, ends with probability one and gives the same chances.", "quantifier": "every finite sequence of rolls; almost every infinite sequence of random numbers", "why_tests_cant": "exact probabilities of infinitely many draws; a loop without a bound", "anchors": ["src/dice_gen.rs: DiceGen::roll_mixed, FastrandDice"]}
{"id": "C92", "title": "What the errors print", "statement": "Different errors of a type print different texts, so the text tells the error. parse_xgid prints one of five messages (payload, or the field board, dice, move_flag or cube_owner), for the first field that is wrong; the decoders print only the messages listed; the messages of parse_engine_spec quote the whole text and the first override that is not one.", "quantifier": "every text, every error", "why_tests_cant": "all texts", "anchors": ["src/codecs/xgid.rs: XgidError", "src/codecs/fibs.rs: FibsError", "src/codecs/gnuid.rs: GnuidError", "src/codecs/move_text.rs: MoveTextError", "src/game.rs: GameError", "src/engine_spec.rs: EngineSpecError"]}
{"id": "C93", "title": "Decoding and encoding for a variant", "statement": "gnuid, xgid and fibs decode/encode for a Variant read and write the published text forms with the variant's number of checkers, and every decoded VariantPosition is of that variant. A GNU id is accepted exactly when its 80 bits start with 50 counts that fit the variant (mod 256 in a release build); decoding panics exactly when the bits run out or (debug build) a side has too many checkers; it is a KeyLength error exactly for base64 of another length. An xgid board is accepted exactly when it is the board of a valid position of the variant (debug), and a fibs text gives a valid position exactly when it shows that position.", "quantifier": "every text, every variant, debug and release builds", "why_tests_cant": "all texts, including malformed ones", "anchors": ["src/codecs/gnuid.rs: decode, encode", "src/codecs/xgid.rs: decode, encode", "src/codecs/fibs.rs: decode, encode", "src/position.rs: VariantPosition"]}
{"id": "C94", "title": "The benchmark's position sampler", "statement": "When the move generator benchmark's sampler returns, it gives exactly the number of positions asked for, and each is a valid position of an unfinished game, in the phase asked for, reached from the start of backgammon by legal play of at most 80 rolls. It never panics. The contact sampler always returns, and every contact sample is just a legal play of an opening roll; the race sampler returns with probability one. The move count printed is the exact number of legal positions over all 21 rolls.", "quantifier": "every phase, count, seed and random source that keeps to its bounds; every list of positions", "why_tests_cant": "all random sequences; termination is a probability-one statement", "anchors": ["benches/movegen_bench.rs: collect_phase_positions, count_all21_moves"]}
{"id": "C95", "title": "Move generation in a release build", "statement": "Built without overflow checks and debug assertions, the move generator returns on every valid position, finished ones included, exactly the same positions in the same order as the exact arithmetic model, and trying a single checker's move gives the same answer: nothing wraps. On boards that do not have the variant's number of checkers (at most 127 a side, as a release build reads from a GNU id) it never panics and returns exactly the boards the legal plays lead to, with the off counts modulo 256; the number of checkers modulo 256 is kept, so a wrapped off count is never mistaken for a finished game. It panics on no board at all, whatever its 26 cells; trying a single move panics exactly for a source above 25 while nothing is on the bar; and flipping twice is the identity on every board of bytes.", "quantifier": "every valid position with at most 127 checkers a side, every board with at most 127 checkers a side and any byte off counts, every roll, source and die, every GNU id a release build accepts", "why_tests_cant": "all boards and rolls; wrap-around shows up only for particular boards", "anchors": ["src/position.rs: generate_legal_positions_in, move_single_checker, can_move, try_move_single_checker, flip", "src/position/double_moves.rs: all_positions_after_double_move_into, number_of_movable_checkers", "src/position/mixed_moves.rs: all_positions_after_mixed_move_into", "src/codecs/gnuid.rs: decode"]}
{"id": "C96", "title": "dbhash numbers the boards", "statement": "List all placements of a side's N checkers (off, point 1 to 24, bar) with the most advanced first, and boards by the placement of x and then of o. dbhash of a valid position is the number of boards before it in this list, so it preserves this order. A debug build panics exactly when this number (or the number of placements of a side) does not fit into 64 bits, and a release build returns it modulo 2^64.", "quantifier": "every valid position, every number of checkers below 256, debug and release builds", "why_tests_cant": "a statement about counting all placements, for every position", "anchors": ["src/position.rs: State::dbhash", "src/utils.rs: comb, mcomb"]}
{"id": "C97", "title": "Games in a release build", "statement": "Built without overflow checks and debug assertions, both rule sets, apply_nth_legal_position and play_episode give on every valid position of every variant, finished ones included, exactly the results of the exact model, and the same as a debug build wherever that does not panic. No board whatsoever makes them panic. Where a debug build stops a caller who goes on after the end, a release build plays on: the game stays over with the same winner; if the player to move has borne off everything the turn is passed, otherwise the loser moves and the loss stays the same or becomes smaller (backgammon to gammon to single); play_episode plays exactly one more ply and counts it.", "quantifier": "every variant, every position (valid ones for the results, any for the absence of panics), both rule sets, every dice generator giving legal dice, every policy, every ply limit", "why_tests_cant": "all positions, histories and policies", "anchors": ["src/rules.rs: ClassicRules, NoHitRules", "src/game.rs: apply_nth_legal_position_with, play_episode_with", "src/position.rs: game_state, o_bar"]}
{"id": "C98", "title": "Move text in a release build", "statement": "Built without overflow checks and debug assertions, encode_move, apply_move and legal_moves give on valid positions, finished ones included, exactly the results of the exact model, and panic on no board and no text at all.", "quantifier": "every pair of positions, legal dice, every text", "why_tests_cant": "all boards and all texts", "anchors": ["src/codecs/move_text.rs: encode_for, apply_for, legal_for_steps, find_steps_for_target, apply_steps, collect_paths"]}
{"id": "C99", "title": "The two programs in a release build", "statement": "Built without overflow checks and debug assertions, bkgm-perft prints for every valid position, also when its game is over or ends within the depth, the number of lines of play modulo 2^128 (with both dice: iterations times the number of legal positions modulo 2^64); it panics exactly for an unknown variant, a position id that is not the text of an 80-bit key beginning with 50 counts, or dice outside 1..6. corpus-bench never panics on files of valid positions and prints the sums modulo 2^64.", "quantifier": "every command line, every position, every depth and number of iterations, every pair of corpus files", "why_tests_cant": "all argument lists, positions, depths and files; wrapped totals need astronomically many lines", "anchors": ["src/bin/bkgm-perft.rs: main, perft_all_rolls_n, run_perft, run_single_roll", "src/bin/corpus-bench.rs: main, load_positions, run_once, bench"]}
{"id": "C100", "title": "The texts of legal_moves are pairwise different", "statement": "No two entries of the list returned by legal_moves for a position and a roll have the same text, so that a text identifies one of the listed moves.", "quantifier": "every position, every roll", "why_tests_cant": "all positions and rolls; the failing positions need double hits from the bar by both sides", "anchors": ["src/codecs/move_text.rs: legal, legal_for_steps, collect_paths, format_steps"]}
{"id": "C101", "title": "encode_move and legal_moves write the same text", "statement": "For every legal child, the text listed by legal_moves is the one encode_move returns exactly if applying the listed text leads to that child: always with doubles and for plays that hit nothing. Where the listed text is wrong (C36), encode_move returns another one.", "quantifier": "every position with correctly signed bars, every roll, every legal child, all variants", "why_tests_cant": "two different searches (one for a target, one over all paths of both sides with a table of first finds) have to agree for every position and roll", "anchors": ["src/codecs/move_text.rs: encode_for, find_steps_for_target, legal_for_steps, collect_paths"]}
{"id": "C102", "title": "Which text encode_move returns", "statement": "encode_move returns one definite text: the larger die is played first if the child can be reached so (otherwise the smaller one), and of all plays of the dice in that order to the child the one whose starting points, compared one after the other, are the least. A text listed by legal_moves that leads to its child is that same text.", "quantifier": "every position with correctly signed bars, every roll, every target, all variants", "why_tests_cant": "the choice among all plays with the same result has to be the same for every position, roll and target", "anchors": ["src/codecs/move_text.rs: encode_for, find_steps_for_target, for_each_die_order, legal_for_steps"]}
{"id": "C103", "title": "A game can be played over UBGI", "statement": "With an engine whose moves name legal positions, a client can play whole games of every variant over the protocol: at any moment of a session with a valid position, for any rolls, the client sends the dice, `go`, and the GNU id of the position that the answered move text leads to; every line is accepted, every answer is one `bestmove` line whose text, applied to the session's position, gives a legal child, and the session then holds that child, seen by the opponent. After `set game.variant v` all positions are reachable positions of that variant, up to the turn flag, which an id does not carry. Whatever the engine plays, there are rolls with which the game so played comes to its end.", "quantifier": "every engine that answers legally (with any state), every session before, every variant, every list of rolls, debug and release builds", "why_tests_cant": "the composition of protocol, move text and position ids must work for every game, of any length", "anchors": ["src/ubgi/runtime.rs: run_ubgi_stdio, handle_command, handle_dice, handle_go", "src/codecs/move_text.rs: apply", "src/codecs/gnuid.rs: encode, decode", "src/rules.rs: ClassicRules"]}
{"id": "C104", "title": "All names of a position name the same thing", "statement": "For two valid positions with the same number of checkers (1 to 15) the following are equivalent: the boards are the same point by point, the positions are == , their hashes get the same input, their GNU ids are the same, their XGID boards, their debug texts, their printed boards, and (where dbhash does not overflow) their database numbers. The FIBS texts are the same exactly if moreover the same side is to move. So caches, databases and files that use different keys agree with each other.", "quantifier": "all pairs of valid positions, all variants", "why_tests_cant": "no two of all positions may be confused by one of the names but not by another", "anchors": ["src/codecs/gnuid.rs: encode", "src/codecs/xgid.rs: encode", "src/codecs/fibs.rs: encode", "src/position.rs: PartialEq, Hash, Debug, dbhash"]}
{"id": "C105", "title": "A game written as move texts replays to the same game", "statement": "Take any line of play from a valid position: rolls, each with the legal position chosen. encode_move writes a text for every ply, and applying these texts one after the other with apply_move, with the same rolls, gives exactly the positions of the line and nothing else. The same holds if the texts are rewritten in any way that does not change their normalised form (spacing, commas, hit marks, chains). Different lines have different records.", "quantifier": "every variant, every valid position to start from, every line of play of any length", "why_tests_cant": "records must replay for every game, of any length, with every way of writing the texts", "anchors": ["src/codecs/move_text.rs: encode, apply, normalize", "src/rules.rs: ClassicRules"]}
{"id": "C106", "title": "Which error a position text gives", "statement": "A FIBS text that is not well formed gives the error of the first thing wrong with it (the four fields, the two counts, then the 24 points from left to right: a token that is not a point is a 'points' field error, too few or too many tokens a payload error), and only such texts give these errors. A well-formed text gives a 'turn' field error exactly when its side to move is neither x nor o and its board is a possible one, and an invalid position error exactly when no possible board is shown or the off counts are not those of the board. An xgid board gives a 'board' field error exactly when it is not 26 board characters with checkers of the right side only on the bars, and an invalid position error exactly when it is the board of no possible position. For all three decoders a debug build either panics or gives the answer of a release build.", "quantifier": "every variant, every text, both builds", "why_tests_cant": "the order of the checks and the absence of other errors must hold for every text", "anchors": ["src/codecs/fibs.rs: decode, decode_for_position, parse_two_counts, parse_point_token", "src/codecs/xgid.rs: decode", "src/codecs/gnuid.rs: decode"]}
{"id": "C107", "title": "An episode with NoHitRules is a classic episode that may break off", "statement": "With the same dice and the same policy, play_episode_with NoHitRules from a valid position does exactly what play_episode does, until a roll leaves the mover with more checkers on the bar than the opponent has there, whatever is played. Then it stops with Ok(n), the unfinished game being the classic one after n plies, the policy not having been asked again and one more roll having been drawn; any larger limit gives the same. With random dice, and not from a mutual close-out, such an episode comes with probability one to the end of the game, a policy index out of range or this break-off.", "quantifier": "every variant, valid position, dice source giving legal rolls, policy with memory and ply limit; almost every sequence of random rolls", "why_tests_cant": "ranges over every game, every policy and every sequence of rolls", "anchors": ["src/rules.rs: NoHitRules", "src/game.rs: play_episode_with, play_episode"]}
