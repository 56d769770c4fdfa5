# Formal model of bungogood/bkgm in Lean 4

## 1. Layout

* `lean/Verif/Model/*`  — the model: executable Lean functions, one per Rust function, each with a
  comment citing the Rust file and lines. No proofs about behaviour.
* `lean/Verif/Spec/*`   — small, independent specifications (rules of backgammon, what a valid board is,
  binomials, what it means for a text to be ...). They do not mention the model's helpers.
* `lean/Verif/Proofs/*` — helper lemmas.
* `lean/Verif/Props/*`  — the property theorems (one file per topic, names `Cnn_...`), each followed by an
  `example` showing a concrete non-trivial case meeting its hypotheses.
* `lean/Verif/Tests/*`  — the crate's own unit tests (all but the four with a seeded `fastrand` and the commented-out ones) evaluated by
  the kernel on the model: evidence that the model computes what the code computes. Tests, not proofs: no claim rests on them.
* `properties.jsonl`, `MANIFEST.json`, `seeded/LOG.jsonl` — property list, claims, seeded-bug log.

## 2. Trusted base

* Lean 4.33.0's kernel. Every theorem named in `MANIFEST.json` depends on a subset of the three standard axioms
  `propext`, `Classical.choice`, `Quot.sound` (checked with `#print axioms` for each). All use the three of them, except
  `C11_reverse`, `C48_defaults`, `C73_num_checkers` (none), `C21_first_roll_mixed`, `C42_singles_doubles`, `C61_cast_counterexample`
  (`propext` only), `C20_apply_nth`, `C25_reencode`, `fit_spec`, `C54_perft_zero`, `C55_eq_and_hash`, `C61_builds_agree`, `C63_flag`,
  `C71_buffer_irrelevant`, `C71_len_and_visit`, `C71_reuse`, `C73_eq`, `C95_flip` (`propext`, `Quot.sound`).
  No axioms of ours, no compiled evaluation (`decide +kernel` is evaluated by the kernel itself).
* The reading of the Rust source: the model was written by hand from the text of `/repo`; the code was not run.
  Checks of that reading: the crate's unit tests hold of the model (`Tests/Moves.lean`, `Tests/Texts.lean`: among them 46 of the 47 move counts of
  `number_of_moves_for_various_positions_and_dice` and the order of the generated positions).
* Modelling conventions:
  * A `Position<N>` is `Pos N`: `turn : Bool`, `pips : Fin 26 → Int`, `xOff oOff : Nat`. Reads go through
    `Pos.pip : Nat → Int` (0 outside 0..25 — the Rust code would panic there; panic-freedom is treated
    separately in the *checked* model, C16), writes through `Pos.set`.
  * i8/u8/usize arithmetic is modelled with `Int`/`Nat` in the pure model. The checked model (`Model/Checked.lean`, `Chk.*`) transcribes
    the move generator a second time into `Option`, `none` being a panic of a debug build (index out of range, i8/u8/usize overflow,
    failing `debug_assert!`), and is proved to agree with the pure one (C16); `Model/ReleaseGen.lean` (`Rel.*`) transcribes it a third time with wrap-around (C95), `Model/ReleaseGame.lean` and `Model/ReleaseCli.lean` games, move text and the two programs (C97-C99). Functions where overflow is reachable (`try_from`, `dbhash`,
    GNU id, FIBS, XGID decoding, `from_hash_maps`) have explicit i8 / u8 / 64-bit semantics: a parameter `dbg` selects panic or wrap-around.
    `perft` wraps modulo 2^128 in the release model and panics in the debug one (`Chk.perft`).
  * `Vec` is `List`; `&mut` arguments become results; `for_each` over ranges becomes `flatMap` over `List`s
    in the same order; capacity hints are ignored.
  * `String`/`&str` is `List Char`. `trim`/`split_whitespace` use Unicode `White_Space`; ASCII case mapping,
    `str::parse` for integers, `split`, `split_once`, `strip_prefix`, `lines` are re-implemented (`Model/Str.lean`, `Corpus.lines`). `Props/StrSpec.lean` proves what the re-implementations do in the terms of their documentation (the 25 code points of white space, `trim`, `split_whitespace`, `split`, `split_once`, `strip_prefix`, ASCII lower case, `parse`).
  * `base64` STANDARD engine (crate `base64` 0.21, not in the repo) is modelled from its documented behaviour:
    canonical padding required, non-zero trailing bits rejected.
  * `HashMap` is a list of entries with distinct keys in arbitrary order (C61 proves the order does not matter); the duplicate filter of
    `legal_moves` is membership in a list; `BTreeMap` is a list sorted by key.
  * Unbounded `loop`s (default `roll_mixed`) are least fixed points in `Option` (`partial_fixpoint`): `none` when they do not end.
  * `fastrand` is an arbitrary source: a value in the requested range (for C89 and C91 alone: independent uniform values, `uniformRolls`). `f32` in `choose_index` is an arbitrary
    type with arbitrary addition and comparison for C45 (the claim does not depend on float arithmetic); for C68 it is the rationals with
    IEEE-754 binary32 round-to-nearest-even after every operation.
  * A `UbgiEngine` is an arbitrary state machine (record of functions); stdin is a list of lines, stdout a list of lines (C50–C53), of bytes (C81), or a state machine with errors (C90).
  * The two binaries: arguments, file contents are parameters; the printed numbers are the result; times are dropped.

Modelled (definition by definition, each with file and lines in its comment): `dice.rs`, `dice_gen.rs`, `position.rs` (incl. `Debug`, `show`,
`dbhash`, `try_from`, `Eq`/`Hash`), `position/{mixed_moves,double_moves,conversion}.rs`, `rules.rs`, `variants.rs`, `game.rs`, `utils.rs`,
`codecs/{gnuid,xgid,fibs,move_text}.rs`, `engine_spec.rs`, `ubgi.rs`, `ubgi/runtime.rs`, `bin/bkgm-perft.rs`, `bin/corpus-bench.rs`,
`benches/movegen_bench.rs` (sampler and counter).

Not modelled: `bearoff.rs` (one-line placeholder), `State::board()` (`todo!()`), files that are not part of the crate (`backgammon.rs`,
`hypergammon.rs`, `bg_move.rs`), `main.rs` (`fn main() {}`), timing, performance (`MOVES_CAPACITY`, allocator),
`fastrand`'s statistical
quality, `unit tests`.

## 3. Plan per property

| id | modelled | proof idea |
|----|----------|-----------|
| C01 | whole generator (mixed, double, entering, number_of_movable_checkers) | refinement: `c ∈ legalPositions p dice ↔ Spec.Legal …`; key lemmas: adjacent-swap lemma (a play whose second move starts at or above the first can be swapped), sorted plays, potential function "total remaining moves" that every legal move decreases by exactly 1 (doubles) |
| C02 | same | corollary/direct |
| C03 | same | doubles: injectivity of sorted plays by top-down counting; mixed: FALSE in some bear-offs — negation witness + exact characterisation/partial; a list with duplicates is one position exactly twice (`Props/NodupExact.lean`) |
| C04–C06 | same | invariants of a single step, lifted over plays via C01 |
| C07 | Dice::new | case split |
| C08 | try_move_single_checker | refinement to `Spec.Step` |
| C09–C11 | flip, game_state (both), reverse, value | algebra over `Fin 26` |
| C12, C13 | phase with explicit panic | existence of checkers from the counting invariant; race preserved by steps; every board and boards read from ids in `Props/PhaseAny.lean` |
| C14 | NoHitRules | FALSE: the filter looks at the mover's bar. Negation witness; partial: exact description of what the filter keeps |
| C15 | try_from with i8 sums (debug / release) | FALSE for sums outside i8; partial under sum bounds |
| C16 | checked generator | simulation proof: checked = ok (pure) on valid positions |
| C17–C21 | Game, play_episode with arbitrary dice generator, policy | induction over histories |
| C22–C24 | gnuid bit encoding + base64 | run-length codec lemma; decode totality FALSE: witness |
| C25–C27 | xgid | char-level round trip; lines accepted and errors exactly as the grammar of Spec/XgidLine.lean says (C26_accept_iff, C26_error_iff); validity FALSE with i8 wrap (release) |
| C28, C29 | fibs | round trip for x to move; FALSE for o: witness. Acceptance, panics (debug) and errors exact against a grammar of the text (`Spec/Fibs.lean`) |
| C30–C32 | dbhash, comb, mcomb | lexicographic rank of compositions; overflow for N=15: witness; N ≤ 12 fits |
| C33–C39 | move_text | DFS completeness; apply∘encode; legality of apply FALSE: witness + partial; legal_moves texts FALSE: witness + partial |
| C40–C45 | variants, dice tables, dice generators | finite tables (kernel `decide`) and string lemmas |
| C46–C49 | engine_spec, ubgi options | string lemmas |
| C50–C53 | UBGI session state machine | invariants over command histories |
| C54–C57 | perft, Eq/Hash, Debug, turn independence | induction / injectivity / congruence |
| C58 | parse_ubgi_move, bestmove text | composition of C37/C38 with the error path |
| C59 | show, print_point | explicit picture as specification; injectivity by reading the picture back |
| C60 | phase, generator, play_episode | a step in a race lowers the total pip count; induction on it |
| C61 | from_hash_maps, pos!, [i8;26]::from | fold over a permutation; exact success condition through try_from; round trip |
| C62 | perft in a debug build (`Chk.perft`) | induction on the depth: success iff no earlier game over and the count fits; pip-count bound on the length of a game; branching bound |
| C63 | arguments and modes of bkgm-perft | list induction for flags; composition of C22, C16, C62 |
| C64 | corpus-bench | line splitting lemma, inductive file format; composition of C22, C16 |
| C65 | debug-build transcription of rules, game and episode loop (`Model/CheckedGame`) | equality with the release model by C16, C04, C05 and induction on plies |
| C66 | debug-build transcription of move_text | equality with the release model by induction on dice orders / steps |
| C67 | panics of the session loop; the trait's default methods | induction on the lines; panic conditions of the decoder (C23) and round trip (C22) |
| C68 | f32 rounding on rationals, choose_index with it (`Model/Float32`) | error bounds of rounding, interval counting |
| C69 | try_from, Display, accessors, debug assertions (`Model/DiceText`) | case split; decimal numerals are injective and contain no comma |
| C70 | apply_for | completeness of the backtracking assignment of dice to steps; the only ambiguous step is a bear-off possible with either die, after which both dice are playable or neither |
| C71 | the `_into` functions with their buffer (`Model/Buffer.lean`) | each loop over the buffer equals appending a flatMap; `clear()` forgets the old contents |
| C72 | text output with `u8`/`i8` checks and `from_utf8` (`Model/CheckedText.lean`) | cells of a valid position are bounded by N; every checked function equals the pure one |
| C73 | VariantPosition, ClassicRules / NoHitRules dispatch | per variant from C01, C02, C10, C12, C55 |
| C74 | encode_for, find_steps_for_target | the search finds a leaf of the tree of tried dice iff there is one (Spec.Tried) |
| C75 | the encoders of gnuid, xgid, fibs | against Spec/Codecs.lean (GNU id: 80 bits in unary and base64; XGID letters) and Spec/Fibs.lean; the same specs give exact accept / refuse / panic conditions of the GNU id and XGID board decoders (C23, C24, C27) |
| C76 | tryFrom with i8 arithmetic in both builds; the three decoders | wrap8 sums are the true sums modulo 256; then the grammars of Spec/Codecs and Spec/Fibs |
| C77 | normalize, parse_move_steps, apply_for | against the grammar Spec/MoveText.lean, part by part (point, path, word, text); apply_move from C70 |
| C78 | parse_engine_spec, format_engine_spec | against the grammar Spec/EngineSpec.lean; trimming the whole commutes with trimming the pieces; sorted maps are determined by their members |
| C79 | parse_key_line, parse_ubgi_move | against Spec/KeyLine.lean by cases on the words; moves from C77 |
| C80 | command lines of both programs, corpus files | against Spec/CommandLine.lean: the settings are read by relations on the list of words; then C62, C16, C24, C23; `str::lines` as in Rust 1.67 and later (a bare `\r` at the end of the file is kept) |
| C81 | `run_ubgi_stdio` on bytes: UTF-8, `BufRead::lines`, `writeln!` (Model/Stdin.lean) | Lean's own UTF-8 codec for `from_utf8` and `String`; lines against `Spec.Cli.Lines`; an invariant of the session (no stored text has a line break) for the output |
| C82 | `legal_positions`, game histories, `play_episode` | `Spec.Deadlock` (mutual close-out); a blocked side not on the bar faces a six-prime whose owner can move; a step into a close-out would enter on a closed point; induction over the history |
| C83 | start positions, `legal_positions`, `play_episode` | an opening and a cycle of two positions (5-5 rolled for ever, the same two checkers hitting each other) per variant, evaluated in the kernel; induction on the number of plies |
| C84 | histories of legal plies (`History`, Spec/History.lean) | C06 per ply, hit points are at most 24; induction over the history |
| C85 | `diceGenMock`, `playEpisode`, `mockAllUsed`; script in Spec/Script.lean | the mock's state along the plies (induction on the plies) and an exact description of when the loop does not return (induction on the plies left) |
| C86 | `legalPositions`; open faces in Spec/Entering.lean | the bar cell through every branch of the generator; gives the exact content of the no-hit list for C14 |
| C87 | `classicRules` lines of play, fair sequences in Spec/Finish.lean | checkers on four points, or on five that are spread, cannot stop a side from playing without a hit (quiet reply); the mover can always come nearer to the end and leave such a position; induction over the pips; finitely many positions for the fair sequences. Games in which both sides have more checkers: C88 |
| C88 | `classicRules`, all choices of both players; `Forced`, `PlayedWith`, `FairDice` in Spec/Forced.lean | McMullen's argument: a double 2-2, 4-4 or 6-6 makes every play lower an energy of the board (pips plus terms that outweigh a hit) unless both sides are stuck for even numbers; then other rolls enter checkers until that is no longer so; close-outs are the only exception (C82). Fair sequences: finitely many positions |
| C89 | `play_episode` with `FastrandDice` over an ideal source; product measure of uniform numbers in Spec/Random.lean | the episode is a walk driven by the numbers; from C88 each block of K rolls ends the game with probability at least 36^-K whatever happened before; induction over blocks with the product measure; limit and geometric sum |
| C90 | the loop of `run_ubgi_stdio` against a state machine for the outside (`Model/Io.lean`) | induction over the turns; the list of events is described by `Dialogue`, the replies by the sessions of C50–C53 |
| C91 | `FastrandDice`, default `roll_mixed` over the ideal source | measures of cylinders; geometric series |
| C92 | `Display` of the error types (`Model/ErrorText.lean`) | case split over the errors; the conditions come from C26, C27, C29, C78 |
| C93 | `Variant.decodeWith`/`encodeWith` with the three codecs; the meaning of an id is `Spec/VariantCodecs.lean` | from C23–C29 for each number of checkers; base64 acceptance by recursion over groups of four |
| C94 | `collect_phase_positions` and `count_all21_moves` of the benchmark (`Model/MoveBench.lean`), the loop as a least fixed point; ideal random answers in `Spec/MoveBench.lean` | invariant of the loop; induction on the plies; probability one by Borel–Cantelli from one word of draws that reaches a race; the same on the release generator (`Model/ReleaseBench.lean`) |
| C95 | the generator, `flip` and `try_move_single_checker` transcribed once more for a build without overflow checks (`Model/ReleaseGen.lean`: `i8`, `u8`, `usize` wrap, only index and slice panics) | a run of the checked generator that returns is simulated by the release one with any off counts (`Proofs/ReleaseGen.lean`); the generator does not look at the off counts (`Proofs/ShiftGen.lean`) |
| C96 | `dbhash` in both builds; placements and their lexicographic rank in `Spec/Rank.lean` | lists of given length and sum counted by induction (hockey stick identity), rank by recursion on the first entry, matched with the index formula of C30 |
| C97 | rules, `game_state`, `apply_nth_legal_position`, `play_episode` transcribed for a release build (`Model/ReleaseGame.lean`) | equality with the exact model by C95 and induction on plies; absence of panics by `C95_never_panics`; playing on after the end by induction on `Spec.Play` |
| C98 | move_text transcribed for a release build (`Model/ReleaseGame.lean`) | equality by induction on dice orders / steps; absence of panics by `C95_try_move_panics_iff` |
| C99 | bkgm-perft and corpus-bench transcribed for a release build (`Model/ReleaseCli.lean`) | perft: induction on depth with C95 and C54; command lines: the reading of C80; absence of panics by `C95_never_panics`; exact panics by `C23_ok_iff` |
| C100 | legal_moves, as for C36 | false: two plays with one text (`C100_counterexample`, both sides on the bar). Proved: never with doubles or unless both sides have a checker on the bar; a text occurs at most twice, and then `apply_move` gives one of the two; the exact set of boards (`Spec.RepeatedText`, `C100_exact_partial`), hence never with two or three checkers a side. A wrong text comes from the opponent's plays with the larger die first; the cells of both sides before and after, the pips and one finite table (`chain_all`, over the whole range of dice and points) exclude the rest |
| C101 | encode_move and legal_moves | the search of `encode_move` is the first path to the target (`findSteps_paths`); the first record among the player's own paths is the same path (`own_find`); a record from the opponent's paths is wrong unless an own path came first (`opp_wrong`) |
| C102 | encode_move | the paths are listed in lexicographic order of their starting points (`paths_sorted`) and `encode_move` takes the first one to the target; `Spec.Least`, `Spec.Chosen` state the choice with the rules alone |
| C103 | UBGI session, move text, GNU ids and rules together | induction over the rolls from the state after any session; `Spec.Dialogue` and `Spec.PlaysLegally` (`Spec/UbgiGame.lean`) describe the game without the session's helpers; C33, C22, C93, C41, C57; the end of the game from C88 |
| C104 | the codecs, equality, hash input, Debug and Display together | from the round trips and injectivity of each (C22, C25, C28, C30, C55, C56, C59); the FIBS text is shown to be injective although its decoder misreads `o` to move |
| C105 | encode_move, apply_move and the rules along a game | `Spec/Record.lean` defines lines, records and replays; induction over the line with C33 and the exact acceptance condition C70 |
| C106 | the errors of fibs, xgid and gnuid decode | `Spec/FibsErrors.lean` defines the first thing wrong with a text; induction over the list of tokens, then the case analysis of C29 made exact in both directions; debug and release compared step by step |
| C107 | play_episode_with under both rule sets | the no-hit filter keeps all positions or none (C14), so the loops agree step by step until it keeps none: induction over the ply limit; with C89 for the random dice |
