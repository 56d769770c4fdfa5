import Verif.Model.Perft
import Verif.Model.Checked
import Verif.Model.GnuId
/-!
# Model of `src/bin/bkgm-perft.rs` (arguments and the two modes) and of `src/bin/corpus-bench.rs`

What is printed is modelled as a record of the printed values; times and rates are not modelled. An outer `none` is a panic (of a
debug build: overflow checks and `debug_assert!`s are on).
-/

namespace Bkgm

namespace Chk

/-- `perft_all_rolls_n` (src/bin/bkgm-perft.rs 22-36) in a debug build: the generator's panics propagate, and `mult * ..` and `total += ..`
are checked `u128` operations. -/
def perft {N : Nat} (weighted : Bool) : (depth : Nat) → Pos N → Option Nat
  | 0, _ => some 1
  | depth + 1, position =>
    all21.foldlM (fun total dc =>
      let mult := if weighted then dc.2 else 1
      (legalPositions position dc.1).bind fun legal =>
        legal.foldlM (fun total next =>
          (perft weighted depth next).bind fun sub =>
            if mult * sub < 2 ^ 128 ∧ total + mult * sub < 2 ^ 128 then some (total + mult * sub) else none) total) 0

end Chk

namespace PerftCli

/-- `args.windows(2).find(|w| isName(w[0])).map(|w| w[1])` (src/bin/bkgm-perft.rs 13-15, 49-53, 146-150). -/
def flag (isName : Str → Bool) : List Str → Option Str
  | a :: b :: rest => if isName a then some b else flag isName (b :: rest)
  | _ => none

/-- `parse_usize_flag` (src/bin/bkgm-perft.rs 12-16). -/
def usizeFlag (args : List Str) (name : Str) : Option Nat := (flag (· == name) args).bind (parseNat (2 ^ 64 - 1))

/-- `has_flag` (src/bin/bkgm-perft.rs 18-20). -/
def hasFlag (args : List Str) (name : Str) : Bool := args.any (· == name)

/-- The short names (src/bin/bkgm-perft.rs 59-68); `none` is the panic. -/
def shortName (raw : Str) : Option Variant :=
  if raw = "bg".toList then some .backgammon
  else if raw = "nack".toList then some .nackgammon
  else if raw = "long".toList then some .longgammon
  else if raw = "hyper".toList ∨ raw = "hypergammon3".toList then some .hypergammon
  else if raw = "hyper2".toList then some .hypergammon2
  else if raw = "hyper4".toList then some .hypergammon4
  else if raw = "hyper5".toList then some .hypergammon5
  else none

/-- `parse_variant_flag` (src/bin/bkgm-perft.rs 48-69). -/
def variantFlag (args : List Str) : Option Variant :=
  let raw := ((flag (fun a => a == "--variant".toList || a == "-v".toList) args).map lower).getD "backgammon".toList
  match Variant.parse raw with
  | some v => some v
  | none => shortName raw

/-- What a run prints, without times. (src/bin/bkgm-perft.rs 38-46, 75-135.) -/
inductive Outcome where
  | usage
  | perft (v : Variant) (id : Str) (depth : Nat) (weighted : Bool) (iterations nodes : Nat)
  | singleRoll (v : Variant) (id : Str) (d0 d1 iterations totalMoves : Nat)
  deriving DecidableEq

/-- `run_single_roll` (src/bin/bkgm-perft.rs 75-107): `for _ in 0..iterations { total_moves += .. }` on `usize`. -/
def runSingleRoll {N : Nat} (p : Pos N) (v : Variant) (id : Str) (d0 d1 iterations : Nat) : Option Outcome :=
  if (1 ≤ d0 ∧ d0 ≤ 6) ∧ (1 ≤ d1 ∧ d1 ≤ 6) then
    ((List.range iterations).foldlM (fun total _ =>
      (Chk.legalPositions p (Dice.new d0 d1)).bind fun l => if total + l.length < 2 ^ 64 then some (total + l.length) else none) 0).map
      (.singleRoll v id d0 d1 iterations)
  else none

/-- `run_perft` (src/bin/bkgm-perft.rs 109-135): `for _ in 0..iterations { nodes = .. }`, starting from 0. -/
def runPerft {N : Nat} (p : Pos N) (v : Variant) (id : Str) (depth : Nat) (weighted : Bool) (iterations : Nat) : Option Outcome :=
  ((List.range iterations).foldlM (fun _ _ => Chk.perft weighted depth p) 0).map (.perft v id depth weighted iterations)

/-- `Position::decode(&id).expect(..)` followed by `f` (src/bin/bkgm-perft.rs 166-212): an error panics. -/
def onOk {N : Nat} {ε α : Type} (r : Option (Except ε (Pos N))) (f : Pos N → Option α) : Option α :=
  match r with
  | some (.ok p) => f p
  | _ => none

/-- One arm of the final `match` of `main` (src/bin/bkgm-perft.rs 166-212): the five arms are this for `N` = 15, 3, 2, 4, 5. -/
def runArm (N : Nat) (v : Variant) (id : Str) (depth : Nat) (weighted : Bool) (iterations : Nat) (die0 die1 : Option Nat) : Option Outcome :=
  onOk (GnuId.decode true N id) fun p =>
    match die0, die1 with
    | some d0, some d1 => runSingleRoll p v id d0 d1 iterations
    | _, _ => runPerft p v id depth weighted iterations

/-- `main` (src/bin/bkgm-perft.rs 137-213). `args` includes the program name. -/
def main (args : List Str) : Option Outcome :=
  if hasFlag args "--help".toList || hasFlag args "-h".toList then some .usage
  else
    (variantFlag args).bind fun v =>
    ((flag (fun a => a == "--position-id".toList || a == "-p".toList) args).or (GnuId.encodeV v.startPosition)).bind fun id =>
    let depth := ((usizeFlag args "--depth".toList).or (usizeFlag args "-d".toList)).getD 2
    let iterations := max (((usizeFlag args "--iterations".toList).or (usizeFlag args "-n".toList)).getD 1) 1
    let weighted := hasFlag args "--weighted".toList || hasFlag args "-w".toList
    let die0 := usizeFlag args "--die0".toList
    let die1 := usizeFlag args "--die1".toList
    match v with
    | .backgammon | .nackgammon | .longgammon => runArm 15 v id depth weighted iterations die0 die1
    | .hypergammon => runArm 3 v id depth weighted iterations die0 die1
    | .hypergammon2 => runArm 2 v id depth weighted iterations die0 die1
    | .hypergammon4 => runArm 4 v id depth weighted iterations die0 die1
    | .hypergammon5 => runArm 5 v id depth weighted iterations die0 die1

end PerftCli

namespace Corpus

/-- One line without the `\r` of its line ending. (`lines` in src/bin/corpus-bench.rs 16.) -/
def stripCr (t : Str) : Str := if t.getLast? = some '\r' then t.dropLast else t

/-- `str::lines` (Rust 1.67 and later): a line ends in `\n` or `\r\n`; what follows the last `\n` is one more line unless it is empty, and a
`\r` at its end is kept. (src/bin/corpus-bench.rs 16.) -/
def lines (s : Str) : List Str :=
  let l := splitChar '\n' s
  l.dropLast.map stripCr ++ (if l.getLast? = some [] then [] else l.getLast?.toList)

/-- `load_positions` on the text of the file (src/bin/corpus-bench.rs 13-20). -/
def loadPositions (text : Str) : Option (List (Pos 15)) :=
  ((lines text).filter fun l => !(trim l).isEmpty).mapM fun id =>
    PerftCli.onOk (GnuId.decode true 15 id) some

/-- `run_once` (src/bin/corpus-bench.rs 32-40). -/
def runOnce (positions : List (Pos 15)) : Option Nat :=
  positions.foldlM (fun total p =>
    all21.foldlM (fun total dc =>
      (Chk.legalPositions p dc.1).bind fun l => if total + l.length < 2 ^ 64 then some (total + l.length) else none) total) 0

/-- What `bench` prints (src/bin/corpus-bench.rs 42-56) without times: number of positions, iterations, moves per run. -/
structure Report where
  positions : Nat
  iterations : Nat
  movesPerRun : Nat
  deriving DecidableEq

/-- `bench` (src/bin/corpus-bench.rs 42-56): `for _ in 0..iterations { total_moves = run_once(positions) }`. -/
def bench (positions : List (Pos 15)) (iterations : Nat) : Option Report :=
  ((List.range iterations).foldlM (fun _ _ => runOnce positions) 0).map (Report.mk positions.length iterations)

/-- `main` (src/bin/corpus-bench.rs 58-76). `root` is `CARGO_MANIFEST_DIR` with a final separator, `readFile` is `fs::read_to_string`
(`none`: error, and the program panics). -/
def main (root : Str) (readFile : Str → Option Str) (args : List Str) : Option (Report × Report) :=
  let contactPath := (PerftCli.flag (· == "--contact-csv".toList) args).getD (root ++ "benches/resources/contact.csv".toList)
  let racePath := (PerftCli.flag (· == "--race-csv".toList) args).getD (root ++ "benches/resources/race.csv".toList)
  let iterations := max ((PerftCli.usizeFlag args "--iterations".toList).getD 20) 1
  ((readFile contactPath).bind loadPositions).bind fun contact =>
  ((readFile racePath).bind loadPositions).bind fun race =>
  (bench contact iterations).bind fun a =>
  (bench race iterations).map fun b => (a, b)

end Corpus

end Bkgm
