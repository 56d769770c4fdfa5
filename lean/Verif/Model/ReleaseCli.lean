import Verif.Model.ReleaseGen
import Verif.Model.PerftCli
/-!
# The two programs in a release build

As in `Verif.Model.ReleaseGen`: arithmetic wraps (`u128` in perft, `usize` in the counters) and there are no debug assertions; `none` is a panic (`assert!`, `expect`,
indexing). Reading the arguments does no arithmetic and is shared with `Verif.Model.PerftCli`.
-/

namespace Bkgm
namespace Rel

/-- `perft_all_rolls_n` (src/bin/bkgm-perft.rs 22-36) in a release build. -/
def perft {N : Nat} (weighted : Bool) : (depth : Nat) → Pos N → Option Nat
  | 0, _ => some 1
  | depth + 1, position =>
    all21.foldlM (fun total dc =>
      let mult := if weighted then dc.2 else 1
      (legalPositions position dc.1).bind fun legal =>
        legal.foldlM (fun total next =>
          (perft weighted depth next).map fun sub => (total + mult * sub % 2 ^ 128) % 2 ^ 128) total) 0

/-- `run_single_roll` (src/bin/bkgm-perft.rs 75-107): the dice are checked by `assert!`. -/
def runSingleRoll {N : Nat} (p : Pos N) (v : Variant) (id : Str) (d0 d1 iterations : Nat) : Option PerftCli.Outcome :=
  if (1 ≤ d0 ∧ d0 ≤ 6) ∧ (1 ≤ d1 ∧ d1 ≤ 6) then
    ((List.range iterations).foldlM (fun total _ =>
      (legalPositions p (Dice.new d0 d1)).map fun l => (total + l.length) % 2 ^ 64) 0).map (.singleRoll v id d0 d1 iterations)
  else none

/-- `run_perft` (src/bin/bkgm-perft.rs 109-135). -/
def runPerft {N : Nat} (p : Pos N) (v : Variant) (id : Str) (depth : Nat) (weighted : Bool) (iterations : Nat) : Option PerftCli.Outcome :=
  ((List.range iterations).foldlM (fun _ _ => perft weighted depth p) 0).map (.perft v id depth weighted iterations)

/-- One arm of the final `match` of `main` (src/bin/bkgm-perft.rs 166-212). -/
def runArm (N : Nat) (v : Variant) (id : Str) (depth : Nat) (weighted : Bool) (iterations : Nat) (die0 die1 : Option Nat) : Option PerftCli.Outcome :=
  PerftCli.onOk (GnuId.decode false N id) fun p =>
    match die0, die1 with
    | some d0, some d1 => runSingleRoll p v id d0 d1 iterations
    | _, _ => runPerft p v id depth weighted iterations

open PerftCli in
/-- `main` (src/bin/bkgm-perft.rs 137-213). `args` includes the program name. -/
def perftMain (args : List Str) : Option Outcome :=
  if hasFlag args "--help".toList || hasFlag args "-h".toList then some .usage
  else
    (variantFlag args).bind fun v =>
    ((flag (fun a => a == "--position-id".toList || a == "-p".toList) args).or (GnuId.encodeV v.startPosition)).bind fun id =>
    let depth := ((usizeFlag args "--depth".toList).or (usizeFlag args "-d".toList)).getD 2
    let iterations := max (((usizeFlag args "--iterations".toList).or (usizeFlag args "-n".toList)).getD 1) 1
    let weighted := hasFlag args "--weighted".toList || hasFlag args "-w".toList
    let die0 := usizeFlag args "--die0".toList
    let die1 := usizeFlag args "--die1".toList
    match v with
    | .backgammon | .nackgammon | .longgammon => runArm 15 v id depth weighted iterations die0 die1
    | .hypergammon => runArm 3 v id depth weighted iterations die0 die1
    | .hypergammon2 => runArm 2 v id depth weighted iterations die0 die1
    | .hypergammon4 => runArm 4 v id depth weighted iterations die0 die1
    | .hypergammon5 => runArm 5 v id depth weighted iterations die0 die1

/-- `load_positions` on the text of the file (src/bin/corpus-bench.rs 13-20). -/
def loadPositions (text : Str) : Option (List (Pos 15)) :=
  ((Corpus.lines text).filter fun l => !(trim l).isEmpty).mapM fun id =>
    PerftCli.onOk (GnuId.decode false 15 id) some

/-- `run_once` (src/bin/corpus-bench.rs 32-40). -/
def runOnce (positions : List (Pos 15)) : Option Nat :=
  positions.foldlM (fun total p =>
    all21.foldlM (fun total dc => (legalPositions p dc.1).map fun l => (total + l.length) % 2 ^ 64) total) 0

/-- `bench` (src/bin/corpus-bench.rs 42-56). -/
def bench (positions : List (Pos 15)) (iterations : Nat) : Option Corpus.Report :=
  ((List.range iterations).foldlM (fun _ _ => runOnce positions) 0).map (Corpus.Report.mk positions.length iterations)

/-- `main` (src/bin/corpus-bench.rs 58-76), as in `Corpus.main`. -/
def corpusMain (root : Str) (readFile : Str → Option Str) (args : List Str) : Option (Corpus.Report × Corpus.Report) :=
  let contactPath := (PerftCli.flag (· == "--contact-csv".toList) args).getD (root ++ "benches/resources/contact.csv".toList)
  let racePath := (PerftCli.flag (· == "--race-csv".toList) args).getD (root ++ "benches/resources/race.csv".toList)
  let iterations := max ((PerftCli.usizeFlag args "--iterations".toList).getD 20) 1
  ((readFile contactPath).bind loadPositions).bind fun contact =>
  ((readFile racePath).bind loadPositions).bind fun race =>
  (bench contact iterations).bind fun a =>
  (bench race iterations).map fun b => (a, b)

end Rel
end Bkgm
