import Verif.Model.Variants
import Verif.Model.DiceGen
/-!
# Model of `benches/movegen_bench.rs`

Benchmarks are release builds: no overflow checks and no `debug_assert!`. `none` means that the call does not return (a panic, or an
endless loop). The timing done by `criterion` is not modelled.
-/

namespace Bkgm.MoveBench

/-- One game of `collect_phase_positions` (benches/movegen_bench.rs 28-43), with `left` plies to go from `p`: the position found, if any. -/
def sampleGame {σ : Type} (rng : Rng σ) (phase : OngoingPhase) : Nat → Pos 15 → σ → Option (Option (Pos 15) × σ)
  | 0, _, s => some (none, s)
  | left + 1, p, s =>
    let d := rng.below all21.length s
    all21[d.1]?.bind fun dice =>
    let scratch := p.legalPositions dice.1
    if scratch.isEmpty then some (none, d.2)
    else
      let c := rng.below scratch.length d.2
      scratch[c.1]?.bind fun p =>
      p.phase.bind fun
        | .ongoing current => if current = phase then some (some p, c.2) else sampleGame rng phase left p c.2
        | .gameOver _ => sampleGame rng phase left p c.2

/-- `collect_phase_positions` (benches/movegen_bench.rs 23-47) from the `while` on, when `out` was found already. The loop is a least fixed point
in `Option`. -/
def collectFrom {σ : Type} (rng : Rng σ) (phase : OngoingPhase) (count : Nat) (out : List (Pos 15)) (s : σ) : Option (List (Pos 15) × σ) :=
  if out.length < count then do
    let r ← sampleGame rng phase 80 BACKGAMMON s
    collectFrom rng phase count (out ++ r.1.toList) r.2
  else some (out, s)
partial_fixpoint

/-- `collect_phase_positions` (benches/movegen_bench.rs 23-47); `s` is the state of the seeded generator. -/
def collect {σ : Type} (rng : Rng σ) (phase : OngoingPhase) (count : Nat) (s : σ) : Option (List (Pos 15)) :=
  (collectFrom rng phase count [] s).map Prod.fst

/-- `count_all21_moves` (benches/movegen_bench.rs 13-21). The sum is a `usize` and wraps. -/
def countAll21 (positions : List (Pos 15)) : Nat :=
  positions.foldl (fun total pos => all21.foldl (fun total dc => (total + (pos.legalPositions dc.1).length) % 2 ^ 64) total) 0

end Bkgm.MoveBench
