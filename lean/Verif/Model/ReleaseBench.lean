import Verif.Model.ReleaseGame
import Verif.Model.MoveBench
/-!
# `benches/movegen_bench.rs` on the generator of a release build

`Verif.Model.MoveBench` uses the exact generator; here the same functions use the one that wraps around. `none`: does not return.
-/

namespace Bkgm.Rel

/-- `Position::phase` (src/position.rs 268-291); `none` is the panic of `expect`. -/
def phase {N : Nat} (p : Pos N) : Option GamePhase :=
  (gameState p).bind fun
    | .gameOver r => some (.gameOver r)
    | .ongoing =>
      p.rposX.bind fun lastOwn =>
      p.posO.map fun lastOpponent =>
      .ongoing (if lastOwn > lastOpponent then .contact else .race)

/-- One game of `collect_phase_positions` (benches/movegen_bench.rs 28-43), with `left` plies to go from `p`. -/
def sampleGame {σ : Type} (rng : Rng σ) (wanted : OngoingPhase) : Nat → Pos 15 → σ → Option (Option (Pos 15) × σ)
  | 0, _, s => some (none, s)
  | left + 1, p, s =>
    let d := rng.below all21.length s
    all21[d.1]?.bind fun dice =>
    (legalPositions p dice.1).bind fun scratch =>
    if scratch.isEmpty then some (none, d.2)
    else
      let c := rng.below scratch.length d.2
      scratch[c.1]?.bind fun p =>
      (phase p).bind fun
        | .ongoing current => if current = wanted then some (some p, c.2) else sampleGame rng wanted left p c.2
        | .gameOver _ => sampleGame rng wanted left p c.2

/-- `collect_phase_positions` (benches/movegen_bench.rs 23-47) from the `while` on. -/
def collectFrom {σ : Type} (rng : Rng σ) (wanted : OngoingPhase) (count : Nat) (out : List (Pos 15)) (s : σ) : Option (List (Pos 15) × σ) :=
  if out.length < count then do
    let r ← sampleGame rng wanted 80 BACKGAMMON s
    collectFrom rng wanted count (out ++ r.1.toList) r.2
  else some (out, s)
partial_fixpoint

/-- `collect_phase_positions` (benches/movegen_bench.rs 23-47). -/
def collect {σ : Type} (rng : Rng σ) (wanted : OngoingPhase) (count : Nat) (s : σ) : Option (List (Pos 15)) :=
  (collectFrom rng wanted count [] s).map Prod.fst

/-- `count_all21_moves` (benches/movegen_bench.rs 13-21). -/
def countAll21 (positions : List (Pos 15)) : Option Nat :=
  positions.foldlM (fun total pos => all21.foldlM (fun total dc => (legalPositions pos dc.1).map fun l => (total + l.length) % 2 ^ 64) total) 0

end Bkgm.Rel
