import Verif.Spec.Finish
import Mathlib.Probability.ProductMeasure
import Mathlib.Probability.Distributions.Uniform
/-!
# Random draws below any bound — specification
-/

namespace Bkgm
open MeasureTheory

/-- A source that keeps to the bounds it is given, as `fastrand::Rng::usize(0..n)` does. -/
def Rng.InRange {σ : Type} (rng : Rng σ) : Prop := ∀ n s, 0 < n → (rng.below n s).1 < n

/-- An ideal source: `ω k` are the answers to the `k`-th question, one for each bound. -/
def oracle (ω : Nat → (n : Nat) → Fin (n + 1)) : Rng Nat where
  below n k := (ω k (n - 1), k + 1)

/-- The answers to one question: all numbers below the bound are equally likely. -/
noncomputable def uniformDraw : Measure ((n : Nat) → Fin (n + 1)) := Measure.infinitePi fun n => (PMF.uniformOfFintype (Fin (n + 1))).toMeasure

/-- The answers to different questions are independent. -/
noncomputable def uniformDraws : Measure (Nat → (n : Nat) → Fin (n + 1)) := Measure.infinitePi fun _ => uniformDraw

namespace MoveBench

/-- What a sample is: a valid position reached from the start of backgammon in at most 80 plies of ordinary play, at which the game is not over and which is in
the phase looked for. -/
def IsSample (ph : OngoingPhase) (c : Pos 15) : Prop :=
  c.Valid ∧ c.gameState = .ongoing ∧ (ph = .contact ↔ Spec.Contact c.view) ∧
    ∃ n, 1 ≤ n ∧ n ≤ 80 ∧ Leads Variant.backgammon.startPosition n (.backgammon c)

end MoveBench

end Bkgm
