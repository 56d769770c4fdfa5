import Verif.Model.ReleaseBench
import Verif.Props.MoveBench
import Verif.Props.ReleaseCli
import Verif.Props.PhaseAny
/-!
# C94, C12: the benchmark and `phase` in a release build
-/
namespace Bkgm
open Pos

/-- **C12** `phase` is the same function in a release build, on every board. -/
theorem C12_release {N : Nat} (p : Pos N) : Rel.phase p = p.phase := by
  unfold Rel.phase Pos.phase
  rw [Rel.gameState_eq, Option.bind_some]
  cases p.gameState with
  | gameOver r => rfl
  | ongoing =>
    cases p.rposX with
    | none => rfl
    | some a => cases p.posO <;> rfl

namespace MoveBench

theorem rel_sample {σ : Type} (rng : Rng σ) (hr : rng.InRange) (ph : OngoingPhase) : ∀ (n : Nat) (p : Pos 15) (s : σ), p.Valid →
    Rel.sampleGame rng ph n p s = sampleGame rng ph n p s := by
  intro n
  induction n with
  | zero => intro p s _; rfl
  | succ n ih =>
    intro p s hp
    rw [Rel.sampleGame, sampleGame]
    simp only
    cases hd : all21[(rng.below all21.length s).1]? with
    | none => rfl
    | some dice =>
      have hv : dice.1.Valid := Rel.valid21 dice (List.mem_of_getElem? hd)
      simp only [Option.bind_some]
      rw [C95_valid p hp (by omega) dice.1 hv, Option.bind_some]
      by_cases he : (p.legalPositions dice.1).isEmpty = true
      · rw [if_pos he, if_pos he]
      · rw [if_neg he, if_neg he]
        cases hc : (p.legalPositions dice.1)[(rng.below (p.legalPositions dice.1).length (rng.below all21.length s).2).1]? with
        | none => rfl
        | some c =>
          have hcv := C04_children_valid p c hp dice.1 hv (List.mem_of_getElem? hc)
          simp only [Option.bind_some]
          rw [C12_release]
          congr 1
          funext x
          cases x with
          | gameOver r => exact ih c _ hcv
          | ongoing cur =>
            simp only
            rw [ih c _ hcv]

/-- **C94** The sampler running on the generator of a release build, which is how benchmarks are built, is the sampler of the theorems above: the same positions, and it
returns or not alike. -/
theorem C94_release {σ : Type} (rng : Rng σ) (hr : rng.InRange) (ph : OngoingPhase) (count : Nat) (s : σ) :
    Rel.collect rng ph count s = collect rng ph count s := by
  unfold Rel.collect collect
  congr 1
  have h := fun s => rel_sample rng hr ph 80 BACKGAMMON s start_valid
  refine Option.ext fun r => ⟨fun hr => ?_, fun hr => ?_⟩
  · refine Rel.collectFrom.partial_correctness rng ph count (motive := fun out s r => collectFrom rng ph count out s = some r) ?_ [] s r hr
    intro f ih out s r hf
    rw [collectFrom]
    split_ifs at hf ⊢ with hlt
    · simp only [Option.bind_eq_bind, Option.bind_eq_some_iff] at hf ⊢
      obtain ⟨x, h1, h2⟩ := hf
      exact ⟨x, (h s).symm.trans h1, ih _ _ _ h2⟩
    · exact hf
  · refine collectFrom.partial_correctness rng ph count (motive := fun out s r => Rel.collectFrom rng ph count out s = some r) ?_ [] s r hr
    intro f ih out s r hf
    rw [Rel.collectFrom]
    split_ifs at hf ⊢ with hlt
    · simp only [Option.bind_eq_bind, Option.bind_eq_some_iff] at hf ⊢
      obtain ⟨x, h1, h2⟩ := hf
      exact ⟨x, (h s).trans h1, ih _ _ _ h2⟩
    · exact hf

/-- **C94** Likewise the count, for valid positions. -/
theorem C94_release_count (ps : List (Pos 15)) (hv : ∀ p ∈ ps, p.Valid) : Rel.countAll21 ps = some (countAll21 ps) := by
  unfold Rel.countAll21 countAll21
  refine Rel.foldlM_some (fun t p hp => ?_) 0
  refine Rel.foldlM_some (fun t dc hdc => ?_) t
  rw [C95_valid p (hv p hp) (by omega) dc.1 (Rel.valid21 dc hdc)]
  rfl

example (ω : Nat → (n : Nat) → Fin (n + 1)) := C94_release (oracle ω) (oracle_inRange ω) .race 512 0
example : ∀ p ∈ [BACKGAMMON, Ex.cells 15 [0, -15] 15 0], p.Valid := by decide

end MoveBench
end Bkgm
