import Mathlib.Tactic.Basic
/-!
Helper lemmas for C100: arithmetic.
-/

namespace Bkgm
namespace MoveText

/-- 1 at `z`, 0 elsewhere. -/
def dl (z i : Nat) : Nat := if i = z then 1 else 0

/-- The condition of `chain_arith` at one cell. -/
def ChainCell (b s x f g i : Nat) : Prop :=
  2 * dl (x - s - b) i + dl (x - s) i + dl f i + dl g i + (dl x (25 - i) + 2 * dl (f - b) (25 - i) + 2 * dl (g - s) (25 - i)) =
  2 * dl (x - s - b) (25 - i) + dl (x - s) (25 - i) + dl f (25 - i) + dl g (25 - i) + (dl x i + 2 * dl (f - b) i + 2 * dl (g - s) i)

instance (b s x f g i : Nat) : Decidable (ChainCell b s x f g i) := by unfold ChainCell; infer_instance

/-- `chain_arith` for one choice of the numbers. -/
def ChainOk (b s x f g : Nat) : Prop :=
  (s + b < x ∧ 1 ≤ s ∧ b < f ∧ s < g ∧ g < 25) → (∀ i < 26, ChainCell b s x f g i) →
    f = x - s ∨ (g = x - s ∧ x - s ≠ f - b) ∨ (f + g = 25 ∧ g ≠ f - b)

instance (b s x f g : Nat) : Decidable (ChainOk b s x f g) := by unfold ChainOk; infer_instance

set_option maxRecDepth 100000 in
/-- The arithmetic of one checker hitting twice (`x` to `x - s` to `x - s - b`) against two moves `f` by `b` and `g` by `s`: over the whole range. -/
theorem chain_all : ∀ b < 7, ∀ s < b, ∀ x < 25, ∀ f < 25, ChainOk b s x f (2 * x - s - f) := by
  decide +kernel

theorem chain_arith {b s x f g : Nat} (hb : b ≤ 6) (hs : s < b) (hs1 : 1 ≤ s) (hx : s + b < x) (hx' : x ≤ 24) (hf : b < f) (hf' : f ≤ 24)
    (hg : s < g) (hg' : g ≤ 24) (e : f + g + s = 2 * x) (h : ∀ i < 26, ChainCell b s x f g i) :
    f = x - s ∨ (g = x - s ∧ x - s ≠ f - b) ∨ (f + g = 25 ∧ g ≠ f - b) := by
  have := chain_all b (by omega) s hs x (by omega) f (by omega)
  rw [show 2 * x - s - f = g by omega] at this
  exact this ⟨hx, hs1, hf, hg, by omega⟩ h

end MoveText
end Bkgm
