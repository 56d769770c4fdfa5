import Verif.Spec.Rules
import Mathlib.Tactic.SplitIfs
import Mathlib.Tactic.IntervalCases
import Mathlib.Tactic.Common
/-!
Helper lemmas: reading and writing cells, single moves.
-/

namespace Bkgm

theorem mem_rng {a b i : Nat} : i ∈ rng a b ↔ a ≤ i ∧ i < b := by
  unfold rng; rw [List.mem_range'_1]; omega

namespace Pos
variable {N : Nat}

theorem pip_set (p : Pos N) {i : Nat} (hi : i < 26) (v : Int) (j : Nat) :
    (p.set i v).pip j = if j = i then v else p.pip j := by
  unfold pip set
  by_cases hj : j < 26
  · simp [hj]
  · have : j ≠ i := by omega
    simp [hj, this]

@[simp] theorem xOff_set (p : Pos N) (i : Nat) (v : Int) : (p.set i v).xOff = p.xOff := rfl
@[simp] theorem oOff_set (p : Pos N) (i : Nat) (v : Int) : (p.set i v).oOff = p.oOff := rfl
@[simp] theorem turn_set (p : Pos N) (i : Nat) (v : Int) : (p.set i v).turn = p.turn := rfl
@[simp] theorem pip_xOff (p : Pos N) (k j : Nat) : ({ p with xOff := k } : Pos N).pip j = p.pip j := rfl

theorem pip_ge {p : Pos N} {i : Nat} (h : 26 ≤ i) : p.pip i = 0 := by
  unfold pip; rw [dif_neg (by omega)]

theorem ext_pip {p q : Pos N} (ht : p.turn = q.turn) (hx : p.xOff = q.xOff) (ho : p.oOff = q.oOff)
    (h : ∀ i, i < 26 → p.pip i = q.pip i) : p = q := by
  apply Pos.ext ht _ hx ho
  funext i
  have := h i.val i.isLt
  simpa [pip, i.isLt] using this

theorem pip_flip (p : Pos N) {i : Nat} (h : i < 26) : p.flip.pip i = - p.pip (25 - i) := by
  unfold flip pip
  have : 25 - i < 26 := by omega
  simp [h, this]

/-- Cells after a single-checker move. -/
theorem pip_mv (p : Pos N) {f d : Nat} (hf : f ≤ 25) (hd : 1 ≤ d) (j : Nat) :
    (p.mv f d).pip j =
      if d < f then
        if j = f then p.pip f - 1
        else if j = f - d then (if p.pip (f - d) = -1 then 1 else p.pip (f - d) + 1)
        else if j = 0 ∧ p.pip (f - d) = -1 then p.pip 0 - 1
        else p.pip j
      else if j = f then p.pip f - 1 else p.pip j := by
  unfold mv
  have h1 : f < 26 := by omega
  by_cases hfd : d < f
  · have h2 : f - d < 26 := by omega
    have h3 : f - d ≠ f := by omega
    have h4 : f - d ≠ 0 := by omega
    have h5 : ¬ (f = f - d) := by omega
    have h6 : ¬ (0 = f) := by omega
    have h7 : ¬ (0 = f - d) := by omega
    simp only [hfd, if_true, pip_set p h1, if_neg h3]
    by_cases hh : p.pip (f - d) = -1
    · simp only [hh, if_true, and_true]
      rw [pip_set _ (by decide : O_BAR < 26), pip_set _ h2, pip_set _ h2, pip_set p h1, pip_set p h1]
      grind
    · simp only [hh, if_false, and_false]
      rw [pip_set _ h2, pip_set p h1]
      grind
  · simp only [hfd, if_false, pip_xOff]
    rw [pip_set p h1]

theorem xOff_mv (p : Pos N) (f d : Nat) :
    (p.mv f d).xOff = if d < f then p.xOff else p.xOff + 1 := by
  unfold mv; simp only [gt_iff_lt]; split_ifs <;> simp

@[simp] theorem oOff_mv (p : Pos N) (f d : Nat) : (p.mv f d).oOff = p.oOff := by
  unfold mv; simp only; split_ifs <;> simp

@[simp] theorem turn_mv (p : Pos N) (f d : Nat) : (p.mv f d).turn = p.turn := by
  unfold mv; simp only; split_ifs <;> simp

/-- Propositional form of `canMove`. -/
structure Can (p : Pos N) (f d : Nat) : Prop where
  lo : 1 ≤ f
  hi : f ≤ 25
  own : 1 ≤ p.pip f
  bar : f ≠ 25 → p.pip 25 ≤ 0
  free : d < f → -1 ≤ p.pip (f - d)
  home : f ≤ d → ∀ i, 7 ≤ i → p.pip i ≤ 0
  behind : f < d → ∀ i, f < i → p.pip i ≤ 0

theorem anyX_false {p : Pos N} {a b : Nat} : p.anyX a b = false ↔ ∀ i, a ≤ i → i < b → p.pip i ≤ 0 := by
  unfold anyX
  rw [List.any_eq_false]
  constructor
  · intro h i h1 h2
    have := h i (mem_rng.2 ⟨h1, h2⟩)
    simpa using this
  · intro h i hi
    have := h i (mem_rng.1 hi).1 (mem_rng.1 hi).2
    simpa using this

theorem anyX_true {p : Pos N} {a b : Nat} : p.anyX a b = true ↔ ∃ i, a ≤ i ∧ i < b ∧ 0 < p.pip i := by
  unfold anyX
  rw [List.any_eq_true]
  constructor
  · rintro ⟨i, hi, h⟩
    exact ⟨i, (mem_rng.1 hi).1, (mem_rng.1 hi).2, by simpa using h⟩
  · rintro ⟨i, h1, h2, h3⟩
    exact ⟨i, mem_rng.2 ⟨h1, h2⟩, by simpa using h3⟩

theorem anyO_true {p : Pos N} {a b : Nat} : p.anyO a b = true ↔ ∃ i, a ≤ i ∧ i < b ∧ p.pip i < 0 := by
  unfold anyO
  rw [List.any_eq_true]
  constructor
  · rintro ⟨i, hi, h⟩
    exact ⟨i, (mem_rng.1 hi).1, (mem_rng.1 hi).2, by simpa using h⟩
  · rintro ⟨i, h1, h2, h3⟩
    exact ⟨i, mem_rng.2 ⟨h1, h2⟩, by simpa using h3⟩

theorem canMove_iff (p : Pos N) (_hb : p.BarsOK) {f d : Nat} (h1 : 1 ≤ f) (h2 : f ≤ 25)
    (hd6 : d ≤ 6) : p.canMove f d = true ↔ p.Can f d := by
  unfold canMove canMoveInternally
  have hbq : ((f == X_BAR) == decide (p.pip X_BAR > 0)) = true ↔ (f = 25 ↔ 0 < p.pip 25) := by
    rw [beq_iff_eq, Bool.eq_iff_iff, beq_iff_eq, decide_eq_true_iff]
  by_cases hx : ((f == X_BAR) == decide (p.pip X_BAR > 0)) = true
  · rw [if_pos hx]
    have hx' : f = 25 ↔ 0 < p.pip 25 := hbq.1 hx
    by_cases ho : p.pip f < 1
    · simp only [ho, if_true]
      constructor
      · intro h; cases h
      · intro h; have := h.own; omega
    · simp only [ho, if_false]
      by_cases hfd : f > d
      · simp only [hfd, if_true, decide_eq_true_eq]
        constructor
        · intro h
          exact ⟨h1, h2, by omega, by intro; omega, by intro; omega, by intro; omega, by intro; omega⟩
        · intro h; have := h.free hfd; omega
      · simp only [hfd, if_false]
        by_cases he : f = d
        · simp only [he, if_true, Bool.not_eq_true', anyX_false]
          have h25 : p.pip 25 ≤ 0 := by omega
          constructor
          · intro h
            refine ⟨by omega, by omega, by subst he; omega, by intro; omega, by intro; omega, ?_, by intro; omega⟩
            intro _ i hi
            by_cases hi2 : i < 25
            · exact h i hi hi2
            · by_cases hi3 : i = 25
              · rw [hi3]; omega
              · rw [pip_ge (by omega)]
          · intro h i hi hi2
            exact h.home (le_refl d) i hi
        · simp only [he, if_false, Bool.not_eq_true', anyX_false]
          have h25 : p.pip 25 ≤ 0 := by omega
          constructor
          · intro h
            have key : ∀ i, f < i → p.pip i ≤ 0 := by
              intro i hi
              by_cases hi2 : i < 25
              · exact h i (by omega) hi2
              · by_cases hi3 : i = 25
                · rw [hi3]; omega
                · rw [pip_ge (by omega)]
            exact ⟨h1, h2, by omega, by intro; omega, by intro; omega,
              fun _ i hi => key i (by omega), fun _ => key⟩
          · intro h i hi hi2
            exact h.behind (by omega) i (by omega)
  · rw [if_neg hx]
    constructor
    · intro h; cases h
    · intro h
      exfalso; apply hx
      have : f = 25 ↔ 0 < p.pip 25 := by
        constructor
        · intro e; have := h.own; rw [e] at this; omega
        · intro e; by_contra hne; have := h.bar hne; omega
      exact hbq.2 this

/-- Cells only get smaller for `x` above the landing point. -/
theorem pip_mv_le {p : Pos N} {f d j : Nat} (hf : f ≤ 25) (hd : 1 ≤ d) (hj : d < f → j ≠ f - d) :
    (p.mv f d).pip j ≤ p.pip j := by
  rw [pip_mv p hf hd]; grind

/-- Two moves can be swapped when the second one starts at or behind the first one. -/
theorem swap {p : Pos N} {a b d1 d2 : Nat} (hd1 : 1 ≤ d1) (hd2 : 1 ≤ d2) (hd2' : d2 ≤ 6)
    (ha : p.Can a d1) (hb : (p.mv a d1).Can b d2) (hab : a ≤ b) :
    p.Can b d2 ∧ (p.mv b d2).Can a d1 ∧ (p.mv a d1).mv b d2 = (p.mv b d2).mv a d1 := by
  obtain ⟨a1, a2, a3, a4, a5, a6, a7⟩ := ha
  obtain ⟨b1, b2, b3, b4, b5, b6, b7⟩ := hb
  have hA := pip_mv p a2 hd1
  have hB := pip_mv p b2 hd2
  have pb : 1 ≤ p.pip b ∧ (a = b → 2 ≤ p.pip b) := by
    rw [hA] at b3; clear hA hB b4 b5 b6 b7 a6 a7
    split_ifs at b3 with h1 h2 h3 h4 h5 h6 <;> first | omega | (subst h2; omega) | (subst h6; omega)
  have pbar : b ≠ 25 → p.pip 25 ≤ 0 := fun h => a4 (by omega)
  have pfree : d2 < b → -1 ≤ p.pip (b - d2) := by
    intro h
    have := b5 h
    rw [hA] at this
    clear hA hB b4 b5 b6 b7 a6 a7
    split_ifs at this <;> grind
  have home1 : b ≤ d2 → ∀ i, 7 ≤ i → p.pip i ≤ 0 := by
    intro h i hi
    by_cases hia : i = a ∨ (d1 < a ∧ i = a - d1)
    · omega
    · have := b6 h i hi
      rw [hA] at this
      grind
  have beh1 : b < d2 → ∀ i, b < i → p.pip i ≤ 0 := by
    intro h i hi
    have := b7 h i hi
    rw [hA] at this
    grind
  refine ⟨⟨b1, b2, pb.1, pbar, pfree, home1, beh1⟩, ⟨a1, a2, ?_, ?_, ?_, ?_, ?_⟩, ?_⟩
  · rw [hB]; grind
  · intro h; rw [hB]; grind
  · intro h; rw [hB]; have := a5 h; clear b3 b4 b5 b6 b7 hA hB a6 a7 home1 beh1; split_ifs <;> grind
  · intro h i hi
    have h1 := a6 h i hi
    rw [hB]
    have h2 := a6 h b
    grind
  · intro h i hi
    have h1 := a7 h i hi
    have h2 := a7 h b
    rw [hB]; grind
  · apply ext_pip
    · simp
    · simp only [xOff_mv]; split_ifs <;> omega
    · simp
    · intro j hj
      rw [pip_mv (p.mv a d1) b2 hd2, pip_mv (p.mv b d2) a2 hd1]
      have e1 := hA b
      have e2 := hA (b - d2)
      have e3 := hA 0
      have e4 := hA j
      have f1 := hB a
      have f2 := hB (a - d1)
      have f3 := hB 0
      have f4 := hB j
      clear hA hB b3 b4 b5 b6 b7 home1 beh1 a6 a7 a4
      generalize (p.mv a d1).pip b = v1 at *
      generalize (p.mv a d1).pip (b - d2) = v2 at *
      generalize (p.mv a d1).pip 0 = v3 at *
      generalize (p.mv a d1).pip j = v4 at *
      generalize (p.mv b d2).pip a = w1 at *
      generalize (p.mv b d2).pip (a - d1) = w2 at *
      generalize (p.mv b d2).pip 0 = w3 at *
      generalize (p.mv b d2).pip j = w4 at *
      generalize p.pip = g at *
      by_cases h1 : d1 < a <;> by_cases h2 : d2 < b <;>
        simp only [if_pos, if_neg, h1, h2, not_false_eq_true] at e1 e2 e3 e4 f1 f2 f3 f4 a5 pfree ⊢ <;> grind (splits := 40)

end Pos
end Bkgm
