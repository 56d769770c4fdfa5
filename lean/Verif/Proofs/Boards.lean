import Verif.Spec.Valid
import Verif.Proofs.Bridge
import Mathlib.Algebra.BigOperators.Ring.Finset
/-!
Helper lemmas about the rules themselves: what single moves and plays preserve.
-/

namespace Spec

theorem sum_upd (f : Nat → Nat) (w : Nat → Nat) {i : Nat} (hi : i < 26) (v : Nat) :
    (∑ j ∈ Finset.range 26, w j * upd f i v j) + w i * f i = (∑ j ∈ Finset.range 26, w j * f j) + w i * v := by
  have hm : i ∈ Finset.range 26 := Finset.mem_range.2 hi
  rw [← Finset.add_sum_erase _ _ hm, ← Finset.add_sum_erase (Finset.range 26) (fun j => w j * f j) hm]
  have : ∑ j ∈ (Finset.range 26).erase i, w j * upd f i v j = ∑ j ∈ (Finset.range 26).erase i, w j * f j := by
    apply Finset.sum_congr rfl
    intro j hj
    rw [upd, if_neg (Finset.ne_of_mem_erase hj)]
  rw [this]
  simp only [upd, if_true]
  omega

/-- Weighted counts of `x` after a move. -/
theorem wsum_after {b : Board} {f d : Nat} (w : Nat → Nat) (hd : 1 ≤ d) (hc : CanStep b f d) :
    (∑ j ∈ Finset.range 26, w j * (after b f d).x j) + w f =
      (∑ j ∈ Finset.range 26, w j * b.x j) + (if f ≤ d then 0 else w (f - d)) := by
  obtain ⟨⟨h1, h2⟩, h3, -, -, -, -⟩ := hc
  have s1 := sum_upd b.x w (show f < 26 by omega) (b.x f - 1)
  have e : w f * b.x f = w f * (b.x f - 1) + w f := by
    conv_lhs => rw [show b.x f = b.x f - 1 + 1 by omega, Nat.mul_succ]
  unfold after
  by_cases hfd : f ≤ d
  · rw [if_pos hfd, if_pos hfd]
    simp only
    omega
  · rw [if_neg hfd, if_neg hfd]
    have hx : (if b.o (f - d) = 1 then
          { b with x := upd (upd b.x f (b.x f - 1)) (f - d) (b.x (f - d) + 1), o := upd (upd b.o (f - d) 0) 0 (b.o 0 + 1) }
        else { b with x := upd (upd b.x f (b.x f - 1)) (f - d) (b.x (f - d) + 1) } : Board).x
        = upd (upd b.x f (b.x f - 1)) (f - d) (b.x (f - d) + 1) := by
      split_ifs <;> rfl
    simp only [hx]
    have s2 := sum_upd (upd b.x f (b.x f - 1)) w (show f - d < 26 by omega) (b.x (f - d) + 1)
    have e2 : upd b.x f (b.x f - 1) (f - d) = b.x (f - d) := by rw [upd, if_neg (by omega)]
    rw [e2, Nat.mul_succ] at s2
    omega

/-- Weighted counts of `o` after a move. -/
theorem wsum_after_o {b : Board} {f d : Nat} (w : Nat → Nat) (hc : CanStep b f d) :
    (∑ j ∈ Finset.range 26, w j * (after b f d).o j) + (if d < f ∧ b.o (f - d) = 1 then w (f - d) else 0) =
      (∑ j ∈ Finset.range 26, w j * b.o j) + (if d < f ∧ b.o (f - d) = 1 then w 0 else 0) := by
  obtain ⟨⟨h1, h2⟩, h3, -, -, -, -⟩ := hc
  unfold after
  by_cases hfd : f ≤ d
  · rw [if_pos hfd]
    have : ¬ (d < f ∧ b.o (f - d) = 1) := by omega
    simp only [this, if_false]
  · rw [if_neg hfd]
    by_cases ho : b.o (f - d) = 1
    · have : d < f ∧ b.o (f - d) = 1 := ⟨by omega, ho⟩
      simp only [ho, if_true, this, and_self]
      have s1 := sum_upd b.o w (show f - d < 26 by omega) 0
      have s2 := sum_upd (upd b.o (f - d) 0) w (show 0 < 26 by omega) (b.o 0 + 1)
      have e2 : upd b.o (f - d) 0 0 = b.o 0 := by rw [upd, if_neg (by omega)]
      rw [e2, Nat.mul_succ] at s2
      rw [ho] at s1
      omega
    · have : ¬ (d < f ∧ b.o (f - d) = 1) := fun h => ho h.2
      simp only [ho, if_false, and_false]

theorem after_xOff (b : Board) (f d : Nat) : (after b f d).xOff = if f ≤ d then b.xOff + 1 else b.xOff := by
  unfold after; simp only; split_ifs <;> rfl

theorem after_oOff (b : Board) (f d : Nat) : (after b f d).oOff = b.oOff := by
  unfold after; simp only; split_ifs <;> rfl

theorem after_o (b : Board) (f d j : Nat) : (after b f d).o j =
    if d < f ∧ b.o (f - d) = 1 then (if j = 0 then b.o 0 + 1 else if j = f - d then 0 else b.o j) else b.o j := by
  unfold after
  by_cases hfd : f ≤ d
  · have : ¬ (d < f ∧ b.o (f - d) = 1) := by omega
    rw [if_pos hfd, if_neg this]
  · by_cases ho : b.o (f - d) = 1
    · have : d < f ∧ b.o (f - d) = 1 := ⟨by omega, ho⟩
      simp only [hfd, ho, if_false, if_true, this, and_self, upd]
    · have : ¬ (d < f ∧ b.o (f - d) = 1) := fun h => ho h.2
      simp only [hfd, ho, if_false, and_false]

theorem after_x {b : Board} {f d : Nat} (hd : 1 ≤ d) (j : Nat) : (after b f d).x j =
    if j = f then b.x f - 1 else if d < f ∧ j = f - d then b.x (f - d) + 1 else b.x j := by
  unfold after
  by_cases hfd : f ≤ d
  · have : ¬ (d < f ∧ j = f - d) := by omega
    simp only [hfd, if_true, upd, this, if_false]
  · have hx : (if b.o (f - d) = 1 then
          { b with x := upd (upd b.x f (b.x f - 1)) (f - d) (b.x (f - d) + 1), o := upd (upd b.o (f - d) 0) 0 (b.o 0 + 1) }
        else { b with x := upd (upd b.x f (b.x f - 1)) (f - d) (b.x (f - d) + 1) } : Board).x
        = upd (upd b.x f (b.x f - 1)) (f - d) (b.x (f - d) + 1) := by
      split_ifs <;> rfl
    simp only [hfd, if_false, hx, upd]
    have : d < f := by omega
    simp only [this, true_and]
    split_ifs <;> omega

theorem countX_eq (b : Board) : b.countX = ∑ j ∈ Finset.range 26, 1 * b.x j := by simp [Board.countX]
theorem countO_eq (b : Board) : b.countO = ∑ j ∈ Finset.range 26, 1 * b.o j := by simp [Board.countO]

/-- A move keeps a valid board valid. -/
theorem Valid.after {N : Nat} {b : Board} (hv : Valid N b) {f d : Nat} (hd : 1 ≤ d) (hc : CanStep b f d) :
    Valid N (after b f d) := by
  have w1 := wsum_after (fun _ => 1) hd hc
  have w2 := wsum_after_o (fun _ => 1) hc
  have c := hc.range
  have hfree := hc.unblocked
  obtain ⟨v1, v2, v3, v4, v5⟩ := hv
  refine ⟨?_, ?_, ?_, ?_, ?_⟩
  · rw [after_x hd, if_neg (by omega), if_neg (by omega)]; exact v1
  · rw [after_o]; split_ifs <;> omega
  · intro i hi
    rw [after_x hd, after_o]
    have a1 := v3 i hi
    have a2 := v3 f (by omega)
    have a3 := hc.own
    by_cases e1 : i = f
    · subst e1; right; split_ifs <;> omega
    · by_cases e2 : d < f ∧ i = f - d
      · obtain ⟨e2, rfl⟩ := e2
        right
        have := hfree e2
        split_ifs <;> omega
      · rw [if_neg e1, if_neg e2]
        by_cases e3 : i = 0
        · subst e3; left; exact v1
        · split_ifs <;> omega
  · rw [countX_eq, after_xOff]
    rw [countX_eq] at v4
    split_ifs at w1 ⊢ <;> omega
  · rw [countO_eq, after_oOff]
    rw [countO_eq] at v5
    omega

theorem Play.valid {N : Nat} {b b' : Board} {l : List Nat} (hl : ∀ d ∈ l, 1 ≤ d) (h : Play b l b')
    (hv : Valid N b) : Valid N b' := by
  induction h with
  | nil => exact hv
  | cons hc _ ih =>
    exact ih (fun d hd => hl d (List.mem_cons_of_mem _ hd)) (hv.after (hl _ (by simp)) hc)

theorem Play.oOff {b b' : Board} {l : List Nat} (h : Play b l b') : b'.oOff = b.oOff := by
  induction h with
  | nil => rfl
  | cons _ _ ih => rw [ih, after_oOff]

theorem Play.xOff {b b' : Board} {l : List Nat} (h : Play b l b') :
    b.xOff ≤ b'.xOff ∧ b'.xOff ≤ b.xOff + l.length := by
  induction h with
  | nil => simp
  | @cons b b' f d l _ _ ih =>
    have := after_xOff b f d
    rw [List.length_cons]
    split_ifs at this <;> omega

/-- `o`'s points change only by hits. -/
theorem Play.o_points {b b' : Board} {l : List Nat} (h : Play b l b') (i : Nat) (hi : 1 ≤ i) :
    b'.o i = b.o i ∨ (b.o i = 1 ∧ b'.o i = 0) := by
  induction h with
  | nil => simp
  | @cons b b' f d l _ _ ih =>
    have := after_o b f d i
    rw [if_neg (show ¬ i = 0 by omega)] at this
    split_ifs at this with h1 h2
    · subst h2; rcases ih with ih | ih <;> omega
    · omega
    · omega

theorem Play.hits {b b' : Board} {l : List Nat} (hl : ∀ d ∈ l, 1 ≤ d) (h : Play b l b')
    : b'.o 0 = b.o 0 + (hitPoints b b').card := by
  induction h with
  | nil b =>
    have : hitPoints b b = ∅ := by
      unfold hitPoints; rw [Finset.filter_eq_empty_iff]; intro i _; omega
    rw [this]; simp
  | @cons b b' f d l hc hp ih =>
    have ih := ih (fun d hd => hl d (List.mem_cons_of_mem _ hd))
    have hd := hl d (by simp)
    have hr := hc.range
    rw [ih, after_o]
    by_cases hh : d < f ∧ b.o (f - d) = 1
    · rw [if_pos hh, if_pos rfl]
      have hf : f - d ∈ hitPoints b b' := by
        unfold hitPoints
        rw [Finset.mem_filter, Finset.mem_Icc]
        refine ⟨⟨by omega, by omega⟩, hh.2, ?_⟩
        have := hp.o_points (f - d) (by omega)
        rw [after_o, if_pos hh, if_neg (by omega), if_pos rfl] at this
        omega
      have he : hitPoints (Spec.after b f d) b' = (hitPoints b b').erase (f - d) := by
        ext i
        unfold hitPoints
        simp only [Finset.mem_erase, Finset.mem_filter, Finset.mem_Icc, after_o, if_pos hh]
        constructor
        · rintro ⟨h1, h2, h3⟩
          rw [if_neg (by omega)] at h2
          split_ifs at h2 with h4
          exact ⟨h4, h1, h2, h3⟩
        · rintro ⟨h1, h2, h3, h4⟩
          refine ⟨h2, ?_, h4⟩
          rw [if_neg (by omega), if_neg h1]; exact h3
      rw [he, Finset.card_erase_of_mem hf]
      have := Finset.card_pos.2 ⟨_, hf⟩
      omega
    · rw [if_neg hh]
      have he : hitPoints (Spec.after b f d) b' = hitPoints b b' := by
        unfold hitPoints
        simp only [after_o, if_neg hh]
      rw [he]

theorem Play.pipsO {b b' : Board} {l : List Nat} (hl : ∀ d ∈ l, 1 ≤ d) (h : Play b l b') :
    b'.pipsO = b.pipsO + ∑ i ∈ hitPoints b b', i := by
  induction h with
  | nil b =>
    have : hitPoints b b = ∅ := by
      unfold hitPoints; rw [Finset.filter_eq_empty_iff]; intro i _; omega
    rw [this]; simp
  | @cons b b' f d l hc hp ih =>
    have ih := ih (fun d hd => hl d (List.mem_cons_of_mem _ hd))
    have hd := hl d (by simp)
    have hr := hc.range
    rw [ih]
    have hw := wsum_after_o (fun i => 25 - i) hc
    have p1 : b.pipsO = ∑ j ∈ Finset.range 26, (25 - j) * b.o j := rfl
    have p2 : (Spec.after b f d).pipsO = ∑ j ∈ Finset.range 26, (25 - j) * (Spec.after b f d).o j := rfl
    try simp only at hw
    rw [← p1, ← p2] at hw
    clear p1 p2
    by_cases hh : d < f ∧ b.o (f - d) = 1
    · simp only [if_pos hh] at hw
      have hf : f - d ∈ hitPoints b b' := by
        unfold hitPoints
        rw [Finset.mem_filter, Finset.mem_Icc]
        refine ⟨⟨by omega, by omega⟩, hh.2, ?_⟩
        have := hp.o_points (f - d) (by omega)
        rw [after_o, if_pos hh, if_neg (by omega), if_pos rfl] at this
        omega
      have he : hitPoints (Spec.after b f d) b' = (hitPoints b b').erase (f - d) := by
        ext i
        unfold hitPoints
        simp only [Finset.mem_erase, Finset.mem_filter, Finset.mem_Icc, after_o, if_pos hh]
        constructor
        · rintro ⟨h1, h2, h3⟩
          rw [if_neg (by omega)] at h2
          split_ifs at h2 with h4
          exact ⟨h4, h1, h2, h3⟩
        · rintro ⟨h1, h2, h3, h4⟩
          refine ⟨h2, ?_, h4⟩
          rw [if_neg (by omega), if_neg h1]; exact h3
      rw [he, ← Finset.add_sum_erase _ _ hf]
      omega
    · simp only [if_neg hh] at hw
      have he : hitPoints (Spec.after b f d) b' = hitPoints b b' := by
        unfold hitPoints
        simp only [after_o, if_neg hh]
      rw [he]; omega

theorem Play.moves {b b' : Board} {l : List Nat} (h : Play b l b') :
    ∃ ms, ms.map Prod.snd = l ∧ Moves b ms b' := by
  induction h with
  | nil => exact ⟨[], rfl, .nil _⟩
  | @cons b b' f d l hc _ ih =>
    obtain ⟨ms, e, hm⟩ := ih
    exact ⟨(f, d) :: ms, by simp [e], .cons hc hm⟩

theorem Moves.play {b b' : Board} {ms : List (Nat × Nat)} (h : Moves b ms b') : Play b (ms.map Prod.snd) b' := by
  induction h with
  | nil => exact .nil _
  | cons hc _ ih => exact .cons hc ih

theorem Moves.pipsX {b b' : Board} {ms : List (Nat × Nat)} (hl : ∀ m ∈ ms, 1 ≤ m.2) (h : Moves b ms b') :
    b.pipsX = b'.pipsX + (ms.map fun m => min m.1 m.2).sum := by
  induction h with
  | nil => simp
  | @cons b b' f d l hc _ ih =>
    have ih := ih (fun m hm => hl m (List.mem_cons_of_mem _ hm))
    have hw := wsum_after (fun i => i) (hl (f, d) (by simp)) hc
    have p1 : b.pipsX = ∑ j ∈ Finset.range 26, j * b.x j := rfl
    have p2 : (Spec.after b f d).pipsX = ∑ j ∈ Finset.range 26, j * (Spec.after b f d).x j := rfl
    try simp only at hw
    rw [← p1, ← p2] at hw
    clear p1 p2
    have hr := hc.range
    simp only [List.map_cons, List.sum_cons]
    split_ifs at hw <;> omega

theorem mirror_mirror_x (b : Board) {i : Nat} (hi : i < 26) : b.mirror.mirror.x i = b.x i := by
  simp only [Board.mirror, hi, if_true, show 25 - i < 26 by omega, show 25 - (25 - i) = i by omega]

theorem Valid.mirror {N : Nat} {b : Board} (hv : Valid N b) : Valid N b.mirror := by
  obtain ⟨v1, v2, v3, v4, v5⟩ := hv
  have r : ∀ f : Nat → Nat, ∑ i ∈ Finset.range 26, (if i < 26 then f (25 - i) else 0) = ∑ i ∈ Finset.range 26, f i := by
    intro f
    rw [← Finset.sum_range_reflect f 26]
    apply Finset.sum_congr rfl
    intro i hi
    rw [if_pos (Finset.mem_range.1 hi)]
  refine ⟨by simpa [Board.mirror] using v2, by simpa [Board.mirror] using v1, ?_, ?_, ?_⟩
  · intro i hi
    have := v3 (25 - i) (by omega)
    simp only [Board.mirror, hi, if_true]; omega
  · simp only [Board.countX, Board.mirror, r]; exact v5
  · simp only [Board.countO, Board.mirror, r]; exact v4

end Spec

namespace Bkgm
namespace Pos
variable {N : Nat}

theorem view_flip (p : Pos N) : p.flip.view = p.view.mirror := by
  unfold view Spec.Board.mirror
  simp only [Spec.Board.mk.injEq]
  refine ⟨?_, ?_, rfl, rfl⟩
  · funext i
    by_cases hi : i < 26
    · rw [pip_flip p hi, if_pos hi]
    · rw [if_neg hi, pip_ge (by omega)]; rfl
  · funext i
    by_cases hi : i < 26
    · rw [pip_flip p hi, if_pos hi, neg_neg]
    · rw [if_neg hi, pip_ge (by omega)]; rfl

theorem Valid.flip {p : Pos N} (h : p.Valid) : p.flip.Valid := by
  unfold Valid; rw [view_flip]; exact Spec.Valid.mirror h

theorem Valid.barsOK {p : Pos N} (h : p.Valid) : p.BarsOK := by
  have h1 := h.xBar
  have h2 := h.oBar
  simp only [view] at h1 h2
  constructor <;> omega

theorem faces_pos {dice : Dice} (hv : dice.Valid) : ∀ d ∈ Spec.faces dice, 1 ≤ d := by
  cases dice with
  | mixed b s => obtain ⟨h1, h2, h3⟩ : 1 ≤ s ∧ s < b ∧ b ≤ 6 := hv
                 simp [Spec.faces]; omega
  | double d => obtain ⟨h1, h2⟩ : 1 ≤ d ∧ d ≤ 6 := hv
                simp [Spec.faces]; omega

theorem uses_pos {dice : Dice} (hv : dice.Valid) {used : List Nat} (hu : Spec.Uses (Spec.faces dice) used) :
    ∀ d ∈ used, 1 ≤ d := by
  intro d hd
  have h1 := List.count_pos_iff.2 hd
  have h2 := hu d
  exact faces_pos hv d (List.count_pos_iff.1 (by omega))

end Pos
end Bkgm
