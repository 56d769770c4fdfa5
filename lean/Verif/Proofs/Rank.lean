import Verif.Spec.Rank
import Verif.Props.DbHash
import Mathlib.Data.Nat.Choose.Sum
/-!
# Counting placements (lemmas for C96)
-/

namespace Bkgm.Rank
open Finset

/-- The lists of length `k` with sum `n`. -/
def lists : Nat → Nat → Finset (List Nat)
  | 0, n => if n = 0 then {[]} else ∅
  | k + 1, n => (range (n + 1)).biUnion fun b => (lists k (n - b)).map ⟨List.cons b, List.cons_injective⟩

theorem mem_lists : ∀ {k n : Nat} {w : List Nat}, w ∈ lists k n ↔ w.length = k ∧ w.sum = n
  | 0, n, w => by
    unfold lists
    split_ifs with h
    · subst h
      constructor
      · intro h; rw [mem_singleton] at h; subst h; simp
      · rintro ⟨h, -⟩; rw [mem_singleton]; exact List.length_eq_zero_iff.1 h
    · constructor
      · intro h; simp at h
      · rintro ⟨h1, h2⟩
        rw [List.length_eq_zero_iff] at h1
        subst h1
        exact absurd h2.symm h
  | k + 1, n, w => by
    unfold lists
    simp only [mem_biUnion, mem_range, mem_map, Function.Embedding.coeFn_mk]
    constructor
    · rintro ⟨b, hb, w', hw, rfl⟩
      obtain ⟨h1, h2⟩ := mem_lists.1 hw
      simp only [List.length_cons, List.sum_cons]
      omega
    · rintro ⟨h1, h2⟩
      cases w with
      | nil => simp at h1
      | cons b w' =>
        simp only [List.length_cons, List.sum_cons] at h1 h2
        exact ⟨b, by omega, w', mem_lists.2 ⟨by omega, by omega⟩, rfl⟩

theorem disj (k n : Nat) (s : Nat → Finset (List Nat)) :
    ((range (n + 1) : Finset Nat) : Set Nat).PairwiseDisjoint fun b => (s b).map ⟨List.cons b, List.cons_injective⟩ := by
  intro a _ b _ hab
  rw [Function.onFun, disjoint_left]
  intro w h1 h2
  simp only [mem_map, Function.Embedding.coeFn_mk] at h1 h2
  obtain ⟨x, -, rfl⟩ := h1
  obtain ⟨y, -, h⟩ := h2
  exact hab (List.cons.inj h).1.symm

theorem card_lists : ∀ (k n : Nat), (lists (k + 1) n).card = (n + k).choose k
  | 0, n => by
    have : lists 1 n = {[n]} := by
      ext w
      rw [mem_lists, mem_singleton]
      constructor
      · rintro ⟨h1, h2⟩
        obtain ⟨a, rfl⟩ := List.length_eq_one_iff.1 h1
        simpa using h2
      · rintro rfl; simp
    rw [this]
    simp
  | k + 1, n => by
    rw [lists, card_biUnion (disj k n _)]
    simp only [card_map, card_lists k]
    rw [← Finset.sum_range_reflect]
    have : ∀ j ∈ range (n + 1), (n - (n + 1 - 1 - j) + k).choose k = (j + k).choose k := by
      intro j hj
      have := mem_range.1 hj
      congr 1; omega
    rw [sum_congr rfl this, Nat.sum_range_add_choose]
    congr 1

/-- The number of lists before `v`. -/
def before : List Nat → Nat
  | [] => 0
  | _ :: v => (if v = [] then 0 else (v.length - 1 + v.sum).choose v.length) + before v

theorem card_before : ∀ (v : List Nat), ((lists v.length v.sum).filter (v < ·)).card = before v
  | [] => rfl
  | a :: v => by
    have hsplit : (lists (v.length + 1) (a + v.sum)).filter (a :: v < ·) =
        (range (a + v.sum + 1)).biUnion fun b => (if b < a then ∅ else if b = a then (lists v.length v.sum).filter (v < ·) else
          lists v.length (a + v.sum - b)).map ⟨List.cons b, List.cons_injective⟩ := by
      ext w
      rw [mem_filter, mem_lists]
      simp only [mem_biUnion, mem_range, mem_map, Function.Embedding.coeFn_mk]
      constructor
      · rintro ⟨⟨h1, h2⟩, h3⟩
        cases w with
        | nil => simp at h1
        | cons b w =>
          simp only [List.length_cons, List.sum_cons] at h1 h2
          rw [List.cons_lt_cons_iff] at h3
          refine ⟨b, by omega, w, ?_, rfl⟩
          rcases h3 with h3 | ⟨rfl, h3⟩
          · rw [if_neg (by omega), if_neg (by omega), mem_lists]; omega
          · rw [if_neg (by omega), if_pos rfl, mem_filter, mem_lists]; exact ⟨by omega, h3⟩
      · rintro ⟨b, hb, w', hw, rfl⟩
        rw [List.cons_lt_cons_iff]
        simp only [List.length_cons, List.sum_cons]
        split_ifs at hw with h1 h2
        · simp at hw
        · subst h2
          rw [mem_filter, mem_lists] at hw
          exact ⟨by omega, .inr ⟨rfl, hw.2⟩⟩
        · rw [mem_lists] at hw
          exact ⟨by omega, .inl (by omega)⟩
    rw [List.length_cons, List.sum_cons, hsplit, card_biUnion (disj v.length _ _)]
    simp only [card_map]
    rw [show a + v.sum + 1 = a + (v.sum + 1) by omega, Finset.sum_range_add, Finset.sum_range_succ']
    have z : ∑ b ∈ range a, (if b < a then (∅ : Finset (List Nat)) else if b = a then (lists v.length v.sum).filter (v < ·) else
        lists v.length (a + v.sum - b)).card = 0 := by
      refine Finset.sum_eq_zero fun b hb => ?_
      rw [if_pos (mem_range.1 hb)]
      rfl
    rw [z, Nat.zero_add, Nat.add_zero, if_neg (Nat.lt_irrefl a), if_pos rfl, card_before v, before]
    congr 1
    have e : ∀ j ∈ range v.sum, (if a + (j + 1) < a then (∅ : Finset (List Nat)) else if a + (j + 1) = a then (lists v.length v.sum).filter (v < ·) else
        lists v.length (a + v.sum - (a + (j + 1)))).card = (lists v.length (v.sum - 1 - j)).card := by
      intro j _
      rw [if_neg (by omega), if_neg (by omega)]
      congr 2
      omega
    rw [sum_congr rfl e, Finset.sum_range_reflect (fun j => (lists v.length j).card)]
    split_ifs with hv
    · subst hv; rfl
    · obtain ⟨k, hk⟩ : ∃ k, v.length = k + 1 := ⟨v.length - 1, by have := List.length_pos_iff.2 hv; omega⟩
      rw [hk]
      simp only [card_lists]
      cases hs : v.sum with
      | zero => simp
      | succ s =>
        rw [Nat.sum_range_add_choose]
        congr 1
        omega

theorem placements_eq (N : Nat) : Spec.placements N = (lists 26 N : Set (List Nat)) := by
  ext w
  rw [Finset.mem_coe, mem_lists]
  rfl

theorem ncard_placements (N : Nat) : (Spec.placements N).ncard = (N + 25).choose 25 := by
  rw [placements_eq, Set.ncard_coe_finset, card_lists]

theorem rank_eq {N : Nat} {v : List Nat} (h1 : v.length = 26) (h2 : v.sum = N) : Spec.rank N v = before v := by
  unfold Spec.rank
  rw [← card_before, h1, h2, ← Set.ncard_coe_finset]
  congr 1
  ext w
  rw [placements_eq]
  simp

/-- The sum of the last `k` cells. -/
theorem before_tail (r : Nat → Nat) (g : Nat → Nat) (hr : ∀ i ≤ 24, r i = ∑ j ∈ Finset.Ico i 25, g j) : ∀ k ≤ 25, ∀ a,
    before (a :: (List.range' (25 - k) k).map g) = tailSum r k ∧ ((List.range' (25 - k) k).map g).sum = ∑ j ∈ Finset.Ico (25 - k) 25, g j
  | 0, _, a => by simp [before, tailSum]
  | k + 1, h, a => by
    obtain ⟨i1, i2⟩ := before_tail r g hr k (by omega) (g (25 - (k + 1)))
    have e : (List.range' (25 - (k + 1)) (k + 1)).map g = g (25 - (k + 1)) :: (List.range' (25 - k) k).map g := by
      rw [List.range'_succ, List.map_cons, show 25 - (k + 1) + 1 = 25 - k by omega]
    have hs : ((List.range' (25 - (k + 1)) (k + 1)).map g).sum = ∑ j ∈ Finset.Ico (25 - (k + 1)) 25, g j := by
      rw [e, List.sum_cons, i2, Finset.sum_eq_sum_Ico_succ_bot (show 25 - (k + 1) < 25 by omega), show 25 - (k + 1) + 1 = 25 - k by omega]
    refine ⟨?_, hs⟩
    rw [before, if_neg (by rw [e]; exact List.cons_ne_nil _ _), hs]
    conv_lhs => rw [e, i1]
    rw [tailSum, hr (24 - k) (by omega), show 24 - k = 25 - (k + 1) by omega]
    congr 2
    · simp only [List.length_cons, List.length_map, List.length_range', Nat.add_sub_cancel]
    · simp only [List.length_cons, List.length_map, List.length_range']

/-- The index computed for one side is the number of placements before it. -/
theorem sideIndex_before (off T : Nat) (f g : Nat → Nat) (hg : ∀ j < 24, g j = f (j + 1)) (hT : T = ∑ j ∈ Finset.range 25, g j) :
    sideIndex T f = before (off :: (List.range' 0 25).map g) := by
  have hr : ∀ i ≤ 24, remAt T f i = ∑ j ∈ Finset.Ico i 25, g j := by
    intro i hi
    have h1 : ∑ j ∈ Finset.range i, f (j + 1) = ∑ j ∈ Finset.range i, g j :=
      Finset.sum_congr rfl fun j hj => (hg j (by have := Finset.mem_range.1 hj; omega)).symm
    have h2 := Finset.sum_range_add_sum_Ico g (show i ≤ 25 by omega)
    unfold remAt
    omega
  rw [(before_tail (remAt T f) g hr 25 (le_refl _) off).1, sideIndex, head_eq_tail]

end Bkgm.Rank
