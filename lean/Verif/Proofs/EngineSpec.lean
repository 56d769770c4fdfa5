import Verif.Model.EngineSpec
import Verif.Proofs.Str
import Mathlib.Data.List.Basic
/-!
# Proofs about the option map of engine specs
-/

namespace Bkgm.EngineSpec

theorem strLt_irrefl : ∀ s : Str, strLt s s = false
  | [] => rfl
  | a :: s => by simp [strLt, strLt_irrefl s]

theorem strLt_trans : ∀ {s t u : Str}, strLt s t = true → strLt t u = true → strLt s u = true
  | _, [], _, h, _ => by simp [strLt] at h
  | _, _ :: _, [], _, h => by simp [strLt] at h
  | [], _ :: _, _ :: _, _, _ => rfl
  | a :: s, b :: t, c :: u, h1, h2 => by
    unfold strLt at h1 h2 ⊢
    split_ifs at h1 h2 ⊢ <;> first | rfl | omega | exact strLt_trans h1 h2

theorem strLt_connected : ∀ {s t : Str}, strLt s t = false → strLt t s = false → s = t
  | [], [], _, _ => rfl
  | [], _ :: _, h, _ => by simp [strLt] at h
  | _ :: _, [], _, h => by simp [strLt] at h
  | a :: s, b :: t, h1, h2 => by
    unfold strLt at h1 h2
    split_ifs at h1 h2
    have e : a = b := by
      apply Char.ext
      apply UInt32.toNat_inj.1
      have : a.toNat = b.toNat := by omega
      exact this
    rw [e, strLt_connected h1 h2]

theorem strLt_ne {s t : Str} (h : strLt s t = true) : s ≠ t := fun e => by
  rw [e, strLt_irrefl] at h; cases h

/-- The keys are strictly increasing. -/
def Sorted (m : Options) : Prop := m.Pairwise fun a b => strLt a.1 b.1 = true

theorem mem_insert_sub {k v : Str} {m : Options} {e : Str × Str} (h : e ∈ insert k v m) : e = (k, v) ∨ e ∈ m := by
  induction m with
  | nil => simpa [insert] using h
  | cons a m ih =>
    obtain ⟨k', v'⟩ := a
    unfold insert at h
    split_ifs at h
    · simpa using h
    · rcases List.mem_cons.1 h with h | h
      · simp [h]
      · rcases ih h with h | h <;> simp [h]
    · rcases List.mem_cons.1 h with h | h <;> simp [h]

theorem insert_sorted {k v : Str} {m : Options} (hm : Sorted m) : Sorted (insert k v m) := by
  induction m with
  | nil => simp [insert, Sorted]
  | cons a m ih =>
    obtain ⟨k', v'⟩ := a
    obtain ⟨h1, h2⟩ := List.pairwise_cons.1 hm
    unfold insert
    split_ifs with c1 c2
    · refine List.pairwise_cons.2 ⟨fun b hb => ?_, hm⟩
      rcases List.mem_cons.1 hb with rfl | hb
      · exact c1
      · exact strLt_trans c1 (h1 b hb)
    · refine List.pairwise_cons.2 ⟨fun b hb => ?_, ih h2⟩
      rcases mem_insert_sub hb with rfl | hb
      · exact c2
      · exact h1 b hb
    · have e := strLt_connected (by simpa using c1) (by simpa using c2)
      refine List.pairwise_cons.2 ⟨fun b hb => ?_, h2⟩
      rw [e]; exact h1 b hb

theorem get_insert {k v : Str} {m : Options} (k' : Str) :
    get k' (insert k v m) = if k' = k then some v else get k' m := by
  induction m with
  | nil => simp [insert, get]
  | cons a m ih =>
    obtain ⟨q, w⟩ := a
    unfold insert
    by_cases c1 : strLt k q = true
    · rw [if_pos c1, get]
    · rw [if_neg c1]
      by_cases c2 : strLt q k = true
      · rw [if_pos c2, get, ih, get]
        by_cases c3 : k' = k
        · have c4 : ¬ k' = q := by rw [c3]; exact Ne.symm (strLt_ne c2)
          simp [c3, show ¬ k = q from c3 ▸ c4]
        · rw [if_neg c3, if_neg c3]
      · rw [if_neg c2]
        have e := strLt_connected (by simpa using c1) (by simpa using c2)
        rw [get, get, ← e]
        by_cases c3 : k' = k
        · rw [if_pos c3, if_pos c3]
        · rw [if_neg c3, if_neg c3, if_neg c3]

theorem get_mem {k v : Str} {m : Options} (h : get k m = some v) : (k, v) ∈ m := by
  induction m with
  | nil => cases h
  | cons a m ih =>
    obtain ⟨q, w⟩ := a
    unfold get at h
    split_ifs at h with c
    · injection h with h; simp [c, h]
    · simp [ih h]

theorem get_of_mem {k v : Str} {m : Options} (hm : Sorted m) (h : (k, v) ∈ m) : get k m = some v := by
  induction m with
  | nil => cases h
  | cons a m ih =>
    obtain ⟨q, w⟩ := a
    obtain ⟨h1, h2⟩ := List.pairwise_cons.1 hm
    unfold get
    rcases List.mem_cons.1 h with h | h
    · injection h with e1 e2; rw [if_pos e1, e2]
    · rw [if_neg (strLt_ne (h1 _ h)).symm, ih h2 h]

/-- A map is determined by its lookups. -/
theorem sorted_ext {m m' : Options} (hm : Sorted m) (hm' : Sorted m') (h : ∀ k, get k m = get k m') : m = m' := by
  induction m generalizing m' with
  | nil =>
    cases m' with
    | nil => rfl
    | cons b m' =>
      have := h b.1
      simp [get] at this
  | cons a m ih =>
    cases m' with
    | nil =>
      have := h a.1
      simp [get] at this
    | cons b m' =>
      obtain ⟨ka, va⟩ := a
      obtain ⟨kb, vb⟩ := b
      obtain ⟨h1, h2⟩ := List.pairwise_cons.1 hm
      obtain ⟨h1', h2'⟩ := List.pairwise_cons.1 hm'
      have hk : ka = kb := by
        by_contra hne
        have ea := h ka
        have eb := h kb
        simp only [get, if_true, if_neg hne, if_neg (Ne.symm hne)] at ea eb
        have l1 := h1' _ (get_mem ea.symm)
        have l2 := h1 _ (get_mem eb)
        have := strLt_trans l1 l2
        rw [strLt_irrefl] at this; cases this
      subst hk
      have hv : va = vb := by simpa [get] using h ka
      subst hv
      congr 1
      refine ih h2 h2' fun k => ?_
      by_cases hk : k = ka
      · subst hk
        have n1 : get k m = none := by
          cases hg : get k m with
          | none => rfl
          | some v => exact absurd rfl (strLt_ne (h1 (k, v) (get_mem hg)))
        have n2 : get k m' = none := by
          cases hg : get k m' with
          | none => rfl
          | some v => exact absurd rfl (strLt_ne (h1' (k, v) (get_mem hg)))
        rw [n1, n2]
      · have := h k
        simpa [get, hk] using this

/-- The value of the last entry with key `k`. -/
def lastValue (k : Str) (l : List (Str × Str)) : Option Str := (l.reverse.find? fun e => e.1 == k).map (·.2)

theorem lastValue_append (k : Str) (l l' : List (Str × Str)) :
    lastValue k (l ++ l') = (lastValue k l').or (lastValue k l) := by
  unfold lastValue
  rw [List.reverse_append, List.find?_append]
  cases l'.reverse.find? fun e => e.1 == k <;> rfl

theorem get_foldl (k : Str) : ∀ (l : List (Str × Str)) (m : Options),
    get k (l.foldl (fun m e => insert e.1 e.2 m) m) = (lastValue k l).or (get k m)
  | [], m => rfl
  | e :: l, m => by
    rw [List.foldl_cons, get_foldl k l, get_insert, show e :: l = [e] ++ l from rfl, lastValue_append]
    have : lastValue k [e] = if k = e.1 then some e.2 else none := by
      unfold lastValue
      by_cases h : e.1 = k
      · simp [h]
      · simp [List.find?, h, Ne.symm h]
    rw [this]
    cases lastValue k l <;> split_ifs <;> rfl

theorem foldl_sorted : ∀ (l : List (Str × Str)) (m : Options), Sorted m → Sorted (l.foldl (fun m e => insert e.1 e.2 m) m)
  | [], _, h => h
  | _ :: l, _, h => foldl_sorted l _ (insert_sorted h)

end Bkgm.EngineSpec
