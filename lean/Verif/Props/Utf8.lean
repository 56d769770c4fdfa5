import Verif.Model.Utf8
import Mathlib.Tactic.SplitIfs
import Mathlib.Tactic.NormNum
/-!
# UTF-8
-/
namespace Bkgm
namespace Stdin

/-! ## UTF-8 -/

/-- **C81** `from_utf8` accepts exactly the encodings of texts, and gives the text back. -/
theorem C81_utf8 (l : List UInt8) (s : Str) : fromUtf8 l = some s ↔ l = utf8 s := by
  unfold fromUtf8
  constructor
  · intro h
    obtain ⟨a, ha, rfl⟩ := Option.map_eq_some_iff.1 h
    have h2 : (l.toByteArray.utf8Decode?).isSome := by rw [ha]; rfl
    have h3 := ByteArray.utf8Encode_get_utf8Decode? (b := l.toByteArray) (h := h2)
    have h4 : l.toByteArray.utf8Decode?.get h2 = a := by simp [ha]
    rw [h4] at h3
    exact (List.toByteArray_inj.1 h3).symm
  · rintro rfl
    have : (utf8 s).toByteArray = s.utf8Encode := rfl
    rw [this, List.utf8Decode?_utf8Encode]
    simp

theorem utf8_append (s t : Str) : utf8 (s ++ t) = utf8 s ++ utf8 t := by simp [utf8]

theorem utf8_inj {s t : Str} (h : utf8 s = utf8 t) : s = t := by
  have h1 := (C81_utf8 (utf8 s) s).2 rfl
  rw [h, (C81_utf8 _ t).2 rfl] at h1
  exact (Option.some.inj h1).symm

theorem mem_utf8Char (c : Char) : (10 : UInt8) ∈ String.utf8EncodeChar c ↔ c = '\n' := by
  constructor
  · intro h
    have key : ∀ n : Nat, n < 256 → (10 : UInt8) = UInt8.ofNat n → n = 10 := by
      intro n hn h
      have := congrArg UInt8.toNat h
      rw [UInt8.toNat_ofNat_of_lt' hn] at this
      exact this.symm
    unfold String.utf8EncodeChar at h
    simp only at h
    have hv : c.val.toNat < 0x110000 := by
      rcases c.valid with h | h
      · have : c.val.toNat < 0xd800 := h
        omega
      · exact h.2
    split_ifs at h with h1 h2 h3
    · have := key _ (by omega) (List.mem_singleton.1 h)
      apply Char.ext
      apply UInt32.toNat_inj.1
      rw [this]; rfl
    · exfalso
      simp only [List.mem_cons, List.not_mem_nil, or_false] at h
      rcases h with h | h
      · have := key _ (by omega) h; omega
      · have := key _ (by omega) h; omega
    · exfalso
      simp only [List.mem_cons, List.not_mem_nil, or_false] at h
      rcases h with h | h | h
      · have := key _ (by omega) h; omega
      · have := key _ (by omega) h; omega
      · have := key _ (by omega) h; omega
    · exfalso
      simp only [List.mem_cons, List.not_mem_nil, or_false] at h
      rcases h with h | h | h | h
      · have := key _ (by omega) h; omega
      · have := key _ (by omega) h; omega
      · have := key _ (by omega) h; omega
      · have := key _ (by omega) h; omega
  · rintro rfl; decide

theorem mem_utf8 (s : Str) : (10 : UInt8) ∈ utf8 s ↔ '\n' ∈ s := by
  simp only [utf8, List.mem_flatMap, mem_utf8Char]
  constructor
  · rintro ⟨c, h, rfl⟩; exact h
  · exact fun h => ⟨_, h, rfl⟩

theorem utf8_nil_iff (s : Str) : utf8 s = [] ↔ s = [] := by
  constructor
  · intro h; exact utf8_inj (h.trans rfl)
  · rintro rfl; rfl

/-- ASCII bytes are the text of the characters with these numbers. -/
theorem fromUtf8_ascii {l : List Nat} (h : ∀ b ∈ l, b < 128) : fromUtf8 (l.map UInt8.ofNat) = some (l.map Char.ofNat) := by
  rw [C81_utf8]
  induction l with
  | nil => rfl
  | cons b l ih =>
    have hb := h b (by simp)
    rw [List.map_cons, List.map_cons, ih fun c hc => h c (by simp [hc])]
    show _ = String.utf8EncodeChar (Char.ofNat b) ++ _
    have hv : (Char.ofNat b).val.toNat = b := by
      have : b.isValidChar := Or.inl (by omega)
      unfold Char.ofNat
      rw [dif_pos this]
      show (UInt32.ofNatLT b _).toNat = b
      rfl
    unfold String.utf8EncodeChar
    simp only [hv]
    rw [if_pos (by omega)]
    rfl

/-- Without bytes from 0xC2 on there is no character outside ASCII. -/
theorem fromUtf8_none {l : List Nat} (h : ∀ b ∈ l, b < 0xC2) (hx : ∃ b ∈ l, 128 ≤ b) : fromUtf8 (l.map UInt8.ofNat) = none := by
  cases e : fromUtf8 (l.map UInt8.ofNat) with
  | none => rfl
  | some s =>
    exfalso
    have e := (C81_utf8 _ _).1 e
    have small : ∀ b ∈ utf8 s, b.toNat < 0xC2 := by
      intro b hb
      rw [← e] at hb
      obtain ⟨n, hn, rfl⟩ := List.mem_map.1 hb
      have := h n hn
      rw [UInt8.toNat_ofNat_of_lt' (show n < 2 ^ 8 by omega)]
      exact this
    obtain ⟨b, hb, hb1⟩ := hx
    have hm : UInt8.ofNat b ∈ utf8 s := by rw [← e]; exact List.mem_map.2 ⟨b, hb, rfl⟩
    obtain ⟨c, hc, hbc⟩ := List.mem_flatMap.1 hm
    have hs : ∀ x ∈ String.utf8EncodeChar c, x.toNat < 0xC2 := fun x hx => small x (List.mem_flatMap.2 ⟨c, hc, hx⟩)
    have hb2 := h b hb
    have hbn : (UInt8.ofNat b).toNat = b := UInt8.toNat_ofNat_of_lt' (show b < 2 ^ 8 by omega)
    have hv : c.val.toNat < 0x110000 := by
      rcases c.valid with h | h
      · have : c.val.toNat < 0xd800 := h
        omega
      · exact h.2
    have key : ∀ n, n < 256 → (UInt8.ofNat n).toNat = n := fun n hn => UInt8.toNat_ofNat_of_lt' (show n < 2 ^ 8 by omega)
    unfold String.utf8EncodeChar at hs hbc
    simp only at hs hbc
    split_ifs at hs hbc with h1 h2 h3
    · rw [List.mem_singleton.1 hbc, key _ (by omega)] at hbn
      omega
    · have := hs _ List.mem_cons_self
      rw [key _ (by omega)] at this
      omega
    · have := hs _ List.mem_cons_self
      rw [key _ (by omega)] at this
      omega
    · have := hs _ List.mem_cons_self
      rw [key _ (by omega)] at this
      omega

end Stdin
end Bkgm
