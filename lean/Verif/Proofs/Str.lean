import Verif.Model.Str
import Mathlib.Data.Nat.Digits.Defs
import Mathlib.Data.List.Basic
/-!
Helper lemmas about the string operations.
-/

namespace Bkgm

/-- No whitespace at either end. -/
def Trimmed (s : Str) : Prop := (∀ c, s.head? = some c → isWs c = false) ∧ (∀ c, s.getLast? = some c → isWs c = false)

theorem dropWhile_eq_self {s : Str} (h : ∀ c, s.head? = some c → isWs c = false) : s.dropWhile isWs = s := by
  cases s with
  | nil => rfl
  | cons c s => rw [List.dropWhile_cons, h c rfl]; simp

theorem dropWhile_append_ws {w s : Str} (hw : ∀ c ∈ w, isWs c = true) : (w ++ s).dropWhile isWs = s.dropWhile isWs := by
  induction w with
  | nil => rfl
  | cons c w ih =>
    rw [List.cons_append, List.dropWhile_cons, hw c (by simp)]
    exact ih fun c hc => hw c (List.mem_cons_of_mem _ hc)

theorem head_dropWhile (s : Str) (c : Char) (h : (s.dropWhile isWs).head? = some c) : isWs c = false := by
  induction s with
  | nil => simp at h
  | cons x s ih =>
    rw [List.dropWhile_cons] at h
    cases hx : isWs x with
    | true => rw [hx] at h; exact ih h
    | false => rw [hx] at h; simp at h; rwa [← h]

theorem dropWhile_split (s : Str) : ∃ w, (∀ c ∈ w, isWs c = true) ∧ s = w ++ s.dropWhile isWs := by
  induction s with
  | nil => exact ⟨[], by simp, rfl⟩
  | cons x s ih =>
    rw [List.dropWhile_cons]
    cases hx : isWs x with
    | false => exact ⟨[], by simp, by simp⟩
    | true =>
      obtain ⟨w, h1, h2⟩ := ih
      exact ⟨x :: w, by simpa [hx] using h1, by simp [← h2]⟩

theorem trim_split (s : Str) : ∃ w w', (∀ c ∈ w, isWs c = true) ∧ (∀ c ∈ w', isWs c = true) ∧ s = w ++ trim s ++ w' := by
  obtain ⟨w, h1, h2⟩ := dropWhile_split s
  obtain ⟨w', h3, h4⟩ := dropWhile_split (s.dropWhile isWs).reverse
  refine ⟨w, w'.reverse, h1, by simpa using h3, ?_⟩
  unfold trim trimEnd trimStart
  have : s.dropWhile isWs = ((s.dropWhile isWs).reverse.dropWhile isWs).reverse ++ w'.reverse := by
    rw [← List.reverse_append, ← h4, List.reverse_reverse]
  rw [List.append_assoc, ← this, ← h2]

theorem trim_trimmed (s : Str) : Trimmed (trim s) := by
  constructor
  · intro c hc
    obtain ⟨w', h3, h4⟩ := dropWhile_split (s.dropWhile isWs).reverse
    have e : s.dropWhile isWs = trim s ++ w'.reverse := by
      unfold trim trimEnd trimStart
      rw [← List.reverse_append, ← h4, List.reverse_reverse]
    refine head_dropWhile s c ?_
    rw [e]
    cases ht : trim s with
    | nil => rw [ht] at hc; simp at hc
    | cons x t => rw [ht] at hc; simpa using hc
  · intro c hc
    unfold trim trimEnd at hc
    rw [List.getLast?_reverse] at hc
    exact head_dropWhile _ c hc

theorem trim_surround {w t w' : Str} (hw : ∀ c ∈ w, isWs c = true) (hw' : ∀ c ∈ w', isWs c = true) (ht : Trimmed t) :
    trim (w ++ t ++ w') = t := by
  unfold trim trimEnd trimStart
  rw [List.append_assoc, dropWhile_append_ws hw]
  cases t with
  | nil =>
    have : ([] ++ w' : Str).dropWhile isWs = [] := by
      have := dropWhile_append_ws (s := []) hw'
      simpa using this
    rw [this]; rfl
  | cons x t =>
    rw [dropWhile_eq_self (s := (x :: t) ++ w') (by intro c hc; exact ht.1 c (by simpa using hc))]
    rw [List.reverse_append, dropWhile_append_ws (by simpa using hw'), dropWhile_eq_self, List.reverse_reverse]
    intro c hc
    rw [List.head?_reverse] at hc
    exact ht.2 c hc

theorem trim_of_trimmed {t : Str} (ht : Trimmed t) : trim t = t := by
  simpa using trim_surround (w := []) (w' := []) (by simp) (by simp) ht

@[simp] theorem trim_trim (s : Str) : trim (trim s) = trim s := trim_of_trimmed (trim_trimmed s)

theorem trimmed_of_no_ws {t : Str} (h : ∀ c ∈ t, isWs c = false) : Trimmed t :=
  ⟨fun c hc => h c (List.mem_of_mem_head? hc), fun c hc => h c (List.mem_of_getLast? hc)⟩

instance instDecTrimmed (s : Str) : Decidable (Trimmed s) :=
  decidable_of_iff (trim s = s) ⟨fun h => h ▸ trim_trimmed s, trim_of_trimmed⟩

/-! ## split -/

theorem splitChar_ne_nil (c : Char) (s : Str) : splitChar c s ≠ [] := by
  cases s with
  | nil => simp [splitChar]
  | cons x s =>
    unfold splitChar
    split_ifs
    · simp
    · split <;> simp

theorem splitChar_of_not_mem {c : Char} {s : Str} (h : c ∉ s) : splitChar c s = [s] := by
  induction s with
  | nil => rfl
  | cons x s ih =>
    rw [List.mem_cons, not_or] at h
    unfold splitChar
    rw [if_neg (fun e => h.1 e.symm), ih h.2]

theorem splitChar_append {c : Char} {s t : Str} (h : c ∉ s) : splitChar c (s ++ c :: t) = s :: splitChar c t := by
  induction s with
  | nil => simp [splitChar]
  | cons x s ih =>
    rw [List.mem_cons, not_or] at h
    rw [List.cons_append, splitChar, if_neg (fun e => h.1 e.symm), ih h.2]

theorem splitChar_join {c : Char} : ∀ {l : List Str}, l ≠ [] → (∀ s ∈ l, c ∉ s) → splitChar c (join [c] l) = l
  | [], h, _ => absurd rfl h
  | [s], _, h => by simpa [join] using splitChar_of_not_mem (h s (by simp))
  | s :: t :: l, _, h => by
    rw [join, List.append_assoc, List.singleton_append, splitChar_append (h s (by simp)),
      splitChar_join (by simp) (fun s hs => h s (List.mem_cons_of_mem _ hs))]

theorem join_cons {sep : Str} {s : Str} {l : List Str} (h : l ≠ []) : join sep (s :: l) = s ++ sep ++ join sep l := by
  cases l with
  | nil => exact absurd rfl h
  | cons t l => rfl

theorem join_splitChar (c : Char) (s : Str) : join [c] (splitChar c s) = s := by
  induction s with
  | nil => rfl
  | cons x s ih =>
    unfold splitChar
    split_ifs with h
    · rw [join_cons (splitChar_ne_nil c s), ih, h]; simp
    · split
      · next e => exact absurd e (splitChar_ne_nil c s)
      · next t ts e =>
        rw [e] at ih
        rw [← ih]
        cases ts with
        | nil => rfl
        | cons u ts => simp [join]

theorem splitChar_not_mem (c : Char) (s : Str) : ∀ t ∈ splitChar c s, c ∉ t := by
  induction s with
  | nil => simp [splitChar]
  | cons x s ih =>
    unfold splitChar
    split_ifs with h
    · simpa using ih
    · split
      · simpa using fun e => h e.symm
      · next t ts e =>
        rw [e] at ih
        intro u hu
        rcases List.mem_cons.1 hu with rfl | hu
        · rw [List.mem_cons, not_or]; exact ⟨fun e => h e.symm, ih t (by simp)⟩
        · exact ih u (List.mem_cons_of_mem _ hu)

theorem splitOnce_append {c : Char} {a b : Str} (h : c ∉ a) : splitOnce c (a ++ c :: b) = some (a, b) := by
  induction a with
  | nil => simp [splitOnce]
  | cons x a ih =>
    rw [List.mem_cons, not_or] at h
    rw [List.cons_append, splitOnce, if_neg (fun e => h.1 e.symm), ih h.2]; rfl

theorem splitOnce_none {c : Char} {s : Str} : splitOnce c s = none ↔ c ∉ s := by
  induction s with
  | nil => simp [splitOnce]
  | cons x s ih =>
    unfold splitOnce
    split_ifs with h
    · simp [h]
    · rw [Option.map_eq_none_iff, ih, List.mem_cons, not_or]
      exact ⟨fun h' => ⟨fun e => h e.symm, h'⟩, fun h' => h'.2⟩

theorem splitOnce_some {c : Char} {s a b : Str} : splitOnce c s = some (a, b) ↔ s = a ++ c :: b ∧ c ∉ a := by
  constructor
  · induction s generalizing a with
    | nil => simp [splitOnce]
    | cons x s ih =>
      unfold splitOnce
      split_ifs with h
      · intro e; simp at e; obtain ⟨rfl, rfl⟩ := e; simp [h]
      · intro e
        rw [Option.map_eq_some_iff] at e
        obtain ⟨⟨a', b'⟩, e1, e2⟩ := e
        simp at e2
        obtain ⟨rfl, rfl⟩ := e2
        obtain ⟨h1, h2⟩ := ih e1
        refine ⟨by rw [h1]; rfl, ?_⟩
        rw [List.mem_cons, not_or]
        exact ⟨fun e => h e.symm, h2⟩
  · rintro ⟨rfl, h⟩; exact splitOnce_append h

theorem stripPrefix_some {p s t : Str} : stripPrefix p s = some t ↔ s = p ++ t := by
  induction p generalizing s with
  | nil => simp [stripPrefix, eq_comm]
  | cons x p ih =>
    cases s with
    | nil => simp [stripPrefix]
    | cons c s =>
      unfold stripPrefix
      split_ifs with h
      · rw [ih, h]; simp
      · constructor
        · intro e; cases e
        · intro e; simp at e; exact absurd e.1.symm h

theorem mem_trim {c : Char} {s : Str} (hc : isWs c = false) : c ∈ trim s ↔ c ∈ s := by
  obtain ⟨w, w', h1, h2, h3⟩ := trim_split s
  constructor
  · intro h; rw [h3]; simp [h]
  · intro h
    rw [h3] at h
    simp only [List.mem_append] at h
    rcases h with (h | h) | h
    · rw [h1 c h] at hc; cases hc
    · exact h
    · rw [h2 c h] at hc; cases hc

/-! ## split_whitespace -/

theorem splitWsAux_token {acc tok s : Str} (h : ∀ c ∈ tok, isWs c = false) :
    splitWsAux (tok ++ s) acc = splitWsAux s (acc ++ tok) := by
  induction tok generalizing acc with
  | nil => simp
  | cons x tok ih =>
    rw [List.cons_append, splitWsAux, h x (by simp)]
    simp only [Bool.false_eq_true, if_false]
    rw [ih fun c hc => h c (List.mem_cons_of_mem _ hc)]
    simp

theorem splitWsAux_ws {s : Str} {w : Char} {acc : Str} (hw : isWs w = true) (hacc : acc ≠ []) :
    splitWsAux (w :: s) acc = acc :: splitWs s := by
  rw [splitWsAux, hw]
  simp [hacc, splitWs]

theorem splitWs_ws {s : Str} {w : Char} (hw : isWs w = true) : splitWs (w :: s) = splitWs s := by
  unfold splitWs
  rw [splitWsAux, hw]
  simp

theorem splitWs_ws_append {s w : Str} (hw : ∀ c ∈ w, isWs c = true) : splitWs (w ++ s) = splitWs s := by
  induction w with
  | nil => rfl
  | cons x w ih =>
    rw [List.cons_append, splitWs_ws (hw x (by simp)), ih fun c hc => hw c (List.mem_cons_of_mem _ hc)]

/-- A token followed by whitespace. -/
theorem splitWs_cons {tok s : Str} {w : Char} (h : ∀ c ∈ tok, isWs c = false) (hne : tok ≠ []) (hw : isWs w = true) :
    splitWs (tok ++ w :: s) = tok :: splitWs s := by
  unfold splitWs
  rw [splitWsAux_token h, List.nil_append, splitWsAux_ws hw hne]
  rfl

theorem splitWs_single {tok : Str} (h : ∀ c ∈ tok, isWs c = false) (hne : tok ≠ []) : splitWs tok = [tok] := by
  have := splitWsAux_token (acc := []) (s := []) h
  unfold splitWs
  rw [List.append_nil] at this
  rw [this]
  simp [splitWsAux, hne]

theorem splitWs_join : ∀ {l : List Str}, (∀ t ∈ l, t ≠ [] ∧ ∀ c ∈ t, isWs c = false) → splitWs (join [' '] l) = l
  | [], _ => by simp [join, splitWs, splitWsAux]
  | [t], h => by
    obtain ⟨h1, h2⟩ := h t (by simp)
    simpa [join] using splitWs_single h2 h1
  | t :: u :: l, h => by
    obtain ⟨h1, h2⟩ := h t (by simp)
    rw [join, List.append_assoc, List.singleton_append, splitWs_cons h2 h1 (by decide),
      splitWs_join (fun t ht => h t (List.mem_cons_of_mem _ ht))]

theorem splitWsAux_spec (s : Str) : ∀ acc, (∀ c ∈ acc, isWs c = false) →
    ∀ t ∈ splitWsAux s acc, t ≠ [] ∧ ∀ c ∈ t, isWs c = false := by
  induction s with
  | nil =>
    intro acc hacc t ht
    unfold splitWsAux at ht
    split_ifs at ht with h
    · cases ht
    · simp at ht; subst ht; exact ⟨by simpa using h, hacc⟩
  | cons x s ih =>
    intro acc hacc t ht
    unfold splitWsAux at ht
    split_ifs at ht with h1 h2
    · exact ih [] (by simp) t ht
    · rcases List.mem_cons.1 ht with rfl | ht
      · exact ⟨by simpa using h2, hacc⟩
      · exact ih [] (by simp) t ht
    · refine ih _ ?_ t ht
      intro c hc
      rcases List.mem_append.1 hc with hc | hc
      · exact hacc c hc
      · simp at hc; subst hc; simpa using h1

/-- Tokens are non-empty and free of whitespace. -/
theorem splitWs_token {s t : Str} (h : t ∈ splitWs s) : t ≠ [] ∧ ∀ c ∈ t, isWs c = false :=
  splitWsAux_spec s [] (by simp) t h

/-! ## numbers -/

theorem digitVal_digitChar {d : Nat} (h : d < 10) : digitVal (Nat.digitChar d) = some d := by
  have : ∀ d, d < 10 → digitVal (Nat.digitChar d) = some d := by decide
  exact this d h

theorem digitsVal_append (a b : Str) : ∀ acc, digitsVal (a ++ b) acc = (digitsVal a acc).bind (digitsVal b) := by
  induction a with
  | nil => intro acc; rfl
  | cons c a ih =>
    intro acc
    simp only [List.cons_append, digitsVal]
    cases digitVal c with
    | none => rfl
    | some d => simp [ih]

theorem showNat_lt {n : Nat} (h : n < 10) : showNat n = [Nat.digitChar n] := by
  unfold showNat; exact Nat.toDigits_of_lt_base h

theorem showNat_ge {n : Nat} (h : 10 ≤ n) : showNat n = showNat (n / 10) ++ [Nat.digitChar (n % 10)] := by
  unfold showNat
  rw [Nat.toDigits_eq_if (by omega), if_neg (by omega)]

theorem digitsVal_showNat (n : Nat) : digitsVal (showNat n) 0 = some n := by
  induction n using Nat.strongRecOn with
  | ind n ih =>
    by_cases h : n < 10
    · rw [showNat_lt h, digitsVal, digitVal_digitChar h]; simp [digitsVal]
    · rw [showNat_ge (by omega), digitsVal_append, ih (n / 10) (by omega), Option.bind_some, digitsVal,
        digitVal_digitChar (by omega)]
      simp [digitsVal]; omega

theorem showNat_ne_nil (n : Nat) : showNat n ≠ [] := by
  by_cases h : n < 10
  · rw [showNat_lt h]; simp
  · rw [showNat_ge (by omega)]; simp

/-- Characters of a printed number are decimal digits. -/
theorem showNat_digit (n : Nat) : ∀ c ∈ showNat n, '0' ≤ c ∧ c ≤ '9' := by
  have hd : ∀ d, d < 10 → '0' ≤ Nat.digitChar d ∧ Nat.digitChar d ≤ '9' := by decide
  induction n using Nat.strongRecOn with
  | ind n ih =>
    intro c hc
    by_cases h : n < 10
    · rw [showNat_lt h] at hc; simp at hc; subst hc; exact hd n h
    · rw [showNat_ge (by omega)] at hc
      rcases List.mem_append.1 hc with hc | hc
      · exact ih _ (by omega) c hc
      · simp at hc; subst hc; exact hd _ (by omega)

theorem digit_nat {c : Char} (h : '0' ≤ c ∧ c ≤ '9') : 48 ≤ c.toNat ∧ c.toNat ≤ 57 := by
  obtain ⟨h1, h2⟩ := h
  exact ⟨h1, h2⟩

theorem digit_not_ws {c : Char} (h : '0' ≤ c ∧ c ≤ '9') : isWs c = false := by
  obtain ⟨h1, h2⟩ := digit_nat h
  unfold isWs
  simp
  omega

theorem digit_lower {c : Char} (h : '0' ≤ c ∧ c ≤ '9') : lowerC c = c := by
  unfold lowerC
  rw [if_neg]
  rintro ⟨h1, -⟩
  have h2 := (digit_nat h).2
  have h1 : 65 ≤ c.toNat := h1
  omega

theorem digit_ne {c d : Char} (h : '0' ≤ c ∧ c ≤ '9') (hd : d.toNat < 48 ∨ 57 < d.toNat) : c ≠ d := by
  rintro rfl
  have := digit_nat h
  omega

theorem parseNat_showNat {n max : Nat} (h : n ≤ max) : parseNat max (showNat n) = some n := by
  have hne := showNat_ne_nil n
  have hd := showNat_digit n
  have hv := digitsVal_showNat n
  have e : stripPlus (showNat n) = showNat n := by
    cases e : showNat n with
    | nil => exact absurd e hne
    | cons c s =>
      have hc : c ≠ '+' := digit_ne (hd c (by rw [e]; simp)) (by decide)
      unfold stripPlus
      split
      · next h => simp at h; exact absurd h.1 hc
      · rfl
  unfold parseNat
  rw [e, hv, if_neg (by simpa using hne)]
  simp [h]

theorem parseInt_showInt {z : Int} {max : Nat} (h1 : -(max + 1 : Int) ≤ z) (h2 : z ≤ max) :
    parseInt max (showInt z) = some z := by
  unfold showInt
  split_ifs with h
  · unfold parseInt
    simp only
    rw [if_neg (by simpa using showNat_ne_nil _), digitsVal_showNat, Option.bind_some, if_pos (by omega)]
    congr 1; omega
  · have hp := parseNat_showNat (n := z.toNat) (max := max) (by omega)
    unfold parseInt
    cases e : showNat z.toNat with
    | nil => exact absurd e (showNat_ne_nil _)
    | cons c s =>
      have hc : c ≠ '-' := digit_ne (showNat_digit _ c (by rw [e]; simp)) (by decide)
      rw [e] at hp
      split
      · next h => simp at h; exact absurd h.1 hc
      · rw [hp]; simp; omega

theorem parseNat_le {max n : Nat} {s : Str} (h : parseNat max s = some n) : n ≤ max := by
  unfold parseNat at h
  split_ifs at h
  rw [Option.bind_eq_some_iff] at h
  obtain ⟨a, -, h⟩ := h
  split_ifs at h with ha
  simp at h; omega

theorem parseInt_range {max : Nat} {s : Str} {z : Int} (h : parseInt max s = some z) :
    -(max + 1 : Int) ≤ z ∧ z ≤ max := by
  unfold parseInt at h
  split at h
  · split_ifs at h
    rw [Option.bind_eq_some_iff] at h
    obtain ⟨a, -, h⟩ := h
    split_ifs at h with ha
    simp at h; omega
  · rw [Option.map_eq_some_iff] at h
    obtain ⟨a, h1, rfl⟩ := h
    have := parseNat_le h1
    rw [Int.ofNat_eq_natCast]
    omega

end Bkgm
