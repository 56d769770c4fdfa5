import Verif.Proofs.Ubgi
/-!
# The modelled string operations of the standard library, characterised

These are part of the trusted base (`Model/Str.lean` models the standard library, not the crate). The theorems here say what the modelled operations do, in the
terms of their documentation, so that a reader need not trust the recursive definitions.
-/
namespace Bkgm

/-- `char::is_whitespace`: the 25 code points with the Unicode property `White_Space`. -/
theorem Str_whitespace (c : Char) : isWs c = true ↔ c.toNat ∈ [0x09, 0x0A, 0x0B, 0x0C, 0x0D, 0x20, 0x85, 0xA0, 0x1680, 0x2000, 0x2001, 0x2002, 0x2003, 0x2004,
    0x2005, 0x2006, 0x2007, 0x2008, 0x2009, 0x200A, 0x2028, 0x2029, 0x202F, 0x205F, 0x3000] := by
  unfold isWs
  simp only [Bool.or_eq_true, Bool.and_eq_true, decide_eq_true_eq, beq_iff_eq, List.mem_cons, List.not_mem_nil, or_false]
  omega

/-- `str::trim`: the text without the white space at its ends. -/
theorem Str_trim (s t : Str) : trim s = t ↔ (∃ w w', (∀ c ∈ w ++ w', isWs c = true) ∧ s = w ++ t ++ w') ∧
    (∀ c, t.head? = some c → isWs c = false) ∧ (∀ c, t.getLast? = some c → isWs c = false) := by
  constructor
  · rintro rfl
    obtain ⟨w, w', h1, h2, h3⟩ := trim_split s
    refine ⟨⟨w, w', ?_, h3⟩, trim_trimmed s⟩
    intro c hc
    rcases List.mem_append.1 hc with hc | hc
    · exact h1 c hc
    · exact h2 c hc
  · rintro ⟨⟨w, w', h1, rfl⟩, h2⟩
    exact trim_surround (fun c hc => h1 c (by simp [hc])) (fun c hc => h1 c (by simp [hc])) h2

/-- `str::split_whitespace`: the words of a text written with runs of white space around and between them. -/
theorem Str_split_whitespace (s : Str) (l : List Str) : splitWs s = l ↔
    (∀ t ∈ l, t ≠ [] ∧ ∀ c ∈ t, isWs c = false) ∧ ∃ ws : List Str, ws.length = l.length ∧ (∀ w ∈ ws, ∀ c ∈ w, isWs c = true) ∧ (∀ w ∈ ws.tail, w ≠ []) ∧
      ∃ last, (∀ c ∈ last, isWs c = true) ∧ s = (List.zipWith (· ++ ·) ws l).flatten ++ last := by
  have fwd : ∀ (l ws : List Str) (last : Str), (∀ t ∈ l, t ≠ [] ∧ ∀ c ∈ t, isWs c = false) → ws.length = l.length → (∀ w ∈ ws, ∀ c ∈ w, isWs c = true) →
      (∀ w ∈ ws.tail, w ≠ []) → (∀ c ∈ last, isWs c = true) → splitWs ((List.zipWith (· ++ ·) ws l).flatten ++ last) = l := by
    intro l
    induction l with
    | nil =>
      intro ws last _ hl _ _ hlast
      obtain rfl : ws = [] := by simpa using hl
      have := splitWs_ws_append (s := []) hlast
      rw [List.append_nil] at this
      exact this
    | cons t l ih =>
      intro ws last h1 hl h2 h3 h4
      cases ws with
      | nil => simp at hl
      | cons w ws =>
        obtain ⟨t1, t2⟩ := h1 t (by simp)
        simp only [List.zipWith_cons_cons, List.flatten_cons, List.append_assoc]
        rw [splitWs_ws_append (h2 w (by simp))]
        have ih := ih ws last (fun u hu => h1 u (by simp [hu])) (by simpa using hl) (fun u hu => h2 u (by simp [hu]))
          (fun u hu => h3 u (by simpa using List.mem_of_mem_tail hu)) h4
        -- what follows the word is empty or begins with white space
        rcases hrest : (List.zipWith (· ++ ·) ws l).flatten ++ last with _ | ⟨c, r⟩
        · rw [hrest] at ih
          rw [List.append_nil, splitWs_single t2 t1, ← ih]; rfl
        · have hc : isWs c = true := by
            cases ws with
            | nil =>
              simp only [List.zipWith_nil_left, List.flatten_nil, List.nil_append] at hrest
              exact h4 c (by rw [hrest]; simp)
            | cons u ws =>
              cases l with
              | nil => simp at hl
              | cons v l =>
                have hu : u ≠ [] := h3 u (by simp)
                cases u with
                | nil => exact absurd rfl hu
                | cons d u =>
                  simp only [List.zipWith_cons_cons, List.flatten_cons, List.cons_append, List.cons.injEq] at hrest
                  rw [← hrest.1]
                  exact h2 (d :: u) (by simp) d (by simp)
          rw [hrest] at ih
          rw [splitWs_cons t2 t1 hc, ← splitWs_ws hc, ih]
  constructor
  · intro h
    refine ⟨fun t ht => splitWs_token (s := s) (h ▸ ht), ?_⟩
    -- cut the text up
    suffices H : ∀ n (s : Str), s.length ≤ n → ∃ (l ws : List Str) (last : Str), (∀ t ∈ l, t ≠ [] ∧ ∀ c ∈ t, isWs c = false) ∧ ws.length = l.length ∧
        (∀ w ∈ ws, ∀ c ∈ w, isWs c = true) ∧ (∀ w ∈ ws.tail, w ≠ []) ∧ (∀ c ∈ last, isWs c = true) ∧
        s = (List.zipWith (· ++ ·) ws l).flatten ++ last ∧ ((∀ c, s.head? = some c → isWs c = true) → ∀ w ∈ ws, w ≠ []) by
      obtain ⟨l', ws, last, a1, a2, a3, a4, a5, a6, -⟩ := H s.length s le_rfl
      have e := fwd l' ws last a1 a2 a3 a4 a5
      rw [← a6, h] at e
      subst e
      exact ⟨ws, a2, a3, a4, last, a5, a6⟩
    intro n
    induction n with
    | zero =>
      intro s hs
      obtain rfl : s = [] := by simpa using hs
      exact ⟨[], [], [], by simp, rfl, by simp, by simp, by simp, rfl, by simp⟩
    | succ n ih =>
      intro s hs
      obtain ⟨w, hw, e⟩ := dropWhile_split s
      generalize hr : s.dropWhile isWs = r at e
      have hh : ∀ c, r.head? = some c → isWs c = false := fun c hc => head_dropWhile s c (hr ▸ hc)
      cases r with
      | nil => exact ⟨[], [], s, by simp, rfl, by simp, by simp, by rw [e]; simpa using hw, by simp, by simp⟩
      | cons c r =>
        -- the first word
        let t := (c :: r).takeWhile (fun c => !isWs c)
        let u := (c :: r).dropWhile (fun c => !isWs c)
        have htu : c :: r = t ++ u := (List.takeWhile_append_dropWhile (p := fun c => !isWs c)).symm
        have hc := hh c rfl
        have ht : t = c :: r.takeWhile (fun c => !isWs c) := by
          show List.takeWhile _ (c :: r) = _
          rw [List.takeWhile_cons, if_pos (by simp [hc])]
        have htw : ∀ d ∈ t, isWs d = false := by
          intro d hd
          have : ∀ (l : Str) (d : Char), d ∈ l.takeWhile (fun c => !isWs c) → isWs d = false := by
            intro l d hd
            have h := List.all_takeWhile (p := fun c => !isWs c) (l := l)
            rw [List.all_eq_true] at h
            simpa using h d hd
          exact this _ d hd
        have hul : u.length ≤ n := by
          have e1 := congrArg List.length htu
          have e2 := congrArg List.length e
          have e3 := congrArg List.length ht
          simp only [List.length_append, List.length_cons] at e1 e2 e3
          omega
        have huh : ∀ d, u.head? = some d → isWs d = true := by
          intro d hd
          have := List.head?_dropWhile_not (fun c => !isWs c) (c :: r)
          rw [show List.dropWhile (fun c => !isWs c) (c :: r) = u from rfl, hd] at this
          simpa using this
        obtain ⟨l, ws, last, a1, a2, a3, a4, a5, a6, a7⟩ := ih u hul
        refine ⟨t :: l, w :: ws, last, ?_, by simp [a2], ?_, by simpa using a7 huh, a5, ?_, ?_⟩
        · intro x hx
          rcases List.mem_cons.1 hx with rfl | hx
          · exact ⟨by rw [ht]; simp, htw⟩
          · exact a1 x hx
        · intro x hx
          rcases List.mem_cons.1 hx with rfl | hx
          · exact hw
          · exact a3 x hx
        · rw [List.zipWith_cons_cons, List.flatten_cons, List.append_assoc, List.append_assoc, ← a6, ← htu]
          exact e
        · intro hs1 x hx
          rcases List.mem_cons.1 hx with rfl | hx
          · rintro rfl
            have := hs1 c (by rw [e]; rfl)
            rw [hc] at this; cases this
          · exact a7 huh x hx
  · rintro ⟨h1, ws, h2, h3, h4, last, h5, rfl⟩
    exact fwd l ws last h1 h2 h3 h4 h5

/-- `str::split(c)` for one character: the pieces contain no `c`, and joined by it they are the text. -/
theorem Str_split (c : Char) (s : Str) (l : List Str) : splitChar c s = l ↔ l ≠ [] ∧ (∀ t ∈ l, c ∉ t) ∧ join [c] l = s := by
  constructor
  · rintro rfl
    exact ⟨splitChar_ne_nil c s, splitChar_not_mem c s, join_splitChar c s⟩
  · rintro ⟨h1, h2, rfl⟩
    exact splitChar_join h1 h2

/-- `str::split_once(c)`: at the first `c`. -/
theorem Str_split_once (c : Char) (s : Str) : (∀ a b, splitOnce c s = some (a, b) ↔ s = a ++ c :: b ∧ c ∉ a) ∧ (splitOnce c s = none ↔ c ∉ s) :=
  ⟨fun _ _ => splitOnce_some, splitOnce_none⟩

/-- `str::strip_prefix`. -/
theorem Str_strip_prefix (p s t : Str) : stripPrefix p s = some t ↔ s = p ++ t := stripPrefix_some

/-- `char::to_ascii_lowercase`: the 26 capital letters, nothing else. -/
theorem Str_lowercase : "ABCDEFGHIJKLMNOPQRSTUVWXYZ".toList.map lowerC = "abcdefghijklmnopqrstuvwxyz".toList ∧
    ∀ c, c ∉ "ABCDEFGHIJKLMNOPQRSTUVWXYZ".toList → lowerC c = c := by
  refine ⟨by decide, fun c hc => ?_⟩
  unfold lowerC
  rw [if_neg]
  rintro ⟨h1, h2⟩
  have h1 : 65 ≤ c.toNat := h1
  have h2 : c.toNat ≤ 90 := h2
  have key : ∀ n, n < 26 → Char.ofNat (n + 65) ∈ "ABCDEFGHIJKLMNOPQRSTUVWXYZ".toList := by decide
  have := key (c.toNat - 65) (by omega)
  rw [show c.toNat - 65 + 65 = c.toNat by omega, Char.ofNat_toNat] at this
  exact hc this

/-- `str::parse` for an unsigned type: at least one decimal digit, perhaps after a `+`, and the value in range. -/
theorem Str_parse_unsigned (max : Nat) (s : Str) (n : Nat) : parseNat max s = some n ↔ n ≤ max ∧ ∃ ds : List Nat, ds ≠ [] ∧ (∀ d ∈ ds, d < 10) ∧
    n = Nat.ofDigits 10 ds.reverse ∧ (s = ds.map Nat.digitChar ∨ s = '+' :: ds.map Nat.digitChar) := Ubgi.parseNat_some

/-- `str::parse` for a signed type: the same, or after a `-`. -/
theorem Str_parse_signed (max : Nat) (s : Str) (z : Int) : parseInt max s = some z ↔ -(max + 1 : Int) ≤ z ∧ z ≤ max ∧ Ubgi.Spec.Decimal s z := Ubgi.parseInt_some

end Bkgm
