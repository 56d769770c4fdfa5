import Verif.Model.GnuId
import Verif.Proofs.DbHash
/-!
Helper lemmas for the GNUBG id codec: base64 and the bit string.
-/

namespace Bkgm

theorem dec6_enc6 : ∀ n, n < 64 → dec6 (enc6 n) = some n := by decide +kernel
theorem enc6_ne_eq : ∀ n, n < 64 → enc6 n ≠ '=' := by decide +kernel

theorem dec6_some {c : Char} {n : Nat} (h : dec6 c = some n) : n < 64 ∧ enc6 n = c := by
  unfold dec6 at h
  rw [List.findIdx?_eq_some_iff_getElem] at h
  obtain ⟨h1, h2, -⟩ := h
  simp only [decide_eq_true_eq] at h2
  refine ⟨h1, ?_⟩
  rw [enc6, List.getD_eq_getElem?_getD, List.getElem?_eq_getElem h1]
  exact h2

theorem b64Decode_encode : ∀ l : List Nat, (∀ b ∈ l, b < 256) → b64Decode (b64Encode l) = some l
  | [], _ => rfl
  | [a], h => by
    have ha := h a (by simp)
    rw [b64Encode, b64Decode, dec6_enc6 _ (by omega), dec6_enc6 _ (by omega)]
    simp only [Option.bind_some, and_self, if_true]
    rw [if_pos (by omega)]
    congr; omega
  | [a, b], h => by
    have ha := h a (by simp)
    have hb := h b (by simp)
    rw [b64Encode, b64Decode, dec6_enc6 _ (by omega), dec6_enc6 _ (by omega), dec6_enc6 _ (by omega)]
    simp only [Option.bind_some, and_self, if_true]
    rw [if_neg (fun h => enc6_ne_eq _ (by omega) h.1), if_pos (by omega)]
    congr 2
    · omega
    · congr 1; omega
  | a :: b :: c :: rest, h => by
    have ha := h a (by simp)
    have hb := h b (by simp)
    have hc := h c (by simp)
    have ih := b64Decode_encode rest (fun x hx => h x (by simp [hx]))
    rw [b64Encode, b64Decode, dec6_enc6 _ (by omega), dec6_enc6 _ (by omega), dec6_enc6 _ (by omega),
      dec6_enc6 _ (by omega), ih]
    simp only [Option.bind_some]
    rw [if_neg (fun h => enc6_ne_eq _ (by omega) h.1), if_neg (fun h => enc6_ne_eq _ (by omega) h.1)]
    have e1 : a / 4 * 4 + (a % 4 * 16 + b / 16) / 16 = a := by omega
    have e2 : (a % 4 * 16 + b / 16) % 16 * 16 + (b % 16 * 4 + c / 64) / 4 = b := by omega
    have e3 : (b % 16 * 4 + c / 64) % 4 * 64 + c % 64 = c := by omega
    rw [e1, e2, e3]

theorem b64Encode_decode : ∀ (s : Str) (l : List Nat), b64Decode s = some l → b64Encode l = s ∧ ∀ b ∈ l, b < 256
  | [], l, h => by simp only [b64Decode, Option.some.injEq] at h; subst h; simp [b64Encode]
  | [_], l, h => by simp [b64Decode] at h
  | [_, _], l, h => by simp [b64Decode] at h
  | [_, _, _], l, h => by simp [b64Decode] at h
  | a :: b :: c :: d :: rest, l, h => by
    rw [b64Decode] at h
    obtain ⟨va, ha, h1⟩ := Option.bind_eq_some_iff.1 h
    clear h
    obtain ⟨vb, hb, h2⟩ := Option.bind_eq_some_iff.1 h1
    clear h1
    obtain ⟨la, ea⟩ := dec6_some ha
    obtain ⟨lb, eb⟩ := dec6_some hb
    by_cases hc : c = '=' ∧ d = '=' ∧ rest = []
    · rw [if_pos hc] at h2
      obtain ⟨rfl, rfl, rfl⟩ := hc
      by_cases h0 : vb % 16 = 0
      · rw [if_pos h0] at h2
        injection h2 with h
        subst h
        have e1 : (va * 4 + vb / 16) / 4 = va := by omega
        have e2 : (va * 4 + vb / 16) % 4 * 16 = vb := by omega
        simp only [b64Encode, e1, e2, ea, eb, List.mem_singleton, true_and]
        intro b hb; omega
      · rw [if_neg h0] at h2; cases h2
    · rw [if_neg hc] at h2
      obtain ⟨vc, hc, h3⟩ := Option.bind_eq_some_iff.1 h2
      clear h2
      obtain ⟨lc, ec⟩ := dec6_some hc
      by_cases hd : d = '=' ∧ rest = []
      · rw [if_pos hd] at h3
        obtain ⟨rfl, rfl⟩ := hd
        by_cases h0 : vc % 4 = 0
        · rw [if_pos h0] at h3
          injection h3 with h
          subst h
          have e1 : (va * 4 + vb / 16) / 4 = va := by omega
          have e2 : (va * 4 + vb / 16) % 4 * 16 + (vb % 16 * 16 + vc / 4) / 16 = vb := by omega
          have e3 : (vb % 16 * 16 + vc / 4) % 16 * 4 = vc := by omega
          simp only [b64Encode, e1, e2, e3, ea, eb, ec, true_and]
          intro b hb
          simp only [List.mem_cons, List.not_mem_nil, or_false] at hb
          omega
        · rw [if_neg h0] at h3; cases h3
      · rw [if_neg hd] at h3
        obtain ⟨vd, hd, h4⟩ := Option.bind_eq_some_iff.1 h3
        obtain ⟨ld, ed⟩ := dec6_some hd
        obtain ⟨l', hl, h5⟩ := Option.bind_eq_some_iff.1 h4
        injection h5 with h
        subst h
        obtain ⟨ih, ih2⟩ := b64Encode_decode rest l' hl
        have e1 : (va * 4 + vb / 16) / 4 = va := by omega
        have e2 : (va * 4 + vb / 16) % 4 * 16 + (vb % 16 * 16 + vc / 4) / 16 = vb := by omega
        have e3 : (vb % 16 * 16 + vc / 4) % 16 * 4 + (vc % 4 * 64 + vd) / 64 = vc := by omega
        have e4 : (vc % 4 * 64 + vd) % 64 = vd := by omega
        simp only [b64Encode, e1, e2, e3, e4, ea, eb, ec, ed, ih, true_and]
        intro b hb
        simp only [List.mem_cons] at hb
        rcases hb with hb | hb | hb | hb
        · omega
        · omega
        · omega
        · exact ih2 b hb

/-- The base64 text of ten bytes: 14 characters and two padding characters. -/
theorem b64Encode_ten (l : List Nat) (h : l.length = 10) : ∃ t, t.length = 14 ∧ b64Encode l = t ++ ['=', '='] := by
  match l, h with
  | [a, b, c, d, e, f, g, i, j, k], _ => exact ⟨(b64Encode [a, b, c, d, e, f, g, i, j, k]).take 14, rfl, rfl⟩

namespace GnuId

/-- Reading and writing runs. -/
def runBits (n : Nat) : List Bool := List.replicate n true ++ [false]

theorem readRun_runBits (n : Nat) (r : List Bool) : readRun (runBits n ++ r) = some (n, r) := by
  induction n with
  | zero => rfl
  | succ n ih =>
    show readRun (true :: (runBits n ++ r)) = _
    rw [readRun, ih]; rfl

theorem readRun_some {l r : List Bool} {n : Nat} (h : readRun l = some (n, r)) : l = runBits n ++ r := by
  induction l generalizing n with
  | nil => simp [readRun] at h
  | cons b l ih =>
    cases b
    · simp only [readRun, Option.some.injEq, Prod.mk.injEq] at h
      obtain ⟨rfl, rfl⟩ := h
      rfl
    · simp only [readRun, Option.map_eq_some_iff] at h
      obtain ⟨⟨k, r'⟩, h1, h2⟩ := h
      simp only [Prod.mk.injEq] at h2
      obtain ⟨rfl, rfl⟩ := h2
      rw [ih h1]
      rfl

theorem readRuns_flat (ns : List Nat) (r : List Bool) : readRuns ns.length (ns.flatMap runBits ++ r) = some (ns, r) := by
  induction ns with
  | nil => rfl
  | cons n ns ih =>
    simp only [List.length_cons, List.flatMap_cons, List.append_assoc, readRuns, readRun_runBits, Option.bind_some, ih,
      Option.map_some]

theorem readRuns_some {k : Nat} {l r : List Bool} {ns : List Nat} (h : readRuns k l = some (ns, r)) :
    ns.length = k ∧ l = ns.flatMap runBits ++ r := by
  induction k generalizing l ns with
  | zero => simp only [readRuns, Option.some.injEq, Prod.mk.injEq] at h; obtain ⟨rfl, rfl⟩ := h; simp
  | succ k ih =>
    rw [readRuns] at h
    obtain ⟨⟨n, l'⟩, h1, h⟩ := Option.bind_eq_some_iff.1 h
    simp only [Option.map_eq_some_iff] at h
    obtain ⟨⟨ns', r'⟩, h2, h3⟩ := h
    simp only [Prod.mk.injEq] at h3
    obtain ⟨rfl, rfl⟩ := h3
    obtain ⟨e1, e2⟩ := ih h2
    refine ⟨by simp [e1], ?_⟩
    rw [readRun_some h1, e2]
    simp

/-- Bit number `j` of a key. -/
def bit (key : List Nat) (j : Nat) : Bool := (key.getD (j / 8) 0).testBit (j % 8)

theorem keyBits_eq (key : List Nat) : keyBits key = (List.range (8 * key.length)).map (bit key) := by
  induction key with
  | nil => rfl
  | cons b key ih =>
    have e : 8 * (b :: key).length = 8 + 8 * key.length := by simp; omega
    rw [keyBits, List.flatMap_cons, show key.flatMap _ = keyBits key from rfl, ih, e, List.range_add, List.map_append,
      List.map_map]
    have e1 : (List.range 8).map b.testBit = (List.range 8).map (bit (b :: key)) := by
      apply List.map_congr_left
      intro j hj
      have : j < 8 := List.mem_range.1 hj
      simp [bit, Nat.div_eq_of_lt this, Nat.mod_eq_of_lt this]
    rw [e1]
    congr 1
    apply List.map_congr_left
    intro j hj
    simp [bit, Nat.add_div_left]

/-- `key` and `bit_index` represent the bits written so far; the rest is zero. -/
def Rep (s : List Nat × Nat) (bits : List Bool) : Prop :=
  s.1.length = 10 ∧ s.2 = bits.length ∧ (∀ j, bit s.1 j = bits.getD j false) ∧ ∀ b ∈ s.1, b < 256

theorem rep_init : Rep (List.replicate 10 0, 0) [] := by
  refine ⟨by simp, rfl, ?_, by simp⟩
  intro j
  have : (List.replicate 10 0).getD (j / 8) 0 = 0 := by
    rw [List.getD_eq_getElem?_getD, List.getElem?_replicate]
    split <;> rfl
  simp only [bit, this]
  simp

theorem rep_setBit {key : List Nat} {i : Nat} {bits : List Bool} (h : Rep (key, i) bits) (hi : i < 80) :
    ∃ key', setBit key i = some key' ∧ Rep (key', i + 1) (bits ++ [true]) := by
  obtain ⟨h1, h2, h3, h4⟩ := h
  simp only at h1 h2 h3 h4
  have hk : i / 8 < key.length := by omega
  refine ⟨_, by rw [setBit, dif_pos hk], by simp [h1], by simp [h2], ?_, ?_⟩
  · intro j
    simp only [bit]
    have hb := h3 j
    simp only [bit] at hb
    rw [List.getD_eq_getElem?_getD, List.getElem?_set] at *
    by_cases hj : j = i
    · subst hj
      rw [if_pos rfl, if_pos hk]
      simp [h2]
    · have hr : (bits ++ [true]).getD j false = bits.getD j false := by
        rw [List.getD_eq_getElem?_getD, List.getD_eq_getElem?_getD]
        by_cases hl : j < bits.length
        · rw [List.getElem?_append_left hl]
        · rw [List.getElem?_append_right (by omega), List.getElem?_eq_none (by omega : bits.length ≤ j),
            List.getElem?_eq_none (by simp; omega)]
      rw [hr, ← hb]
      by_cases hd : i / 8 = j / 8
      · rw [if_pos hd, if_pos hk]
        have hm : i % 8 ≠ j % 8 := by omega
        have : (1 <<< (i % 8)).testBit (j % 8) = false := by
          rw [Nat.one_shiftLeft, Nat.testBit_two_pow_of_ne hm]
        simp only [Option.getD_some, Nat.testBit_or, this, Bool.or_false]
        rw [List.getElem?_eq_getElem (by omega), Option.getD_some]
        simp only [hd]
      · rw [if_neg hd]
  · intro b hb
    rcases List.mem_or_eq_of_mem_set hb with hb | rfl
    · exact h4 b hb
    · refine Nat.or_lt_two_pow (n := 8) (h4 _ (List.getElem_mem hk)) ?_
      rw [Nat.one_shiftLeft]
      exact Nat.pow_lt_pow_right (by omega) (by omega)

theorem rep_writeOnes (n : Nat) : ∀ {s : List Nat × Nat} {bits : List Bool}, Rep s bits → bits.length + n ≤ 80 →
    ∃ s', writeOnes n s = some s' ∧ Rep s' (bits ++ List.replicate n true) := by
  induction n with
  | zero => intro s bits h _; exact ⟨s, rfl, by simpa using h⟩
  | succ n ih =>
    intro s bits h hl
    obtain ⟨key, i⟩ := s
    have hi : i = bits.length := h.2.1
    obtain ⟨key', e, h'⟩ := rep_setBit h (by omega)
    obtain ⟨s', e', h''⟩ := ih h' (by simp; omega)
    refine ⟨s', by rw [writeOnes, e]; exact e', ?_⟩
    rw [List.append_assoc] at h''
    exact h''

theorem rep_writeRun (n : Nat) {s : List Nat × Nat} {bits : List Bool} (h : Rep s bits) (hl : bits.length + n ≤ 80) :
    ∃ s', writeRun n s = some s' ∧ Rep s' (bits ++ runBits n) := by
  obtain ⟨s', e, h1, h2, h3, h4⟩ := rep_writeOnes n h hl
  refine ⟨(s'.1, s'.2 + 1), by rw [writeRun, e]; rfl, h1, ?_, ?_, h4⟩
  · simp only [runBits, ← List.append_assoc]
    rw [List.length_append, ← h2]; rfl
  · intro j
    rw [h3 j, runBits, ← List.append_assoc]
    generalize bits ++ List.replicate n true = l
    rw [List.getD_eq_getElem?_getD, List.getD_eq_getElem?_getD]
    by_cases hl : j < l.length
    · rw [List.getElem?_append_left hl]
    · rw [List.getElem?_append_right (by omega), List.getElem?_eq_none (by omega : l.length ≤ j)]
      cases hj : j - l.length <;> simp

theorem rep_writeRuns (f : Nat → Nat) (l : List Nat) : ∀ {s : List Nat × Nat} {bits : List Bool}, Rep s bits →
    bits.length + ((l.map f).flatMap runBits).length ≤ 80 →
    ∃ s', l.foldlM (fun s i => writeRun (f i) s) s = some s' ∧ Rep s' (bits ++ (l.map f).flatMap runBits) := by
  induction l with
  | nil => intro s bits h _; exact ⟨s, rfl, by simpa using h⟩
  | cons a l ih =>
    intro s bits h hl
    simp only [List.map_cons, List.flatMap_cons, List.length_append] at hl
    have hr : (runBits (f a)).length = f a + 1 := by simp [runBits]
    obtain ⟨s1, e1, h1⟩ := rep_writeRun (f a) h (by omega)
    obtain ⟨s2, e2, h2⟩ := ih h1 (by simp only [List.length_append]; omega)
    refine ⟨s2, by simp only [List.foldlM_cons, e1]; exact e2, ?_⟩
    simpa only [List.map_cons, List.flatMap_cons, List.append_assoc] using h2

theorem rep_keyBits {s : List Nat × Nat} {bits : List Bool} (h : Rep s bits) (hl : bits.length ≤ 80) :
    keyBits s.1 = bits ++ List.replicate (80 - bits.length) false := by
  obtain ⟨h1, h2, h3, h4⟩ := h
  rw [keyBits_eq, h1]
  apply List.ext_getElem
  · simp; omega
  · intro j hj hj'
    simp only [List.getElem_map, List.getElem_range, h3]
    by_cases hb : j < bits.length
    · rw [List.getElem_append_left hb]
      simp [List.getD_eq_getElem?_getD, hb]
    · rw [List.getElem_append_right (by omega)]
      simp [List.getD_eq_getElem?_getD, Nat.le_of_not_lt hb]

theorem flat_length (ns : List Nat) : (ns.flatMap runBits).length = ns.sum + ns.length := by
  induction ns with
  | nil => rfl
  | cons n ns ih => simp only [List.flatMap_cons, List.length_append, ih, List.sum_cons, List.length_cons, runBits,
      List.length_replicate]; simp; omega

/-! ### Reading the bits -/

/-- The number of ones before the `k`-th zero. -/
def onesBefore : Nat → List Bool → Nat
  | 0, _ => 0
  | _ + 1, [] => 0
  | k + 1, true :: r => onesBefore (k + 1) r + 1
  | k + 1, false :: r => onesBefore k r

theorem onesBefore_run (j n : Nat) (r : List Bool) : onesBefore (j + 1) (runBits n ++ r) = n + onesBefore j r := by
  induction n with
  | zero => simp [runBits, onesBefore]
  | succ n ih =>
    show onesBefore (j + 1) (true :: (runBits n ++ r)) = _
    rw [onesBefore, ih]; omega

theorem onesBefore_flat (ns : List Nat) (j : Nat) (r : List Bool) :
    onesBefore (ns.length + j) (ns.flatMap runBits ++ r) = ns.sum + onesBefore j r := by
  induction ns with
  | nil => simp
  | cons n ns ih =>
    rw [List.flatMap_cons, List.append_assoc, List.length_cons, show ns.length + 1 + j = ns.length + j + 1 by omega,
      onesBefore_run, ih, List.sum_cons]
    omega

theorem count_runBits (n : Nat) : (runBits n).count false = 1 ∧ (runBits n).count true = n := by
  simp [runBits, List.count_append, List.count_replicate]

theorem count_flat (ns : List Nat) : (ns.flatMap runBits).count false = ns.length ∧ (ns.flatMap runBits).count true = ns.sum := by
  induction ns with
  | nil => simp
  | cons n ns ih =>
    simp only [List.flatMap_cons, List.count_append, count_runBits, ih, List.length_cons, List.sum_cons, and_true]
    omega

theorem readRun_none {l : List Bool} (h : readRun l = none) : l.count false = 0 := by
  induction l with
  | nil => rfl
  | cons b l ih =>
    cases b
    · simp [readRun] at h
    · simp only [readRun, Option.map_eq_none_iff] at h
      simpa using ih h

theorem readRuns_none {k : Nat} {l : List Bool} (h : readRuns k l = none) : l.count false < k := by
  induction k generalizing l with
  | zero => simp [readRuns] at h
  | succ k ih =>
    rw [readRuns] at h
    cases h1 : readRun l with
    | none => have := readRun_none h1; omega
    | some t =>
      obtain ⟨n, r⟩ := t
      rw [h1] at h
      simp only [Option.bind_some, Option.map_eq_none_iff] at h
      have := ih h
      rw [readRun_some h1, List.count_append, (count_runBits n).1]
      omega

/-- The counts of `o` in the order of the bits: points 24..1, bar. -/
def oRuns {N : Nat} (p : Pos N) : List Nat := (List.range' 1 24).reverse.map (fun i => (-p.pip i).toNat) ++ [p.oBar]
/-- The counts of `x` in the order of the bits: points 1..24, bar. -/
def xRuns {N : Nat} (p : Pos N) : List Nat := (List.range' 1 24).map (fun i => (p.pip i).toNat) ++ [p.xBar]

theorem oRuns_length {N : Nat} (p : Pos N) : (oRuns p).length = 25 := by simp [oRuns]
theorem xRuns_length {N : Nat} (p : Pos N) : (xRuns p).length = 25 := by simp [xRuns]

theorem sum_range'_24 (f : Nat → Nat) : ((List.range' 1 24).map f).sum = ∑ j ∈ Finset.range 24, f (j + 1) := by
  have key : ∀ n, ((List.range' 1 n).map f).sum = ∑ j ∈ Finset.range n, f (j + 1) := by
    intro n
    induction n with
    | zero => rfl
    | succ n ih =>
      rw [List.range'_concat, List.map_append, List.sum_append, ih, Finset.sum_range_succ]
      simp [Nat.add_comm]
  exact key 24

theorem xRuns_sum {N : Nat} {p : Pos N} (h : p.view.x 0 = 0) : (xRuns p).sum = p.view.countX := by
  unfold xRuns Spec.Board.countX
  rw [List.sum_append, sum_range'_24, sum26, h]
  simp [Pos.view, Pos.xBar]

theorem oRuns_sum {N : Nat} {p : Pos N} (h : p.view.o 25 = 0) : (oRuns p).sum = p.view.countO := by
  unfold oRuns Spec.Board.countO
  rw [List.sum_append, List.map_reverse, List.sum_reverse, sum_range'_24, sum26, h]
  simp [Pos.view, Pos.oBar]
  omega

theorem getD_xRuns {N : Nat} (p : Pos N) (i : Nat) (h1 : 1 ≤ i) (h2 : i ≤ 25) : (xRuns p).getD (i - 1) 0 = (p.pip i).toNat := by
  unfold xRuns
  rw [List.getD_eq_getElem?_getD]
  by_cases h : i ≤ 24
  · rw [List.getElem?_append_left (by simp; omega)]
    simp only [List.getElem?_map, List.getElem?_range' (show i - 1 < 24 by omega), Option.map_some, Option.getD_some]
    congr 2; omega
  · obtain rfl : i = 25 := by omega
    simp [Pos.xBar]

theorem getD_oRuns {N : Nat} (p : Pos N) (i : Nat) (h2 : i ≤ 24) : (oRuns p).getD (24 - i) 0 = (-p.pip i).toNat := by
  unfold oRuns
  rw [List.getD_eq_getElem?_getD]
  by_cases h : 1 ≤ i
  · rw [List.getElem?_append_left (by simp; omega)]
    simp only [List.getElem?_map]
    rw [List.getElem?_reverse (by simp; omega)]
    simp only [List.length_range']
    rw [List.getElem?_range' (by omega)]
    simp only [Option.map_some, Option.getD_some]
    congr 3; omega
  · obtain rfl : i = 0 := by omega
    simp [Pos.oBar]

/-- `encode_key` writes the runs. -/
theorem encodeKey_bits {N : Nat} (p : Pos N) (h : (oRuns p).sum + (xRuns p).sum ≤ 30) :
    ∃ key, encodeKey p = some key ∧ key.length = 10 ∧ (∀ b ∈ key, b < 256) ∧
      keyBits key = (oRuns p).flatMap runBits ++ ((xRuns p).flatMap runBits ++
        List.replicate (30 - ((oRuns p).sum + (xRuns p).sum)) false) := by
  have lo := flat_length (oRuns p)
  have lx := flat_length (xRuns p)
  rw [oRuns_length] at lo
  rw [xRuns_length] at lx
  have eo : (oRuns p).flatMap runBits = ((List.range' 1 24).reverse.map (fun i => (-p.pip i).toNat)).flatMap runBits ++
      runBits p.oBar := by simp [oRuns, List.flatMap_append]
  have ex : (xRuns p).flatMap runBits = ((List.range' 1 24).map (fun i => (p.pip i).toNat)).flatMap runBits ++
      (List.replicate p.xBar true ++ [false]) := by simp [xRuns, List.flatMap_append, runBits]
  have lo' := lo
  have lx' := lx
  rw [eo, List.length_append] at lo'
  rw [ex, List.length_append, List.length_append, List.length_replicate] at lx'
  have rl : (runBits p.oBar).length = p.oBar + 1 := by simp [runBits]
  simp only [List.length_singleton] at lx'
  obtain ⟨s1, e1, r1⟩ := rep_writeRuns (fun i => (-p.pip i).toNat) (List.range' 1 24).reverse rep_init
    (by simp only [List.length_nil]; omega)
  obtain ⟨s2, e2, r2⟩ := rep_writeRun p.oBar r1 (by simp only [List.nil_append]; omega)
  rw [List.nil_append, ← eo] at r2
  obtain ⟨s3, e3, r3⟩ := rep_writeRuns (fun i => (p.pip i).toNat) (List.range' 1 24) r2 (by omega)
  obtain ⟨s4, e4, r4⟩ := rep_writeOnes p.xBar r3 (by simp only [List.length_append]; omega)
  have hk := rep_keyBits r4 (by simp only [List.length_append, List.length_replicate]; omega)
  refine ⟨s4.1, ?_, r4.1, r4.2.2.2, ?_⟩
  · unfold encodeKey
    rw [e1, Option.bind_some, e2, Option.bind_some, e3, Option.bind_some, e4, Option.map_some]
  · rw [hk, ex]
    simp only [List.append_assoc]
    have hz : ∀ k, [false] ++ List.replicate k false = List.replicate (k + 1) false := fun k => rfl
    rw [hz]
    have hlen : 80 - ((oRuns p).flatMap runBits ++ (((List.range' 1 24).map (fun i => (p.pip i).toNat)).flatMap runBits ++
        List.replicate p.xBar true)).length = 30 - ((oRuns p).sum + (xRuns p).sum) + 1 := by
      simp only [List.length_append, List.length_replicate]
      omega
    rw [hlen]

/-- The key determines the id, and the other way round. -/
theorem encode_of_key {N : Nat} {p : Pos N} {key : List Nat} (h : encodeKey p = some key) (hl : key.length = 10)
    (hb : ∀ b ∈ key, b < 256) :
    ∃ id, encode p = some id ∧ id.length = 14 ∧ b64Decode (id ++ ['=', '=']) = some key := by
  obtain ⟨t, ht, e⟩ := b64Encode_ten key hl
  refine ⟨t, ?_, ht, ?_⟩
  · rw [encode, h, Option.map_some, e, ← ht]
    simp
  · rw [← e]; exact b64Decode_encode key hb

theorem keyBits_inj {k l : List Nat} (hk : ∀ b ∈ k, b < 256) (hl : ∀ b ∈ l, b < 256) (hlen : k.length = l.length)
    (h : keyBits k = keyBits l) : k = l := by
  induction k generalizing l with
  | nil => cases l with
    | nil => rfl
    | cons _ _ => simp at hlen
  | cons a k ih =>
    cases l with
    | nil => simp at hlen
    | cons b l =>
      have h' : (List.range 8).map a.testBit ++ keyBits k = (List.range 8).map b.testBit ++ keyBits l := h
      obtain ⟨h1, h2⟩ := List.append_inj h' (by simp)
      have hab : a = b := by
        apply Nat.eq_of_testBit_eq
        intro i
        by_cases hi : i < 8
        · have := List.map_inj_left.1 h1 i (List.mem_range.2 hi)
          exact this
        · rw [Nat.testBit_lt_two_pow (Nat.lt_of_lt_of_le (hk a (by simp)) (Nat.pow_le_pow_right (n := 2) (by omega) (by omega : 8 ≤ i))),
            Nat.testBit_lt_two_pow (Nat.lt_of_lt_of_le (hl b (by simp)) (Nat.pow_le_pow_right (n := 2) (by omega) (by omega : 8 ≤ i)))]
      rw [hab, ih (fun x hx => hk x (by simp [hx])) (fun x hx => hl x (by simp [hx])) (by simpa using hlen) h2]

end GnuId
end Bkgm
