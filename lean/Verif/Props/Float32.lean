import Verif.Model.Float32
import Verif.Props.Dice
import Mathlib.Order.Interval.Finset.Nat
/-!
# C68: `choose_index` picks with the given chances
-/

namespace Bkgm.F32

/-- A finite non-negative `f32` value: `m * 2^k` with `m < 2^24` and `k ≥ -149`. -/
def IsF32 (x : ℚ) : Prop := ∃ (m : Nat) (k : ℤ), m < 2 ^ 24 ∧ -149 ≤ k ∧ x = m * 2 ^ k

theorem roundEven_near (y : ℚ) : |(roundEven y : ℚ) - y| ≤ 1 / 2 := by
  have h1 := Int.floor_le y
  have h2 := Int.lt_floor_add_one y
  unfold roundEven
  rw [abs_le]
  split_ifs <;> push_cast <;> constructor <;> linarith

theorem roundEven_int (n : ℤ) : roundEven (n : ℚ) = n := by
  unfold roundEven
  simp

theorem le_roundEven {n : ℤ} {y : ℚ} (h : (n : ℚ) ≤ y) : n ≤ roundEven y := by
  have : n ≤ ⌊y⌋ := Int.le_floor.mpr h
  unfold roundEven
  split_ifs <;> omega

theorem pow_pos' (k : ℤ) : (0 : ℚ) < 2 ^ k := zpow_pos (by norm_num) k

theorem fl_zero : fl 0 = 0 := by
  unfold fl roundEven; simp

/-- The distance to the nearest `f32`. -/
theorem fl_near {x : ℚ} (hx : 0 ≤ x) : |fl x - x| ≤ 2⁻¹ ^ 24 * max x (2⁻¹ ^ 126) := by
  have hp := pow_pos' (place x)
  have h1 : |fl x - x| ≤ 1 / 2 * 2 ^ place x := by
    have h := roundEven_near (x / 2 ^ place x)
    have e : fl x - x = ((roundEven (x / 2 ^ place x) : ℚ) - x / 2 ^ place x) * 2 ^ place x := by
      unfold fl; field_simp
    rw [e, abs_mul, abs_of_pos hp]
    exact mul_le_mul_of_nonneg_right h hp.le
  rcases eq_or_lt_of_le hx with rfl | hx
  · rw [fl_zero]; norm_num
  · refine h1.trans ?_
    have h2 := Int.zpow_log_le_self (b := 2) (by norm_num) hx
    unfold place
    rcases le_total (Int.log 2 x - 23) (-149) with h | h
    · rw [max_eq_right h]
      refine le_trans ?_ (mul_le_mul_of_nonneg_left (le_max_right x _) (by positivity))
      norm_num
    · rw [max_eq_left h]
      refine le_trans ?_ (mul_le_mul_of_nonneg_left (le_max_left x _) (by positivity))
      have : (2 : ℚ) ^ (Int.log 2 x - 23) = 2 ^ Int.log 2 x * 2⁻¹ ^ 23 := by
        rw [zpow_sub₀ (by norm_num)]
        norm_num [div_eq_mul_inv]
      rw [this]
      have e : (1 : ℚ) / 2 * (2 ^ Int.log 2 x * 2⁻¹ ^ 23) = 2⁻¹ ^ 24 * 2 ^ Int.log 2 x := by ring
      rw [e]
      exact mul_le_mul_of_nonneg_left (by exact_mod_cast h2) (by positivity)

/-- An `f32` below `x` is below the rounded `x`. -/
theorem le_fl {z x : ℚ} (hz : IsF32 z) (hx : 0 < x) (h : z ≤ x) : z ≤ fl x := by
  have hp := pow_pos' (place x)
  -- a multiple of the last place below `x`
  have grid : ∀ n : ℤ, (n : ℚ) * 2 ^ place x ≤ x → (n : ℚ) * 2 ^ place x ≤ fl x := by
    intro n hn
    unfold fl
    refine mul_le_mul_of_nonneg_right ?_ hp.le
    have : (n : ℚ) ≤ x / 2 ^ place x := by rwa [le_div_iff₀ hp]
    exact_mod_cast le_roundEven this
  obtain ⟨m, k, hm, hk, rfl⟩ := hz
  by_cases hkp : place x ≤ k
  · -- on the grid
    obtain ⟨d, rfl⟩ : ∃ d : Nat, k = place x + d := ⟨(k - place x).toNat, by omega⟩
    have e : (m : ℚ) * 2 ^ (place x + d) = ((m * 2 ^ d : ℤ) : ℚ) * 2 ^ place x := by
      rw [zpow_add₀ (by norm_num)]
      push_cast
      rw [zpow_natCast]
      ring
    rw [e] at h ⊢
    exact grid _ h
  · -- below the power of two under `x`
    have hkp : k < place x := not_le.mp hkp
    have hlog : place x = Int.log 2 x - 23 := by
      unfold place at hkp ⊢
      rcases le_total (Int.log 2 x - 23) (-149) with h | h
      · rw [max_eq_right h] at hkp; omega
      · rw [max_eq_left h]
    have h2 := Int.zpow_log_le_self (b := 2) (by norm_num) hx
    have e : (((2 : ℤ) ^ 23 : ℤ) : ℚ) * 2 ^ place x = 2 ^ Int.log 2 x := by
      rw [hlog, zpow_sub₀ (by norm_num)]
      norm_num
      field_simp
    have h3 := grid (2 ^ 23) (by rw [e]; exact_mod_cast h2)
    rw [e] at h3
    refine le_trans ?_ h3
    have h4 : (m : ℚ) * 2 ^ k ≤ 2 ^ 24 * 2 ^ (place x - 1) := by
      have a : (m : ℚ) ≤ 2 ^ 24 := by exact_mod_cast hm.le
      have b : (2 : ℚ) ^ k ≤ 2 ^ (place x - 1) := zpow_le_zpow_right₀ (by norm_num) (by omega)
      exact mul_le_mul a b (pow_pos' k).le (by positivity)
    refine h4.trans (le_of_eq ?_)
    rw [hlog, show Int.log 2 x - 23 - 1 = Int.log 2 x - 24 by ring, zpow_sub₀ (by norm_num)]
    norm_num
    field_simp

/-- An `f32` is not changed by rounding. -/
theorem fl_self {x : ℚ} (hx : IsF32 x) : fl x = x := by
  have hx0 : 0 ≤ x := by
    obtain ⟨m, k, -, -, rfl⟩ := hx
    have := pow_pos' k
    positivity
  rcases eq_or_lt_of_le hx0 with rfl | hpos
  · exact fl_zero
  have hp := pow_pos' (place x)
  have h2 := Int.zpow_log_le_self (b := 2) (by norm_num) hpos
  have : ∃ n : ℤ, x = n * 2 ^ place x := by
    obtain ⟨m, k, hm, hk, e⟩ := hx
    by_cases hkp : place x ≤ k
    · refine ⟨m * 2 ^ (k - place x).toNat, ?_⟩
      have : (2 : ℚ) ^ k = 2 ^ (k - place x).toNat * 2 ^ place x := by
        rw [← zpow_natCast, ← zpow_add₀ (by norm_num)]
        congr 1; omega
      conv_lhs => rw [e, this]
      push_cast
      ring
    · exfalso
      have hkp : k < place x := not_le.mp hkp
      have hlog : place x = Int.log 2 x - 23 := by
        unfold place at hkp ⊢
        rcases le_total (Int.log 2 x - 23) (-149) with h | h
        · rw [max_eq_right h] at hkp; omega
        · rw [max_eq_left h]
      have h4 : x < 2 ^ 24 * 2 ^ (place x - 1) := by
        have a : (m : ℚ) < 2 ^ 24 := by exact_mod_cast hm
        have b : (2 : ℚ) ^ k ≤ 2 ^ (place x - 1) := zpow_le_zpow_right₀ (by norm_num) (by omega)
        conv_lhs => rw [e]
        exact mul_lt_mul a b (pow_pos' k) (by positivity)
      have e2 : (2 : ℚ) ^ 24 * 2 ^ (place x - 1) = 2 ^ Int.log 2 x := by
        rw [hlog, show Int.log 2 x - 23 - 1 = Int.log 2 x - 24 by ring, zpow_sub₀ (by norm_num)]
        norm_num
        field_simp
      rw [e2] at h4
      have h2' : (2 : ℚ) ^ Int.log 2 x ≤ x := by exact_mod_cast h2
      linarith
  obtain ⟨n, e⟩ := this
  have hdiv : x / 2 ^ place x = n := by
    rw [div_eq_iff hp.ne']; exact e
  unfold fl
  rw [hdiv, roundEven_int]
  exact e.symm

/-- Rounding gives an `f32`. -/
theorem fl_isF32 {x : ℚ} (hx : 0 ≤ x) : IsF32 (fl x) := by
  rcases eq_or_lt_of_le hx with rfl | hpos
  · rw [fl_zero]; exact ⟨0, 0, by norm_num, by norm_num, by norm_num⟩
  have hp := pow_pos' (place x)
  have hk : -149 ≤ place x := le_max_right _ _
  have h0 : 0 ≤ roundEven (x / 2 ^ place x) := le_roundEven (by push_cast; positivity)
  have hlt : x < 2 ^ (place x + 24) := by
    have h3 := Int.lt_zpow_succ_log_self (b := 2) (by norm_num) x
    have h3' : x < (2 : ℚ) ^ (Int.log 2 x + 1) := by exact_mod_cast h3
    refine lt_of_lt_of_le h3' (zpow_le_zpow_right₀ (by norm_num) ?_)
    have : Int.log 2 x - 23 ≤ place x := le_max_left _ _
    omega
  have hle : roundEven (x / 2 ^ place x) ≤ 2 ^ 24 := by
    have h1 : x / 2 ^ place x < 2 ^ 24 := by
      rw [div_lt_iff₀ hp]
      rw [zpow_add₀ (by norm_num)] at hlt
      calc x < 2 ^ place x * 2 ^ (24 : ℤ) := hlt
        _ = 2 ^ 24 * 2 ^ place x := by rw [mul_comm]; norm_cast
    have h2 : ⌊x / 2 ^ place x⌋ < 2 ^ 24 := by
      rw [Int.floor_lt]; push_cast; exact h1
    unfold roundEven
    split_ifs <;> omega
  rcases eq_or_lt_of_le hle with h | h
  · refine ⟨2 ^ 23, place x + 1, by norm_num, by omega, ?_⟩
    unfold fl
    rw [h, zpow_add₀ (by norm_num)]
    push_cast
    ring
  · refine ⟨(roundEven (x / 2 ^ place x)).toNat, place x, by omega, hk, ?_⟩
    unfold fl
    congr 1
    exact_mod_cast (Int.toNat_of_nonneg h0).symm

/-! ## Counting -/

theorem count_interval {M : Nat} {T ε : ℚ} (hT : 0 < T) (hM : 0 < M) (hε : 0 ≤ ε) {thr : Nat → ℚ}
    (hthr : ∀ r, r < M → |thr r - r * T / M| ≤ ε * T / M) {A B : ℚ} (hA : 0 ≤ A) (hAB : A ≤ B) (hB : B ≤ T) :
    |((((Finset.range M).filter fun r => A ≤ thr r ∧ thr r < B).card : Nat) : ℚ) - (B - A) * M / T| ≤ 1 + 2 * ε := by
  have hM' : (0 : ℚ) < M := by exact_mod_cast hM
  have lo : ∀ r, r < M → (r - ε) * T / M ≤ thr r := fun r hr => by
    have := (abs_le.mp (hthr r hr)).1
    have e : (r - ε) * T / M = r * T / M - ε * T / M := by ring
    rw [e]; linarith
  have hi : ∀ r, r < M → thr r ≤ (r + ε) * T / M := fun r hr => by
    have := (abs_le.mp (hthr r hr)).2
    have e : (r + ε) * T / M = r * T / M + ε * T / M := by ring
    rw [e]; linarith
  have ab : (B - A) * M / T = B * M / T - A * M / T := by ring
  rw [ab]
  set a := A * M / T with ha
  set b := B * M / T with hb
  have hab : a ≤ b := by
    rw [ha, hb]; exact div_le_div_of_nonneg_right (mul_le_mul_of_nonneg_right hAB hM'.le) hT.le
  have ha0 : 0 ≤ a := by rw [ha]; positivity
  have hbM : b ≤ M := by
    rw [hb, div_le_iff₀ hT, mul_comm]; exact mul_le_mul_of_nonneg_left hB hM'.le
  have cA : ∀ x : ℚ, A ≤ x * T / M ↔ a ≤ x := fun x => by
    rw [ha, le_div_iff₀ hM', div_le_iff₀ hT]
  have cB : ∀ x : ℚ, x * T / M < B ↔ x < b := fun x => by
    rw [hb, div_lt_iff₀ hM', lt_div_iff₀ hT]
  have up : ((Finset.range M).filter fun r => A ≤ thr r ∧ thr r < B) ⊆ Finset.Ico ⌈a - ε⌉₊ ⌈b + ε⌉₊ := by
    intro r hr
    simp only [Finset.mem_filter, Finset.mem_range] at hr
    obtain ⟨hr, h1, h2⟩ := hr
    rw [Finset.mem_Ico, Nat.ceil_le, Nat.lt_ceil]
    have := (cA _).mp (h1.trans (hi r hr))
    have := (cB _).mp (lt_of_le_of_lt (lo r hr) h2)
    constructor <;> linarith
  have down : Finset.Ico ⌈a + ε⌉₊ ⌈b - ε⌉₊ ⊆ ((Finset.range M).filter fun r => A ≤ thr r ∧ thr r < B) := by
    intro r hr
    rw [Finset.mem_Ico, Nat.ceil_le, Nat.lt_ceil] at hr
    simp only [Finset.mem_filter, Finset.mem_range]
    have hrM : r < M := by
      have : (r : ℚ) < M := by linarith
      exact_mod_cast this
    refine ⟨hrM, ((cA _).mpr ?_).trans (lo r hrM), lt_of_le_of_lt (hi r hrM) ((cB _).mpr ?_)⟩ <;> linarith
  have cu := Finset.card_le_card up
  have cd := Finset.card_le_card down
  rw [Nat.card_Ico] at cu cd
  set c := ((Finset.range M).filter fun r => A ≤ thr r ∧ thr r < B).card
  have n1 := Nat.le_ceil (a - ε)
  have n2 : (⌈b + ε⌉₊ : ℚ) < b + ε + 1 := Nat.ceil_lt_add_one (by linarith)
  have n3 : (⌈a + ε⌉₊ : ℚ) < a + ε + 1 := Nat.ceil_lt_add_one (by linarith)
  have n4 := Nat.le_ceil (b - ε)
  have q1 : (c : ℚ) ≤ b - a + 2 * ε + 1 := by
    by_cases h : ⌈a - ε⌉₊ ≤ ⌈b + ε⌉₊
    · have : (c : ℚ) ≤ (⌈b + ε⌉₊ : ℚ) - ⌈a - ε⌉₊ := by
        have : c + ⌈a - ε⌉₊ ≤ ⌈b + ε⌉₊ := by omega
        have : ((c + ⌈a - ε⌉₊ : Nat) : ℚ) ≤ (⌈b + ε⌉₊ : Nat) := by exact_mod_cast this
        push_cast at this; linarith
      linarith
    · have : c = 0 := by omega
      rw [this]; push_cast; linarith
  have q2 : b - a - 2 * ε - 1 ≤ (c : ℚ) := by
    have : ⌈b - ε⌉₊ ≤ c + ⌈a + ε⌉₊ := by omega
    have : ((⌈b - ε⌉₊ : Nat) : ℚ) ≤ ((c + ⌈a + ε⌉₊ : Nat) : ℚ) := by exact_mod_cast this
    push_cast at this; linarith
  rw [abs_le]; constructor <;> linarith

/-- The chosen index, when the sums grow and the threshold lies between 0 and the last of them. -/
theorem choose_iff {chances : List ℚ} {thr : ℚ} {S : Nat → ℚ} (hS : ∀ k, S k = partialSum 0 add chances k)
    (h0 : 0 ≤ thr) (hn : thr < S chances.length) (hmono : ∀ j k, j ≤ k → k ≤ chances.length → S j ≤ S k) (i : Nat) :
    Bkgm.chooseIndex 0 add (fun a b => decide (a > b)) thr chances = some i ↔ i < chances.length ∧ S i ≤ thr ∧ thr < S (i + 1) := by
  have hS0 : S 0 = 0 := by rw [hS]; rfl
  have hne : chances ≠ [] := by
    rintro rfl
    rw [hS] at hn
    exact absurd h0 (not_le.mpr hn)
  obtain ⟨j, hj, hlt, hbefore, hafter⟩ := (C45_choose_index 0 add (fun a b => decide (a > b)) thr chances).1 hne
  have p1 : S j ≤ thr := by
    cases j with
    | zero => rw [hS0]; exact h0
    | succ j =>
      have := hbefore j (by omega)
      rw [hS]
      simpa using this
  have p2 : thr < S (j + 1) := by
    rcases hafter with h | h
    · rw [hS]; simpa using h
    · rw [h]; exact hn
  rw [hj]
  constructor
  · intro h
    obtain rfl := Option.some.inj h
    exact ⟨hlt, p1, p2⟩
  · rintro ⟨hi, q1, q2⟩
    congr 1
    rcases lt_trichotomy j i with h | h | h
    · have := hmono (j + 1) i (by omega) (by omega)
      linarith
    · exact h
    · have := hmono (i + 1) j (by omega) (by omega)
      linarith

/-! ## The sums and the threshold -/

section
variable {chances : List ℚ}

theorem isF32_nonneg {x : ℚ} (h : IsF32 x) : 0 ≤ x := by
  obtain ⟨m, k, -, -, rfl⟩ := h
  have := pow_pos' k
  positivity

theorem fl_nonneg {x : ℚ} (hx : 0 ≤ x) : 0 ≤ fl x := isF32_nonneg (fl_isF32 hx)

theorem le_add {a b : ℚ} (ha : IsF32 a) (hb : 0 ≤ b) : a ≤ add a b := by
  unfold add
  have h0 := isF32_nonneg ha
  rcases eq_or_lt_of_le (add_nonneg h0 hb) with h | h
  · rw [← h, fl_zero]; linarith
  · exact le_fl ha h (by linarith)

theorem partialSum_succ {k : Nat} (hk : k < chances.length) :
    partialSum 0 add chances (k + 1) = add (partialSum 0 add chances k) chances[k] := by
  unfold partialSum
  rw [List.take_succ_eq_append_getElem hk, List.foldl_append]
  rfl

theorem partialSum_isF32 (h : ∀ c ∈ chances, IsF32 c) : ∀ k, k ≤ chances.length → IsF32 (partialSum 0 add chances k)
  | 0, _ => ⟨0, 0, by norm_num, by norm_num, by simp [partialSum]⟩
  | k + 1, hk => by
    rw [partialSum_succ (by omega)]
    exact fl_isF32 (add_nonneg (isF32_nonneg (partialSum_isF32 h k (by omega))) (isF32_nonneg (h _ (List.getElem_mem _))))

theorem partialSum_mono (h : ∀ c ∈ chances, IsF32 c) (j k : Nat) (hjk : j ≤ k) (hk : k ≤ chances.length) :
    partialSum 0 add chances j ≤ partialSum 0 add chances k := by
  induction k with
  | zero => rw [Nat.le_zero.mp hjk]
  | succ k ih =>
    rcases Nat.lt_or_ge k j with h1 | h1
    · rw [show j = k + 1 by omega]
    · refine (ih h1 (by omega)).trans ?_
      rw [partialSum_succ (by omega)]
      exact le_add (partialSum_isF32 h k (by omega)) (isF32_nonneg (h _ (List.getElem_mem _)))

theorem partialSum_all : partialSum 0 add chances chances.length = sum chances := by
  unfold partialSum sum
  rw [List.take_length]

theorem threshold_near (hT : 2⁻¹ ^ 106 ≤ sum chances) (r : Nat) (hr : r < 1000000) :
    |threshold chances r - r * sum chances / (1000000 : Nat)| ≤ (12 / 100) * sum chances / (1000000 : Nat) ∧ 0 ≤ threshold chances r := by
  push_cast
  unfold threshold
  set T := sum chances
  have hT0 : 0 < T := lt_of_lt_of_le (by positivity) hT
  have hq : (2⁻¹ : ℚ) ^ 126 ≤ T / 1000000 := by
    rw [le_div_iff₀ (by norm_num)]
    refine le_trans ?_ hT
    norm_num
  have hd := fl_near (x := T / 1000000) (by positivity)
  rw [max_eq_left hq] at hd
  have hdl : (2⁻¹ : ℚ) ^ 126 ≤ fl (T / 1000000) :=
    le_fl ⟨1, -126, by norm_num, by norm_num, by norm_num⟩ (by positivity) hq
  set d := fl (T / 1000000)
  have hd0 : 0 ≤ d := le_trans (by positivity) hdl
  refine ⟨?_, fl_nonneg (by positivity)⟩
  have hr' : (r : ℚ) ≤ 1000000 := by exact_mod_cast hr.le
  have hr0 : (0 : ℚ) ≤ r := by positivity
  have hm : |fl (d * r) - d * r| ≤ 2⁻¹ ^ 24 * (d * r) := by
    rcases Nat.eq_zero_or_pos r with h0 | h0
    · rw [h0]; norm_num [fl_zero]
    · have h1 : (1 : ℚ) ≤ r := by exact_mod_cast h0
      have := fl_near (x := d * r) (by positivity)
      rwa [max_eq_left (by nlinarith)] at this
  have e1 := abs_le.mp hd
  have e2 := abs_le.mp hm
  set q := T / 1000000
  have hq0 : 0 < q := by positivity
  have er : (r : ℚ) * T / 1000000 = q * r := by simp only [q]; ring
  have ee : 12 / 100 * T / 1000000 = 12 / 100 * q := by simp only [q]; ring
  rw [er, ee]
  have u1 : d * r ≤ q * r + 2⁻¹ ^ 24 * q * 1000000 := by
    have a : d * r ≤ (q + 2⁻¹ ^ 24 * q) * r := mul_le_mul_of_nonneg_right (by linarith) hr0
    have b : 2⁻¹ ^ 24 * q * r ≤ 2⁻¹ ^ 24 * q * 1000000 := mul_le_mul_of_nonneg_left hr' (by positivity)
    nlinarith
  have u2 : q * r - 2⁻¹ ^ 24 * q * 1000000 ≤ d * r := by
    have a : (q - 2⁻¹ ^ 24 * q) * r ≤ d * r := mul_le_mul_of_nonneg_right (by linarith) hr0
    have b : 2⁻¹ ^ 24 * q * r ≤ 2⁻¹ ^ 24 * q * 1000000 := mul_le_mul_of_nonneg_left hr' (by positivity)
    nlinarith
  have u3 : d * r ≤ (q + 2⁻¹ ^ 24 * q) * 1000000 := mul_le_mul (by linarith) hr' hr0 (by positivity)
  rw [abs_le]
  constructor <;> nlinarith

theorem threshold_lt (hT : 2⁻¹ ^ 106 ≤ sum chances) (r : Nat) (hr : r < 1000000) : threshold chances r < sum chances := by
  have h := (abs_le.mp (threshold_near hT r hr).1).2
  push_cast at h
  have hT0 : 0 < sum chances := lt_of_lt_of_le (by positivity) hT
  have hr' : (r : ℚ) ≤ 999999 := by exact_mod_cast Nat.lt_succ_iff.mp hr
  have : (r : ℚ) * sum chances / 1000000 ≤ 999999 * sum chances / 1000000 :=
    div_le_div_of_nonneg_right (mul_le_mul_of_nonneg_right hr' hT0.le) (by norm_num)
  linarith

end

/-- **C68** If the `f32` sum of the chances is finite then no operation of `choose_index` overflows: every intermediate value is at most that
sum. -/
theorem C68_no_overflow (chances : List ℚ) (h : ∀ c ∈ chances, IsF32 c) (hT : 2⁻¹ ^ 106 ≤ sum chances) :
    (∀ k, k ≤ chances.length → partialSum 0 add chances k ≤ sum chances) ∧ fl (sum chances / 1000000) ≤ sum chances ∧
    ∀ r, r < 1000000 → threshold chances r < sum chances := by
  refine ⟨fun k hk => ?_, ?_, threshold_lt hT⟩
  · rw [← partialSum_all]; exact partialSum_mono h k _ hk le_rfl
  · have hT0 : 0 < sum chances := lt_of_lt_of_le (by positivity) hT
    have hq : (2⁻¹ : ℚ) ^ 126 ≤ sum chances / 1000000 := by
      rw [le_div_iff₀ (by norm_num)]
      refine le_trans ?_ hT
      norm_num
    have hd := fl_near (x := sum chances / 1000000) (by positivity)
    rw [max_eq_left hq] at hd
    have := (abs_le.mp hd).2
    have e : sum chances / 1000000 ≤ 1 / 2 * sum chances := by linarith
    nlinarith

example := F32.C68_no_overflow [1 / 4, 0, 3 / 4] (by
  intro c hc
  simp only [List.mem_cons, List.not_mem_nil, or_false] at hc
  rcases hc with rfl | rfl | rfl
  · exact ⟨1, -2, by norm_num, by norm_num, by norm_num⟩
  · exact ⟨0, 0, by norm_num, by norm_num, by norm_num⟩
  · exact ⟨3, -2, by norm_num, by norm_num, by norm_num⟩) (by decide +kernel)

/-- **C68** An index with chance zero is never chosen. -/
theorem C68_zero_chance (chances : List ℚ) (h : ∀ c ∈ chances, IsF32 c) (hT : 2⁻¹ ^ 106 ≤ sum chances) (r : Nat) (hr : r < 1000000) :
    ∃ i c, chooseIndex chances r = some i ∧ chances[i]? = some c ∧ 0 < c := by
  have hne : chances ≠ [] := by
    rintro rfl
    have : sum [] = 0 := rfl
    rw [this] at hT
    norm_num at hT
  obtain ⟨i, hi, hlt, -, -⟩ := (C45_choose_index 0 add (fun a b => decide (a > b)) (threshold chances r) chances).1 hne
  have hc := (choose_iff (fun k => rfl) (threshold_near hT r hr).2 (by rw [partialSum_all]; exact threshold_lt hT r hr)
    (partialSum_mono h) i).mp hi
  refine ⟨i, chances[i], hi, List.getElem?_eq_getElem hlt, ?_⟩
  refine lt_of_le_of_ne (isF32_nonneg (h _ (List.getElem_mem hlt))) fun h0 => ?_
  have h1 := hc.2.2
  rw [partialSum_succ hlt, ← h0, add, add_zero, fl_self (partialSum_isF32 h i hlt.le)] at h1
  linarith [hc.2.1]

/-- **C68** Every index is chosen in proportion to its chance: of the million values of the random number, the number that leads to
index `i` differs from `1000000 * chances[i] / sum` by less than 3/2. -/
theorem C68_proportional (chances : List ℚ) (h : ∀ c ∈ chances, IsF32 c) (hT : 2⁻¹ ^ 106 ≤ sum chances) (i : Nat) (c : ℚ)
    (hc : chances[i]? = some c) :
    |((((Finset.range 1000000).filter fun r => chooseIndex chances r = some i).card : Nat) : ℚ) - 1000000 * c / sum chances| < 3 / 2 := by
  have hT0 : 0 < sum chances := lt_of_lt_of_le (by positivity) hT
  obtain ⟨hlt, hci⟩ := List.getElem?_eq_some_iff.mp hc
  have e : ((Finset.range 1000000).filter fun r => chooseIndex chances r = some i) =
      ((Finset.range 1000000).filter fun r => partialSum 0 add chances i ≤ threshold chances r ∧
        threshold chances r < partialSum 0 add chances (i + 1)) := by
    refine Finset.filter_congr fun r hr => ?_
    have hr := Finset.mem_range.mp hr
    have := choose_iff (chances := chances) (fun k => rfl) (threshold_near hT r hr).2 (by rw [partialSum_all]; exact threshold_lt hT r hr)
      (partialSum_mono h) i
    unfold chooseIndex
    rw [this]
    simp [hlt]
  rw [e]
  have hS := partialSum_isF32 h i hlt.le
  have hS0 := isF32_nonneg hS
  have hc0 : 0 ≤ c := by rw [← hci]; exact isF32_nonneg (h _ (List.getElem_mem hlt))
  have hB : partialSum 0 add chances (i + 1) ≤ sum chances := by
    rw [← partialSum_all]; exact partialSum_mono h _ _ (by omega) le_rfl
  have hAB := partialSum_mono h i (i + 1) (by omega) (by omega)
  have key := count_interval hT0 (by norm_num : 0 < 1000000) (by norm_num : (0 : ℚ) ≤ 12 / 100) (fun r hr => (threshold_near hT r hr).1) hS0 hAB hB
  have hstep : partialSum 0 add chances (i + 1) = fl (partialSum 0 add chances i + c) := by
    rw [partialSum_succ hlt, hci]; rfl
  have hn := fl_near (x := partialSum 0 add chances i + c) (by positivity)
  rw [← hstep] at hn
  set A := partialSum 0 add chances i
  set B := partialSum 0 add chances (i + 1)
  set T := sum chances
  have hmax : max (A + c) (2⁻¹ ^ 126) ≤ 2 * T := by
    refine max_le ?_ (le_trans ?_ (le_trans hT (by linarith)))
    · have h1 := (abs_le.mp hn).1
      have h2 : max (A + c) (2⁻¹ ^ 126) ≤ A + c + 2⁻¹ ^ 126 := max_le (by linarith [show (0 : ℚ) ≤ 2⁻¹ ^ 126 by positivity]) (by linarith)
      have h3 : (2⁻¹ : ℚ) ^ 126 ≤ T := le_trans (by norm_num) hT
      nlinarith
    · norm_num
  have hd : |B - A - c| ≤ 2⁻¹ ^ 23 * T := by
    have e : B - A - c = B - (A + c) := by ring
    rw [e]
    refine hn.trans ((mul_le_mul_of_nonneg_left hmax (by positivity)).trans (le_of_eq ?_))
    ring
  have hd2 : |(B - A) * (1000000 : Nat) / T - 1000000 * c / T| ≤ 1 / 8 := by
    have e : (B - A) * (1000000 : Nat) / T - 1000000 * c / T = (B - A - c) * (1000000 / T) := by push_cast; ring
    rw [e, abs_mul, abs_of_pos (show (0 : ℚ) < 1000000 / T by positivity)]
    refine (mul_le_mul_of_nonneg_right hd (by positivity)).trans ?_
    rw [show 2⁻¹ ^ 23 * T * (1000000 / T) = 2⁻¹ ^ 23 * 1000000 by field_simp]
    norm_num
  have a1 := abs_le.mp key
  have a2 := abs_le.mp hd2
  rw [abs_lt]
  constructor <;> linarith

/-- **C68** The `f32` sum in the denominator is the true sum up to a relative error of `2^-23` per summand. -/
theorem C68_sum (chances : List ℚ) (h : ∀ c ∈ chances, IsF32 c) (hT : 2⁻¹ ^ 106 ≤ sum chances) :
    |sum chances - chances.sum| ≤ chances.length * (2⁻¹ ^ 23 * sum chances) := by
  have hT0 : 0 < sum chances := lt_of_lt_of_le (by positivity) hT
  have key : ∀ k, k ≤ chances.length → |partialSum 0 add chances k - (chances.take k).sum| ≤ k * (2⁻¹ ^ 23 * sum chances) := by
    intro k
    induction k with
    | zero => intro _; simp [partialSum]
    | succ k ih =>
      intro hk
      have hlt : k < chances.length := by omega
      have ih := ih hlt.le
      have hS0 := isF32_nonneg (partialSum_isF32 h k hlt.le)
      have hc0 := isF32_nonneg (h _ (List.getElem_mem hlt))
      have hB : partialSum 0 add chances (k + 1) ≤ sum chances := by
        rw [← partialSum_all]; exact partialSum_mono h _ _ hk le_rfl
      have hstep : partialSum 0 add chances (k + 1) = fl (partialSum 0 add chances k + chances[k]) := partialSum_succ hlt
      have hn := fl_near (x := partialSum 0 add chances k + chances[k]) (by positivity)
      rw [← hstep] at hn
      rw [List.take_succ_eq_append_getElem hlt, List.sum_append, List.sum_singleton]
      set A := partialSum 0 add chances k
      set B := partialSum 0 add chances (k + 1)
      set c := chances[k]
      set T := sum chances
      have hmax : max (A + c) (2⁻¹ ^ 126) ≤ 2 * T := by
        refine max_le ?_ (le_trans ?_ (le_trans hT (by linarith)))
        · have h1 := (abs_le.mp hn).1
          have h2 : max (A + c) (2⁻¹ ^ 126) ≤ A + c + 2⁻¹ ^ 126 := max_le (by linarith [show (0 : ℚ) ≤ 2⁻¹ ^ 126 by positivity]) (by linarith)
          have h3 : (2⁻¹ : ℚ) ^ 126 ≤ T := le_trans (by norm_num) hT
          nlinarith
        · norm_num
      have hd : |B - (A + c)| ≤ 2⁻¹ ^ 23 * T := by
        refine hn.trans ((mul_le_mul_of_nonneg_left hmax (by positivity)).trans (le_of_eq ?_))
        ring
      have a1 := abs_le.mp hd
      have a2 := abs_le.mp ih
      push_cast
      rw [abs_le]
      constructor <;> linarith
  have := key chances.length le_rfl
  rwa [partialSum_all, List.take_length] at this

/-- **C68** The lower bound on the sum is needed: with the chances `600000 * 2^-149` and `0` (both are `f32`s) the second index, whose
chance is zero, is chosen for the random number 700000. -/
theorem C68_subnormal_counterexample :
    (∀ c ∈ [600000 / 2 ^ 149, (0 : ℚ)], IsF32 c) ∧ chooseIndex [600000 / 2 ^ 149, 0] 700000 = some 1 := by
  refine ⟨?_, by decide +kernel⟩
  intro c hc
  simp only [List.mem_cons, List.not_mem_nil, or_false] at hc
  rcases hc with rfl | rfl
  · exact ⟨600000, -149, by norm_num, by norm_num, by norm_num⟩
  · exact ⟨0, 0, by norm_num, by norm_num, by norm_num⟩

/-- The chances 1/4, 0, 3/4 meet the hypotheses; index 1 is skipped. -/
example : (∀ c ∈ [1 / 4, 0, (3 / 4 : ℚ)], IsF32 c) ∧ (2⁻¹ : ℚ) ^ 106 ≤ sum [1 / 4, 0, 3 / 4] ∧
    chooseIndex [1 / 4, 0, 3 / 4] 249999 = some 0 ∧ chooseIndex [1 / 4, 0, 3 / 4] 250001 = some 2 := by
  refine ⟨?_, by decide +kernel, by decide +kernel, by decide +kernel⟩
  intro c hc
  simp only [List.mem_cons, List.not_mem_nil, or_false] at hc
  rcases hc with rfl | rfl | rfl
  · exact ⟨1, -2, by norm_num, by norm_num, by norm_num⟩
  · exact ⟨0, 0, by norm_num, by norm_num, by norm_num⟩
  · exact ⟨3, -2, by norm_num, by norm_num, by norm_num⟩

/-- The rounding function on some values: 1/10 and 1/3 as `f32`, a tie, and the underflow to zero. -/
example : fl (1 / 10) = 13421773 / 2 ^ 27 ∧ fl (1 / 3) = 11184811 / 2 ^ 25 ∧ fl (2 ^ 24 + 1) = 2 ^ 24 ∧ fl (2 ^ 24 + 3) = 2 ^ 24 + 4 ∧
    fl (1 / 2 ^ 150) = 0 ∧ fl (3 / 2 ^ 150) = 2 / 2 ^ 149 := by decide +kernel

end Bkgm.F32
