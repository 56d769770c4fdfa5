import Verif.Props.Float32
/-!
# C68: the rounding function is the one of IEEE 754
-/

namespace Bkgm.F32

/-- An `f32` is a multiple of the last place of `x`, or lies below a power of two that is such a multiple and not above `x`. -/
theorem grid_or_below {z x : ℚ} (hz : IsF32 z) (hx : 0 < x) :
    (∃ n : ℤ, z = n * 2 ^ place x) ∨ ∃ n : ℤ, z < n * 2 ^ place x ∧ n * 2 ^ place x ≤ x := by
  obtain ⟨m, k, hm, hk, rfl⟩ := hz
  by_cases hkp : place x ≤ k
  · left
    obtain ⟨d, rfl⟩ : ∃ d : Nat, k = place x + d := ⟨(k - place x).toNat, by omega⟩
    refine ⟨m * 2 ^ d, ?_⟩
    rw [zpow_add₀ (by norm_num)]
    push_cast
    rw [zpow_natCast]
    ring
  · right
    have hkp : k < place x := not_le.mp hkp
    have hlog : place x = Int.log 2 x - 23 := by
      unfold place at hkp ⊢
      rcases le_total (Int.log 2 x - 23) (-149) with h | h
      · rw [max_eq_right h] at hkp; omega
      · rw [max_eq_left h]
    have h2 := Int.zpow_log_le_self (b := 2) (by norm_num) hx
    have e : (((2 : ℤ) ^ 23 : ℤ) : ℚ) * 2 ^ place x = 2 ^ Int.log 2 x := by
      rw [hlog, zpow_sub₀ (by norm_num)]
      norm_num
      field_simp
    refine ⟨2 ^ 23, ?_, by rw [e]; exact_mod_cast h2⟩
    rw [e]
    have h4 : (m : ℚ) * 2 ^ k < 2 ^ 24 * 2 ^ (place x - 1) := by
      have a : (m : ℚ) < 2 ^ 24 := by exact_mod_cast hm
      have b : (2 : ℚ) ^ k ≤ 2 ^ (place x - 1) := zpow_le_zpow_right₀ (by norm_num) (by omega)
      exact mul_lt_mul a b (pow_pos' k) (by positivity)
    refine h4.trans_le (le_of_eq ?_)
    rw [hlog, show Int.log 2 x - 23 - 1 = Int.log 2 x - 24 by ring, zpow_sub₀ (by norm_num)]
    norm_num
    field_simp

/-- `roundEven` is the nearest integer. -/
theorem roundEven_nearest (y : ℚ) (n : ℤ) : |(roundEven y : ℚ) - y| ≤ |(n : ℚ) - y| := by
  by_cases h : n = roundEven y
  · rw [h]
  · have h1 : (1 : ℚ) ≤ |(n : ℚ) - roundEven y| := by
      rw [← Int.cast_sub, ← Int.cast_abs]
      exact_mod_cast Int.one_le_abs (sub_ne_zero.2 h)
    have h2 := roundEven_near y
    have h3 : |(n : ℚ) - roundEven y| ≤ |(n : ℚ) - y| + |(roundEven y : ℚ) - y| := by
      rw [abs_sub_comm (roundEven y : ℚ) y]
      exact abs_sub_le _ _ _
    linarith

/-- At a tie it is the even one. -/
theorem roundEven_tie (y : ℚ) (n : ℤ) (hne : n ≠ roundEven y) (h : |(n : ℚ) - y| = |(roundEven y : ℚ) - y|) :
    roundEven y % 2 = 0 ∧ (n = roundEven y + 1 ∨ n = roundEven y - 1) := by
  have h1 := Int.floor_le y
  have h2 := Int.lt_floor_add_one y
  have h3 : (1 : ℚ) ≤ |(n : ℚ) - roundEven y| := by
    rw [← Int.cast_sub, ← Int.cast_abs]
    exact_mod_cast Int.one_le_abs (sub_ne_zero.2 hne)
  have h4 := roundEven_near y
  have h5 : |(n : ℚ) - roundEven y| ≤ |(n : ℚ) - y| + |(roundEven y : ℚ) - y| := by
    rw [abs_sub_comm (roundEven y : ℚ) y]
    exact abs_sub_le _ _ _
  have h6 : |(roundEven y : ℚ) - y| = 1 / 2 := by linarith
  have h7 : |(n : ℚ) - roundEven y| = 1 := by linarith
  constructor
  · revert h6
    unfold roundEven
    split_ifs with a b c <;> intro h6
    · rw [abs_sub_comm, abs_of_nonneg (by linarith)] at h6; linarith
    · push_cast at h6
      rw [abs_of_nonneg (by linarith)] at h6; linarith
    · exact c
    · omega
  · rw [← Int.cast_sub, ← Int.cast_abs] at h7
    have : |n - roundEven y| = 1 := by exact_mod_cast h7
    rcases (abs_eq (by norm_num)).1 this with h | h <;> omega

/-- **C68** `fl` is the rounding of IEEE 754 to 24 bits: the result is an `f32`, none is nearer to the exact value, and if another one is equally
near, the two are neighbouring multiples of a power of two and the result is the even multiple. -/
theorem C68_rounding (x : ℚ) (hx : 0 ≤ x) :
    IsF32 (fl x) ∧ (∀ z, IsF32 z → |fl x - x| ≤ |z - x|) ∧
    (∀ z, IsF32 z → z ≠ fl x → |z - x| = |fl x - x| → ∃ (n k : ℤ), -149 ≤ k ∧ fl x = (2 * n) * 2 ^ k ∧
      (z = (2 * n + 1) * 2 ^ k ∨ z = (2 * n - 1) * 2 ^ k)) := by
  refine ⟨fl_isF32 hx, ?_⟩
  rcases eq_or_lt_of_le hx with rfl | hx
  · rw [fl_zero]
    refine ⟨fun z _ => by simp, fun z _ hne h => absurd ?_ hne⟩
    simpa using h
  have hp := pow_pos' (place x)
  have key : ∀ n : ℤ, |(n : ℚ) * 2 ^ place x - x| = |(n : ℚ) - x / 2 ^ place x| * 2 ^ place x := by
    intro n
    have e : (n : ℚ) * 2 ^ place x - x = ((n : ℚ) - x / 2 ^ place x) * 2 ^ place x := by field_simp
    rw [e, abs_mul, abs_of_pos hp]
  have near : ∀ n : ℤ, |fl x - x| ≤ |(n : ℚ) * 2 ^ place x - x| := by
    intro n
    unfold fl
    rw [key, key]
    exact mul_le_mul_of_nonneg_right (roundEven_nearest _ n) hp.le
  have below : ∀ (z : ℚ) (n : ℤ), z < n * 2 ^ place x → n * 2 ^ place x ≤ x → |fl x - x| < |z - x| := by
    intro z n h1 h2
    refine (near n).trans_lt ?_
    rw [abs_of_nonpos (by linarith), abs_of_neg (by linarith)]
    linarith
  constructor
  · intro z hz
    rcases grid_or_below hz hx with ⟨n, rfl⟩ | ⟨n, h1, h2⟩
    · exact near n
    · exact (below z n h1 h2).le
  · intro z hz hne he
    rcases grid_or_below hz hx with ⟨n, rfl⟩ | ⟨n, h1, h2⟩
    · have he' : |(n : ℚ) - x / 2 ^ place x| = |(roundEven (x / 2 ^ place x) : ℚ) - x / 2 ^ place x| := by
        unfold fl at he
        rw [key, key] at he
        exact mul_right_cancel₀ hp.ne' he
      obtain ⟨h1, h2⟩ := roundEven_tie _ n (fun e => hne (by rw [e]; rfl)) he'
      obtain ⟨r, hr⟩ : ∃ r, roundEven (x / 2 ^ place x) = 2 * r := ⟨roundEven (x / 2 ^ place x) / 2, by omega⟩
      refine ⟨r, place x, le_max_right _ _, by unfold fl; rw [hr]; push_cast; ring, ?_⟩
      rcases h2 with h2 | h2
      · left; rw [h2, hr]; push_cast; ring
      · right; rw [h2, hr]; push_cast; ring
    · exact absurd he (below z n h1 h2).ne'

/-- A tie: `2^24 + 1` lies halfway between the `f32`s `2^24` and `2^24 + 2`. -/
example : IsF32 (2 ^ 24) ∧ IsF32 (2 ^ 24 + 2) ∧ fl (2 ^ 24 + 1) = 2 ^ 24 := by
  refine ⟨⟨2 ^ 23, 1, by norm_num, by norm_num, by norm_num⟩, ⟨2 ^ 23 + 1, 1, by norm_num, by norm_num, by norm_num⟩, ?_⟩
  have h : Int.log 2 (2 ^ 24 + 1 : ℚ) = 24 := by
    have h1 : (24 : ℤ) ≤ Int.log 2 (2 ^ 24 + 1 : ℚ) := (Int.zpow_le_iff_le_log (by norm_num) (by norm_num)).1 (by norm_num)
    have h2 : Int.log 2 (2 ^ 24 + 1 : ℚ) < 25 := (Int.lt_zpow_iff_log_lt (by norm_num) (by norm_num)).1 (by norm_num)
    omega
  have hp : place (2 ^ 24 + 1 : ℚ) = 1 := by unfold place; rw [h]; norm_num
  have hf : ⌊(2 ^ 24 + 1 : ℚ) / 2 ^ (1 : ℤ)⌋ = 2 ^ 23 := by rw [Int.floor_eq_iff]; norm_num
  unfold fl roundEven
  rw [hp, hf]
  norm_num

end Bkgm.F32
