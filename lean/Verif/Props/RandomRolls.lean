import Verif.Props.Random
/-!
# C91: the probabilities of the rolls
-/

namespace Bkgm
open MeasureTheory

theorem uniform_count (n : Nat) [NeZero n] (s : Set (Fin n)) [DecidablePred (· ∈ s)] :
    (PMF.uniformOfFintype (Fin n)).toMeasure s = (Finset.univ.filter (· ∈ s)).card / n := by
  rw [PMF.toMeasure_uniformOfFintype_apply s (MeasurableSet.of_discrete)]
  simp [Fintype.card_subtype]

theorem roll_chance (d : Dice) (hd : d.Valid) : (PMF.uniformOfFintype (Fin 36)).toMeasure {r | rollOf r = d} = chance d := by
  rw [uniform_count]
  refine valid_cases (P := fun d => ((Finset.univ.filter fun r : Fin 36 => r ∈ {r : Fin 36 | rollOf r = d}).card : ENNReal) / (36 : Nat) = chance d) ?_ d hd
  intro a ha
  have h : ∀ a ∈ all21, (Finset.univ.filter fun r : Fin 36 => rollOf r = a.1).card = match a.1 with | .double _ => 1 | .mixed _ _ => 2 := by decide +kernel
  have := h a ha
  simp only [Set.mem_setOf_eq]
  rw [this]
  rcases a with ⟨d, k⟩
  cases d <;> simp [chance]

/-- **C91** The first roll of an episode: each of the 15 rolls that are not doubles has the same chance. -/
theorem C91_first_roll (ω : Nat → Fin 36) (d : Dice) (hd : d.Valid) (b s : Nat) (hm : d = .mixed b s) :
    (PMF.uniformOfFintype (Fin 30)).toMeasure {r | ∃ k, (fastrandDice (idealRng r ω)).rollMixed 0 = some (d, k)} = 1 / 15 := by
  have e : {r : Fin 30 | ∃ k, (fastrandDice (idealRng r ω)).rollMixed 0 = some (d, k)} = {r : Fin 30 | rollMixedOf r = d} := by
    ext r
    simp [fastrandDice, idealRng]
  rw [e, uniform_count]
  have h : ∀ a ∈ all21, (Finset.univ.filter fun r : Fin 30 => rollMixedOf r = a.1).card = match a.1 with | .double _ => 0 | .mixed _ _ => 2 := by decide +kernel
  have h' := valid_cases (P := fun d => (Finset.univ.filter fun r : Fin 30 => rollMixedOf r = d).card = match d with | .double _ => 0 | .mixed _ _ => 2) h d hd
  simp only [Set.mem_setOf_eq]
  rw [h', hm]
  simp only [Nat.cast_ofNat]
  rw [show (30 : ENNReal) = 2 * 15 by norm_num, ENNReal.div_eq_inv_mul, ENNReal.mul_inv (by simp) (by simp), mul_comm, ← mul_assoc,
    ENNReal.mul_inv_cancel (by simp) (by simp), one_mul, one_div]

theorem measure_cylinder (n : Nat) (t : Nat → Set (Fin 36)) :
    uniformRolls {ω | ∀ i < n, ω i ∈ t i} = ∏ i ∈ Finset.range n, (PMF.uniformOfFintype (Fin 36)).toMeasure (t i) := by
  have e : {ω : Nat → Fin 36 | ∀ i < n, ω i ∈ t i} = Set.pi (Finset.range n) t := by
    ext ω
    simp [Set.mem_pi]
  rw [e, uniformRolls, Measure.infinitePi_pi _ fun i _ => MeasurableSet.of_discrete]

theorem rolls_ideal (first : Fin 30) (ω : Nat → Fin 36) : ∀ (ds : List Dice) (k k' : Nat), Rolls (fastrandDice (idealRng first ω)).roll k ds k' ↔
    k' = k + ds.length ∧ ∀ i (h : i < ds.length), rollOf (ω (k + i)) = ds[i]
  | [], k, k' => by
    constructor
    · intro h; cases h; simp
    · rintro ⟨rfl, -⟩; exact .nil _
  | d :: ds, k, k' => by
    constructor
    · intro h
      cases h with
      | cons h1 h2 =>
        rw [ideal_roll] at h1
        simp only [Option.some.injEq, Prod.mk.injEq] at h1
        obtain ⟨h1, rfl⟩ := h1
        obtain ⟨h3, h4⟩ := (rolls_ideal first ω ds _ _).1 h2
        refine ⟨by simp; omega, fun i h => ?_⟩
        cases i with
        | zero => exact h1
        | succ i =>
          have := h4 i (by simpa using h)
          rw [show k + (i + 1) = k + 1 + i by omega]
          exact this
    · rintro ⟨h1, h2⟩
      refine .cons (s' := k + 1) ?_ ((rolls_ideal first ω ds _ _).2 ⟨by simp at h1; omega, fun i h => ?_⟩)
      · rw [ideal_roll, show rollOf (ω k) = d from h2 0 (by simp)]
      · have := h2 (i + 1) (by simpa using h)
        rw [show k + 1 + i = k + (i + 1) by omega]
        exact this

/-- **C91** Calling `roll` again and again gives independent rolls with these chances. -/
theorem C91_rolls (first : Fin 30) (ds : List Dice) (hd : ∀ d ∈ ds, d.Valid) :
    uniformRolls {ω | ∃ k, Rolls (fastrandDice (idealRng first ω)).roll 0 ds k} = (ds.map chance).prod := by
  have e : {ω | ∃ k, Rolls (fastrandDice (idealRng first ω)).roll 0 ds k} =
      {ω | ∀ i < ds.length, ω i ∈ (fun i => {r : Fin 36 | some (rollOf r) = ds[i]?}) i} := by
    ext ω
    simp only [Set.mem_setOf_eq, rolls_ideal, Nat.zero_add]
    constructor
    · rintro ⟨k, -, h⟩ i hi
      rw [List.getElem?_eq_getElem hi, h i hi]
    · intro h
      refine ⟨_, rfl, fun i hi => ?_⟩
      have := h i hi
      rw [List.getElem?_eq_getElem hi] at this
      exact Option.some.inj this
  rw [e, measure_cylinder, Finset.prod_range, ← List.prod_ofFn]
  congr 1
  refine List.ext_getElem (by simp) fun i h1 h2 => ?_
  simp only [List.getElem_ofFn, List.getElem_map]
  have hi : i < ds.length := by simpa using h1
  rw [← roll_chance _ (hd _ (List.getElem_mem hi))]
  congr 1
  ext r
  simp [List.getElem?_eq_getElem hi]

theorem default_ideal (first : Fin 30) (ω : Nat → Fin 36) (d : Dice) (s : Nat) :
    defaultRollMixed (fastrandDice (idealRng first ω)).roll 0 = some (d, s) ↔
      (∃ b m, d = .mixed b m) ∧ ∃ k, s = k + 1 ∧ rollOf (ω k) = d ∧ ∀ i < k, ∃ v, rollOf (ω i) = .double v := by
  rw [C44_default_roll_mixed]
  constructor
  · rintro ⟨ds, h1, h2, h3⟩
    obtain ⟨h4, h5⟩ := (rolls_ideal first ω _ _ _).1 h3
    refine ⟨h2, ds.length, by simpa using h4, ?_, fun i hi => ?_⟩
    · have := h5 ds.length (by simp)
      simpa using this
    · have := h5 i (by simp; omega)
      rw [List.getElem_append_left hi, Nat.zero_add] at this
      rw [this]
      exact h1 _ (List.getElem_mem hi)
  · rintro ⟨h2, k, rfl, h3, h4⟩
    refine ⟨(List.range k).map fun i => rollOf (ω i), ?_, h2, (rolls_ideal first ω _ _ _).2 ⟨by simp, fun i hi => ?_⟩⟩
    · intro e he
      obtain ⟨i, hi, rfl⟩ := List.mem_map.1 he
      exact h4 i (List.mem_range.1 hi)
    · rw [Nat.zero_add]
      by_cases h : i < k
      · rw [List.getElem_append_left (by simpa using h)]; simp
      · have : i = k := by simp at hi; omega
        subst this
        simp [h3]

theorem double_chance : (PMF.uniformOfFintype (Fin 36)).toMeasure {r | ∃ v, rollOf r = .double v} = 1 / 6 := by
  have e : {r : Fin 36 | ∃ v, rollOf r = .double v} = {r : Fin 36 | (rollOf r).isMixed = false} := by
    ext r
    simp only [Set.mem_setOf_eq]
    cases rollOf r <;> simp [Dice.isMixed]
  rw [e, uniform_count]
  have : (Finset.univ.filter fun r : Fin 36 => r ∈ {r : Fin 36 | (rollOf r).isMixed = false}).card = 6 := by
    simp only [Set.mem_setOf_eq]; decide +kernel
  rw [this, show ((36 : Nat) : ENNReal) = 6 * 6 by norm_num, ENNReal.div_eq_inv_mul, ENNReal.mul_inv (by simp) (by simp), mul_assoc]
  rw [show ((6 : Nat) : ENNReal) = 6 by norm_num, ENNReal.inv_mul_cancel (by simp) (by simp), mul_one, one_div]

/-- **C91** The default `roll_mixed`, which rolls until the dice differ, ends with probability one. -/
theorem C91_default_ends (first : Fin 30) : ∀ᵐ ω ∂uniformRolls, ∃ d s, defaultRollMixed (fastrandDice (idealRng first ω)).roll 0 = some (d, s) := by
  rw [ae_iff]
  refine le_antisymm ?_ bot_le
  have h : ∀ n : Nat, uniformRolls {ω | ¬ ∃ d s, defaultRollMixed (fastrandDice (idealRng first ω)).roll 0 = some (d, s)} ≤ (1 / 6 : ENNReal) ^ n := fun n => by
    have := measure_cylinder n fun _ => {r | ∃ v, rollOf r = .double v}
    rw [double_chance, Finset.prod_const, Finset.card_range] at this
    rw [← this]
    refine measure_mono fun ω hω i hi => ?_
    simp only [Set.mem_setOf_eq] at hω ⊢
    induction i using Nat.strong_induction_on with
    | _ i ih =>
      cases hr : rollOf (ω i) with
      | double v => exact ⟨v, rfl⟩
      | mixed b m => exact absurd ⟨_, _, (default_ideal first ω _ _).2 ⟨⟨b, m, rfl⟩, i, rfl, hr, fun j hj => ih j hj (by omega)⟩⟩ hω
  refine ge_of_tendsto' (ENNReal.tendsto_pow_atTop_nhds_zero_of_lt_one (r := 1 / 6) ?_) h
  rw [one_div, ENNReal.inv_lt_one]
  norm_num

/-- **C91** And it gives each of the 15 rolls that are not doubles with the same chance. -/
theorem C91_default_uniform (first : Fin 30) (d : Dice) (hd : d.Valid) (b m : Nat) (hm : d = .mixed b m) :
    uniformRolls {ω | ∃ s, defaultRollMixed (fastrandDice (idealRng first ω)).roll 0 = some (d, s)} = 1 / 15 := by
  let t : Nat → Nat → Set (Fin 36) := fun k i => if i < k then {r | ∃ v, rollOf r = .double v} else {r | rollOf r = d}
  have e : {ω | ∃ s, defaultRollMixed (fastrandDice (idealRng first ω)).roll 0 = some (d, s)} = ⋃ k, {ω | ∀ i < k + 1, ω i ∈ t k i} := by
    ext ω
    simp only [Set.mem_setOf_eq, default_ideal, Set.mem_iUnion]
    constructor
    · rintro ⟨s, -, k, -, h1, h2⟩
      refine ⟨k, fun i hi => ?_⟩
      simp only [t]
      split_ifs with h
      · exact h2 i h
      · rw [show i = k by omega]; exact h1
    · rintro ⟨k, h⟩
      refine ⟨k + 1, ⟨b, m, hm⟩, k, rfl, ?_, fun i hi => ?_⟩
      · have := h k (by omega)
        simpa [t] using this
      · have := h i (by omega)
        simpa [t, hi] using this
  rw [e, measure_iUnion]
  · have hk : ∀ k, uniformRolls {ω | ∀ i < k + 1, ω i ∈ t k i} = (1 / 6 : ENNReal) ^ k * (2 / 36) := fun k => by
      rw [measure_cylinder, Finset.prod_range_succ]
      congr 1
      · rw [Finset.prod_congr rfl (g := fun _ => (1 / 6 : ENNReal)), Finset.prod_const, Finset.card_range]
        intro i hi
        simp only [t, if_pos (Finset.mem_range.1 hi)]
        exact double_chance
      · simp only [t, if_neg (Nat.lt_irrefl k)]
        rw [roll_chance d hd, hm]
        rfl
    simp only [hk]
    rw [ENNReal.tsum_mul_right, ENNReal.tsum_geometric]
    have : (1 - 1 / 6 : ENNReal) = 5 / 6 := by
      refine ENNReal.sub_eq_of_eq_add (by simp) ?_
      rw [← ENNReal.add_div, show (5 + 1 : ENNReal) = 6 by norm_num, ENNReal.div_self (by simp) (by simp)]
    rw [this, ← ENNReal.toReal_eq_toReal_iff' (by simp [ENNReal.mul_eq_top, ENNReal.div_eq_top]) (by simp)]
    simp only [ENNReal.toReal_mul, ENNReal.toReal_inv, ENNReal.toReal_div, ENNReal.toReal_ofNat, ENNReal.toReal_one]
    norm_num
  · intro k l hkl
    rw [Function.onFun, Set.disjoint_left]
    intro ω h1 h2
    have gen : ∀ {k l : Nat}, k < l → (∀ i < k + 1, ω i ∈ t k i) → (∀ i < l + 1, ω i ∈ t l i) → False := fun {k l} h h1 h2 => by
      have a := h1 k (by omega)
      have c := h2 k (by omega)
      simp only [t, if_neg (Nat.lt_irrefl k), if_pos h, Set.mem_setOf_eq] at a c
      rw [a, hm] at c
      obtain ⟨v, hv⟩ := c
      cases hv
    rcases Nat.lt_or_gt_of_ne hkl with h | h
    · exact gen h h1 h2
    · exact gen h h2 h1
  · intro k
    have : {ω : Nat → Fin 36 | ∀ i < k + 1, ω i ∈ t k i} = Set.pi (Finset.range (k + 1)) (t k) := by ext ω; simp [Set.mem_pi]
    rw [this]
    exact MeasurableSet.pi (Finset.countable_toSet _) fun i _ => MeasurableSet.of_discrete

/-- The hypotheses are met. -/
example := C91_first_roll (fun _ => 0) (.mixed 6 5) (by decide) 6 5 rfl
example := C91_default_uniform 0 (.mixed 6 5) (by decide) 6 5 rfl
example : uniformRolls {ω | ∃ k, Rolls (fastrandDice (idealRng 0 ω)).roll 0 [.double 6, .mixed 2 1] k} = 1 / 36 * (2 / 36) := by
  rw [C91_rolls 0 _ (by decide)]
  simp [chance]

end Bkgm
