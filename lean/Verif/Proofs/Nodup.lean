import Verif.Proofs.Bridge
import Mathlib.Data.List.Nodup
/-!
Helper lemmas: which children are generated twice.
-/

namespace Bkgm
namespace Pos
variable {N : Nat}

/-- Cells above the source are not touched. -/
theorem mv_above {p : Pos N} {f d j : Nat} (hf1 : 1 ≤ f) (hf : f ≤ 25) (hd : 1 ≤ d) (hj : f < j) : (p.mv f d).pip j = p.pip j := by
  rw [pip_mv p hf hd]
  have : ¬ j = f := by omega
  have : ¬ j = f - d := by omega
  have : ¬ j = 0 := by omega
  simp [*]

theorem mv_src {p : Pos N} {f d : Nat} (hf : f ≤ 25) (hd : 1 ≤ d) : (p.mv f d).pip f = p.pip f - 1 := by
  rw [pip_mv p hf hd]; simp

/-- Everything but source, landing point and `o`'s bar is untouched. -/
theorem mv_other {p : Pos N} {f d j : Nat} (hf : f ≤ 25) (hd : 1 ≤ d) (h1 : j ≠ f) (h2 : d < f → j ≠ f - d) (h0 : j ≠ 0) :
    (p.mv f d).pip j = p.pip j := by
  rw [pip_mv p hf hd]
  by_cases h : d < f
  · have := h2 h; simp [*]
  · simp [*]

theorem mv_land {p : Pos N} {f d : Nat} (hf : f ≤ 25) (hd : 1 ≤ d) (h : d < f) :
    (p.mv f d).pip (f - d) = if p.pip (f - d) = -1 then 1 else p.pip (f - d) + 1 := by
  rw [pip_mv p hf hd, if_pos h, if_neg (by omega), if_pos rfl]

theorem ssteps_above {d hi n : Nat} (hd : 1 ≤ d) {p q : Pos N} (h : SSteps d hi n p q) :
    ∀ j, hi < j → q.pip j = p.pip j := by
  induction h with
  | zero => intro j _; rfl
  | succ h1 hc _ ih =>
    intro j hj
    rw [ih j (by omega), mv_above hc.lo hc.hi hd (by omega)]

theorem ssteps_top {d hi n : Nat} (hd : 1 ≤ d) {p q : Pos N} (h : SSteps d hi n p q) (h1 : 1 ≤ hi) :
    q.pip hi ≤ p.pip hi := by
  induction h with
  | zero => exact le_refl _
  | @succ hi n f p q hf hc hs ih =>
    by_cases e : f = hi
    · subst e
      have := ih h1
      rw [mv_src hc.hi hd] at this
      omega
    · rw [ssteps_above hd hs hi (by omega), mv_above hc.lo hc.hi hd (by omega)]

theorem nodup_level (r : List Nat) (hr : r.Nodup) (F : Nat → List (Pos N)) (h1 : ∀ i ∈ r, (F i).Nodup)
    (h2 : ∀ i ∈ r, ∀ j ∈ r, i < j → ∀ q, q ∈ F i → q ∈ F j → False) : (r.flatMap F).Nodup := by
  rw [List.nodup_flatMap]
  refine ⟨h1, ?_⟩
  refine List.Pairwise.imp_of_mem ?_ hr
  intro a b ha hb hne
  rw [Function.onFun, List.disjoint_left]
  intro q hq hq'
  rcases Nat.lt_or_gt_of_ne hne with h | h
  · exact h2 a ha b hb h q hq hq'
  · exact h2 b hb a ha h q hq' hq

theorem nodup_movesFrom {p : Pos N} {d : Nat} (hd : 1 ≤ d) {r : List Nat} (hr : r.Nodup)
    (hb : ∀ i ∈ r, 1 ≤ i ∧ i ≤ 25) : (p.movesFrom d r).Nodup := by
  unfold movesFrom
  apply nodup_level r hr
  · intro i _; split_ifs <;> simp
  · intro i hi j hj hij q hq hq'
    split_ifs at hq
    · split_ifs at hq'
      · rw [List.mem_singleton] at hq hq'
        have e : (p.mv i d).pip j = (p.mv j d).pip j := by rw [← hq, ← hq']
        rw [mv_above (hb i hi).1 (hb i hi).2 hd hij, mv_src (hb j hj).2 hd] at e
        omega
      · simp at hq'
    · simp at hq

/-- One level of the doubles loops has no duplicates if the inner levels have none. -/
theorem nodup_double_level {p : Pos N} (hb : p.BarsOK) (h25 : p.pip 25 ≤ 0) {d hi n : Nat} (hd : 1 ≤ d) (hd6 : d ≤ 6)
    (hhi : hi ≤ 24) (F : Nat → List (Pos N)) (h1 : ∀ i, p.Can i d → (F i).Nodup)
    (h2 : ∀ i q, p.Can i d → q ∈ F i → SSteps d i n (p.mv i d) q) :
    ((rng (p.smallestPip d) (hi + 1)).flatMap fun i => if p.canMoveB i d then F i else []).Nodup := by
  have can : ∀ i, i ∈ rng (p.smallestPip d) (hi + 1) → p.canMoveB i d = true → p.Can i d := by
    intro i hi' hc
    rw [mem_rng] at hi'
    exact (canB_range hb h25 hd6 hd).1 ⟨hi'.1, by omega, hc⟩
  apply nodup_level _ (nodup_rng _ _)
  · intro i hi'
    split_ifs with hc
    · exact h1 i (can i hi' hc)
    · simp
  · intro i hi' j hj hij q hq hq'
    split_ifs at hq with hc
    · split_ifs at hq' with hc'
      · have c1 := can i hi' hc
        have c2 := can j hj hc'
        have s1 := h2 i q c1 hq
        have s2 := h2 j q c2 hq'
        have e1 := ssteps_above hd s1 j hij
        rw [mv_above c1.lo c1.hi hd hij] at e1
        have e2 := ssteps_top hd s2 c2.lo
        rw [mv_src c2.hi hd] at e2
        omega
      · simp at hq'
    · simp at hq

theorem nodup_doubleAfterEntering {p : Pos N} (hb : p.BarsOK) (h25 : p.pip 25 ≤ 0) {d entered : Nat}
    (hd : 1 ≤ d) (hd6 : d ≤ 6) : (p.doubleAfterEntering d entered).Nodup := by
  have hle : p.numberOfMovable d entered ≤ 4 := by
    have := (numberOfMovable_spec (entered := entered) hb h25 hd hd6).1; omega
  unfold doubleAfterEntering
  generalize p.numberOfMovable d entered = nr at *
  have st : ∀ (p : Pos N) i, p.BarsOK ∧ p.pip 25 ≤ 0 → p.Can i d → (p.mv i d).BarsOK ∧ (p.mv i d).pip 25 ≤ 0 := by
    intro p i h hc
    exact ⟨barsOK_mv h.1 hd hc, le_trans (pip25_mv_le hd hc) h.2⟩
  have lt : ∀ (p : Pos N) i, p.BarsOK ∧ p.pip 25 ≤ 0 → p.Can i d → i ≤ 24 := by
    intro p i h hc; have := hc.lt25 h.2; omega
  -- each level: nodup, and members are sorted plays
  have lev : ∀ (p : Pos N) hi n (F : Nat → List (Pos N)), p.BarsOK ∧ p.pip 25 ≤ 0 → hi ≤ 24 →
      (∀ i, p.Can i d → (F i).Nodup ∧ ∀ q, q ∈ F i → SSteps d i n (p.mv i d) q) →
      ((rng (p.smallestPip d) (hi + 1)).flatMap fun i => if p.canMoveB i d then F i else []).Nodup ∧
      ∀ q, q ∈ ((rng (p.smallestPip d) (hi + 1)).flatMap fun i => if p.canMoveB i d then F i else []) →
        SSteps d hi (n + 1) p q := by
    intro p hi n F h1 h2 h3
    refine ⟨nodup_double_level h1.1 h1.2 hd hd6 h2 F (fun i c => (h3 i c).1) (fun i q c => (h3 i c).2 q), ?_⟩
    intro q hq
    obtain ⟨i, a, b, c⟩ := (mem_level h1.1 h1.2 hd hd6 h2 F q).1 hq
    exact .succ a b ((h3 i b).2 q c)
  have base : ∀ (p : Pos N) i, [p].Nodup ∧ ∀ q, q ∈ [p] → SSteps d i 0 p q := by
    intro p i
    refine ⟨by simp, fun q hq => ?_⟩
    rw [List.mem_singleton] at hq; subst hq; exact .zero _ _
  rcases (by omega : nr = 0 ∨ nr = 1 ∨ nr = 2 ∨ nr = 3 ∨ nr = 4) with rfl | rfl | rfl | rfl | rfl
  · simp
  · rw [if_neg (by omega)]
    refine (lev p 24 0 (fun i1 => _) ⟨hb, h25⟩ (le_refl _) ?_).1
    intro i1 c1
    exact base _ _
  · rw [if_neg (by omega)]
    refine (lev p 24 1 (fun i1 => _) ⟨hb, h25⟩ (le_refl _) ?_).1
    intro i1 c1
    have s1 := st p i1 ⟨hb, h25⟩ c1
    refine lev _ i1 0 (fun i2 => _) s1 (lt p i1 ⟨hb, h25⟩ c1) ?_
    intro i2 c2
    exact base _ _
  · rw [if_neg (by omega)]
    refine (lev p 24 2 (fun i1 => _) ⟨hb, h25⟩ (le_refl _) ?_).1
    intro i1 c1
    have s1 := st p i1 ⟨hb, h25⟩ c1
    refine lev _ i1 1 (fun i2 => _) s1 (lt p i1 ⟨hb, h25⟩ c1) ?_
    intro i2 c2
    have s2 := st _ i2 s1 c2
    refine lev _ i2 0 (fun i3 => _) s2 (lt _ i2 s1 c2) ?_
    intro i3 c3
    exact base _ _
  · rw [if_neg (by omega)]
    refine (lev p 24 3 (fun i1 => _) ⟨hb, h25⟩ (le_refl _) ?_).1
    intro i1 c1
    have s1 := st p i1 ⟨hb, h25⟩ c1
    refine lev _ i1 2 (fun i2 => _) s1 (lt p i1 ⟨hb, h25⟩ c1) ?_
    intro i2 c2
    have s2 := st _ i2 s1 c2
    refine lev _ i2 1 (fun i3 => _) s2 (lt _ i2 s1 c2) ?_
    intro i3 c3
    have s3 := st _ i3 s2 c3
    refine lev _ i3 0 (fun i4 => _) s3 (lt _ i3 s2 c3) ?_
    intro i4 c4
    exact base _ _

theorem nodup_doubleMoves {p : Pos N} (hb : p.BarsOK) {d : Nat} (hd : 1 ≤ d) (hd6 : d ≤ 6) :
    (p.doubleMoves d).Nodup := by
  unfold doubleMoves
  have h25 := hb.2
  split_ifs with hbl
  · simp
  · have hfree : 0 < p.pip 25 → -1 ≤ p.pip (25 - d) := by omega
    rw [afterEntering_eq hb hd hd6 hfree]
    simp only
    generalize hk : (min 4 (p.pip 25)).toNat = k
    have hkS : Steps d k p (mvs 25 d k p) := by
      by_cases k0 : k = 0
      · subst k0; exact .zero _
      · exact steps_mvs (by omega) hd (by omega) k p (by omega) (by omega) (hfree (by omega))
    split_ifs with h4
    · simp
    · have hqb : (mvs 25 d k p).BarsOK := hkS.barsOK hd hb
      have hq25 : (mvs 25 d k p).pip 25 ≤ 0 := by
        by_cases k0 : k = 0
        · subst k0; simp only [mvs]; omega
        · rw [pip_mvs (by omega) hd (by omega) k p (hfree (by omega)), if_neg k0, if_pos rfl]; omega
      exact nodup_doubleAfterEntering hqb hq25 hd hd6

/-! ## Mixed rolls -/

/-- The situation in which a mixed roll is generated twice: the highest checker stands at or below the
small die, alone on its point, and there is another checker. -/
def Twice (p : Pos N) (small : Nat) : Prop :=
  ∃ a b, a ≤ small ∧ p.pip a = 1 ∧ (∀ i, a < i → p.pip i ≤ 0) ∧ 1 ≤ b ∧ b < a ∧ 1 ≤ p.pip b

theorem two_cross {p : Pos N} {a b a' b' big small : Nat} (h1 : 1 ≤ small) (h2 : small < big)
    (sa : p.Can a small) (sb : (p.mv a small).Can b big) (hba : b ≤ a)
    (ta : p.Can a' big) (tb : (p.mv a' big).Can b' small) (hba' : b' < a')
    (hne : ¬ (big < a' ∧ b' = a' - big ∧ 0 ≤ p.pip (a' - big) ∧ 0 ≤ p.pip (a' - small)))
    (e : (p.mv a small).mv b big = (p.mv a' big).mv b' small) : p.Twice small := by
  have hS := sa.hi; have hT := ta.hi
  have lS := sa.lo; have lT := ta.lo
  have hSb := sb.hi; have hTb := tb.hi
  have lSb := sb.lo; have lTb := tb.lo
  have hB : 1 ≤ big := by omega
  have cell : ∀ j, ((p.mv a small).mv b big).pip j = ((p.mv a' big).mv b' small).pip j := fun j => by rw [e]
  -- same highest source
  have haa : a = a' := by
    rcases Nat.lt_trichotomy a a' with h | h | h
    · exfalso
      have c := cell a'
      rw [mv_above lSb hSb hB (by omega), mv_above lS hS h1 h, mv_above lTb hTb h1 hba', mv_src hT hB] at c
      omega
    · exact h
    · exfalso
      have c := cell a
      rw [mv_above (p := p.mv a' big) lTb hTb h1 (by omega), mv_above lT hT hB h] at c
      by_cases hb : b = a
      · subst hb; rw [mv_src hSb hB, mv_src hS h1] at c; omega
      · rw [mv_above lSb hSb hB (by omega), mv_src hS h1] at c; omega
  subst haa
  have hlt : b < a := by
    by_contra hc
    obtain rfl : b = a := by omega
    have c := cell b
    rw [mv_src hSb hB, mv_src hS h1, mv_above lTb hTb h1 hba', mv_src hT hB] at c
    omega
  have xo := congrArg Pos.xOff e
  simp only [xOff_mv] at xo
  by_cases hBa : big < a
  · exfalso
    have fS := sa.free (by omega)
    have fT := ta.free hBa
    have landS := mv_land (p := p) hS h1 (by omega : small < a)
    have landT := mv_land (p := p) hT hB hBa
    by_cases hb : b = a - small
    · by_cases hb' : b' = a - big
      · subst hb; subst hb'
        have c1 := cell (a - big)
        have c2 := cell (a - small)
        rw [mv_other hSb hB (by omega) (by omega) (by omega), mv_other hS h1 (by omega) (by omega) (by omega),
          mv_src hTb h1, landT] at c1
        rw [mv_src hSb hB, landS, mv_other hTb h1 (by omega) (by omega) (by omega),
          mv_other hT hB (by omega) (by omega) (by omega)] at c2
        split_ifs at c1 c2 <;> omega
      · have c1 := cell (a - big)
        rw [hb] at c1
        rw [mv_other (by omega) hB (by omega) (by omega) (by omega), mv_other hS h1 (by omega) (by omega) (by omega)] at c1
        by_cases hl : small < b' ∧ a - big = b' - small
        · have hl2 := mv_land (p := p.mv a big) hTb h1 hl.1
          rw [← hl.2, landT] at hl2
          rw [hl2] at c1
          split_ifs at c1 <;> omega
        · rw [mv_other hTb h1 (by omega) (by omega) (by omega), landT] at c1
          split_ifs at c1 <;> omega
    · have c1 := cell (a - small)
      rw [mv_other hSb hB (by omega) (by omega) (by omega), landS] at c1
      by_cases hb' : b' = a - small
      · rw [← hb', mv_src hTb h1, hb', mv_other hT hB (by omega) (by omega) (by omega)] at c1
        split_ifs at c1 <;> omega
      · rw [mv_other hTb h1 (by omega) (by omega) (by omega), mv_other hT hB (by omega) (by omega) (by omega)] at c1
        split_ifs at c1 <;> omega
  · by_cases hsa : small < a
    · exfalso
      have landS := mv_land (p := p) hS h1 hsa
      have fS := sa.free hsa
      have hb's : small < b' := by
        by_contra hc
        rw [if_neg (by omega), if_pos hsa, if_neg (by omega), if_neg (by omega)] at xo
        omega
      have c1 := cell (a - small)
      by_cases hb : b = a - small
      · have c2 := cell b'
        have own := tb.own
        rw [mv_other hT hB (by omega) (by omega) (by omega)] at own
        rw [mv_src hTb h1, mv_other hT hB (by omega) (by omega) (by omega)] at c2
        by_cases hbb : b' = b
        · rw [hbb, mv_src hSb hB, hb, landS] at c2
          rw [hbb, hb] at own
          split_ifs at c2 <;> omega
        · rw [mv_other hSb hB (by omega) (by omega) (by omega), mv_other hS h1 (by omega) (by omega) (by omega)] at c2
          omega
      · rw [mv_other hSb hB (by omega) (by omega) (by omega), landS] at c1
        by_cases hb' : b' = a - small
        · rw [← hb', mv_src hTb h1, hb', mv_other hT hB (by omega) (by omega) (by omega)] at c1
          split_ifs at c1 <;> omega
        · rw [mv_other hTb h1 (by omega) (by omega) (by omega), mv_other hT hB (by omega) (by omega) (by omega)] at c1
          split_ifs at c1 <;> omega
    · refine ⟨a, b', by omega, ?_, fun i hi => ta.behind (by omega) i hi, lTb, hba', ?_⟩
      · have := tb.behind (by omega) a hba'
        rw [mv_src hT hB] at this
        have := sa.own
        omega
      · have := tb.own
        rwa [mv_other hT hB (by omega) (by omega) (by omega)] at this

theorem nodup_smallFirst {p : Pos N} (hb : p.BarsOK) (h25 : p.pip 25 ≤ 0) {big small : Nat}
    (h1 : 1 ≤ small) (h2 : small < big) (h3 : big ≤ 6) : (p.smallFirst big small).Nodup := by
  unfold smallFirst
  have can : ∀ i, i ∈ (rng (p.smallestPip small) 25).reverse → p.canMoveB i small = true → p.Can i small := by
    intro i hi hc
    rw [List.mem_reverse, mem_rng] at hi
    exact (canB_range hb h25 (by omega) h1).1 ⟨hi.1, hi.2, hc⟩
  have mem : ∀ i, p.Can i small → ∀ q, q ∈ (p.mv i small).movesFrom big (rng ((p.mv i small).smallestPip big) (i + 1)).reverse →
      ∃ b, (p.mv i small).Can b big ∧ b ≤ i ∧ q = (p.mv i small).mv b big := by
    intro i hc q hq
    obtain ⟨j, hj, hc', rfl⟩ := mem_movesFrom.1 hq
    rw [List.mem_reverse, mem_rng] at hj
    have := hc.lt25 h25
    exact ⟨j, (canB_range (barsOK_mv hb h1 hc) (le_trans (pip25_mv_le h1 hc) h25) h3 (by omega)).1
      ⟨hj.1, by omega, hc'⟩, by omega, rfl⟩
  apply nodup_level _ (by rw [List.nodup_reverse]; exact nodup_rng _ _)
  · intro i hi
    split_ifs with hc
    · have hcan := can i hi hc
      have := hcan.lt25 h25
      -- restrict to sources ≥ 1: cell 0 never holds x checkers
      unfold movesFrom
      apply nodup_level _ (by rw [List.nodup_reverse]; exact nodup_rng _ _)
      · intro j _; split_ifs <;> simp
      · intro j hj k hk hjk q hq hq'
        split_ifs at hq with g1
        · split_ifs at hq' with g2
          · rw [List.mem_singleton] at hq hq'
            rw [List.mem_reverse, mem_rng] at hj hk
            have c1 := (canB_range (barsOK_mv hb h1 hcan) (le_trans (pip25_mv_le h1 hcan) h25) h3 (by omega)).1
              ⟨hj.1, by omega, g1⟩
            have e : ((p.mv i small).mv j big).pip k = ((p.mv i small).mv k big).pip k := by rw [← hq, ← hq']
            rw [mv_above c1.lo c1.hi (by omega) hjk, mv_src (by omega) (by omega)] at e
            omega
          · simp at hq'
        · simp at hq
    · simp
  · intro i hi j hj hij q hq hq'
    split_ifs at hq with hc
    · split_ifs at hq' with hc'
      · have c1 := can i hi hc
        have c2 := can j hj hc'
        obtain ⟨b', t1, t2, e⟩ := mem j c2 q hq'
        obtain ⟨b, s1, s2, rfl⟩ := mem i c1 q hq
        have c : ((p.mv i small).mv b big).pip j = ((p.mv j small).mv b' big).pip j := by rw [e]
        rw [mv_above s1.lo s1.hi (by omega) (by omega), mv_above c1.lo c1.hi h1 hij] at c
        by_cases hbj : b' = j
        · subst hbj; rw [mv_src t1.hi (by omega), mv_src c2.hi h1] at c; omega
        · rw [mv_above t1.lo t1.hi (by omega) (by omega), mv_src c2.hi h1] at c; omega
      · simp at hq'
    · simp at hq

theorem nodup_bigFirst {p : Pos N} (hb : p.BarsOK) (h25 : p.pip 25 ≤ 0) {big small : Nat}
    (h1 : 1 ≤ small) (h2 : small < big) (h3 : big ≤ 6) : (p.bigFirst big small).Nodup := by
  unfold bigFirst
  have can : ∀ i, i ∈ rng (p.smallestPip big) 25 → p.canMoveB i big = true → p.Can i big := by
    intro i hi hc
    rw [mem_rng] at hi
    exact (canB_range hb h25 h3 (by omega)).1 ⟨hi.1, hi.2, hc⟩
  have range : ∀ i (c : Bool), p.Can i big → 
      (if c then rng ((p.mv i big).smallestPip small) i else
        rng ((p.mv i big).smallestPip small) (i - big) ++ rng (max ((p.mv i big).smallestPip small) (i - big + 1)) i).Nodup ∧
      ∀ j, j ∈ (if c then rng ((p.mv i big).smallestPip small) i else
        rng ((p.mv i big).smallestPip small) (i - big) ++ rng (max ((p.mv i big).smallestPip small) (i - big + 1)) i) →
        (p.mv i big).smallestPip small ≤ j ∧ j < i := by
    intro i c hc
    have hi1 := hc.lo
    cases c
    · simp only [Bool.false_eq_true, if_false]
      constructor
      · rw [List.nodup_append]
        refine ⟨nodup_rng _ _, nodup_rng _ _, ?_⟩
        intro a ha b hb'
        rw [mem_rng] at ha hb'
        omega
      · intro j hj
        rw [List.mem_append, mem_rng, mem_rng] at hj
        omega
    · simp only [if_true]
      exact ⟨nodup_rng _ _, fun j hj => by rw [mem_rng] at hj; omega⟩
  apply nodup_level _ (nodup_rng _ _)
  · intro i hi
    split_ifs with hc
    · have hcan := can i hi hc
      have hlt := hcan.lt25 h25
      have hr := range i (decide (i ≥ big) && (decide (p.pip (i - big) < 0) || decide (p.pip (i - small) < 0))) hcan
      simp only
      unfold movesFrom
      apply nodup_level _ hr.1
      · intro j _; split_ifs <;> simp
      · intro j hj k hk hjk q hq hq'
        have hj' := hr.2 j hj
        have hk' := hr.2 k hk
        split_ifs at hq with g1
        · split_ifs at hq' with g2
          · rw [List.mem_singleton] at hq hq'
            have c1 := (canB_range (barsOK_mv hb (by omega) hcan) (le_trans (pip25_mv_le (by omega) hcan) h25) (by omega) h1).1
              ⟨hj'.1, by omega, g1⟩
            have e : ((p.mv i big).mv j small).pip k = ((p.mv i big).mv k small).pip k := by rw [← hq, ← hq']
            rw [mv_above c1.lo c1.hi (by omega) hjk, mv_src (by omega) (by omega)] at e
            omega
          · simp at hq'
        · simp at hq
    · simp
  · intro i hi j hj hij q hq hq'
    split_ifs at hq with hc
    · split_ifs at hq' with hc'
      · have c1 := can i hi hc
        have c2 := can j hj hc'
        obtain ⟨b, s0, s1, rfl⟩ := mem_movesFrom.1 hq
        obtain ⟨b', t0, t1, e⟩ := mem_movesFrom.1 hq'
        have s0 := (range i _ c1).2 b s0
        have t0 := (range j _ c2).2 b' t0
        have l1 := c1.lt25 h25
        have l2 := c2.lt25 h25
        have s := (canB_range (barsOK_mv hb (by omega) c1) (le_trans (pip25_mv_le (by omega) c1) h25) (by omega) h1).1
              ⟨s0.1, by omega, s1⟩
        have t := (canB_range (barsOK_mv hb (by omega) c2) (le_trans (pip25_mv_le (by omega) c2) h25) (by omega) h1).1
              ⟨t0.1, by omega, t1⟩
        have c : ((p.mv i big).mv b small).pip j = ((p.mv j big).mv b' small).pip j := by rw [e]
        rw [mv_above s.lo s.hi (by omega) (by omega), mv_above c1.lo c1.hi (by omega) hij,
          mv_above t.lo t.hi (by omega) (by omega), mv_src c2.hi (by omega)] at c
        omega
      · simp at hq'
    · simp at hq

theorem nodup_oneChecker {p : Pos N} (hb : p.BarsOK) (h25 : p.pip 25 ≤ 0) {d : Nat} (hd : 1 ≤ d) (hd6 : d ≤ 6) :
    (p.oneCheckerMoves d).Nodup := by
  unfold oneCheckerMoves movesFrom
  apply nodup_level _ (nodup_rng _ _)
  · intro i _; split_ifs <;> simp
  · intro i hi j hj hij q hq hq'
    split_ifs at hq with hc
    · split_ifs at hq' with hc'
      · rw [List.mem_singleton] at hq hq'
        rw [mem_rng] at hi hj
        have c1 := (canB_range hb h25 hd6 hd).1 ⟨hi.1, hi.2, hc⟩
        have e : (p.mv i d).pip j = (p.mv j d).pip j := by rw [← hq, ← hq']
        rw [mv_above c1.lo c1.hi hd hij, mv_src (by omega) hd] at e
        omega
      · simp at hq'
    · simp at hq

theorem twice_two {p : Pos N} {big small : Nat} (h1 : 1 ≤ small) (h2 : small < big) (h3 : big ≤ 6)
    (h : p.Twice small) : ∃ a b, p.Can a small ∧ (p.mv a small).Can b big ∧ p.Can a big ∧ (p.mv a big).Can b small ∧
      b < a ∧ a ≤ small ∧ (p.mv a small).mv b big = (p.mv a big).mv b small := by
  obtain ⟨a, b0, ha, hpa, htop, h0, hlt, hb0⟩ := h
  -- the next checker
  have hex : ∃ b, b < a ∧ 1 ≤ b ∧ 1 ≤ p.pip b ∧ ∀ i, b < i → i < a → p.pip i ≤ 0 := by
    have : ∀ k, k ≤ a → b0 < k → ∃ b, b < k ∧ 1 ≤ b ∧ 1 ≤ p.pip b ∧ ∀ i, b < i → i < k → p.pip i ≤ 0 := by
      intro k
      induction k with
      | zero => intro _ h; omega
      | succ k ih =>
        intro hk hbk
        by_cases hk0 : 1 ≤ p.pip k ∧ 1 ≤ k
        · exact ⟨k, by omega, hk0.2, hk0.1, by intros; omega⟩
        · have : b0 < k := by
            by_contra hc
            obtain rfl : b0 = k := by omega
            exact hk0 ⟨hb0, h0⟩
          obtain ⟨b, g1, g2, g3, g4⟩ := ih (by omega) this
          refine ⟨b, by omega, g2, g3, fun i a1 a2 => ?_⟩
          by_cases e : i = k
          · subst e; by_contra hc; exact hk0 ⟨by omega, by omega⟩
          · exact g4 i a1 (by omega)
    exact this a (le_refl _) hlt
  obtain ⟨b, g1, g2, g3, g4⟩ := hex
  have m : ∀ d, a ≤ d → ∀ j, (p.mv a d).pip j = if j = a then 0 else p.pip j := by
    intro d hd j
    rw [pip_mv p (by omega) (by omega), if_neg (by omega), hpa]; rfl
  have c1 : ∀ d, small ≤ d → p.Can a d := fun d hd =>
    ⟨by omega, by omega, by omega, fun _ => htop 25 (by omega), by intro; omega, fun _ i hi => htop i (by omega), fun _ => htop⟩
  have c2 : ∀ d e, a ≤ d → small ≤ e → (p.mv a d).Can b e := by
    intro d e hd he
    have hm := m d hd
    have below : ∀ i, b < i → (p.mv a d).pip i ≤ 0 := by
      intro i hi
      rw [hm]
      split_ifs with e1
      · omega
      · by_cases e2 : i < a
        · exact g4 i hi e2
        · exact htop i (by omega)
    exact ⟨g2, by omega, by rw [hm, if_neg (by omega)]; exact g3, fun _ => below 25 (by omega), by intro; omega,
      fun _ i hi => below i (by omega), fun _ => below⟩
  refine ⟨a, b, c1 _ (le_refl _), c2 _ _ ha (by omega), c1 _ (by omega), c2 _ _ (by omega) (le_refl _), g1, ha, ?_⟩
  apply ext_pip
  · simp
  · simp only [xOff_mv]; rw [if_neg (by omega), if_neg (by omega), if_neg (by omega), if_neg (by omega)]
  · simp
  · intro j _
    rw [pip_mv (p.mv a small) (by omega : b ≤ 25) (by omega : 1 ≤ big), if_neg (show ¬ big < b by omega),
      pip_mv (p.mv a big) (by omega : b ≤ 25) h1, if_neg (show ¬ small < b by omega)]
    simp only [m small ha, m big (by omega)]

theorem nodup_mixed0 {p : Pos N} (hb : p.BarsOK) (h25 : p.pip 25 = 0) {big small : Nat}
    (h1 : 1 ≤ small) (h2 : small < big) (h3 : big ≤ 6) : (p.mixed0 big small).Nodup ↔ ¬ p.Twice small := by
  have key : (p.smallFirst big small ++ p.bigFirst big small).Nodup ↔ ¬ p.Twice small := by
    rw [List.nodup_append]
    constructor
    · rintro ⟨-, -, h⟩ ht
      obtain ⟨a, b, c1, c2, c3, c4, c5, c6, e⟩ := twice_two h1 h2 h3 ht
      have m1 := (mem_smallFirst (q := (p.mv a small).mv b big) hb (by omega) h1 h2 h3).2 ⟨a, b, c1, c2, by omega, rfl⟩
      have m2 := (mem_bigFirst (q := (p.mv a small).mv b big) hb (by omega) h1 h2 h3).2 ⟨a, b, c3, c4, c5, by omega, e⟩
      exact h _ m1 _ m2 rfl
    · intro ht
      refine ⟨nodup_smallFirst hb (by omega) h1 h2 h3, nodup_bigFirst hb (by omega) h1 h2 h3, ?_⟩
      rintro q hq q' hq' rfl
      obtain ⟨a, b, c1, c2, c3, rfl⟩ := (mem_smallFirst hb (by omega) h1 h2 h3).1 hq
      obtain ⟨a', b', d1, d2, d3, d4, e⟩ := (mem_bigFirst hb (by omega) h1 h2 h3).1 hq'
      exact ht (two_cross h1 h2 c1 c2 c3 d1 d2 d3 d4 e)
  unfold mixed0
  simp only
  by_cases he : (p.smallFirst big small ++ p.bigFirst big small).isEmpty = true
  · rw [if_pos he]
    have hnt : ¬ p.Twice small := by
      rw [← key, List.isEmpty_iff.1 he]; simp
    simp only [hnt, not_false_eq_true, iff_true]
    split_ifs
    · simp
    · exact nodup_oneChecker hb (by omega) h1 (by omega)
    · exact nodup_oneChecker hb (by omega) (by omega) h3
  · rw [if_neg he]; exact key

theorem nodup_mixed1 {p : Pos N} (h25 : p.pip 25 = 1) {big small : Nat}
    (h1 : 1 ≤ small) (h2 : small < big) (h3 : big ≤ 6) : (p.mixed1 big small).Nodup := by
  have nb : ∀ o : Option (Pos N), (match o with
      | some q => q.movesFrom small (rng (small + 1) X_BAR)
      | none => []).Nodup := by
    intro o
    cases o with
    | none => simp
    | some q => exact nodup_movesFrom h1 (nodup_rng _ _) (fun i hi => by rw [mem_rng] at hi; omega)
  have hr : ∀ c : Bool, (if c then rng (big + 1) X_BAR
          else rng (big + 1) (X_BAR - small) ++ rng (X_BAR - small + 1) X_BAR).Nodup ∧
        ∀ i, i ∈ (if c then rng (big + 1) X_BAR
          else rng (big + 1) (X_BAR - small) ++ rng (X_BAR - small + 1) X_BAR) → big + 1 ≤ i ∧ i < 25 ∧ (c = false → i ≠ 25 - small) := by
    intro c
    cases c
    · simp only [Bool.false_eq_true, if_false]
      constructor
      · rw [List.nodup_append]
        refine ⟨nodup_rng _ _, nodup_rng _ _, ?_⟩
        intro a ha b hb'
        rw [mem_rng] at ha hb'
        omega
      · intro j hj
        rw [List.mem_append, mem_rng, mem_rng] at hj
        omega
    · simp only [if_true]
      exact ⟨nodup_rng _ _, fun j hj => by rw [mem_rng] at hj; simp; omega⟩
  have ns : ∀ (o : Option (Pos N)) (c : Bool), (match o with
      | some q =>
        let range := if c then rng (big + 1) X_BAR
          else rng (big + 1) (X_BAR - small) ++ rng (X_BAR - small + 1) X_BAR
        q.movesFrom big range
      | none => []).Nodup := by
    intro o c
    cases o with
    | none => simp
    | some q => exact nodup_movesFrom (by omega) (hr c).1 (fun i hi => by have := (hr c).2 i hi; omega)
  have disj : ∀ (q : Pos N), q ∈ (match (if p.canEnter big then some (p.enter big) else none : Option (Pos N)) with
      | some q => q.movesFrom small (rng (small + 1) X_BAR)
      | none => []) →
      q ∈ (match (if p.canEnter small then some (p.enter small) else none : Option (Pos N)) with
      | some q =>
        let range :=
          if decide (p.pip (X_BAR - big) < 0) || decide (p.pip (X_BAR - small) < 0) then rng (big + 1) X_BAR
          else rng (big + 1) (X_BAR - small) ++ rng (X_BAR - small + 1) X_BAR
        q.movesFrom big range
      | none => []) → False := by
    intro q hq hq'
    by_cases eB : p.canEnter big = true
    · by_cases eS : p.canEnter small = true
      · simp only [eB, eS, if_true] at hq hq'
        obtain ⟨b, s0, s1, rfl⟩ := mem_movesFrom.1 hq
        obtain ⟨b', t0, t1, e⟩ := mem_movesFrom.1 hq'
        have t0' := (hr (decide (p.pip (X_BAR - big) < 0) || decide (p.pip (X_BAR - small) < 0))).2 b' t0
        rw [mem_rng] at s0
        rw [enter_eq_mv p h3, enter_eq_mv p (by omega)] at e
        have cB := (canEnter_iff (by omega) h3).1 eB
        have cS := (canEnter_iff (by omega) (by omega)).1 eS
        have fB := cB.free (by omega)
        have fS := cS.free (by omega)
        have cell : ∀ j, ((p.mv 25 big).mv b small).pip j = ((p.mv 25 small).mv b' big).pip j := fun j => by rw [e]
        have hB : 1 ≤ big := by omega
        have landB := mv_land (p := p) (by omega : 25 ≤ 25) hB (by omega : big < 25)
        have landS := mv_land (p := p) (by omega : 25 ≤ 25) h1 (by omega : small < 25)
        -- b' = 25 - small
        have hb' : b' = 25 - small := by
          by_contra hne
          have c := cell (25 - small)
          rw [mv_other (p := p.mv 25 small) (by omega) hB (by omega) (by omega) (by omega), landS] at c
          by_cases hb : b = 25 - small
          · rw [← hb, mv_src (by omega) h1, hb, mv_other (by omega) hB (by omega) (by omega) (by omega)] at c
            split_ifs at c <;> omega
          · rw [mv_other (by omega) h1 (by omega) (by omega) (by omega), mv_other (by omega) hB (by omega) (by omega) (by omega)] at c
            split_ifs at c <;> omega
        have hb : b = 25 - big := by
          by_contra hne
          have c := cell (25 - big)
          rw [hb', mv_other (p := p.mv 25 small) (by omega) hB (by omega) (by omega) (by omega),
            mv_other (p := p) (by omega) h1 (by omega) (by omega) (by omega)] at c
          by_cases hl : 25 - big = b - small
          · have hl2 := mv_land (p := p.mv 25 big) (by omega : b ≤ 25) h1 (by omega : small < b)
            rw [← hl, landB] at hl2
            rw [hl2] at c
            split_ifs at c <;> omega
          · rw [mv_other (by omega) h1 (by omega) (by omega) (by omega), landB] at c
            split_ifs at c <;> omega
        have hdiff : p.pip (25 - big) < 0 ∨ p.pip (25 - small) < 0 := by
          by_contra hc
          have : (decide (p.pip (X_BAR - big) < 0) || decide (p.pip (X_BAR - small) < 0)) = false := by
            simp only [Bool.or_eq_false_iff, decide_eq_false_iff_not]; omega
          exact t0'.2.2 this hb'
        subst hb; subst hb'
        have c1 := cell (25 - big)
        have c2 := cell (25 - small)
        rw [mv_src (by omega) h1, landB, mv_other (by omega) hB (by omega) (by omega) (by omega),
          mv_other (by omega) h1 (by omega) (by omega) (by omega)] at c1
        rw [mv_other (by omega) h1 (by omega) (by omega) (by omega), mv_other (by omega) hB (by omega) (by omega) (by omega),
          mv_src (by omega) hB, landS] at c2
        split_ifs at c1 c2 <;> omega
      · simp [eS] at hq'
    · simp [eB] at hq
  have ite_nodup : ∀ (c : Prop) [Decidable c] (a b : List (Pos N)), a.Nodup → b.Nodup → (if c then a else b).Nodup := by
    intro c _ a b ha hb; split_ifs <;> assumption
  unfold mixed1
  simp only
  apply ite_nodup
  · split
    · simp
    · split <;> simp
  · rw [List.nodup_append]
    refine ⟨nb _, ns _ _, ?_⟩
    rintro q hq q' hq' rfl
    exact disj q hq hq'

theorem nodup_mixedMoves {p : Pos N} (hb : p.BarsOK) {big small : Nat}
    (h1 : 1 ≤ small) (h2 : small < big) (h3 : big ≤ 6) :
    (p.mixedMoves big small).Nodup ↔ ¬ (p.pip 25 = 0 ∧ p.Twice small) := by
  unfold mixedMoves
  split_ifs with h h'
  · rw [nodup_mixed0 hb h h1 h2 h3]; simp [h]
  · simp [h, nodup_mixed1 h' h1 h2 h3]
  · simp [h, mixed2]

end Pos
end Bkgm
