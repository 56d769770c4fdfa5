import Verif.Model.DbHash
import Verif.Props.Position
import Mathlib.Data.Nat.Choose.Basic
import Mathlib.Data.Sym.Card
/-!
Helper lemmas for `comb`, `mcomb` and `dbhash`.
-/

namespace Bkgm

theorem fit_small (m : Profile) {n : Nat} (h : n < 2 ^ 64) : fit m n = some n := by unfold fit; rw [if_pos h]

theorem fit_release (n : Nat) : fit .release n = some (n % 2 ^ 64) := by
  unfold fit
  split
  · rename_i h; rw [Nat.mod_eq_of_lt h]
  · rfl

theorem fit_debug (n : Nat) : fit .debug n = if n < 2 ^ 64 then some n else none := by
  unfold fit
  split <;> rfl

/-- Addition of two numbers that may already have overflowed. -/
theorem fit_add (m : Profile) (a b : Nat) :
    ((fit m a).bind fun x => (fit m b).bind fun y => fit m (x + y)) = fit m (a + b) := by
  cases m
  · simp only [fit_debug]
    by_cases ha : a < 2 ^ 64
    · by_cases hb : b < 2 ^ 64
      · simp only [if_pos ha, if_pos hb, Option.bind_some]
      · have : ¬ a + b < 2 ^ 64 := by omega
        simp only [if_pos ha, if_neg hb, if_neg this, Option.bind_some, Option.bind_none]
    · have : ¬ a + b < 2 ^ 64 := by omega
      simp only [if_neg ha, if_neg this, Option.bind_none]
  · simp only [fit_release, Option.bind_some]
    simp [Nat.add_mod]

theorem fit_add' (m : Profile) (a b : Nat) :
    ((fit m b).bind fun y => (fit m a).bind fun x => fit m (x + y)) = fit m (a + b) := by
  rw [Nat.add_comm a b, ← fit_add m b a]
  congr; funext y; congr; funext x; rw [Nat.add_comm]

theorem comb_eq (m : Profile) : ∀ n k, 1 ≤ n → comb m n k = fit m (n.choose k)
  | 0, _, h => by omega
  | n + 1, 0, _ => by simp [comb, fit]
  | n + 1, k + 1, _ => by
    rw [comb]
    split
    · rename_i h
      obtain rfl : n = k := by omega
      simp [fit]
    · split
      · rename_i h
        rw [Nat.choose_eq_zero_of_lt h]
        simp [fit]
      · rw [comb_eq m n k (by omega), comb_eq m n (k + 1) (by omega), fit_add, Nat.choose_succ_succ]

theorem mcomb_eq (m : Profile) (n k : Nat) (h : 2 ≤ n + k) (hs : n + k < 2 ^ 64) :
    mcomb m n k = fit m ((n + k - 1).choose k) := by
  rw [mcomb, fit_small m hs]
  simp only [Option.bind_some]
  rw [show subW (2 ^ 64) m (n + k) 1 = some (n + k - 1) from by unfold subW; rw [if_pos (by omega)]]
  simp only [Option.bind_some]
  rw [comb_eq m _ k (by omega)]

/-- Checkers not yet passed after points `1..i`, out of `T`. -/
def remAt (T : Nat) (f : Nat → Nat) (i : Nat) : Nat := T - ∑ j ∈ Finset.range i, f (j + 1)

/-- The first `k` terms of the index. -/
def headSum (r : Nat → Nat) (k : Nat) : Nat := ∑ i ∈ Finset.range k, (24 - i + r i).choose (25 - i)

/-- The last `k` terms of the index. -/
def tailSum (r : Nat → Nat) : Nat → Nat
  | 0 => 0
  | k + 1 => (k + r (24 - k)).choose (k + 1) + tailSum r k

theorem head_add_tail (r : Nat → Nat) : ∀ k, k ≤ 25 → headSum r (25 - k) + tailSum r k = headSum r 25
  | 0, _ => by simp [tailSum]
  | k + 1, h => by
    rw [← head_add_tail r k (by omega)]
    have e : 25 - k = (24 - k) + 1 := by omega
    rw [e, headSum, headSum, Finset.sum_range_succ, tailSum]
    have e1 : 25 - (k + 1) = 24 - k := by omega
    have e2 : 24 - (24 - k) = k := by omega
    have e3 : 25 - (24 - k) = k + 1 := by omega
    rw [e1, e2, e3]
    omega

theorem head_eq_tail (r : Nat → Nat) : headSum r 25 = tailSum r 25 := by
  have := head_add_tail r 25 (by omega)
  simpa [headSum] using this.symm

theorem tailSum_lt {r : Nat → Nat} (hr : ∀ i, r (i + 1) ≤ r i) : ∀ k, k ≤ 25 → tailSum r k < (k + r (25 - k)).choose k
  | 0, _ => by simp [tailSum]
  | k + 1, h => by
    have ih := tailSum_lt hr k (by omega)
    have h1 : r (25 - k) ≤ r (24 - k) := by
      have := hr (24 - k)
      rwa [show 24 - k + 1 = 25 - k by omega] at this
    have h2 : (k + r (25 - k)).choose k ≤ (k + r (24 - k)).choose k := Nat.choose_le_choose k (by omega)
    have e : k + 1 + r (25 - (k + 1)) = (k + r (24 - k)) + 1 := by
      rw [show 25 - (k + 1) = 24 - k by omega]; omega
    rw [e, Nat.choose_succ_succ', tailSum]
    omega

theorem tailSum_lt_of_lt {r s : Nat → Nat} (hr : ∀ i, r (i + 1) ≤ r i) {k : Nat} (hk : k + 1 ≤ 25)
    (h : r (24 - k) < s (24 - k)) : tailSum r (k + 1) < tailSum s (k + 1) := by
  have h1 := tailSum_lt hr (k + 1) hk
  have e : k + 1 + r (25 - (k + 1)) = k + (r (24 - k) + 1) := by
    rw [show 25 - (k + 1) = 24 - k by omega]; omega
  rw [e] at h1
  have h2 : (k + (r (24 - k) + 1)).choose (k + 1) ≤ (k + s (24 - k)).choose (k + 1) :=
    Nat.choose_le_choose _ (by omega)
  rw [show tailSum s (k + 1) = (k + s (24 - k)).choose (k + 1) + tailSum s k from rfl]
  omega

theorem tailSum_inj {r s : Nat → Nat} (hr : ∀ i, r (i + 1) ≤ r i) (hs : ∀ i, s (i + 1) ≤ s i) :
    ∀ k, k ≤ 25 → tailSum r k = tailSum s k → ∀ i, 25 - k ≤ i → i < 25 → r i = s i
  | 0, _, _, i, h1, h2 => by omega
  | k + 1, hk, he, i, h1, h2 => by
    rcases Nat.lt_trichotomy (r (24 - k)) (s (24 - k)) with h | h | h
    · have := tailSum_lt_of_lt hr hk h; omega
    · by_cases hi : i = 24 - k
      · rw [hi, h]
      · refine tailSum_inj hr hs k (by omega) ?_ i (by omega) h2
        simp only [tailSum, h] at he
        omega
    · have := tailSum_lt_of_lt hs hk h; omega

theorem remAt_succ_le (T : Nat) (f : Nat → Nat) (i : Nat) : remAt T f (i + 1) ≤ remAt T f i := by
  unfold remAt
  rw [Finset.sum_range_succ]
  omega

/-- The index computed by `dbhash` for one side with `T` checkers on the board, `f i` of them on point `i`. -/
def sideIndex (T : Nat) (f : Nat → Nat) : Nat := headSum (remAt T f) 25

theorem sideIndex_lt (T : Nat) (f : Nat → Nat) : sideIndex T f < (T + 25).choose 25 := by
  have := tailSum_lt (remAt_succ_le T f) 25 (by omega)
  rw [← head_eq_tail] at this
  have e : remAt T f (25 - 25) = T := by simp [remAt]
  rw [e] at this
  rw [Nat.add_comm T]
  exact this

theorem sideIndex_inj {T U : Nat} {f g : Nat → Nat} (hT : ∑ j ∈ Finset.range 24, f (j + 1) ≤ T)
    (hU : ∑ j ∈ Finset.range 24, g (j + 1) ≤ U) (h : sideIndex T f = sideIndex U g) :
    T = U ∧ ∀ i, 1 ≤ i → i ≤ 24 → f i = g i := by
  unfold sideIndex at h
  rw [head_eq_tail, head_eq_tail] at h
  have key := tailSum_inj (remAt_succ_le T f) (remAt_succ_le U g) 25 (by omega) h
  have mono : ∀ (f : Nat → Nat) i, i ≤ 24 → ∑ j ∈ Finset.range i, f (j + 1) ≤ ∑ j ∈ Finset.range 24, f (j + 1) :=
    fun f i hi => by
      rw [Finset.range_eq_Ico, Finset.range_eq_Ico, ← Finset.sum_Ico_consecutive _ (Nat.zero_le i) hi]
      omega
  have h0 : T = U := by have := key 0 (by omega) (by omega); simpa [remAt] using this
  have hs : ∀ i, i ≤ 24 → ∑ j ∈ Finset.range i, f (j + 1) = ∑ j ∈ Finset.range i, g (j + 1) := by
    intro i hi
    have := key i (by omega) (by omega)
    have a := mono f i hi
    have b := mono g i hi
    unfold remAt at this
    omega
  refine ⟨h0, fun i h1 h2 => ?_⟩
  obtain ⟨i, rfl⟩ : ∃ j, i = j + 1 := ⟨i - 1, by omega⟩
  have a := hs i (by omega)
  have b := hs (i + 1) h2
  rw [Finset.sum_range_succ, Finset.sum_range_succ] at b
  omega

theorem dbAdd_eq (m : Profile) (idx i r : Nat) (hi : i ≤ 24) (hr : r < 2 ^ 63) :
    ((fit m idx).bind fun x => dbAdd m x i r) = fit m (idx + (24 - i + r).choose (25 - i)) := by
  unfold dbAdd
  by_cases h : r > 0
  · simp only [if_pos h]
    rw [mcomb_eq m _ _ (by omega) (by omega), show 26 - i + (r - 1) - 1 = 24 - i + r by omega]
    rw [show (24 - i + r).choose (r - 1) = (24 - i + r).choose (25 - i) by
      rw [← Nat.choose_symm (by omega)]
      congr 1; omega]
    exact fit_add m _ _
  · simp only [if_neg h]
    have : r = 0 := by omega
    subst this
    rw [Nat.choose_eq_zero_of_lt (by omega)]
    cases fit m idx <;> simp [Option.bind]

variable {N : Nat}

theorem sum26 (f : Nat → Nat) :
    ∑ i ∈ Finset.range 26, f i = f 0 + ∑ j ∈ Finset.range 24, f (j + 1) + f 25 := by
  rw [Finset.sum_range_succ, Finset.sum_range_succ']
  omega

/-- The state of the loop of `dbhash` after `k` iterations. -/
theorem dbLoop_eq (m : Profile) (p : Pos N) (T U : Nat) (hT : T < 2 ^ 63) (hU : U < 2 ^ 63)
    (hx : ∑ j ∈ Finset.range 24, p.view.x (j + 1) ≤ T) (ho : ∑ j ∈ Finset.range 24, p.view.o (j + 1) ≤ U) :
    ∀ k, k ≤ 24 →
      ((fit m (headSum (remAt T p.view.x) 1)).bind fun xi => (fit m (headSum (remAt U p.view.o) 1)).bind fun oi =>
        (List.range' 1 k).foldlM (dbStep m p) ⟨T, U, xi, oi⟩) =
      (fit m (headSum (remAt T p.view.x) (k + 1))).bind fun xi => (fit m (headSum (remAt U p.view.o) (k + 1))).bind fun oi =>
        some ⟨remAt T p.view.x k, remAt U p.view.o k, xi, oi⟩
  | 0, _ => by simp [remAt]
  | k + 1, hk => by
    have ih := dbLoop_eq m p T U hT hU hx ho k (by omega)
    have mono : ∀ (f : Nat → Nat) i, i ≤ 24 → ∑ j ∈ Finset.range i, f (j + 1) ≤ ∑ j ∈ Finset.range 24, f (j + 1) :=
      fun f i hi => by
        rw [Finset.range_eq_Ico, Finset.range_eq_Ico, ← Finset.sum_Ico_consecutive _ (Nat.zero_le i) hi]
        omega
    have ax := mono p.view.x (k + 1) hk
    have ao := mono p.view.o (k + 1) hk
    rw [Finset.sum_range_succ] at ax ao
    have rx : p.view.x (k + 1) ≤ remAt T p.view.x k := by unfold remAt; omega
    have ro : p.view.o (k + 1) ≤ remAt U p.view.o k := by unfold remAt; omega
    have ex : remAt T p.view.x (k + 1) = remAt T p.view.x k - p.view.x (k + 1) := by
      unfold remAt; rw [Finset.sum_range_succ]; omega
    have eo : remAt U p.view.o (k + 1) = remAt U p.view.o k - p.view.o (k + 1) := by
      unfold remAt; rw [Finset.sum_range_succ]; omega
    have lx : remAt T p.view.x (k + 1) < 2 ^ 63 := by unfold remAt; omega
    have lo : remAt U p.view.o (k + 1) < 2 ^ 63 := by unfold remAt; omega
    have hstep : ∀ xi oi, dbStep m p ⟨remAt T p.view.x k, remAt U p.view.o k, xi, oi⟩ (k + 1) =
        (dbAdd m oi (k + 1) (remAt U p.view.o (k + 1))).bind fun o =>
        (dbAdd m xi (k + 1) (remAt T p.view.x (k + 1))).bind fun x =>
          some ⟨remAt T p.view.x (k + 1), remAt U p.view.o (k + 1), x, o⟩ := by
      intro xi oi
      unfold dbStep
      simp only [Pos.view] at rx ro ex eo ⊢
      rw [ex, eo]
      by_cases h1 : p.pip (k + 1) < 0
      · have e1 : (p.pip (k + 1)).natAbs = (-p.pip (k + 1)).toNat := by omega
        have e2 : (p.pip (k + 1)).toNat = 0 := by omega
        rw [if_pos h1, e1, e2]
        unfold subW
        rw [if_pos ro]
        rfl
      · have e3 : (-p.pip (k + 1)).toNat = 0 := by omega
        rw [if_neg h1, e3]
        by_cases h2 : p.pip (k + 1) > 0
        · rw [if_pos h2]
          unfold subW
          rw [if_pos rx]
          rfl
        · have e2 : (p.pip (k + 1)).toNat = 0 := by omega
          rw [if_neg h2, e2]
          rfl
    have hh : ∀ (r : Nat → Nat), headSum r (k + 1 + 1) = headSum r (k + 1) + (24 - (k + 1) + r (k + 1)).choose (25 - (k + 1)) :=
      fun r => by rw [headSum, Finset.sum_range_succ]; rfl
    rw [hh, hh, ← dbAdd_eq m _ (k + 1) _ hk lx, ← dbAdd_eq m _ (k + 1) _ hk lo]
    have e1 : 1 + k = k + 1 := by omega
    simp only [List.range'_concat, List.foldlM_append, List.foldlM_cons, List.foldlM_nil, Nat.one_mul, e1]
    calc _ = ((fit m (headSum (remAt T p.view.x) 1)).bind fun xi => (fit m (headSum (remAt U p.view.o) 1)).bind fun oi =>
              (List.range' 1 k).foldlM (dbStep m p) ⟨T, U, xi, oi⟩).bind fun s => dbStep m p s (k + 1) := by
          simp only [Option.bind_assoc]
          congr; funext xi; congr; funext oi
          simp [Bind.bind]
      _ = _ := by
          rw [ih]
          simp only [Option.bind_assoc, Option.bind_some, hstep]
          cases fit m (headSum (remAt T p.view.x) (k + 1)) with
          | none => simp
          | some xi =>
            cases fit m (headSum (remAt U p.view.o) (k + 1)) with
            | none => cases h : dbAdd m xi (k + 1) (remAt T p.view.x (k + 1)) <;> simp
            | some oi =>
              simp only [Option.bind_some]
              cases dbAdd m xi (k + 1) (remAt T p.view.x (k + 1)) <;>
                cases dbAdd m oi (k + 1) (remAt U p.view.o (k + 1)) <;> simp

/-- `dbhash` of a valid position, in both build profiles. -/
theorem dbhash_eq (m : Profile) (p : Pos N) (hN : N < 256) (hv : p.Valid) :
    dbhash m p = (fit m (sideIndex p.view.countX p.view.x)).bind fun x =>
      (fit m (sideIndex p.view.countO p.view.o)).bind fun o =>
      (fit m ((N + 25).choose 25)).bind fun c => (fit m (x * c)).bind fun a => fit m (a + o) := by
  have hX := hv.sumX
  have hO := hv.sumO
  have hxo : p.view.xOff = p.xOff := rfl
  have hoo : p.view.oOff = p.oOff := rfl
  have hTx : ∑ j ∈ Finset.range 24, p.view.x (j + 1) ≤ p.view.countX := by
    unfold Spec.Board.countX; rw [sum26]; omega
  have hTo : ∑ j ∈ Finset.range 24, p.view.o (j + 1) ≤ p.view.countO := by
    unfold Spec.Board.countO; rw [sum26]; omega
  have loop := dbLoop_eq m p p.view.countX p.view.countO (by omega) (by omega) hTx hTo 24 (Nat.le_refl _)
  have h0 : ∀ T f, T < 2 ^ 63 → dbAdd m 0 0 T = fit m (headSum (remAt T f) 1) := by
    intro T f hT
    have := dbAdd_eq m 0 0 T (by omega) hT
    rw [fit_small m (by omega)] at this
    simp only [Option.bind_some] at this
    rw [this]
    simp [headSum, remAt]
  have hm : mcomb m 26 N = fit m ((N + 25).choose 25) := by
    rw [mcomb_eq m 26 N (by omega) (by omega), show 26 + N - 1 = N + 25 by omega]
    rw [Nat.choose_symm_add]
  unfold dbhash
  have sx : N - p.xOff = p.view.countX := by omega
  have so : N - p.oOff = p.view.countO := by omega
  rw [show subW (2 ^ 8) m N p.xOff = some p.view.countX from by unfold subW; rw [if_pos (by omega), sx]]
  rw [show subW (2 ^ 8) m N p.oOff = some p.view.countO from by unfold subW; rw [if_pos (by omega), so]]
  simp only [Option.bind_some]
  rw [h0 _ p.view.x (by omega), h0 _ p.view.o (by omega), hm]
  generalize fit m ((N + 25).choose 25) = M
  unfold sideIndex
  have key : ∀ (A B C D : Option Nat) (k : Nat → Nat → Option DbState) (r s : Nat),
      (A.bind fun a => B.bind fun b => k a b) = (C.bind fun c => D.bind fun d => some ⟨r, s, c, d⟩) →
      (A.bind fun a => B.bind fun b => (k a b).bind fun s => M.bind fun c => (fit m (s.xIdx * c)).bind fun a => fit m (a + s.oIdx)) =
      (C.bind fun x => D.bind fun o => M.bind fun c => (fit m (x * c)).bind fun a => fit m (a + o)) := by
    intro A B C D k r s h
    have := congrArg (fun o => o.bind fun s : DbState => M.bind fun c => (fit m (s.xIdx * c)).bind fun a => fit m (a + s.oIdx)) h
    simpa only [Option.bind_assoc, Option.bind_some] using this
  exact key _ _ _ _ _ _ _ loop

end Bkgm
