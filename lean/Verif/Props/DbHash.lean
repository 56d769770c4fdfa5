import Verif.Proofs.DbHash
import Mathlib.Algebra.Order.BigOperators.Group.Finset
import Verif.Model.Variants
import Mathlib.Data.Fin.VecNotation
/-!
# C30-C32: `comb`, `mcomb`, `dbhash`
-/

namespace Bkgm
variable {N : Nat}

/-- What a `usize` computation with mathematical result `n` gives: `n` itself if it fits; otherwise a panic in a debug build and
`n` modulo 2^64 in a release build. -/
theorem fit_spec (n : Nat) :
    (n < 2 ^ 64 → ∀ m, fit m n = some n) ∧ (2 ^ 64 ≤ n → fit .debug n = none ∧ fit .release n = some (n % 2 ^ 64)) := by
  refine ⟨fun h m => fit_small m h, fun h => ⟨?_, fit_release n⟩⟩
  rw [fit_debug, if_neg (by omega)]

example : fit .debug (2 ^ 64) = none ∧ fit .release (2 ^ 64 + 5) = some 5 := ⟨((fit_spec _).2 (by decide)).1, ((fit_spec _).2 (by decide)).2⟩

/-- **C32** `comb(n, k)` is the binomial coefficient for `n ≥ 1` (as a `usize`), and 0 for `n = 0`. -/
theorem C32_comb (m : Profile) (n k : Nat) :
    (1 ≤ n → comb m n k = fit m (n.choose k)) ∧ comb m 0 k = some 0 :=
  ⟨comb_eq m n k, by cases k <;> rfl⟩

example : comb .debug 6 2 = some 15 := by rw [(C32_comb .debug 6 2).1 (by decide)]; rfl

/-- **C32** `mcomb(n, k)` is the number of multisets of `k` elements from `n` kinds, if `n + k ≥ 2`. -/
theorem C32_mcomb (m : Profile) (n k : Nat) (h : 2 ≤ n + k) (hs : n + k < 2 ^ 64) :
    mcomb m n k = fit m (Fintype.card (Sym (Fin n) k)) := by
  rw [mcomb_eq m n k h hs, Sym.card_sym_eq_multichoose, Fintype.card_fin, Nat.multichoose_eq]

example := C32_mcomb .release 26 3 (by decide) (by decide)

/-- **C32** The excluded points: `mcomb(1, 0) = mcomb(0, 1) = 0` (there is one multiset of size 0), `mcomb(0, 0)` underflows. -/
theorem C32_mcomb_excluded (m : Profile) :
    mcomb m 1 0 = some 0 ∧ mcomb m 0 1 = some 0 ∧ mcomb .debug 0 0 = none ∧ Fintype.card (Sym (Fin 1) 0) = 1 := by
  cases m <;> exact ⟨by rfl, by rfl, by rfl, by rfl⟩

example : mcomb .debug 26 3 = some 3276 := by decide +kernel

theorem dbhash_debug {p : Pos N} (hN : N < 256) (hv : p.Valid) {a : Nat} (h : dbhash .debug p = some a) :
    a = sideIndex p.view.countX p.view.x * (N + 25).choose 25 + sideIndex p.view.countO p.view.o := by
  rw [dbhash_eq .debug p hN hv] at h
  simp only [fit_debug] at h
  generalize sideIndex p.view.countX p.view.x = X at h ⊢
  generalize sideIndex p.view.countO p.view.o = O at h ⊢
  generalize (N + 25).choose 25 = M at h ⊢
  by_cases h1 : X < 2 ^ 64 <;> simp only [h1, if_true, if_false, Option.bind_some, Option.bind_none, reduceCtorEq] at h
  by_cases h2 : O < 2 ^ 64 <;> simp only [h2, if_true, if_false, Option.bind_some, Option.bind_none, reduceCtorEq] at h
  by_cases h3 : M < 2 ^ 64 <;> simp only [h3, if_true, if_false, Option.bind_some, Option.bind_none, reduceCtorEq] at h
  by_cases h4 : X * M < 2 ^ 64 <;> simp only [h4, if_true, if_false, Option.bind_some, Option.bind_none, reduceCtorEq] at h
  by_cases h5 : X * M + O < 2 ^ 64 <;> simp only [h5, if_true, if_false, reduceCtorEq] at h
  injection h with h
  exact h.symm

theorem side_le (p : Pos N) (hv : p.Valid) :
    sideIndex p.view.countX p.view.x < (N + 25).choose 25 ∧ sideIndex p.view.countO p.view.o < (N + 25).choose 25 := by
  have hX := hv.sumX
  have hO := hv.sumO
  exact ⟨Nat.lt_of_lt_of_le (sideIndex_lt _ _) (Nat.choose_le_choose 25 (by omega)),
    Nat.lt_of_lt_of_le (sideIndex_lt _ _) (Nat.choose_le_choose 25 (by omega))⟩

theorem mul_add_lt {X O M : Nat} (h1 : X < M) (h2 : O < M) : X * M + O < M * M := by
  have : (X + 1) * M ≤ M * M := Nat.mul_le_mul_right M (by omega)
  rw [Nat.add_mul] at this
  omega

theorem side_eqv {p q : Pos N} (hp : p.Valid) (hq : q.Valid)
    (hx : sideIndex p.view.countX p.view.x = sideIndex q.view.countX q.view.x)
    (ho : sideIndex p.view.countO p.view.o = sideIndex q.view.countO q.view.o) : p.eqv q = true := by
  have le : ∀ f : Nat → Nat, ∑ j ∈ Finset.range 24, f (j + 1) ≤ ∑ i ∈ Finset.range 26, f i := fun f => by
    rw [sum26]; omega
  obtain ⟨hX, hx⟩ := sideIndex_inj (le p.view.x) (le q.view.x) hx
  obtain ⟨hO, ho⟩ := sideIndex_inj (le p.view.o) (le q.view.o) ho
  have sx : ∑ j ∈ Finset.range 24, p.view.x (j + 1) = ∑ j ∈ Finset.range 24, q.view.x (j + 1) :=
    Finset.sum_congr rfl fun j hj => hx (j + 1) (by omega) (by have := Finset.mem_range.1 hj; omega)
  have so : ∑ j ∈ Finset.range 24, p.view.o (j + 1) = ∑ j ∈ Finset.range 24, q.view.o (j + 1) :=
    Finset.sum_congr rfl fun j hj => ho (j + 1) (by omega) (by have := Finset.mem_range.1 hj; omega)
  have hX' : p.view.countX = q.view.countX := hX
  have hO' : p.view.countO = q.view.countO := hO
  have hXc := hX'
  have hOc := hO'
  unfold Spec.Board.countX at hX'
  unfold Spec.Board.countO at hO'
  rw [sum26, sum26] at hX' hO'
  have a1 := hp.xBar; have a2 := hq.xBar; have a3 := hp.oBar; have a4 := hq.oBar
  have b1 := hp.sumX; have b2 := hq.sumX; have b3 := hp.sumO; have b4 := hq.sumO
  have c1 : p.view.xOff = p.xOff := rfl
  have c2 : q.view.xOff = q.xOff := rfl
  have c3 : p.view.oOff = p.oOff := rfl
  have c4 : q.view.oOff = q.oOff := rfl
  have key : ∀ i, i < 26 → p.view.x i = q.view.x i ∧ p.view.o i = q.view.o i := by
    intro i hi
    by_cases h0 : i = 0
    · subst h0; omega
    · by_cases h1 : i = 25
      · subst h1; omega
      · exact ⟨hx i (by omega) (by omega), ho i (by omega) (by omega)⟩
  have hp : p.pips = q.pips := by
    funext i
    have := key i.val i.isLt
    simp only [Pos.view, Pos.pip, i.isLt, dite_true, Fin.eta] at this
    omega
  unfold Pos.eqv
  have hxo : p.xOff = q.xOff := by omega
  have hoo : p.oOff = q.oOff := by omega
  simp [hp, hxo, hoo]

theorem sideIndex_congr {T : Nat} {f g : Nat → Nat} (h : f = g) : sideIndex T f = sideIndex T g := by rw [h]

theorem view_of_eqv {p q : Pos N} (h : p.eqv q = true) : p.view = q.view := by
  unfold Pos.eqv at h
  simp only [Bool.and_eq_true, decide_eq_true_eq] at h
  obtain ⟨⟨h1, h2⟩, h3⟩ := h
  unfold Pos.view Pos.pip
  rw [h1, h2, h3]

/-- **C30** As long as no computation overflows, `dbhash` is a perfect hash of the valid positions (turn ignored), smaller than
the square of the number of ways to place up to `N` checkers. -/
theorem C30_perfect_hash (hN : N < 256) (p q : Pos N) (hp : p.Valid) (hq : q.Valid) (a b : Nat)
    (ha : dbhash .debug p = some a) (hb : dbhash .debug q = some b) :
    (a = b ↔ p.eqv q = true) ∧ a < Fintype.card (Sym (Fin 26) N) ^ 2 := by
  have ea := dbhash_debug hN hp ha
  have eb := dbhash_debug hN hq hb
  obtain ⟨h1, h2⟩ := side_le p hp
  obtain ⟨h3, h4⟩ := side_le q hq
  have hc : Fintype.card (Sym (Fin 26) N) = (N + 25).choose 25 := by
    rw [Sym.card_sym_eq_multichoose, Fintype.card_fin, Nat.multichoose_eq, show 26 + N - 1 = N + 25 by omega,
      Nat.choose_symm_add]
  refine ⟨⟨fun h => ?_, fun h => ?_⟩, ?_⟩
  · rw [ea, eb] at h
    have hm : (sideIndex p.view.countX p.view.x * (N + 25).choose 25 + sideIndex p.view.countO p.view.o) / (N + 25).choose 25 =
        (sideIndex q.view.countX q.view.x * (N + 25).choose 25 + sideIndex q.view.countO q.view.o) / (N + 25).choose 25 := by
      rw [h]
    have hpos : 0 < (N + 25).choose 25 := by omega
    rw [Nat.add_comm, Nat.add_mul_div_right _ _ hpos, Nat.div_eq_of_lt h2, Nat.add_comm (_ * _),
      Nat.add_mul_div_right _ _ hpos, Nat.div_eq_of_lt h4, Nat.zero_add, Nat.zero_add] at hm
    rw [hm] at h
    exact side_eqv hp hq hm (by omega)
  · rw [ea, eb, view_of_eqv h]
  · rw [hc, ea, Nat.pow_two]
    exact mul_add_lt h1 h2

example : ∃ a b, dbhash .debug Ex.hitPos = some a ∧ dbhash .debug Ex.barPos = some b ∧ a ≠ b := by
  obtain ⟨a, ha⟩ := Option.ne_none_iff_exists'.1 (show dbhash .debug Ex.hitPos ≠ none by decide +kernel)
  obtain ⟨b, hb⟩ := Option.ne_none_iff_exists'.1 (show dbhash .debug Ex.barPos ≠ none by decide +kernel)
  exact ⟨a, b, ha, hb, fun e => absurd ((C30_perfect_hash (by decide) Ex.hitPos Ex.barPos (by decide) (by decide) a b ha hb).1.1 e) (by decide)⟩

/-- **C31**, for at most 12 checkers per side: `dbhash` never overflows, and both build profiles compute the same value. -/
theorem C31_no_overflow_partial (hN : N ≤ 12) (p : Pos N) (hp : p.Valid) :
    ∃ a, ∀ m, dbhash m p = some a := by
  obtain ⟨h1, h2⟩ := side_le p hp
  have hM : (N + 25).choose 25 ≤ 1852482996 := by
    calc (N + 25).choose 25 ≤ (12 + 25).choose 25 := Nat.choose_le_choose 25 (by omega)
      _ = 1852482996 := by
        rw [Nat.choose_eq_descFactorial_div_factorial]
        decide +kernel
  have hlt := mul_add_lt h1 h2
  have hMM : (N + 25).choose 25 * (N + 25).choose 25 ≤ 1852482996 * 1852482996 := Nat.mul_le_mul hM hM
  refine ⟨sideIndex p.view.countX p.view.x * (N + 25).choose 25 + sideIndex p.view.countO p.view.o, fun m => ?_⟩
  rw [dbhash_eq m p (by omega) hp]
  generalize sideIndex p.view.countX p.view.x = X at *
  generalize sideIndex p.view.countO p.view.o = O at *
  generalize (N + 25).choose 25 = M at *
  rw [fit_small m (n := X) (by omega), fit_small m (n := O) (by omega), fit_small m (n := M) (by omega)]
  simp only [Option.bind_some]
  rw [fit_small m (n := X * M) (by omega)]
  simp only [Option.bind_some]
  rw [fit_small m (by omega)]

/-- `sideIndex` in a form that evaluates quickly. -/
def fastIndex (T : Nat) (f : Nat → Nat) : Nat :=
  ∑ i ∈ Finset.range 25, (24 - i + (T - ∑ j ∈ Finset.range i, f (j + 1))).descFactorial (25 - i) / (25 - i).factorial

theorem fastIndex_eq (T : Nat) (f : Nat → Nat) : sideIndex T f = fastIndex T f := by
  unfold sideIndex headSum fastIndex remAt
  refine Finset.sum_congr rfl fun i _ => ?_
  rw [Nat.choose_eq_descFactorial_div_factorial]

theorem choose_40 : (15 + 25).choose 25 = 40225345056 := by
  rw [Nat.choose_eq_descFactorial_div_factorial]
  decide +kernel

/-- The backgammon start position. -/
def bgStart : Pos 15 := ⟨true, ![0, -2, 0, 0, 0, 0, 5, 0, 3, 0, 0, 0, -5, 5, 0, 0, 0, -3, 0, -5, 0, 0, 0, 0, 2, 0], 0, 0⟩

/-- It is the position of a new game. -/
example : Variant.startPosition .backgammon = .backgammon bgStart :=
  congrArg VPos.backgammon (by decide +kernel : BACKGAMMON = bgStart)

/-- **C31** fails for 15 checkers per side: `dbhash` of the backgammon start position overflows (a panic in a debug build). -/
theorem C31_overflow_counterexample : bgStart.Valid ∧ dbhash .debug bgStart = none := by
  have hv : bgStart.Valid := by decide +kernel
  refine ⟨hv, ?_⟩
  rw [dbhash_eq .debug bgStart (by omega) hv, fastIndex_eq, fastIndex_eq, choose_40]
  have e1 : fastIndex bgStart.view.countX bgStart.view.x = 38381267065 := by decide +kernel
  have e2 : fastIndex bgStart.view.countO bgStart.view.o = 18636762541 := by decide +kernel
  rw [e1, e2]
  decide +kernel

/-- All `N` checkers of x on the bar, all of o borne off. -/
def allOnBar (N : Nat) : Pos N := ⟨true, fun i => if i = 25 then (N : Int) else 0, 0, N⟩

theorem allOnBar_pip (N i : Nat) : (allOnBar N).pip i = if i = 25 then (N : Int) else 0 := by
  unfold Pos.pip allOnBar
  by_cases h : i < 26
  · simp only [dif_pos h]
    by_cases h' : i = 25
    · subst h'; rfl
    · rw [if_neg h', if_neg]
      intro e
      exact h' (congrArg Fin.val e)
  · rw [dif_neg h, if_neg (by omega)]

theorem allOnBar_x (N i : Nat) : (allOnBar N).view.x i = if i = 25 then N else 0 := by
  simp only [Pos.view, allOnBar_pip]
  split_ifs <;> simp

theorem allOnBar_o (N i : Nat) : (allOnBar N).view.o i = 0 := by
  simp only [Pos.view, allOnBar_pip]
  split_ifs <;> simp

theorem allOnBar_countX (N : Nat) : (allOnBar N).view.countX = N := by
  unfold Spec.Board.countX
  simp [allOnBar_x]

theorem allOnBar_countO (N : Nat) : (allOnBar N).view.countO = 0 := by
  unfold Spec.Board.countO
  simp [allOnBar_o]

theorem allOnBar_valid (N : Nat) : (allOnBar N).Valid := by
  refine ⟨by rw [allOnBar_x]; simp, allOnBar_o N 25, fun i _ => Or.inr (allOnBar_o N i), ?_, ?_⟩
  · rw [allOnBar_countX]; rfl
  · rw [allOnBar_countO, Nat.zero_add]; rfl

/-- **C31, the exact bound**: `dbhash` is free of overflow on all valid positions of a board size if and only if that size is at most 12 checkers per
side. (Cells are `i8`: sizes up to 127.) -/
theorem C31_sizes_partial (N : Nat) (hN : N ≤ 127) : (∀ p : Pos N, p.Valid → dbhash .debug p ≠ none) ↔ N ≤ 12 := by
  constructor
  · intro h
    by_contra hgt
    refine h (allOnBar N) (allOnBar_valid N) ?_
    rw [dbhash_eq .debug _ (by omega) (allOnBar_valid N), allOnBar_countX, allOnBar_countO]
    have e1 : ∀ k, k ≤ 24 → remAt N (allOnBar N).view.x k = N := by
      intro k hk
      unfold remAt
      rw [Finset.sum_eq_zero (fun j hj => by
        rw [allOnBar_x, if_neg]
        have := Finset.mem_range.1 hj
        omega)]
      rfl
    have c1 : (37 : Nat).choose 25 ≤ (24 + N).choose 25 := Nat.choose_le_choose 25 (by omega)
    have c2 : (36 : Nat).choose 24 ≤ (23 + N).choose 24 := Nat.choose_le_choose 24 (by omega)
    have c3 : (35 : Nat).choose 23 ≤ (22 + N).choose 23 := Nat.choose_le_choose 23 (by omega)
    have c4 : (38 : Nat).choose 25 ≤ (N + 25).choose 25 := Nat.choose_le_choose 25 (by omega)
    have k1 : (37 : Nat).choose 25 = 1852482996 := by rw [Nat.choose_eq_descFactorial_div_factorial]; decide +kernel
    have k2 : (36 : Nat).choose 24 = 1251677700 := by rw [Nat.choose_eq_descFactorial_div_factorial]; decide +kernel
    have k3 : (35 : Nat).choose 23 = 834451800 := by rw [Nat.choose_eq_descFactorial_div_factorial]; decide +kernel
    have k4 : (38 : Nat).choose 25 = 5414950296 := by rw [Nat.choose_eq_descFactorial_div_factorial]; decide +kernel
    have hx : 3938612496 ≤ sideIndex N (allOnBar N).view.x := by
      unfold sideIndex headSum
      have hs : Finset.range 3 ⊆ Finset.range 25 := by intro i; simp; omega
      refine le_trans ?_ (Finset.sum_le_sum_of_subset_of_nonneg hs fun _ _ _ => Nat.zero_le _)
      rw [Finset.sum_range_succ, Finset.sum_range_succ, Finset.sum_range_one, e1 0 (by omega), e1 1 (by omega), e1 2 (by omega)]
      simp only [Nat.sub_zero, Nat.reduceSub]
      omega
    generalize sideIndex N (allOnBar N).view.x = X at hx
    generalize sideIndex 0 (allOnBar N).view.o = O
    generalize (N + 25).choose 25 = M at c4
    have hm : 3938612496 * 5414950296 ≤ X * M := Nat.mul_le_mul hx (by omega)
    have hbig : ¬ X * M < 2 ^ 64 := by omega
    have hn : fit .debug (X * M) = none := by unfold fit; rw [if_neg hbig]
    cases e1 : fit .debug X with
    | none => rfl
    | some x' =>
      cases e2 : fit .debug O with
      | none => rfl
      | some o' =>
        cases e3 : fit .debug M with
        | none => rfl
        | some m' =>
          have d : ∀ {n n' : Nat}, fit .debug n = some n' → n' = n := by
            intro n n' h
            unfold fit at h
            split_ifs at h with h1
            exact (Option.some.inj h).symm
          rw [d e1, d e3]
          simp only [Option.bind_some, hn, Option.bind_none]
  · intro h p hp e
    obtain ⟨a, ha⟩ := C31_no_overflow_partial h p hp
    rw [ha .debug] at e
    cases e

example : (∀ p : Pos 5, p.Valid → dbhash .debug p ≠ none) ∧ ¬ ∀ p : Pos 15, p.Valid → dbhash .debug p ≠ none :=
  ⟨(C31_sizes_partial 5 (by omega)).2 (by omega), fun h => absurd ((C31_sizes_partial 15 (by omega)).1 h) (by omega)⟩

/-- Two different positions of 15 checkers per side ... -/
def collideA : Pos 15 := ⟨true, ![0, 0, -1, -4, 1, -1, 0, 0, 0, -1, 0, 0, -3, 0, 2, -2, 2, 1, 0, 1, -1, 6, 0, 1, 0, 0], 1, 2⟩
def collideB : Pos 15 := ⟨true, ![0, 0, 0, -3, -1, 1, 0, -1, 3, 3, 0, 3, 0, -4, 1, 0, -2, 0, -1, 2, 0, -2, 0, -1, 1, 0], 1, 0⟩

/-- ... **C30** fails for them in a release build: the wrapped hashes are equal. -/
theorem C30_release_collision_counterexample :
    collideA.Valid ∧ collideB.Valid ∧ collideA.eqv collideB = false ∧
    ∃ h, dbhash .release collideA = some h ∧ dbhash .release collideB = some h := by
  have hA : collideA.Valid := by decide +kernel
  have hB : collideB.Valid := by decide +kernel
  refine ⟨hA, hB, by decide +kernel, ?_⟩
  rw [dbhash_eq .release collideA (by omega) hA, dbhash_eq .release collideB (by omega) hB]
  simp only [fastIndex_eq, choose_40]
  have e1 : fastIndex collideA.view.countX collideA.view.x = 13690605649 := by decide +kernel
  have e2 : fastIndex collideA.view.countO collideA.view.o = 3393693909 := by decide +kernel
  have e3 : fastIndex collideB.view.countX collideB.view.x = 14149190753 := by decide +kernel
  have e4 : fastIndex collideB.view.countO collideB.view.o = 31161599701 := by decide +kernel
  rw [e1, e2, e3, e4]
  exact ⟨15753758122464518389, by decide +kernel, by decide +kernel⟩

/-- The hypotheses of the theorems are met: a hypergammon position. -/
example : ∃ a, dbhash .debug (⟨true, ![0, -1, -1, -1, 0, 0, 0, 0, 0, 0, 0, 0, 0, 0, 0, 0, 0, 0, 0, 0, 0, 0, 1, 1, 1, 0], 0, 0⟩ : Pos 3)
    = some a := by
  obtain ⟨a, h⟩ := C31_no_overflow_partial (N := 3) (by omega)
    ⟨true, ![0, -1, -1, -1, 0, 0, 0, 0, 0, 0, 0, 0, 0, 0, 0, 0, 0, 0, 0, 0, 0, 0, 1, 1, 1, 0], 0, 0⟩ (by decide +kernel)
  exact ⟨a, h .debug⟩

end Bkgm
