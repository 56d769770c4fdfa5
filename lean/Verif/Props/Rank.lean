import Verif.Proofs.Rank
/-!
# C96: the database hash numbers the boards
-/

namespace Bkgm
open Pos
variable {N : Nat}

namespace Rank

theorem placeX_eq (b : Spec.Board) : b.placeX = b.xOff :: (List.range' 0 25).map (fun j => b.x (j + 1)) := rfl
theorem placeO_eq (b : Spec.Board) : b.placeO = b.oOff :: (List.range' 0 25).map (fun j => if j < 24 then b.o (j + 1) else b.o 0) := rfl

theorem cells {b : Spec.Board} (h : Spec.Valid N b) :
    b.countX = ∑ j ∈ Finset.range 25, b.x (j + 1) ∧ b.countO = ∑ j ∈ Finset.range 25, (if j < 24 then b.o (j + 1) else b.o 0) := by
  constructor
  · unfold Spec.Board.countX
    rw [Finset.sum_range_succ', h.xBar, Nat.add_zero]
  · unfold Spec.Board.countO
    have this : ∑ j ∈ Finset.range 24, (if j < 24 then b.o (j + 1) else b.o 0) = ∑ j ∈ Finset.range 24, b.o (j + 1) :=
      Finset.sum_congr rfl fun j hj => if_pos (Finset.mem_range.1 hj)
    have e : ∑ j ∈ Finset.range 25, (if j < 24 then b.o (j + 1) else b.o 0) = ∑ j ∈ Finset.range 24, b.o (j + 1) + b.o 0 := by
      rw [Finset.sum_range_succ, this, if_neg (by omega)]
    rw [e, Finset.sum_range_succ', Finset.sum_range_succ, h.oBar, Nat.add_zero]

theorem place_mem {b : Spec.Board} (h : Spec.Valid N b) : b.placeX ∈ Spec.placements N ∧ b.placeO ∈ Spec.placements N := by
  have key : ∀ (g : Nat → Nat), ((List.range' 0 25).map g).sum = ∑ j ∈ Finset.range 25, g j := by
    intro g
    have := (before_tail (fun i => ∑ j ∈ Finset.Ico i 25, g j) g (fun _ _ => rfl) 25 (le_refl _) 0).2
    rw [show 25 - 25 = 0 by omega] at this
    rw [this, Finset.range_eq_Ico]
  obtain ⟨c1, c2⟩ := cells h
  have s1 := h.sumX
  have s2 := h.sumO
  constructor
  · refine ⟨by rw [placeX_eq]; simp, ?_⟩
    rw [placeX_eq, List.sum_cons, key]
    omega
  · refine ⟨by rw [placeO_eq]; simp, ?_⟩
    rw [placeO_eq, List.sum_cons, key]
    omega

theorem number_eq (p : Pos N) (hp : p.Valid) : p.view.number N = sideIndex p.view.countX p.view.x * (N + 25).choose 25 + sideIndex p.view.countO p.view.o := by
  obtain ⟨m1, m2⟩ := place_mem hp
  obtain ⟨c1, c2⟩ := cells hp
  unfold Spec.Board.number
  rw [ncard_placements, rank_eq m1.1 m1.2, rank_eq m2.1 m2.2, placeX_eq, placeO_eq,
    sideIndex_before p.view.xOff _ p.view.x (fun j => p.view.x (j + 1)) (fun _ _ => rfl) c1,
    sideIndex_before p.view.oOff _ p.view.o (fun j => if j < 24 then p.view.o (j + 1) else p.view.o 0) (fun j hj => if_pos hj) c2]

end Rank

/-- **C96** `dbhash` is the number of the board in the list of all pairs of placements. A debug build panics exactly when this number, or the number of placements of
a side, does not fit into 64 bits; a release build returns it modulo `2 ^ 64`. -/
theorem C96_number (hN : N < 256) (p : Pos N) (hp : p.Valid) :
    dbhash .debug p = (if (Spec.placements N).ncard < 2 ^ 64 ∧ p.view.number N < 2 ^ 64 then some (p.view.number N) else none) ∧
    dbhash .release p = some (p.view.number N % 2 ^ 64) := by
  obtain ⟨h1, h2⟩ := side_le p hp
  rw [dbhash_eq .debug p hN hp, dbhash_eq .release p hN hp, Rank.number_eq p hp, Rank.ncard_placements]
  generalize sideIndex p.view.countX p.view.x = X at *
  generalize sideIndex p.view.countO p.view.o = O at *
  generalize (N + 25).choose 25 = M at *
  have rel : ∀ n, fit .release n = some (n % 2 ^ 64) := by
    intro n
    unfold fit
    split_ifs with h
    · rw [Nat.mod_eq_of_lt h]
    · rfl
  have deb : ∀ n, fit .debug n = if n < 2 ^ 64 then some n else none := fun n => rfl
  constructor
  · simp only [deb]
    by_cases hM : M < 2 ^ 64
    · have hX : X < 2 ^ 64 := by omega
      have hO : O < 2 ^ 64 := by omega
      rw [if_pos hX, if_pos hO, if_pos hM]
      simp only [Option.bind_some, hM, true_and]
      by_cases ha : X * M < 2 ^ 64
      · rw [if_pos ha, Option.bind_some]
      · rw [if_neg ha, if_neg (by omega)]
        rfl
    · rw [if_neg (c := M < 2 ^ 64 ∧ X * M + O < 2 ^ 64) (fun h => hM h.1), if_neg hM]
      cases (if X < 2 ^ 64 then some X else none) <;> cases (if O < 2 ^ 64 then some O else none) <;> rfl
  · simp only [rel, Option.bind_some]
    congr 1
    conv_rhs => rw [Nat.add_mod, Nat.mul_mod]

/-- **C96** The number orders the boards: a board comes before another exactly when its `x` placement comes before, or is the same and its `o` placement comes
before (larger in the lexicographic order means before). -/
theorem C96_order (p q : Pos N) (hp : p.Valid) (hq : q.Valid) :
    p.view.number N < q.view.number N ↔ q.view.placeX < p.view.placeX ∨ q.view.placeX = p.view.placeX ∧ q.view.placeO < p.view.placeO := by
  have fin : ∀ v, { w ∈ Spec.placements N | v < w }.Finite := fun v =>
    (Set.Finite.subset (by rw [Rank.placements_eq]; exact Finset.finite_toSet _) (Set.sep_subset _ _))
  have mono : ∀ {v w : List Nat}, v ∈ Spec.placements N → w ∈ Spec.placements N → w < v → Spec.rank N v < Spec.rank N w := by
    intro v w hv hw h
    refine Set.ncard_lt_ncard ⟨fun u hu => ⟨hu.1, List.lt_trans h hu.2⟩, fun hsub => ?_⟩ (fin w)
    exact List.lt_irrefl v (hsub ⟨hv, h⟩).2
  have iff : ∀ {v w : List Nat}, v ∈ Spec.placements N → w ∈ Spec.placements N → (Spec.rank N v < Spec.rank N w ↔ w < v) ∧ (Spec.rank N v = Spec.rank N w ↔ w = v) := by
    intro v w hv hw
    rcases lt_trichotomy v w with h | h | h
    · have := mono hw hv h
      refine ⟨⟨fun _ => by omega, fun h' => absurd h' (lt_asymm h)⟩, ⟨fun _ => by omega, fun e => absurd e.symm (ne_of_lt h)⟩⟩
    · subst h; simp
    · have := mono hv hw h
      exact ⟨⟨fun _ => h, fun _ => this⟩, ⟨fun _ => by omega, fun e => absurd e (ne_of_lt h)⟩⟩
  have bound : ∀ {v : List Nat}, v ∈ Spec.placements N → Spec.rank N v < (Spec.placements N).ncard := by
    intro v hv
    refine Set.ncard_lt_ncard ⟨Set.sep_subset _ _, fun h => List.lt_irrefl v (h hv).2⟩ ?_
    rw [Rank.placements_eq]
    exact Finset.finite_toSet _
  obtain ⟨p1, p2⟩ := Rank.place_mem hp
  obtain ⟨q1, q2⟩ := Rank.place_mem hq
  obtain ⟨i1, i2⟩ := iff p1 q1
  obtain ⟨j1, -⟩ := iff p2 q2
  rw [← i1, ← i2, ← j1]
  have b1 := bound p2
  have b2 := bound q2
  unfold Spec.Board.number
  generalize Spec.rank N p.view.placeX = a at *
  generalize Spec.rank N q.view.placeX = b at *
  generalize Spec.rank N p.view.placeO = c at *
  generalize Spec.rank N q.view.placeO = d at *
  generalize (Spec.placements N).ncard = M at *
  rcases lt_trichotomy a b with h | h | h
  · have : (a + 1) * M ≤ b * M := Nat.mul_le_mul_right M h
    rw [Nat.add_mul] at this
    omega
  · subst h; omega
  · have : (b + 1) * M ≤ a * M := Nat.mul_le_mul_right M h
    rw [Nat.add_mul] at this
    omega

/-- Number 0: all checkers of both sides off; one checker each: 26 placements, so the number of a board is below 676. -/
example : (Ex.cells 1 [] 1 1).Valid ∧ dbhash .debug (Ex.cells 1 [] 1 1) = some 0 ∧
    (Ex.cells 1 [0, 1, -1] 0 0).Valid ∧ dbhash .debug (Ex.cells 1 [0, 1, -1] 0 0) = some (1 * 26 + 2) ∧
    (Ex.cells 1 [0, 1, -1] 0 0).view.placeX.take 3 = [0, 1, 0] ∧ (Ex.cells 1 [0, 1, -1] 0 0).view.placeO.take 3 = [0, 0, 1] := by decide +kernel

end Bkgm
