import Verif.Proofs.Finish
/-!
# Board lemmas for C87: a play that makes progress and leaves the opponent a quiet reply
-/

namespace Spec

/-- The points (1..24) held by checkers of `x`. -/
def Board.pointsX (b : Board) : Nat := ∑ i ∈ Finset.Icc 1 24, min 1 (b.x i)

/-- The checkers of `x` are on at most four points, or on five, neither all in the home board nor all on points 18..24. -/
def LooseX (b : Board) : Prop :=
  b.pointsX ≤ 4 ∨ b.pointsX ≤ 5 ∧ (∃ i, 1 ≤ i ∧ i ≤ 17 ∧ 1 ≤ b.x i) ∧ ∃ j, 7 ≤ j ∧ j ≤ 24 ∧ 1 ≤ b.x j

theorem pointsO_mirror (b : Board) : b.mirror.pointsO = b.pointsX := by
  unfold Board.pointsO Board.pointsX
  refine Finset.sum_nbij' (fun i => 25 - i) (fun i => 25 - i) ?_ ?_ ?_ ?_ ?_
  · intro i hi; rw [Finset.mem_Icc] at hi ⊢; omega
  · intro i hi; rw [Finset.mem_Icc] at hi ⊢; omega
  · intro i hi; rw [Finset.mem_Icc] at hi; omega
  · intro i hi; rw [Finset.mem_Icc] at hi; omega
  · intro i hi
    rw [Finset.mem_Icc] at hi
    simp only [Board.mirror, show i < 26 by omega, if_true]

theorem looseO_mirror {b : Board} (h : LooseX b) : LooseO b.mirror := by
  rcases h with h | ⟨h, ⟨i, h1, h2, h3⟩, j, h4, h5, h6⟩
  · exact Or.inl (by rw [pointsO_mirror]; exact h)
  · refine Or.inr ⟨by rw [pointsO_mirror]; exact h, ⟨25 - i, by omega, by omega, ?_⟩, 25 - j, by omega, by omega, ?_⟩
    · simp only [Board.mirror, show 25 - i < 26 by omega, if_true, show 25 - (25 - i) = i by omega]; exact h3
    · simp only [Board.mirror, show 25 - j < 26 by omega, if_true, show 25 - (25 - j) = j by omega]; exact h6

theorem sum_points_le (b : Board) : ∑ i ∈ Finset.Icc 1 24, b.x i + b.x 25 ≤ b.countX := by
  have h : ∑ i ∈ insert 25 (Finset.Icc 1 24), b.x i ≤ b.countX := by
    refine Finset.sum_le_sum_of_subset fun i hi => ?_
    rw [Finset.mem_insert, Finset.mem_Icc] at hi
    rw [Finset.mem_range]
    omega
  rw [Finset.sum_insert (by rw [Finset.mem_Icc]; omega)] at h
  omega

theorem pointsX_bar (b : Board) : b.pointsX + b.x 25 ≤ b.countX := by
  have h1 := sum_points_le b
  have h2 : b.pointsX ≤ ∑ i ∈ Finset.Icc 1 24, b.x i := Finset.sum_le_sum fun i _ => Nat.min_le_right 1 (b.x i)
  omega

theorem pointsX_stack (b : Board) {p : Nat} (h1 : 1 ≤ p) (h24 : p ≤ 24) (hp : 2 ≤ b.x p) : b.pointsX + 1 ≤ b.countX := by
  have h := sum_points_le b
  have h2 : b.pointsX + 1 ≤ ∑ i ∈ Finset.Icc 1 24, b.x i := by
    have : b.pointsX < ∑ i ∈ Finset.Icc 1 24, b.x i :=
      Finset.sum_lt_sum (fun i _ => Nat.min_le_right 1 (b.x i)) ⟨p, by rw [Finset.mem_Icc]; omega, by show min 1 (b.x p) < b.x p; omega⟩
    omega
  omega

/-- Three points with two checkers each need six checkers. -/
theorem three_made {b : Board} (h5 : b.countO ≤ 5) {i j k : Nat} (hij : i < j) (hjk : j < k) (hk : k < 26) : b.o i ≤ 1 ∨ b.o j ≤ 1 ∨ b.o k ≤ 1 := by
  have h : ∑ l ∈ {i, j, k}, b.o l ≤ b.countO := by
    refine Finset.sum_le_sum_of_subset fun l hl => ?_
    simp only [Finset.mem_insert, Finset.mem_singleton] at hl
    rw [Finset.mem_range]
    omega
  rw [Finset.sum_insert (by simp only [Finset.mem_insert, Finset.mem_singleton]; omega),
    Finset.sum_insert (by simp only [Finset.mem_singleton]; omega), Finset.sum_singleton] at h
  omega

/-- There is an open die other than a given one. -/
theorem open_die {b : Board} (h5 : b.countO ≤ 5) {s : Nat} (hs : 7 ≤ s) (hs' : s ≤ 25) (d : Nat) :
    ∃ e, 1 ≤ e ∧ e ≤ 6 ∧ e ≠ d ∧ b.o (s - e) ≤ 1 := by
  by_contra hc
  push Not at hc
  have t := three_made h5 (i := s - 3) (j := s - 2) (k := s - 1) (by omega) (by omega) (by omega)
  have t1 := three_made h5 (i := s - 6) (j := s - 5) (k := s - 4) (by omega) (by omega) (by omega)
  have a1 := hc 1 (by omega) (by omega)
  have a2 := hc 2 (by omega) (by omega)
  have a3 := hc 3 (by omega) (by omega)
  have a4 := hc 4 (by omega) (by omega)
  have a5 := hc 5 (by omega) (by omega)
  have a6 := hc 6 (by omega) (by omega)
  clear hc
  omega

/-- Hits only take checkers of `o` from the points. -/
theorem after_o_le (b : Board) (f d : Nat) {j : Nat} (hj : j ≠ 0) : (after b f d).o j ≤ b.o j := by
  rw [after_o]
  split_ifs <;> omega

theorem after_xOff_le (b : Board) (f d : Nat) : b.xOff ≤ (after b f d).xOff := by
  rw [after_xOff]; split_ifs <;> omega

/-- After a play there still is a checker near where there was one. -/
theorem track {b b' : Board} {used : List Nat} (hp : Play b used b') (hpos : ∀ d ∈ used, 1 ≤ d) : ∀ s, 1 ≤ s → 1 ≤ b.x s → used.sum < s →
    ∃ j, 1 ≤ j ∧ j ≤ s ∧ s ≤ j + used.sum ∧ 1 ≤ b'.x j := by
  induction hp with
  | nil b => exact fun s h1 h _ => ⟨s, h1, le_rfl, by simp, h⟩
  | @cons b b' src die rest hc _ ih =>
    intro s h1 h hlt
    have hd := hpos die (by simp)
    have ih := ih fun d hd => hpos d (by simp [hd])
    rw [List.sum_cons] at hlt ⊢
    by_cases e : s = src
    · subst e
      obtain ⟨j, a1, a2, a3, a4⟩ := ih (s - die) (by omega) (by rw [after_x hd, if_neg (by omega), if_pos ⟨by omega, rfl⟩]; omega) (by omega)
      exact ⟨j, a1, by omega, by omega, a4⟩
    · have : 1 ≤ (after b src die).x s := by
        rw [after_x hd, if_neg e]
        split_ifs with k
        · omega
        · exact h
      obtain ⟨j, a1, a2, a3, a4⟩ := ih s h1 this (by omega)
      exact ⟨j, a1, a2, by omega, a4⟩

/-- After a play there still is a checker no further back, or one was borne off. -/
theorem track_le {b b' : Board} {used : List Nat} (hp : Play b used b') (hpos : ∀ d ∈ used, 1 ≤ d) : ∀ s, 1 ≤ s → 1 ≤ b.x s →
    b.xOff < b'.xOff ∨ ∃ j, 1 ≤ j ∧ j ≤ s ∧ 1 ≤ b'.x j := by
  induction hp with
  | nil b => exact fun s h1 h => Or.inr ⟨s, h1, le_rfl, h⟩
  | @cons b b' src die rest hc hrest ih =>
    intro s h1 h
    have hd := hpos die (by simp)
    have ih := ih fun d hd => hpos d (by simp [hd])
    have mono := after_xOff_le b src die
    by_cases hoff : src ≤ die
    · left
      have : (after b src die).xOff = b.xOff + 1 := by rw [after_xOff, if_pos hoff]
      have := play_xOff_le hrest
      omega
    · have go : ∀ t, 1 ≤ t → t ≤ s → 1 ≤ (after b src die).x t → b.xOff < b'.xOff ∨ ∃ j, 1 ≤ j ∧ j ≤ s ∧ 1 ≤ b'.x j := by
        intro t ht hts hxt
        rcases ih t ht hxt with h | ⟨j, a1, a2, a3⟩
        · left; omega
        · exact Or.inr ⟨j, a1, by omega, a3⟩
      by_cases e : s = src
      · subst e
        exact go (s - die) (by omega) (by omega) (by rw [after_x hd, if_neg (by omega), if_pos ⟨by omega, rfl⟩]; omega)
      · refine go s h1 le_rfl ?_
        rw [after_x hd, if_neg e]
        split_ifs with k
        · omega
        · exact h
where
  play_xOff_le {b b' : Board} {used : List Nat} (hp : Play b used b') : b.xOff ≤ b'.xOff := by
    induction hp with
    | nil => exact le_rfl
    | cons _ _ ih => exact (after_xOff_le _ _ _).trans ih

/-- With at most five checkers, a checker on the bar, a stack, or two well-placed checkers are enough. -/
theorem loose_bar {b : Board} (h5 : b.countX ≤ 5) (h : 1 ≤ b.x 25) : LooseX b := Or.inl (by have := pointsX_bar b; omega)
theorem loose_stack {b : Board} (h5 : b.countX ≤ 5) {p : Nat} (h1 : 1 ≤ p) (h24 : p ≤ 24) (hp : 2 ≤ b.x p) : LooseX b :=
  Or.inl (by have := pointsX_stack b h1 h24 hp; omega)
theorem loose_four {b : Board} (h4 : b.countX ≤ 4) : LooseX b := Or.inl (by have := pointsX_bar b; omega)
theorem loose_two {b : Board} (h5 : b.countX ≤ 5) {i j : Nat} (hi : 1 ≤ i ∧ i ≤ 17) (hxi : 1 ≤ b.x i) (hj : 7 ≤ j ∧ j ≤ 25) (hxj : 1 ≤ b.x j) :
    LooseX b := by
  rcases Nat.lt_or_ge j 25 with h | h
  · exact Or.inr ⟨by have := pointsX_bar b; omega, ⟨i, hi.1, hi.2, hxi⟩, j, hj.1, by omega, hxj⟩
  · exact loose_bar h5 (by rwa [show j = 25 by omega] at hxj)

/-- One checker can move on twice past two made points. -/
theorem twice_open {b : Board} (h5 : b.countO ≤ 5) {s : Nat} (hs : 7 ≤ s) (hs' : s ≤ 25) :
    ∃ d e, 1 ≤ d ∧ 1 ≤ e ∧ d ≠ e ∧ d + e ≤ 6 ∧ b.o (s - d) ≤ 1 ∧ b.o (s - d - e) ≤ 1 := by
  have hw := window_o b (t := s - 7) (by omega)
  obtain ⟨t, rfl⟩ : ∃ t, s = t + 7 := ⟨s - 7, by omega⟩
  rw [show t + 7 - 7 = t by omega] at hw
  by_contra hc
  push Not at hc
  have q : ∀ d e, 1 ≤ d → 1 ≤ e → d ≠ e → d + e ≤ 6 → b.o (t + (7 - d)) ≤ 1 → 1 < b.o (t + (7 - d - e)) := by
    intro d e h1 h2 h3 h4 h5
    have := hc d e h1 h2 h3 h4 (by rwa [show t + 7 - d = t + (7 - d) by omega])
    rwa [show t + 7 - d - e = t + (7 - d - e) by omega] at this
  have p12 := q 1 2 (by omega) (by omega) (by omega) (by omega)
  have p13 := q 1 3 (by omega) (by omega) (by omega) (by omega)
  have p14 := q 1 4 (by omega) (by omega) (by omega) (by omega)
  have p21 := q 2 1 (by omega) (by omega) (by omega) (by omega)
  have p23 := q 2 3 (by omega) (by omega) (by omega) (by omega)
  have p24 := q 2 4 (by omega) (by omega) (by omega) (by omega)
  have p31 := q 3 1 (by omega) (by omega) (by omega) (by omega)
  have p32 := q 3 2 (by omega) (by omega) (by omega) (by omega)
  have p42 := q 4 2 (by omega) (by omega) (by omega) (by omega)
  clear q hc
  simp only [Nat.reduceSub, Nat.add_zero] at *
  generalize b.o (t + 6) = a1, b.o (t + 5) = a2, b.o (t + 4) = a3, b.o (t + 3) = a4, b.o (t + 2) = a5, b.o (t + 1) = a6, b.o t = a7 at *
  omega

theorem uses_sum {dice used : List Nat} (h : Uses dice used) : used.sum ≤ dice.sum := by
  have hs : used.Subperm dice := List.subperm_ext_iff.2 fun x _ => h x
  obtain ⟨l, hp, hl⟩ := hs
  rw [← hp.sum_eq]
  exact hl.sum_le_sum fun _ _ => Nat.zero_le _

/-- With at most five checkers on both sides, the player to move has a roll with which a move is possible and that has a legal play, after which
the opponent has a quiet reply. -/
theorem loose_play {N : Nat} {b : Board} (hv : Valid N b) (hx : b.xOff < N) (h5x : N ≤ b.xOff + 5) (h5 : b.countO ≤ 5)
    (hout : ∀ i, 26 ≤ i → b.x i = 0) :
    ∃ dice : Bkgm.Dice, dice.Valid ∧ (∃ src die, die ∈ faces dice ∧ CanStep b src die) ∧
      ((∃ b', Legal (faces dice) b b' ∧ LooseX b') ∨ ∀ b', Legal (faces dice) b b' → LooseX b') := by
  obtain ⟨s, hs1, hs25, hs, hmax⟩ := exists_rear hv hx
  have hmax' : ∀ i, s < i → b.x i = 0 := fun i hi => by
    rcases Nat.lt_or_ge i 26 with h | h
    · exact hmax i hi (by omega)
    · exact hout i h
  have hbar : 1 ≤ b.x 25 → s = 25 := fun h => by
    by_contra hne
    have := hmax 25 (by omega) (by omega)
    omega
  have hc5 := hv.sumX
  -- what every play keeps
  have keep : ∀ {used b'}, (∀ d ∈ used, 1 ≤ d) → Play b used b' → b'.countX ≤ 5 ∧ (b.xOff < b'.xOff → b'.countX ≤ 4) := by
    intro used b' hpos hp
    have h1 := (hp.valid hpos hv).sumX
    have h2 := hp.xOff.1
    omega
  -- a step of a rearmost checker
  have step : ∀ d, 1 ≤ d → d ≤ 6 → 7 ≤ s → b.o (s - d) ≤ 1 → CanStep b s d := fun d h1 h6 h7 ho =>
    ⟨⟨hs1, hs25⟩, hs, fun h => hbar h, fun _ => by omega, fun h => by omega, fun h => by omega⟩
  -- all home: six-six
  rcases Nat.lt_or_ge s 7 with h7 | h7
  · obtain ⟨r, hr6, hr⟩ := bear_six hv hx fun i hi => hmax' i (by omega)
    refine ⟨.double 6, ⟨by omega, by omega⟩, ⟨r, 6, by simp [faces], hr⟩, Or.inr ?_⟩
    rintro b' ⟨used, hu, hp, hm, -⟩
    have hpos := Bkgm.Pos.uses_pos (dice := .double 6) ⟨by omega, by omega⟩ hu
    have hlen : 1 ≤ used.length := hm [6] _ (fun v => by simp only [faces, List.count_cons, List.count_nil]; omega) (.cons hr (.nil _))
    refine loose_four ((keep hpos hp).2 ?_)
    cases hp with
    | nil => simp at hlen
    | @cons _ _ src die rest hc hrest =>
      have hd6 : die = 6 := by
        have h2 := hu die
        by_contra hne
        simp [faces, Ne.symm hne] at h2
      have h1 := hrest.xOff.1
      have : src ≤ die := by
        by_contra hlt
        have := hc.own
        have := hmax' src (by omega)
        omega
      rw [after_xOff, if_pos this] at h1
      omega
  by_cases h17 : ∃ i, 1 ≤ i ∧ i ≤ 17 ∧ 1 ≤ b.x i
  · obtain ⟨i, hi1, hi17, hi⟩ := h17
    -- a small roll keeps a checker outside the home board
    have small : ∀ d e, 1 ≤ d → 1 ≤ e → d ≠ e → d + e + 7 ≤ s → d ≤ 6 → e ≤ 6 → b.o (s - d) ≤ 1 → ∃ dice : Bkgm.Dice, dice.Valid ∧ (∃ src die, die ∈ faces dice ∧ CanStep b src die) ∧
        ((∃ b', Legal (faces dice) b b' ∧ LooseX b') ∨ ∀ b', Legal (faces dice) b b' → LooseX b') := by
      intro d e hd he hne hsum hd6 he6 hod
      have key : ∀ dice : Bkgm.Dice, dice.Valid → d ∈ faces dice → (faces dice).sum = d + e → ∃ dice : Bkgm.Dice, dice.Valid ∧ (∃ src die, die ∈ faces dice ∧ CanStep b src die) ∧
          ((∃ b', Legal (faces dice) b b' ∧ LooseX b') ∨ ∀ b', Legal (faces dice) b b' → LooseX b') := by
        intro dice hv hmem hs4
        refine ⟨dice, hv, ⟨s, d, hmem, step d hd hd6 h7 hod⟩, Or.inr ?_⟩
        rintro b' ⟨used, hu, hp, -, -⟩
        have hpos := Bkgm.Pos.uses_pos hv hu
        have hle := uses_sum hu
        obtain ⟨j, j1, j2, j3, j4⟩ := track hp hpos s hs1 hs (by omega)
        have hk := keep hpos hp
        rcases track_le hp hpos i hi1 hi with h | ⟨l, l1, l2, l3⟩
        · exact loose_four (hk.2 h)
        · exact loose_two hk.1 ⟨l1, by omega⟩ l3 ⟨by omega, by omega⟩ j4
      rcases Nat.lt_or_gt_of_ne hne with h | h
      · exact key (.mixed e d) ⟨hd, h, he6⟩ (by simp [faces]) (by simp [faces]; omega)
      · exact key (.mixed d e) ⟨he, h, hd6⟩ (by simp [faces]) (by simp [faces])
    rcases Nat.lt_or_ge 10 s with h11 | h11
    · rcases three_made h5 (i := s - 3) (j := s - 2) (k := s - 1) (by omega) (by omega) (by omega) with h | h | h
      · exact small 3 1 (by omega) (by omega) (by omega) (by omega) (by omega) (by omega) h
      · exact small 2 1 (by omega) (by omega) (by omega) (by omega) (by omega) (by omega) h
      · exact small 1 2 (by omega) (by omega) (by omega) (by omega) (by omega) (by omega) h
    by_cases h10 : s = 10 ∧ (b.o 9 ≤ 1 ∨ b.o 8 ≤ 1)
    · obtain ⟨rfl, h | h⟩ := h10
      · exact small 1 2 (by omega) (by omega) (by omega) (by omega) (by omega) (by omega) h
      · exact small 2 1 (by omega) (by omega) (by omega) (by omega) (by omega) (by omega) h
    by_cases h2 : ∃ j, 7 ≤ j ∧ j ≤ s ∧ 1 ≤ (if j = s then b.x s - 1 else b.x j)
    -- another checker outside the home board stays there
    · obtain ⟨j, hj7, hjs, hj⟩ := h2
      obtain ⟨d, e, hd, he, hne, hsum, hod, hode⟩ := twice_open h5 h7 hs25
      have c1 := step d hd (by omega) h7 hod
      have c2 : CanStep (after b s d) (s - d) e := by
        refine ⟨⟨by omega, by omega⟩, ?_, fun h => ?_, fun _ => (after_o_le _ _ _ (by omega)).trans hode, fun h => by omega, fun h => by omega⟩
        · rw [after_x hd, if_neg (by omega), if_pos ⟨by omega, rfl⟩]; omega
        · rw [after_x hd, if_neg (by omega), if_neg (by omega)] at h
          have := hbar h; omega
      obtain ⟨dice, hdv, hmem, hl⟩ := legal_two ⟨hd, by omega⟩ ⟨he, by omega⟩ hne c1 c2
      refine ⟨dice, hdv, ⟨s, d, hmem, c1⟩, Or.inl ⟨_, hl, ?_⟩⟩
      have hk := keep (used := [d, e]) (by simp; omega) (.cons c1 (.cons c2 (.nil _)))
      have hxj : 1 ≤ (after (after b s d) (s - d) e).x j := by
        rw [after_x he]
        by_cases k1 : j = s - d
        · rw [if_pos k1, after_x hd, if_neg (by omega), if_pos ⟨by omega, rfl⟩]
          rw [if_neg (by omega), k1] at hj
          omega
        · rw [if_neg k1]
          by_cases k2 : e < s - d ∧ j = s - d - e
          · rw [if_pos k2]; omega
          · rw [if_neg k2, after_x hd, if_neg (show ¬ (d < s ∧ j = s - d) by omega)]
            exact hj
      exact loose_two hk.1 ⟨by omega, by omega⟩ hxj ⟨hj7, by omega⟩ hxj
    -- the last one comes home, and a checker is borne off
    · push Not at h2
      have hxs : b.x s = 1 := by
        have := h2 s h7 le_rfl
        rw [if_pos rfl] at this
        omega
      obtain ⟨d, hd3, hd5, hds, hod⟩ : ∃ d, 3 ≤ d ∧ d ≤ 5 ∧ s ≤ d + 6 ∧ b.o (s - d) ≤ 1 := by
        rcases Nat.lt_or_ge s 10 with h9 | h9
        · rcases three_made h5 (i := s - 5) (j := s - 4) (k := s - 3) (by omega) (by omega) (by omega) with h | h | h
          · exact ⟨5, by omega, by omega, by omega, h⟩
          · exact ⟨4, by omega, by omega, by omega, h⟩
          · exact ⟨3, by omega, by omega, by omega, h⟩
        · have e10 : s = 10 := by omega
          subst e10
          have := three_made h5 (i := 6) (j := 8) (k := 9) (by omega) (by omega) (by omega)
          exact ⟨4, by omega, by omega, by omega, by show b.o 6 ≤ 1; omega⟩
      have hd : 1 ≤ d := by omega
      have c1 := step d hd (by omega) h7 hod
      have hhome : ∀ i, 7 ≤ i → (after b s d).x i = 0 := by
        intro i hi
        rw [after_x hd]
        split_ifs with k1 k2
        · omega
        · omega
        · rcases Nat.lt_or_ge s i with h | h
          · exact hmax' i h
          · have := h2 i hi h
            rw [if_neg k1] at this
            omega
      have hv1 : Valid N (after b s d) := hv.after hd c1
      have e1 : (after b s d).xOff = b.xOff := by rw [after_xOff, if_neg (by omega)]
      obtain ⟨r, hr6, hr⟩ := bear_six hv1 (by omega) hhome
      obtain ⟨dice, hdv, hmem, hl⟩ := legal_two ⟨hd, by omega⟩ ⟨by omega, by omega⟩ (by omega) c1 hr
      refine ⟨dice, hdv, ⟨s, d, hmem, c1⟩, Or.inl ⟨_, hl, ?_⟩⟩
      have hk := keep (used := [d, 6]) (by simp; omega) (.cons c1 (.cons hr (.nil _)))
      refine loose_four (hk.2 ?_)
      rw [after_xOff, if_pos hr6, e1]
      omega
  -- all checkers on 18 or beyond
  · have h18 : ∀ i, i ≤ 17 → b.x i = 0 := fun i hi => by
      rcases Nat.eq_zero_or_pos i with rfl | h0
      · exact hv.xBar
      · by_contra hne
        exact h17 ⟨i, h0, hi, by omega⟩
    have hs18 : 18 ≤ s := by
      by_contra hlt
      have := h18 s (by omega)
      omega
    have hsum : b.x 18 + b.x 19 + b.x 20 + b.x 21 + b.x 22 + b.x 23 + b.x 24 + b.x 25 = b.countX := by
      simp only [Board.countX, Finset.sum_range_succ, Finset.sum_range_zero]
      have z0 := h18 0 (by omega)
      have z1 := h18 1 (by omega)
      have z2 := h18 2 (by omega)
      have z3 := h18 3 (by omega)
      have z4 := h18 4 (by omega)
      have z5 := h18 5 (by omega)
      have z6 := h18 6 (by omega)
      have z7 := h18 7 (by omega)
      have z8 := h18 8 (by omega)
      have z9 := h18 9 (by omega)
      have z10 := h18 10 (by omega)
      have z11 := h18 11 (by omega)
      have z12 := h18 12 (by omega)
      have z13 := h18 13 (by omega)
      have z14 := h18 14 (by omega)
      have z15 := h18 15 (by omega)
      have z16 := h18 16 (by omega)
      have z17 := h18 17 (by omega)
      omega
    by_cases h4 : b.countX ≤ 4
    · obtain ⟨d, hd, hd6, -, hod⟩ := open_die h5 h7 hs25 0
      have c1 := step d hd hd6 h7 hod
      refine ⟨.double d, ⟨hd, hd6⟩, ⟨s, d, by simp [faces], c1⟩, Or.inr ?_⟩
      rintro b' ⟨used, hu, hp, -, -⟩
      have hpos := Bkgm.Pos.uses_pos (dice := .double d) ⟨hd, hd6⟩ hu
      refine loose_four ?_
      have h1 := (hp.valid hpos hv).sumX
      have h2 := hp.xOff.1
      omega
    have e5 : b.countX = 5 := by omega
    rcases Nat.lt_or_ge 1 (b.x 25) with hb2 | hb2
    -- two checkers on the bar: they enter, the first one on an own point if possible
    · have e25 : s = 25 := hbar (by omega)
      subst e25
      obtain ⟨d, hd, hd6, hod, hst⟩ : ∃ d, 1 ≤ d ∧ d ≤ 6 ∧ b.o (25 - d) ≤ 1 ∧ (1 ≤ b.x (25 - d) ∨ 3 ≤ b.x 25 ∨ 2 ≤ b.x 18) := by
        by_cases hp : ∃ p, 19 ≤ p ∧ p ≤ 24 ∧ 1 ≤ b.x p
        · obtain ⟨p, p1, p2, p3⟩ := hp
          refine ⟨25 - p, by omega, by omega, ?_, Or.inl ?_⟩
          · rw [show 25 - (25 - p) = p by omega]
            have := hv.alone p (by omega)
            omega
          · rwa [show 25 - (25 - p) = p by omega]
        · push Not at hp
          have z19 := hp 19 (by omega) (by omega)
          have z20 := hp 20 (by omega) (by omega)
          have z21 := hp 21 (by omega) (by omega)
          have z22 := hp 22 (by omega) (by omega)
          have z23 := hp 23 (by omega) (by omega)
          have z24 := hp 24 (by omega) (by omega)
          obtain ⟨d, hd, hd6, -, hod⟩ := open_die h5 h7 hs25 0
          exact ⟨d, hd, hd6, hod, by omega⟩
      obtain ⟨e, he, he6, hne, hoe⟩ := open_die h5 h7 hs25 d
      have c1 := step d hd hd6 h7 hod
      have x1 : (after b 25 d).x 25 = b.x 25 - 1 := by rw [after_x hd, if_pos rfl]
      have c2 : CanStep (after b 25 d) 25 e :=
        ⟨⟨by omega, by omega⟩, by omega, fun _ => rfl, fun _ => (after_o_le _ _ _ (by omega)).trans hoe, fun h => by omega, fun h => by omega⟩
      obtain ⟨dice, hdv, hmem, hl⟩ := legal_two ⟨hd, hd6⟩ ⟨he, he6⟩ (Ne.symm hne) c1 c2
      refine ⟨dice, hdv, ⟨25, d, hmem, c1⟩, Or.inl ⟨_, hl, ?_⟩⟩
      have hk := keep (used := [d, e]) (by simp; omega) (.cons c1 (.cons c2 (.nil _)))
      rcases hst with h | h | h
      · refine loose_stack hk.1 (p := 25 - d) (by omega) (by omega) ?_
        rw [after_x he, if_neg (by omega), if_neg (by omega), after_x hd, if_neg (by omega), if_pos ⟨by omega, rfl⟩]
        omega
      · refine loose_bar hk.1 ?_
        rw [after_x he, if_pos rfl]
        omega
      · refine loose_stack hk.1 (p := 18) (by omega) (by omega) ?_
        rw [after_x he, if_neg (by omega), if_neg (by omega), after_x hd, if_neg (by omega), if_neg (by omega)]
        omega
    by_cases h21 : ∃ p, 18 ≤ p ∧ p ≤ 21 ∧ 1 ≤ b.x p ∧ (p = s → 2 ≤ b.x p)
    -- a checker comes down to 17 or below
    · obtain ⟨p, p18, p21, hp, hps⟩ := h21
      obtain ⟨e, he4, he6, hoe⟩ : ∃ e, 4 ≤ e ∧ e ≤ 6 ∧ b.o (p - e) ≤ 1 := by
        rcases three_made h5 (i := p - 6) (j := p - 5) (k := p - 4) (by omega) (by omega) (by omega) with h | h | h
        · exact ⟨6, by omega, by omega, h⟩
        · exact ⟨5, by omega, by omega, h⟩
        · exact ⟨4, by omega, by omega, h⟩
      obtain ⟨d, hd, hd6, hne, hod⟩ := open_die h5 h7 hs25 e
      have he : 1 ≤ e := by omega
      have c1 := step d hd hd6 h7 hod
      have hxp : 1 ≤ (after b s d).x p := by
        rw [after_x hd]
        split_ifs with k1 k2
        · have := hps k1
          rw [← k1]; omega
        · omega
        · exact hp
      have c2 : CanStep (after b s d) p e := by
        refine ⟨⟨by omega, by omega⟩, hxp, fun h => ?_, fun _ => (after_o_le _ _ _ (by omega)).trans hoe, fun h => by omega, fun h => by omega⟩
        rw [after_x hd] at h
        split_ifs at h with k1 k2
        · rw [← k1] at h; omega
        · omega
        · have := hbar h; omega
      obtain ⟨dice, hdv, hmem, hl⟩ := legal_two ⟨hd, hd6⟩ ⟨he, he6⟩ hne c1 c2
      refine ⟨dice, hdv, ⟨s, d, hmem, c1⟩, Or.inl ⟨_, hl, ?_⟩⟩
      have hk := keep (used := [d, e]) (by simp; omega) (.cons c1 (.cons c2 (.nil _)))
      have hxt : 1 ≤ (after (after b s d) p e).x (p - e) := by
        rw [after_x he, if_neg (by omega), if_pos ⟨by omega, rfl⟩]; omega
      exact loose_two hk.1 ⟨by omega, by omega⟩ hxt ⟨by omega, by omega⟩ hxt
    -- at least four checkers on 22, 23 and 24: one checker moves twice, and a stack is left
    · push Not at h21
      have g : ∀ p, 18 ≤ p → p ≤ 21 → b.x p = 0 := by
        intro p p1 p2
        by_contra hne
        have h := h21 p p1 p2 (by omega)
        have z : ∀ i, 18 ≤ i → i < s → i ≤ 21 → b.x i = 0 := fun i i1 i2 i3 => by
          by_contra hne
          have := h21 i i1 i3 (by omega)
          omega
        have m18 := z 18 (by omega)
        have m19 := z 19 (by omega)
        have m20 := z 20 (by omega)
        have m21 := z 21 (by omega)
        have n := fun i => hmax' i
        have n19 := n 19
        have n20 := n 20
        have n21 := n 21
        have n22 := n 22 (by omega)
        have n23 := n 23 (by omega)
        have n24 := n 24 (by omega)
        have n25 := n 25 (by omega)
        obtain ⟨rfl, hlt⟩ := h
        have : p = 18 ∨ p = 19 ∨ p = 20 ∨ p = 21 := by omega
        rcases this with rfl | rfl | rfl | rfl <;> omega
      have z18 := g 18 (by omega) (by omega)
      have z19 := g 19 (by omega) (by omega)
      have z20 := g 20 (by omega) (by omega)
      have z21 := g 21 (by omega) (by omega)
      have hs22 : 22 ≤ s := by
        by_contra hlt
        have := g s hs18 (by omega)
        omega
      obtain ⟨d, e, hd, he, hne, hsum', hod, hode⟩ := twice_open h5 h7 hs25
      have c1 := step d hd (by omega) h7 hod
      have c2 : CanStep (after b s d) (s - d) e := by
        refine ⟨⟨by omega, by omega⟩, ?_, fun h => ?_, fun _ => (after_o_le _ _ _ (by omega)).trans hode, fun h => by omega, fun h => by omega⟩
        · rw [after_x hd, if_neg (by omega), if_pos ⟨by omega, rfl⟩]; omega
        · rw [after_x hd] at h
          split_ifs at h with k1 k2
          · rw [← k1] at h; omega
          · omega
          · have := hbar h; omega
      obtain ⟨dice, hdv, hmem, hl⟩ := legal_two ⟨hd, by omega⟩ ⟨he, by omega⟩ hne c1 c2
      refine ⟨dice, hdv, ⟨s, d, hmem, c1⟩, Or.inl ⟨_, hl, ?_⟩⟩
      have hk := keep (used := [d, e]) (by simp; omega) (.cons c1 (.cons c2 (.nil _)))
      have low : ∀ p, (if p = s then b.x p - 1 else b.x p) ≤ (after (after b s d) (s - d) e).x p := by
        intro p
        rw [after_x he]
        by_cases k1 : p = s - d
        · subst k1
          rw [if_neg (show ¬ s - d = s by omega), if_pos rfl, after_x hd, if_neg (by omega), if_pos ⟨by omega, rfl⟩]
          omega
        · rw [if_neg k1]
          by_cases k2 : e < s - d ∧ p = s - d - e
          · rw [if_pos k2, ← k2.2, after_x hd, if_neg (by omega), if_neg (by omega), if_neg (by omega)]; omega
          · rw [if_neg k2, after_x hd, if_neg (show ¬ (d < s ∧ p = s - d) by omega)]
            split_ifs with k3
            · rw [k3]
            · exact le_rfl
      have l22 := low 22
      have l23 := low 23
      have l24 := low 24
      have n25 : s < 25 → b.x 25 = 0 := fun h => hmax' 25 h
      have n24 : s < 24 → b.x 24 = 0 := fun h => hmax' 24 h
      have n23 : s < 23 → b.x 23 = 0 := fun h => hmax' 23 h
      have : 2 ≤ (after (after b s d) (s - d) e).x 22 ∨ 2 ≤ (after (after b s d) (s - d) e).x 23 ∨ 2 ≤ (after (after b s d) (s - d) e).x 24 := by
        split_ifs at l22 l23 l24 <;> omega
      rcases this with h | h | h
      · exact loose_stack hk.1 (by omega) (by omega) h
      · exact loose_stack hk.1 (by omega) (by omega) h
      · exact loose_stack hk.1 (by omega) (by omega) h

end Spec
