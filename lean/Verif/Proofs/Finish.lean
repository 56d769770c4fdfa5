import Verif.Props.Deadlock
import Mathlib.Algebra.Order.BigOperators.Group.Finset
import Mathlib.Order.Interval.Finset.Basic
/-!
# Board lemmas for C87: quiet replies and progress with few checkers
-/

namespace Spec

/-- The points (1..24) held by checkers of `o`. -/
def Board.pointsO (b : Board) : Nat := ∑ i ∈ Finset.Icc 1 24, min 1 (b.o i)

/-- Eight points in a row. -/
theorem window_points (b : Board) {t : Nat} (h1 : 1 ≤ t) (ht : t ≤ 17) :
    min 1 (b.o t) + min 1 (b.o (t + 1)) + min 1 (b.o (t + 2)) + min 1 (b.o (t + 3)) + min 1 (b.o (t + 4)) + min 1 (b.o (t + 5)) +
      min 1 (b.o (t + 6)) + min 1 (b.o (t + 7)) ≤ b.pointsO := by
  have h : ∑ i ∈ Finset.Ico t (t + 8), min 1 (b.o i) ≤ b.pointsO := by
    refine Finset.sum_le_sum_of_subset fun i hi => ?_
    rw [Finset.mem_Ico] at hi
    rw [Finset.mem_Icc]
    omega
  rw [Finset.sum_Ico_eq_sum_range, show t + 8 - t = 8 by omega] at h
  simpa [Finset.sum_range_succ] using h

/-- The first seven points, and one other. -/
theorem seven_points (b : Board) {i : Nat} (h1 : 8 ≤ i) (hi : i ≤ 24) :
    min 1 (b.o 1) + min 1 (b.o 2) + min 1 (b.o 3) + min 1 (b.o 4) + min 1 (b.o 5) + min 1 (b.o 6) + min 1 (b.o 7) + min 1 (b.o i) ≤ b.pointsO := by
  have h : ∑ j ∈ insert i (Finset.Ico 1 8), min 1 (b.o j) ≤ b.pointsO := by
    refine Finset.sum_le_sum_of_subset fun j hj => ?_
    rw [Finset.mem_insert, Finset.mem_Ico] at hj
    rw [Finset.mem_Icc]
    omega
  rw [Finset.sum_insert (by rw [Finset.mem_Ico]; omega), Finset.sum_Ico_eq_sum_range, show 8 - 1 = 7 by omega] at h
  simp only [Finset.sum_range_succ, Finset.sum_range_zero, Nat.reduceAdd] at h
  omega

/-- The last six points, and one other. -/
theorem six_points (b : Board) {i : Nat} (h1 : 1 ≤ i) (hi : i ≤ 18) :
    min 1 (b.o 19) + min 1 (b.o 20) + min 1 (b.o 21) + min 1 (b.o 22) + min 1 (b.o 23) + min 1 (b.o 24) + min 1 (b.o i) ≤ b.pointsO := by
  have h : ∑ j ∈ insert i (Finset.Ico 19 25), min 1 (b.o j) ≤ b.pointsO := by
    refine Finset.sum_le_sum_of_subset fun j hj => ?_
    rw [Finset.mem_insert, Finset.mem_Ico] at hj
    rw [Finset.mem_Icc]
    omega
  rw [Finset.sum_insert (by rw [Finset.mem_Ico]; omega), Finset.sum_Ico_eq_sum_range, show 25 - 19 = 6 by omega] at h
  simp only [Finset.sum_range_succ, Finset.sum_range_zero, Nat.reduceAdd] at h
  omega

theorem pointsO_le (b : Board) : b.pointsO ≤ b.countO := by
  refine (Finset.sum_le_sum fun i _ => Nat.min_le_right 1 (b.o i)).trans (Finset.sum_le_sum_of_subset fun i hi => ?_)
  rw [Finset.mem_Icc] at hi
  rw [Finset.mem_range]
  omega

theorem points_zero (b : Board) (i : Nat) : b.o i = 0 ↔ min 1 (b.o i) = 0 := by omega

/-- The checkers of `o` on seven points in a row are at most all of them. -/
theorem window_o (b : Board) {t : Nat} (ht : t ≤ 18) :
    b.o t + b.o (t + 1) + b.o (t + 2) + b.o (t + 3) + b.o (t + 4) + b.o (t + 5) + b.o (t + 6) ≤ b.countO := by
  have h : ∑ i ∈ Finset.Ico t (t + 7), b.o i ≤ b.countO := by
    refine Finset.sum_le_sum_of_subset fun i hi => ?_
    rw [Finset.mem_Ico] at hi
    rw [Finset.mem_range]
    omega
  rw [Finset.sum_Ico_eq_sum_range, show t + 7 - t = 7 by omega] at h
  simpa [Finset.sum_range_succ] using h

/-- Two of the six points ahead are free. -/
theorem two_free {b : Board} {s : Nat} (hs : 7 ≤ s) (hw : min 1 (b.o (s - 6)) + min 1 (b.o (s - 6 + 1)) + min 1 (b.o (s - 6 + 2)) +
    min 1 (b.o (s - 6 + 3)) + min 1 (b.o (s - 6 + 4)) + min 1 (b.o (s - 6 + 5)) ≤ 4) :
    ∃ d e, 1 ≤ d ∧ d < e ∧ e ≤ 6 ∧ b.o (s - d) = 0 ∧ b.o (s - e) = 0 := by
  obtain ⟨t, rfl⟩ : ∃ t, s = t + 7 := ⟨s - 7, by omega⟩
  rw [show t + 7 - 6 = t + 1 by omega] at hw
  simp only [Nat.add_assoc, Nat.reduceAdd] at hw
  by_contra hc
  push Not at hc
  have p12 := hc 1 2 (by omega) (by omega) (by omega)
  have p13 := hc 1 3 (by omega) (by omega) (by omega)
  have p14 := hc 1 4 (by omega) (by omega) (by omega)
  have p15 := hc 1 5 (by omega) (by omega) (by omega)
  have p16 := hc 1 6 (by omega) (by omega) (by omega)
  have p23 := hc 2 3 (by omega) (by omega) (by omega)
  have p24 := hc 2 4 (by omega) (by omega) (by omega)
  have p25 := hc 2 5 (by omega) (by omega) (by omega)
  have p26 := hc 2 6 (by omega) (by omega) (by omega)
  have p34 := hc 3 4 (by omega) (by omega) (by omega)
  have p35 := hc 3 5 (by omega) (by omega) (by omega)
  have p36 := hc 3 6 (by omega) (by omega) (by omega)
  have p45 := hc 4 5 (by omega) (by omega) (by omega)
  have p46 := hc 4 6 (by omega) (by omega) (by omega)
  have p56 := hc 5 6 (by omega) (by omega) (by omega)
  simp only [show t + 7 - 1 = t + 6 by omega, show t + 7 - 2 = t + 5 by omega, show t + 7 - 3 = t + 4 by omega,
    show t + 7 - 4 = t + 3 by omega, show t + 7 - 5 = t + 2 by omega, show t + 7 - 6 = t + 1 by omega] at *
  clear hc
  simp only [ne_eq, points_zero] at *
  generalize min 1 (b.o (t + 6)) = a1, min 1 (b.o (t + 5)) = a2, min 1 (b.o (t + 4)) = a3, min 1 (b.o (t + 3)) = a4,
    min 1 (b.o (t + 2)) = a5, min 1 (b.o (t + 1)) = a6 at *
  omega

/-- Four points cannot keep a checker from moving on twice without a hit. -/
theorem two_steps_free {b : Board} {s : Nat} (hs : 8 ≤ s)
    (hw : min 1 (b.o (s - 7)) + min 1 (b.o (s - 7 + 1)) + min 1 (b.o (s - 7 + 2)) + min 1 (b.o (s - 7 + 3)) + min 1 (b.o (s - 7 + 4)) + min 1 (b.o (s - 7 + 5)) + min 1 (b.o (s - 7 + 6)) ≤ 4) :
    ∃ d e, 1 ≤ d ∧ d ≤ 6 ∧ 1 ≤ e ∧ e ≤ 6 ∧ d ≠ e ∧ d + e ≤ 7 ∧ b.o (s - d) = 0 ∧ b.o (s - d - e) = 0 := by
  obtain ⟨t, rfl⟩ : ∃ t, s = t + 7 := ⟨s - 7, by omega⟩
  rw [show t + 7 - 7 = t by omega] at hw
  by_contra hc
  push Not at hc
  have q : ∀ d e, 1 ≤ d → d ≤ 6 → 1 ≤ e → e ≤ 6 → d ≠ e → d + e ≤ 7 → b.o (t + (7 - d)) = 0 → b.o (t + (7 - d - e)) ≠ 0 := by
    intro d e h1 h1' h2 h2' h3 h4 h5
    have := hc d e h1 h1' h2 h2' h3 h4 (by rw [← h5]; congr 1; omega)
    rwa [show t + 7 - d - e = t + (7 - d - e) by omega] at this
  have p13 := q 1 3 (by omega) (by omega) (by omega) (by omega) (by omega) (by omega)
  have p15 := q 1 5 (by omega) (by omega) (by omega) (by omega) (by omega) (by omega)
  have p21 := q 2 1 (by omega) (by omega) (by omega) (by omega) (by omega) (by omega)
  have p23 := q 2 3 (by omega) (by omega) (by omega) (by omega) (by omega) (by omega)
  have p25 := q 2 5 (by omega) (by omega) (by omega) (by omega) (by omega) (by omega)
  have p32 := q 3 2 (by omega) (by omega) (by omega) (by omega) (by omega) (by omega)
  have p34 := q 3 4 (by omega) (by omega) (by omega) (by omega) (by omega) (by omega)
  have p42 := q 4 2 (by omega) (by omega) (by omega) (by omega) (by omega) (by omega)
  have p52 := q 5 2 (by omega) (by omega) (by omega) (by omega) (by omega) (by omega)
  clear q hc
  simp only [Nat.reduceSub, Nat.add_zero] at *
  simp only [ne_eq, points_zero] at *
  generalize min 1 (b.o (t + 6)) = a1, min 1 (b.o (t + 5)) = a2, min 1 (b.o (t + 4)) = a3, min 1 (b.o (t + 3)) = a4, min 1 (b.o (t + 2)) = a5, min 1 (b.o (t + 1)) = a6, min 1 (b.o t) = a7 at *
  omega

/-- Five points cannot keep a checker from moving on twice without a hit, if there is room for eight pips. -/
theorem two_steps_free' {b : Board} {s : Nat} (hs : 9 ≤ s)
    (hw : min 1 (b.o (s - 8)) + min 1 (b.o (s - 8 + 1)) + min 1 (b.o (s - 8 + 2)) + min 1 (b.o (s - 8 + 3)) + min 1 (b.o (s - 8 + 4)) + min 1 (b.o (s - 8 + 5)) + min 1 (b.o (s - 8 + 6)) + min 1 (b.o (s - 8 + 7)) ≤ 5) :
    ∃ d e, 1 ≤ d ∧ d ≤ 6 ∧ 1 ≤ e ∧ e ≤ 6 ∧ d ≠ e ∧ d + e ≤ 8 ∧ b.o (s - d) = 0 ∧ b.o (s - d - e) = 0 := by
  obtain ⟨t, rfl⟩ : ∃ t, s = t + 8 := ⟨s - 8, by omega⟩
  rw [show t + 8 - 8 = t by omega] at hw
  by_contra hc
  push Not at hc
  have q : ∀ d e, 1 ≤ d → d ≤ 6 → 1 ≤ e → e ≤ 6 → d ≠ e → d + e ≤ 8 → b.o (t + (8 - d)) = 0 → b.o (t + (8 - d - e)) ≠ 0 := by
    intro d e h1 h1' h2 h2' h3 h4 h5
    have := hc d e h1 h1' h2 h2' h3 h4 (by rw [← h5]; congr 1; omega)
    rwa [show t + 8 - d - e = t + (8 - d - e) by omega] at this
  have p13 := q 1 3 (by omega) (by omega) (by omega) (by omega) (by omega) (by omega)
  have p15 := q 1 5 (by omega) (by omega) (by omega) (by omega) (by omega) (by omega)
  have p16 := q 1 6 (by omega) (by omega) (by omega) (by omega) (by omega) (by omega)
  have p21 := q 2 1 (by omega) (by omega) (by omega) (by omega) (by omega) (by omega)
  have p23 := q 2 3 (by omega) (by omega) (by omega) (by omega) (by omega) (by omega)
  have p26 := q 2 6 (by omega) (by omega) (by omega) (by omega) (by omega) (by omega)
  have p32 := q 3 2 (by omega) (by omega) (by omega) (by omega) (by omega) (by omega)
  have p35 := q 3 5 (by omega) (by omega) (by omega) (by omega) (by omega) (by omega)
  have p42 := q 4 2 (by omega) (by omega) (by omega) (by omega) (by omega) (by omega)
  have p43 := q 4 3 (by omega) (by omega) (by omega) (by omega) (by omega) (by omega)
  have p53 := q 5 3 (by omega) (by omega) (by omega) (by omega) (by omega) (by omega)
  have p61 := q 6 1 (by omega) (by omega) (by omega) (by omega) (by omega) (by omega)
  clear q hc
  simp only [Nat.reduceSub, Nat.add_zero] at *
  simp only [ne_eq, points_zero] at *
  generalize min 1 (b.o (t + 7)) = a1, min 1 (b.o (t + 6)) = a2, min 1 (b.o (t + 5)) = a3, min 1 (b.o (t + 4)) = a4, min 1 (b.o (t + 3)) = a5, min 1 (b.o (t + 2)) = a6, min 1 (b.o (t + 1)) = a7, min 1 (b.o t) = a8 at *
  omega

/-- A play that uses both dice is legal. -/
theorem legal_two {b : Board} {s s' d e : Nat} (hd : 1 ≤ d ∧ d ≤ 6) (he : 1 ≤ e ∧ e ≤ 6) (hne : d ≠ e) (h1 : CanStep b s d)
    (h2 : CanStep (after b s d) s' e) : ∃ dice : Bkgm.Dice, dice.Valid ∧ d ∈ faces dice ∧ Legal (faces dice) b (after (after b s d) s' e) := by
  have key : ∀ big small, (big = d ∧ small = e ∨ big = e ∧ small = d) → Legal [big, small] b (after (after b s d) s' e) := by
    intro big small h
    refine ⟨[d, e], fun v => ?_, .cons h1 (.cons h2 (.nil _)), fun used' b'' hu _ => by simpa using Bkgm.Pos.uses_length hu, fun _ _ _ h => by simp at h⟩
    rcases h with ⟨rfl, rfl⟩ | ⟨rfl, rfl⟩
    · exact Nat.le_refl _
    · simp only [List.count_cons, List.count_nil]; omega
  rcases Nat.lt_or_gt_of_ne hne with h | h
  · exact ⟨.mixed e d, ⟨hd.1, h, he.2⟩, by simp [faces], key e d (Or.inr ⟨rfl, rfl⟩)⟩
  · exact ⟨.mixed d e, ⟨he.1, h, hd.2⟩, by simp [faces], key d e (Or.inl ⟨rfl, rfl⟩)⟩

theorem after_o_free {b : Board} {f d : Nat} (h : d < f → b.o (f - d) = 0) : (after b f d).o = b.o := by
  funext j
  rw [after_o]
  split_ifs with h'
  · have := h h'.1; omega
  · have := h h'.1; omega
  · have := h h'.1; omega
  · rfl

/-- With all checkers in the home board, sixes only bear off. -/
theorem sixes_o {b b' : Board} {used : List Nat} (hp : Play b used b') (hu : ∀ d ∈ used, d = 6) (hh : ∀ i, 7 ≤ i → b.x i = 0) : b'.o = b.o := by
  induction hp with
  | nil => rfl
  | @cons b b' src die rest hc _ ih =>
    have e : die = 6 := hu die (by simp)
    subst e
    have hs : src ≤ 6 := by
      by_contra hlt
      have := hc.own
      have := hh src (by omega)
      omega
    rw [ih (fun d hd => hu d (by simp [hd])) fun i hi => ?_, after_o_free fun h => by omega]
    rw [after_x (by omega), if_neg (by omega), if_neg (by omega)]
    exact hh i hi

/-- With all checkers at home a six bears one off. -/
theorem bear_six {N : Nat} {b : Board} (hv : Valid N b) (hx : b.xOff < N) (hhome : ∀ i, 7 ≤ i → b.x i = 0) : ∃ r, r ≤ 6 ∧ CanStep b r 6 := by
  obtain ⟨r, hr1, hr25, hr, hrmax⟩ := exists_rear hv hx
  have hr6 : r ≤ 6 := by
    by_contra hlt
    have := hhome r (by omega)
    omega
  refine ⟨r, hr6, ⟨hr1, hr25⟩, hr, fun h => ?_, fun h => by omega, fun _ => hhome, fun _ i hi => ?_⟩
  · have := hhome 25 (by omega); omega
  · rcases Nat.lt_or_ge i 26 with h | h
    · exact hrmax i hi (by omega)
    · exact hhome i (by omega)

/-- The checkers of `o` are on at most four points, or on five, of which one lies beyond point 7 and one is not in `o`'s home board. -/
def LooseO (b : Board) : Prop :=
  b.pointsO ≤ 4 ∨ b.pointsO ≤ 5 ∧ (∃ i, 8 ≤ i ∧ i ≤ 24 ∧ 1 ≤ b.o i) ∧ ∃ j, 1 ≤ j ∧ j ≤ 18 ∧ 1 ≤ b.o j

/-- Against such checkers, the player to move has a roll and a legal play without a hit. -/
theorem quiet {N : Nat} {b : Board} (hv : Valid N b) (hx : b.xOff < N) (hl : LooseO b) (hout : ∀ i, 26 ≤ i → b.x i = 0) :
    ∃ dice : Bkgm.Dice, dice.Valid ∧ ((∃ b', Legal (faces dice) b b' ∧ b'.o = b.o) ∨ ∀ b', Legal (faces dice) b b' → b'.o = b.o) := by
  have w7 : min 1 (b.o 1) + min 1 (b.o 2) + min 1 (b.o 3) + min 1 (b.o 4) + min 1 (b.o 5) + min 1 (b.o 6) + min 1 (b.o 7) ≤ 4 := by
    rcases hl with h | ⟨h, ⟨i, h1, h2, h3⟩, -⟩
    · have := window_points b (t := 1) (by omega) (by omega)
      simp only [Nat.reduceAdd] at this
      omega
    · have := seven_points b h1 h2
      rw [show min 1 (b.o i) = 1 by omega] at this
      omega
  have w6 : min 1 (b.o 19) + min 1 (b.o 20) + min 1 (b.o 21) + min 1 (b.o 22) + min 1 (b.o 23) + min 1 (b.o 24) ≤ 4 := by
    rcases hl with h | ⟨h, -, i, h1, h2, h3⟩
    · have := window_points b (t := 17) (by omega) (by omega)
      simp only [Nat.reduceAdd] at this
      omega
    · have := six_points b h1 h2
      rw [show min 1 (b.o i) = 1 by omega] at this
      omega
  have h5 : b.pointsO ≤ 5 := by rcases hl with h | ⟨h, -⟩ <;> omega
  obtain ⟨s, hs1, hs25, hs, hmax⟩ := exists_rear hv hx
  have hmax' : ∀ i, s < i → b.x i = 0 := fun i hi => by
    rcases Nat.lt_or_ge i 26 with h | h
    · exact hmax i hi (by omega)
    · exact hout i h
  have hbar : 1 ≤ b.x 25 → s = 25 := fun h => by
    by_contra hne
    have := hmax 25 (by omega) (by omega)
    omega
  -- all home: six-six
  rcases Nat.lt_or_ge s 7 with h7 | h7
  · refine ⟨.double 6, ⟨by omega, by omega⟩, Or.inr ?_⟩
    rintro b' ⟨used, hu, hp, -, -⟩
    refine sixes_o hp (fun d hd => ?_) fun i hi => hmax' i (by omega)
    have h1 := List.count_pos_iff.2 hd
    have h2 := hu d
    by_contra hne
    simp [faces, List.count_cons, Ne.symm hne] at h2
    omega
  -- a step of a rearmost checker to a free point
  have step : ∀ d, 1 ≤ d → d ≤ 6 → b.o (s - d) = 0 → CanStep b s d := fun d h1 h6 ho =>
    ⟨⟨hs1, hs25⟩, hs, fun h => hbar h, fun _ => by omega, fun h => by omega, fun h => by omega⟩
  -- two checkers move to free points
  have both : 2 ≤ b.x s → (∃ d e, 1 ≤ d ∧ d < e ∧ e ≤ 6 ∧ b.o (s - d) = 0 ∧ b.o (s - e) = 0) →
      ∃ dice : Bkgm.Dice, dice.Valid ∧ ∃ b', Legal (faces dice) b b' ∧ b'.o = b.o := by
    rintro hs2 ⟨d, e, hd, hde, he, hod, hoe⟩
    have c1 := step d hd (by omega) hod
    have o1 : (after b s d).o = b.o := after_o_free fun _ => hod
    have c2 : CanStep (after b s d) s e := by
      refine ⟨⟨hs1, hs25⟩, ?_, fun h => ?_, fun _ => by rw [o1]; omega, fun h => by omega, fun h => by omega⟩
      · rw [after_x hd, if_pos rfl]; omega
      · rw [after_x hd] at h
        by_contra hne
        have := hmax 25 (by omega) (by omega)
        rw [if_neg (by omega), if_neg (by omega)] at h
        omega
    obtain ⟨dice, hv, -, hl⟩ := legal_two ⟨hd, by omega⟩ ⟨by omega, he⟩ (by omega) c1 c2
    exact ⟨dice, hv, _, hl, by rw [after_o_free (fun _ => by rw [o1]; exact hoe), o1]⟩
  -- two checkers on the bar
  by_cases hbar2 : s = 25 ∧ 2 ≤ b.x s
  · obtain ⟨rfl, hb2⟩ := hbar2
    obtain ⟨dice, hd, h⟩ := both hb2 (two_free (by omega) w6)
    exact ⟨dice, hd, Or.inl h⟩
  -- with room, one checker moves on twice
  rcases Nat.lt_or_ge 7 s with h8 | h8
  · obtain ⟨d, e, hd, hd6, he, he6, hne, hsum, hod, hode⟩ : ∃ d e, 1 ≤ d ∧ d ≤ 6 ∧ 1 ≤ e ∧ e ≤ 6 ∧ d ≠ e ∧ d + e < s ∧
        b.o (s - d) = 0 ∧ b.o (s - d - e) = 0 := by
      rcases Nat.lt_or_ge 8 s with h9 | h9
      · obtain ⟨d, e, h⟩ := two_steps_free' (b := b) h9 ((window_points b (t := s - 8) (by omega) (by omega)).trans h5)
        exact ⟨d, e, h.1, h.2.1, h.2.2.1, h.2.2.2.1, h.2.2.2.2.1, by omega, h.2.2.2.2.2.2.1, h.2.2.2.2.2.2.2⟩
      · have e8 : s = 8 := by omega
        subst e8
        obtain ⟨d, e, h⟩ := two_steps_free (b := b) (s := 8) (by omega) w7
        exact ⟨d, e, h.1, h.2.1, h.2.2.1, h.2.2.2.1, h.2.2.2.2.1, by omega, h.2.2.2.2.2.2.1, h.2.2.2.2.2.2.2⟩
    have c1 := step d hd hd6 hod
    have o1 : (after b s d).o = b.o := after_o_free fun _ => hod
    have c2 : CanStep (after b s d) (s - d) e := by
      refine ⟨⟨by omega, by omega⟩, ?_, fun h => ?_, fun _ => by rw [o1]; omega, fun h => by omega, fun h => by omega⟩
      · rw [after_x hd, if_neg (by omega), if_pos ⟨by omega, rfl⟩]; omega
      · rw [after_x hd] at h
        split_ifs at h with k1 k2
        · omega
        · omega
        · have := hbar h; omega
    obtain ⟨dice, hv, -, hl⟩ := legal_two ⟨hd, hd6⟩ ⟨he, he6⟩ hne c1 c2
    exact ⟨dice, hv, Or.inl ⟨_, hl, by rw [after_o_free (fun _ => by rw [o1]; exact hode), o1]⟩⟩
  · have e7 : s = 7 := by omega
    subst e7
    have tf := two_free (b := b) (s := 7) (by omega) (show min 1 (b.o 1) + min 1 (b.o 2) + min 1 (b.o 3) + min 1 (b.o 4) + min 1 (b.o 5) +
      min 1 (b.o 6) ≤ 4 by omega)
    rcases Nat.lt_or_ge 1 (b.x 7) with hs2 | hs2
    · obtain ⟨dice, hd, h⟩ := both hs2 tf
      exact ⟨dice, hd, Or.inl h⟩
    -- a single checker on 7: it comes home, and a checker is borne off with a six
    obtain ⟨d, e, hd, hde, he, hod, -⟩ := tf
    have c1 := step d hd (by omega) hod
    have o1 : (after b 7 d).o = b.o := after_o_free fun _ => hod
    have hhome : ∀ i, 7 ≤ i → (after b 7 d).x i = 0 := by
      intro i hi
      rw [after_x hd]
      split_ifs with k1 k2
      · omega
      · omega
      · exact hmax' i (by omega)
    have hv1 : Valid N (after b 7 d) := hv.after hd c1
    have hx1 : (after b 7 d).xOff < N := by rw [after_xOff, if_neg (by omega)]; exact hx
    obtain ⟨r, hr⟩ := bear_six hv1 hx1 hhome
    obtain ⟨dice, hv, -, hl⟩ := legal_two ⟨hd, by omega⟩ ⟨by omega, by omega⟩ (by omega) c1 hr.2
    exact ⟨dice, hv, Or.inl ⟨_, hl, by rw [after_o_free (fun h => by omega), o1]⟩⟩

/-- Against at most eleven checkers, the player to move can move with some roll. -/
theorem canMove_of_eleven {N : Nat} {b : Board} (hv : Valid N b) (hx : b.xOff < N) (h11 : b.countO ≤ 11) (hout : ∀ i, 26 ≤ i → b.x i = 0) :
    CanMove b := by
  obtain ⟨s, hs1, hs25, hs, hmax⟩ := exists_rear hv hx
  have hmax' : ∀ i, s < i → b.x i = 0 := fun i hi => by
    rcases Nat.lt_or_ge i 26 with h | h
    · exact hmax i hi (by omega)
    · exact hout i h
  have hbar : 1 ≤ b.x 25 → s = 25 := fun h => by
    by_contra hne
    have := hmax 25 (by omega) (by omega)
    omega
  rcases Nat.lt_or_ge s 7 with h7 | h7
  · exact ⟨s, 6, by omega, by omega, ⟨hs1, hs25⟩, hs, hbar, fun h => by omega, fun _ i hi => hmax' i (by omega), fun _ => hmax'⟩
  · by_contra hn
    have hp : ∀ d, 1 ≤ d → d ≤ 6 → 2 ≤ b.o (s - d) := by
      intro d h1 h6
      by_contra hlt
      exact hn ⟨s, d, h1, h6, ⟨hs1, hs25⟩, hs, hbar, fun _ => by omega, fun h => by omega, fun h => by omega⟩
    have hw := window_o b (t := s - 7) (by omega)
    have h1 := hp 1 (by omega) (by omega)
    have h2 := hp 2 (by omega) (by omega)
    have h3 := hp 3 (by omega) (by omega)
    have h4 := hp 4 (by omega) (by omega)
    have h5 := hp 5 (by omega) (by omega)
    have h6 := hp 6 (by omega) (by omega)
    rw [show s - 7 + 1 = s - 6 by omega, show s - 7 + 2 = s - 5 by omega, show s - 7 + 3 = s - 4 by omega, show s - 7 + 4 = s - 3 by omega,
      show s - 7 + 5 = s - 2 by omega, show s - 7 + 6 = s - 1 by omega] at hw
    omega

end Spec
