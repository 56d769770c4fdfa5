import Verif.Props.Deadlock
import Mathlib.Algebra.Order.BigOperators.Group.Finset
/-!
# Board lemmas for C88: with even doubles every move brings the end nearer

With the dice 2, 4, 6 a checker of `x` that has entered from the bar stays on odd numbers, one of `o` on even numbers. So every hit takes a
checker that has not yet been on the bar: either it is hit, or it is the one that hits.
-/

namespace Spec

/-- The pips of the checkers of `x` on even points and of `o` on odd points, times 26, and all pips. -/
def Board.energy (b : Board) : Nat :=
  26 * ((∑ i ∈ Finset.range 26, (if i % 2 = 0 then i else 0) * b.x i) + ∑ i ∈ Finset.range 26, (if i % 2 = 1 then 25 - i else 0) * b.o i)
    + (b.pipsX + b.pipsO)

theorem energy_after {b : Board} {f d : Nat} (hd : d = 2 ∨ d = 4 ∨ d = 6) (hc : CanStep b f d) : (after b f d).energy < b.energy := by
  have w1 := wsum_after (fun i => i) (by omega) hc
  have w2 := wsum_after (fun i => if i % 2 = 0 then i else 0) (by omega) hc
  have w3 := wsum_after_o (fun i => 25 - i) hc
  have w4 := wsum_after_o (fun i => if i % 2 = 1 then 25 - i else 0) hc
  have hr := hc.range
  simp only [Board.energy, Board.pipsX, Board.pipsO]
  by_cases hh : d < f ∧ b.o (f - d) = 1
  · simp only [hh, and_self, if_true, show ¬ f ≤ d by omega, if_false] at w1 w2 w3 w4
    rcases Nat.mod_two_eq_zero_or_one f with e | e
    · have e' : (f - d) % 2 = 0 := by omega
      simp only [e, e', if_true, show ¬ (0 : Nat) % 2 = 1 by omega, show ¬ (0 : Nat) = 1 by omega, if_false] at w2 w4
      omega
    · have e' : (f - d) % 2 = 1 := by omega
      simp only [e, e', if_true, show ¬ (0 : Nat) % 2 = 1 by omega, show ¬ (1 : Nat) = 0 by omega, if_false] at w2 w4
      omega
  · rw [if_neg hh, if_neg hh] at w3 w4
    by_cases hfd : f ≤ d
    · simp only [hfd, if_true] at w1 w2
      omega
    · simp only [hfd, if_false] at w1 w2
      rcases Nat.mod_two_eq_zero_or_one f with e | e
      · have e' : (f - d) % 2 = 0 := by omega
        simp only [e, e', if_true] at w2
        omega
      · have e' : (f - d) % 2 = 1 := by omega
        simp only [e, e', show ¬ (1 : Nat) = 0 by omega, if_false] at w2
        omega

theorem wsum_mirror (f w : Nat → Nat) : (∑ i ∈ Finset.range 26, w i * (if i < 26 then f (25 - i) else 0)) = ∑ i ∈ Finset.range 26, w (25 - i) * f i := by
  rw [← Finset.sum_range_reflect]
  refine Finset.sum_congr rfl fun i hi => ?_
  have := Finset.mem_range.1 hi
  rw [if_pos (by omega), show 26 - 1 - i = 25 - i by omega, show 25 - (25 - i) = i by omega]

theorem energy_mirror (b : Board) : b.mirror.energy = b.energy := by
  have p := Bkgm.MoveText.pips_mirror b
  unfold Board.energy
  rw [p.1, p.2]
  simp only [Board.mirror]
  rw [wsum_mirror b.o (fun i => if i % 2 = 0 then i else 0), wsum_mirror b.x (fun i => if i % 2 = 1 then 25 - i else 0)]
  have e1 : (∑ i ∈ Finset.range 26, (if (25 - i) % 2 = 0 then 25 - i else 0) * b.o i) =
      ∑ i ∈ Finset.range 26, (if i % 2 = 1 then 25 - i else 0) * b.o i := by
    refine Finset.sum_congr rfl fun i hi => ?_
    have := Finset.mem_range.1 hi
    rw [show (if (25 - i) % 2 = 0 then 25 - i else 0) = (if i % 2 = 1 then 25 - i else 0) by split_ifs <;> omega]
  have e2 : (∑ i ∈ Finset.range 26, (if (25 - i) % 2 = 1 then 25 - (25 - i) else 0) * b.x i) =
      ∑ i ∈ Finset.range 26, (if i % 2 = 0 then i else 0) * b.x i := by
    refine Finset.sum_congr rfl fun i hi => ?_
    have := Finset.mem_range.1 hi
    rw [show (if (25 - i) % 2 = 1 then 25 - (25 - i) else 0) = (if i % 2 = 0 then i else 0) by split_ifs <;> omega]
  rw [e1, e2]
  omega

theorem energy_le {N : Nat} {b : Board} (hv : Valid N b) : b.energy ≤ 1298 * N := by
  have key : ∀ (w f : Nat → Nat) (k : Nat), (∀ i, i < 26 → w i ≤ k ∨ f i = 0) →
      (∑ i ∈ Finset.range 26, w i * f i) ≤ k * ∑ i ∈ Finset.range 26, f i := fun w f k h => by
    rw [Finset.mul_sum]
    refine Finset.sum_le_sum fun i hi => ?_
    rcases h i (Finset.mem_range.1 hi) with h | h
    · exact Nat.mul_le_mul_right _ h
    · simp [h]
  have k1 := key (fun i => i) b.x 25 fun i hi => Or.inl (by omega)
  have k2 := key (fun i => if i % 2 = 0 then i else 0) b.x 24 fun i hi => Or.inl (by split_ifs <;> omega)
  have k3 := key (fun i => 25 - i) b.o 25 fun i hi => Or.inl (by omega)
  have k4 := key (fun i => if i % 2 = 1 then 25 - i else 0) b.o 24 fun i hi => Or.inl (by split_ifs <;> omega)
  have s1 := hv.sumX
  have s2 := hv.sumO
  simp only [Board.countX, Board.countO] at s1 s2
  simp only [Board.energy, Board.pipsX, Board.pipsO]
  omega

/-- Both sides are on the bar and can enter with none of 2, 4, 6. -/
structure EvenStuck (b : Board) : Prop where
  xBar : 1 ≤ b.x 25
  oBar : 1 ≤ b.o 0
  x2 : 2 ≤ b.x 2
  x4 : 2 ≤ b.x 4
  x6 : 2 ≤ b.x 6
  o19 : 2 ≤ b.o 19
  o21 : 2 ≤ b.o 21
  o23 : 2 ≤ b.o 23

theorem EvenStuck.mirror {b : Board} (h : EvenStuck b) : EvenStuck b.mirror := by
  obtain ⟨h1, h2, h3, h4, h5, h6, h7, h8⟩ := h
  constructor <;> simpa [Board.mirror]

theorem EvenStuck.of_mirror {b : Board} (h : EvenStuck b.mirror) : EvenStuck b := by
  obtain ⟨h1, h2, h3, h4, h5, h6, h7, h8⟩ := h
  simp [Board.mirror] at *
  constructor <;> assumption

theorem EvenStuck.no_step {b : Board} (h : EvenStuck b) {src die : Nat} (hd : die = 2 ∨ die = 4 ∨ die = 6) : ¬ CanStep b src die := by
  intro hc
  have e := hc.barFirst h.xBar
  subst e
  have := hc.unblocked (by omega)
  obtain ⟨-, -, -, -, -, h1, h2, h3⟩ := h
  rcases hd with rfl | rfl | rfl <;> simp only [Nat.reduceSub] at this <;> omega

/-- No step with 2, 4, 6 leads there. -/
theorem EvenStuck.no_step_into {b : Board} {src die : Nat} (hd : die = 2 ∨ die = 4 ∨ die = 6) (hc : CanStep b src die) :
    ¬ EvenStuck (after b src die) := by
  intro h
  have hr := hc.range
  have h25 : 1 ≤ b.x 25 := by
    have := h.xBar
    rw [after_x (by omega)] at this
    split_ifs at this with e e' <;> [skip; skip; skip]
    · subst e; omega
    · omega
    · exact this
  have e := hc.barFirst h25
  subst e
  have hu := hc.unblocked (by omega)
  obtain ⟨-, -, -, -, -, h1, h2, h3⟩ := h
  rw [after_o] at h1 h2 h3
  rcases hd with rfl | rfl | rfl <;> simp only [Nat.reduceSub] at hu h1 h2 h3 <;> split_ifs at h1 h2 h3 <;> omega

theorem EvenStuck.no_play_into {b b' : Board} {used : List Nat} (hp : Play b used b') (hd : ∀ d ∈ used, d = 2 ∨ d = 4 ∨ d = 6) (h : EvenStuck b') :
    EvenStuck b := by
  induction hp with
  | nil => exact h
  | @cons b b' src die rest hc _ ih =>
    exact absurd (ih (fun d hd' => hd d (by simp [hd'])) h) (no_step_into (hd die (by simp)) hc)

theorem energy_play {b b' : Board} {used : List Nat} (hp : Play b used b') (hd : ∀ d ∈ used, d = 2 ∨ d = 4 ∨ d = 6) :
    b'.energy + used.length ≤ b.energy := by
  induction hp with
  | nil => simp
  | @cons b b' src die rest hc _ ih =>
    have := ih fun d hd' => hd d (by simp [hd'])
    have := energy_after (hd die (by simp)) hc
    simp only [List.length_cons]
    omega

/-- The player to move can move with one of 2, 4, 6. -/
def CanEven (b : Board) : Prop := ∃ src die, (die = 2 ∨ die = 4 ∨ die = 6) ∧ CanStep b src die

/-- In an unfinished game, and if not both are shut out on the bar, one of the players can move with one of 2, 4, 6. -/
theorem canEven {N : Nat} {b : Board} (hv : Valid N b) (hx : b.xOff < N) (hout : ∀ i, 26 ≤ i → b.x i = 0) (hs : ¬ EvenStuck b) :
    CanEven b ∨ CanEven b.mirror := by
  by_contra hc
  rw [not_or] at hc
  obtain ⟨hn, hm⟩ := hc
  have bar : ∀ {b : Board}, ¬ CanEven b → 1 ≤ b.x 25 → 2 ≤ b.o 19 ∧ 2 ≤ b.o 21 ∧ 2 ≤ b.o 23 := fun {b} hn hb => by
    have k : ∀ d, d = 2 ∨ d = 4 ∨ d = 6 → 2 ≤ b.o (25 - d) := fun d hd => by
      by_contra hlt
      exact hn ⟨25, d, hd, ⟨by omega, by omega⟩, hb, fun _ => rfl, fun _ => by omega, fun h => by omega, fun h => by omega⟩
    exact ⟨k 6 (by omega), k 4 (by omega), k 2 (by omega)⟩
  have obar : 1 ≤ b.o 0 → 2 ≤ b.x 6 ∧ 2 ≤ b.x 4 ∧ 2 ≤ b.x 2 := fun h => by
    have := bar (b := b.mirror) hm (by simpa [Board.mirror] using h)
    simpa [Board.mirror] using this
  -- `o` not on the bar, with two of its points two apart
  have step : ∀ t, 1 ≤ t → t ≤ 22 → b.o 0 = 0 → 2 ≤ b.o t → 2 ≤ b.o (t + 2) → False := fun t h1 h2 h0 h3 h4 => by
    refine hm ⟨25 - t, 2, Or.inl rfl, ⟨by omega, by omega⟩, ?_, fun h => ?_, fun _ => ?_, fun h => by omega, fun h => by omega⟩
    · simp only [Board.mirror, show 25 - t < 26 by omega, if_true, show 25 - (25 - t) = t by omega]
      omega
    · simp [Board.mirror, h0] at h
    · simp only [Board.mirror, show 25 - t - 2 < 26 by omega, if_true, show 25 - (25 - t - 2) = t + 2 by omega]
      rcases hv.alone (t + 2) (by omega) with h | h <;> omega
  rcases Nat.eq_zero_or_pos (b.x 25) with h25 | h25
  · rcases Nat.eq_zero_or_pos (b.o 0) with h0 | h0
    · obtain ⟨s, hs1, hs25, hs, hmax⟩ := exists_rear hv hx
      have hmax' : ∀ i, s < i → b.x i = 0 := fun i hi => by
        rcases Nat.lt_or_ge i 26 with h | h
        · exact hmax i hi (by omega)
        · exact hout i h
      have hne : s ≠ 25 := by rintro rfl; omega
      have hs7 : 7 ≤ s := by
        by_contra hlt
        exact hn ⟨s, 6, by omega, ⟨hs1, hs25⟩, hs, fun h => by omega, fun h => by omega, fun _ i hi => hmax' i (by omega),
          fun _ => hmax'⟩
      have blk : ∀ d, d = 2 ∨ d = 4 ∨ d = 6 → 2 ≤ b.o (s - d) := by
        intro d hd
        by_contra hlt
        exact hn ⟨s, d, hd, ⟨hs1, hs25⟩, hs, fun h => by omega, fun _ => by omega, fun h => by omega, fun h => by omega⟩
      have k1 := blk 6 (by omega)
      have k2 := blk 4 (by omega)
      rw [show s - 4 = s - 6 + 2 by omega] at k2
      exact step (s - 6) (by omega) (by omega) h0 k1 k2
    · obtain ⟨k6, k4, k2⟩ := obar h0
      refine hn ⟨4, 2, Or.inl rfl, ⟨by omega, by omega⟩, by omega, fun h => by omega, fun _ => ?_, fun h => by omega, fun h => by omega⟩
      rcases hv.alone 2 (by omega) with h | h
      · omega
      · simp [h]
  · obtain ⟨k1, k2, k3⟩ := bar hn h25
    rcases Nat.eq_zero_or_pos (b.o 0) with h0 | h0
    · exact step 19 (by omega) (by omega) h0 k1 k2
    · obtain ⟨j6, j4, j2⟩ := obar h0
      exact hs ⟨h25, h0, j2, j4, j6, k1, k2, k3⟩

/-- A play that leaves the player on the bar only enters checkers. -/
theorem enter_play {b b' : Board} {used : List Nat} {d : Nat} (hp : Play b used b') (h1 : 1 ≤ d) (h6 : d ≤ 6) (hd : ∀ e ∈ used, e = d)
    (h : 1 ≤ b'.x 25) : b'.x 25 + used.length = b.x 25 ∧ (used ≠ [] → 1 ≤ b'.x (25 - d)) := by
  induction hp with
  | nil => simp
  | @cons b b' src die rest hc hrest ih =>
    obtain ⟨e1, e2⟩ := ih (fun e he => hd e (by simp [he])) h
    obtain rfl : die = d := hd die (by simp)
    have hr := hc.range
    rw [after_x h1] at e1
    have h25 : 1 ≤ b.x 25 := by
      split_ifs at e1 with a a'
      · subst a; omega
      · omega
      · omega
    have e := hc.barFirst h25
    subst e
    simp only [if_true] at e1
    refine ⟨by simp only [List.length_cons]; omega, fun _ => ?_⟩
    cases rest with
    | nil =>
      cases hrest
      rw [after_x h1]
      simp [show die < 25 by omega, show ¬ 25 - die = 25 by omega]
    | cons a l => exact e2 (by simp)

end Spec
