import Verif.Proofs.Mixed
/-!
Helper lemmas: doubles. Sequences of moves with the same die, their confluence, and the generator.
-/

namespace Bkgm
namespace Pos
variable {N : Nat}

/-- `n` single moves with die `d`. -/
inductive Steps (d : Nat) : Nat → Pos N → Pos N → Prop
  | zero (p : Pos N) : Steps d 0 p p
  | succ {n f : Nat} {p q : Pos N} : p.Can f d → Steps d n (p.mv f d) q → Steps d (n + 1) p q

/-- `n` single moves with die `d`, sources not increasing, the first at most `hi`. -/
inductive SSteps (d : Nat) : Nat → Nat → Pos N → Pos N → Prop
  | zero (hi : Nat) (p : Pos N) : SSteps d hi 0 p p
  | succ {hi n f : Nat} {p q : Pos N} : f ≤ hi → p.Can f d → SSteps d f n (p.mv f d) q →
      SSteps d hi (n + 1) p q

/-- No move left. -/
def Stuck (d : Nat) (p : Pos N) : Prop := ∀ f, ¬ p.Can f d

theorem SSteps.steps {d hi n : Nat} {p q : Pos N} (h : SSteps d hi n p q) : Steps d n p q := by
  induction h with
  | zero => exact .zero _
  | succ _ h _ ih => exact .succ h ih

theorem SSteps.mono {d hi hi' n : Nat} {p q : Pos N} (h : SSteps d hi n p q) (hh : hi ≤ hi') :
    SSteps d hi' n p q := by
  cases h with
  | zero => exact .zero _ _
  | succ a b c => exact .succ (by omega) b c

theorem SSteps.insert {d : Nat} (hd : 1 ≤ d) (hd6 : d ≤ 6) {n : Nat} : ∀ {hi f : Nat} {p q : Pos N},
    p.Can f d → SSteps d hi n (p.mv f d) q → SSteps d (max f hi) (n + 1) p q := by
  induction n with
  | zero =>
    intro hi f p q hc h
    cases h
    exact .succ (by omega) hc (.zero _ _)
  | succ n ih =>
    intro hi f p q hc h
    cases h with
    | @succ _ _ g _ _ h1 h2 h3 =>
      by_cases hg : g ≤ f
      · exact .succ (by omega) hc (.succ hg h2 h3)
      · obtain ⟨s1, s2, s3⟩ := swap hd hd hd6 hc h2 (by omega)
        rw [s3] at h3
        have := ih s2 h3
        rw [Nat.max_eq_right (by omega)] at this
        exact .succ (by omega) s1 this

theorem Steps.sort {d : Nat} (hd : 1 ≤ d) (hd6 : d ≤ 6) {n : Nat} {p q : Pos N}
    (h : Steps d n p q) : SSteps d 25 n p q := by
  induction h with
  | zero => exact .zero _ _
  | succ hc _ ih =>
    have := SSteps.insert hd hd6 hc ih
    have h2 := hc.hi
    rwa [Nat.max_eq_right (by omega)] at this

theorem Steps.trans {d n m : Nat} {p q r : Pos N} (h : Steps d n p q) (h' : Steps d m q r) :
    Steps d (n + m) p r := by
  induction h with
  | zero => simpa using h'
  | succ a _ ih =>
    have e : ∀ k, k + 1 + m = k + m + 1 := fun k => by omega
    rw [e]
    exact .succ a (ih h')

theorem Steps.barsOK {d n : Nat} (hd : 1 ≤ d) {p q : Pos N} (h : Steps d n p q) (hb : p.BarsOK) :
    q.BarsOK := by
  induction h with
  | zero => exact hb
  | succ a _ ih => exact ih (barsOK_mv hb hd a)

/-- A legal move stays legal after another, lower one. -/
theorem can_after_lower {p : Pos N} {a b d : Nat} (hd : 1 ≤ d) (ha : p.Can a d) (hb : p.Can b d)
    (hab : a < b) : (p.mv a d).Can b d := by
  obtain ⟨a1, a2, a3, a4, a5, a6, a7⟩ := ha
  obtain ⟨b1, b2, b3, b4, b5, b6, b7⟩ := hb
  have hA := pip_mv p a2 hd
  have ne : ¬ (d < a ∧ b = a - d) := by omega
  refine ⟨b1, b2, ?_, ?_, ?_, ?_, ?_⟩
  · rw [hA]; grind
  · intro h
    have := a4 (by omega)
    rw [hA]; grind
  · intro h
    have := b5 h
    rw [hA]; grind
  · intro h i hi
    have := b6 h i hi
    rw [hA]; grind
  · intro h i hi
    have := b7 h i hi
    rw [hA]; grind

/-- Two different moves with the same die commute. -/
theorem diamond {p : Pos N} {a b d : Nat} (hd : 1 ≤ d) (hd6 : d ≤ 6) (ha : p.Can a d) (hb : p.Can b d)
    (hab : a ≠ b) : (p.mv a d).Can b d ∧ (p.mv b d).Can a d ∧ (p.mv a d).mv b d = (p.mv b d).mv a d := by
  rcases Nat.lt_or_gt_of_ne hab with h | h
  · have h1 := can_after_lower hd ha hb h
    have := swap hd hd hd6 ha h1 (by omega)
    exact ⟨h1, this.2.1, this.2.2⟩
  · have h1 := can_after_lower hd hb ha h
    have := swap hd hd hd6 hb h1 (by omega)
    exact ⟨this.2.1, h1, this.2.2.symm⟩

theorem descent1 {d : Nat} (hd : 1 ≤ d) (hd6 : d ≤ 6) {n f : Nat} {p q : Pos N} (h : Steps d n p q)
    (hq : Stuck d q) (hf : p.Can f d) : ∃ n', n = n' + 1 ∧ Steps d n' (p.mv f d) q := by
  induction h with
  | zero => exact absurd hf (hq f)
  | @succ n g p q hg hs ih =>
    by_cases e : f = g
    · subst e; exact ⟨n, rfl, hs⟩
    · obtain ⟨c1, c2, c3⟩ := diamond hd hd6 hf hg e
      obtain ⟨n', rfl, h'⟩ := ih hq c2
      exact ⟨n' + 1, rfl, .succ c1 (c3 ▸ h')⟩

/-- All maximal sequences of moves with one die have the same length. -/
theorem descent {d : Nat} (hd : 1 ≤ d) (hd6 : d ≤ 6) {m : Nat} {p r : Pos N} (h : Steps d m p r) :
    ∀ {n : Nat} {q : Pos N}, Steps d n p q → Stuck d q → ∃ k, m + k = n ∧ Steps d k r q := by
  induction h with
  | zero => intro n q h _; exact ⟨n, by omega, h⟩
  | succ a _ ih =>
    intro n q h hq
    obtain ⟨n', rfl, h'⟩ := descent1 hd hd6 h hq a
    obtain ⟨k, hk, h''⟩ := ih h' hq
    exact ⟨k, by omega, h''⟩

/-- Prefixes: from a play of length `n`, one of any smaller length. -/
theorem Steps.take {d n : Nat} {p q : Pos N} (h : Steps d n p q) : ∀ m, m ≤ n → ∃ r, Steps d m p r := by
  induction h with
  | zero => intro m hm; obtain rfl : m = 0 := by omega
            exact ⟨_, .zero _⟩
  | succ a _ ih =>
    intro m hm
    cases m with
    | zero => exact ⟨_, .zero _⟩
    | succ m => obtain ⟨r, hr⟩ := ih m (by omega); exact ⟨r, .succ a hr⟩

/-- `k` moves from the same point. -/
def mvs (f d : Nat) : Nat → Pos N → Pos N
  | 0, p => p
  | k + 1, p => mvs f d k (p.mv f d)

theorem pip_mvs {f d : Nat} (hf : f ≤ 25) (hd : 1 ≤ d) (hdf : d < f) (k : Nat) :
    ∀ (p : Pos N), -1 ≤ p.pip (f - d) → ∀ j, (mvs f d k p).pip j =
      if k = 0 then p.pip j
      else if j = f then p.pip f - k
      else if j = f - d then (if p.pip (f - d) = -1 then (k : Int) else p.pip (f - d) + k)
      else if j = 0 ∧ p.pip (f - d) = -1 then p.pip 0 - 1
      else p.pip j := by
  induction k with
  | zero => intro p _ j; simp [mvs]
  | succ k ih =>
    intro p hp j
    have e := pip_mv p hf hd
    simp only [hdf, if_true] at e
    have c1 : ¬ (f - d = f) := by omega
    have c2 : ¬ (0 = f) := by omega
    have c3 : ¬ (0 = f - d) := by omega
    unfold mvs
    rw [ih _ (by rw [e, if_neg c1, if_pos rfl]; split_ifs <;> omega)]
    simp only [e, c1, c2, c3, if_true, if_false, true_and]
    have n1 : ¬ ((if p.pip (f - d) = -1 then (1 : Int) else p.pip (f - d) + 1) = -1) := by
      intro h; split_ifs at h <;> omega
    simp only [n1, if_false, and_false]
    push_cast
    by_cases k0 : k = 0
    · subst k0
      by_cases j1 : j = f
      · subst j1; simp
      · by_cases j2 : j = f - d
        · subst j2; simp [c1]
        · simp [j1, j2]
    · by_cases j1 : j = f
      · subst j1; simp [k0]; omega
      · by_cases j2 : j = f - d
        · subst j2; simp [c1, k0]; split_ifs <;> omega
        · simp [j1, j2, k0]

theorem xOff_mvs {f d : Nat} (hdf : d < f) (k : Nat) : ∀ p : Pos N, (mvs f d k p).xOff = p.xOff := by
  induction k with
  | zero => intro p; rfl
  | succ k ih => intro p; unfold mvs; rw [ih, xOff_mv, if_pos hdf]

@[simp] theorem oOff_mvs {f d : Nat} (k : Nat) : ∀ p : Pos N, (mvs f d k p).oOff = p.oOff := by
  induction k with
  | zero => intro p; rfl
  | succ k ih => intro p; unfold mvs; rw [ih, oOff_mv]

@[simp] theorem turn_mvs {f d : Nat} (k : Nat) : ∀ p : Pos N, (mvs f d k p).turn = p.turn := by
  induction k with
  | zero => intro p; rfl
  | succ k ih => intro p; unfold mvs; rw [ih, turn_mv]

theorem steps_mvs {f d : Nat} (hf : f ≤ 25) (hd : 1 ≤ d) (hdf : d < f) (k : Nat) :
    ∀ (p : Pos N), (k : Int) ≤ p.pip f → (f ≠ 25 → p.pip 25 ≤ 0) → -1 ≤ p.pip (f - d) →
      Steps d k p (mvs f d k p) := by
  induction k with
  | zero => intro p _ _ _; exact .zero _
  | succ k ih =>
    intro p h1 h2 h3
    have hc : p.Can f d := ⟨by omega, hf, by omega, h2, fun _ => h3, by intro; omega, by intro; omega⟩
    refine .succ hc (ih _ ?_ ?_ ?_)
    · rw [pip_mv p hf hd, if_pos hdf, if_pos rfl]; push_cast at h1; omega
    · intro h; exact le_trans (pip25_mv_le hd hc) (h2 h)
    · rw [pip_mv p hf hd, if_pos hdf, if_neg (by omega), if_pos rfl]; split_ifs <;> omega

/-- Agreement on all cells but `o`'s bar. -/
def Same (p q : Pos N) : Prop := ∀ i, 1 ≤ i → p.pip i = q.pip i

theorem Same.can {p q : Pos N} (h : Same p q) {f d : Nat} (hc : p.Can f d) : q.Can f d := by
  obtain ⟨h1, h2, h3, h4, h5, h6, h7⟩ := hc
  exact ⟨h1, h2, by rw [← h f h1]; exact h3, fun e => by rw [← h 25 (by omega)]; exact h4 e,
    fun e => by rw [← h _ (by omega)]; exact h5 e, fun e i hi => by rw [← h i (by omega)]; exact h6 e i hi,
    fun e i hi => by rw [← h i (by omega)]; exact h7 e i hi⟩

theorem Same.symm {p q : Pos N} (h : Same p q) : Same q p := fun i hi => (h i hi).symm
theorem Same.trans {p q r : Pos N} (h : Same p q) (h' : Same q r) : Same p r :=
  fun i hi => (h i hi).trans (h' i hi)

theorem Same.mv {p q : Pos N} (h : Same p q) {f d : Nat} (hf1 : 1 ≤ f) (hf : f ≤ 25) (hd : 1 ≤ d) :
    Same (p.mv f d) (q.mv f d) := by
  intro i hi
  rw [pip_mv p hf hd, pip_mv q hf hd]
  have e1 := h i hi
  have e2 := h f hf1
  by_cases hdf : d < f
  · have e3 := h (f - d) (by omega)
    have : ¬ (i = 0) := by omega
    simp only [e1, e2, e3, this, false_and, if_false]
  · simp only [e1, e2, hdf, if_false]

theorem Same.steps {d n : Nat} (hd : 1 ≤ d) {p p' : Pos N} (h : Steps d n p p') :
    ∀ {q : Pos N}, Same p q → ∃ q', Steps d n q q' ∧ Same p' q' := by
  induction h with
  | zero => intro q hq; exact ⟨q, .zero _, hq⟩
  | succ a _ ih =>
    intro q hq
    obtain ⟨q', h1, h2⟩ := ih (hq.mv a.lo a.hi hd)
    exact ⟨q', .succ (hq.can a) h1, h2⟩

theorem not_can_of_not_canB {p : Pos N} {f d : Nat} (h : ¬ p.canMoveB f d = true) : ¬ p.Can f d :=
  fun hc => h (canB_iff.2 ⟨hc.own, hc.free⟩)

/-- The counting loop: it plays `c' - c` moves (up to `o`'s bar), and if it did not stop early, no
move without bearing off is left. -/
theorem movableLoop_spec {d M : Nat} (hd : 1 ≤ d) (pip : Nat) : ∀ (c : Nat) (p : Pos N), pip ≤ 24 →
    p.pip 25 ≤ 0 →
    let r := movableLoop d M pip c p
    (∃ n G, r.1 = c + n ∧ Steps d n p G ∧ Same r.2 G) ∧
    (∀ j, pip < j → r.2.pip j = p.pip j) ∧
    (∀ j, p.pip j ≤ -2 → r.2.pip j = p.pip j) ∧
    r.2.pip 0 = p.pip 0 ∧
    (r.1 < M → ∀ f, d < f → f ≤ pip → ¬ r.2.canMoveB f d = true) := by
  induction pip with
  | zero =>
    intro c p _ _
    simp only [movableLoop]
    exact ⟨⟨0, p, rfl, .zero _, fun _ _ => rfl⟩, fun _ _ => trivial, fun _ _ => trivial, trivial, by intros; omega⟩
  | succ pip ih =>
    intro c p hp h25
    unfold movableLoop
    by_cases hgo : c < M ∧ pip + 1 > d
    · rw [if_pos hgo]
      by_cases hc : p.canMoveB (pip + 1) d = true
      · rw [if_pos hc]
        have hc' := canB_iff.1 hc
        have hfree := hc'.2 hgo.2
        simp only
        generalize hq : (if (p.set (pip + 1) 0).pip (pip + 1 - d) = -1 then
            (p.set (pip + 1) 0).set (pip + 1 - d) (p.pip (pip + 1))
          else (p.set (pip + 1) 0).set (pip + 1 - d)
            ((p.set (pip + 1) 0).pip (pip + 1 - d) + p.pip (pip + 1))) = q
        have hqp : ∀ j, q.pip j = if j = pip + 1 then 0 else if j = pip + 1 - d then
            (if p.pip (pip + 1 - d) = -1 then p.pip (pip + 1) else p.pip (pip + 1 - d) + p.pip (pip + 1))
            else p.pip j := by
          intro j
          have c1 : ¬ (pip + 1 - d = pip + 1) := by omega
          rw [← hq]
          simp only [pip_set p (by omega : pip + 1 < 26), if_neg c1]
          split_ifs <;> simp only [pip_set _ (by omega : pip + 1 - d < 26), pip_set p (by omega : pip + 1 < 26), *] <;> simp [*] <;> omega
        obtain ⟨k, hk⟩ : ∃ k : Nat, (k : Int) = p.pip (pip + 1) := ⟨(p.pip (pip + 1)).toNat, by omega⟩
        have hst := steps_mvs (by omega : pip + 1 ≤ 25) hd hgo.2 k p (by omega) (fun _ => h25) hfree
        have hsame : Same (mvs (pip + 1) d k p) q := by
          intro j hj
          rw [pip_mvs (by omega : pip + 1 ≤ 25) hd hgo.2 k p hfree, hqp]
          have k0 : ¬ (k = 0) := by omega
          have j0 : ¬ (j = 0) := by omega
          simp only [k0, j0, if_false, false_and, hk]
          simp
        have hq25 : q.pip 25 ≤ 0 := by
          rw [hqp, if_neg (by omega), if_neg (by omega)]; exact h25
        obtain ⟨⟨n, G, i1, i2, i3⟩, i4, i5, i6, i7⟩ := ih (c + (p.pip (pip + 1)).toNat) q (by omega) hq25
        refine ⟨?_, ?_, ?_, ?_, ?_⟩
        · obtain ⟨G', g1, g2⟩ := Same.steps hd i2 hsame.symm
          exact ⟨k + n, G', by omega, hst.trans g1, i3.trans g2⟩
        · intro j hj
          rw [i4 j (by omega), hqp, if_neg (by omega), if_neg (by omega)]
        · intro j hj
          have : q.pip j = p.pip j := by
            rw [hqp, if_neg, if_neg]
            · rintro rfl; omega
            · rintro rfl; omega
          rw [i5 j (by omega), this]
        · rw [i6, hqp, if_neg (by omega), if_neg (by omega)]
        · intro hlt f hf hfp
          by_cases e : f = pip + 1
          · subst e
            rw [canB_iff, i4 _ (by omega), hqp, if_pos rfl]
            omega
          · exact i7 hlt f hf (by omega)
      · rw [if_neg hc]
        obtain ⟨i1, i4, i5, i6, i7⟩ := ih c p (by omega) h25
        refine ⟨i1, fun j hj => i4 j (by omega), i5, i6, ?_⟩
        intro hlt f hf hfp
        by_cases e : f = pip + 1
        · subst e
          rw [canB_iff] at hc ⊢
          rw [i4 _ (by omega)]
          rintro ⟨g1, g2⟩
          apply hc
          refine ⟨g1, fun h => ?_⟩
          by_contra hh
          have := i5 (pip + 1 - d) (by omega)
          have := g2 h
          omega
        · exact i7 hlt f hf (by omega)
    · rw [if_neg hgo]
      refine ⟨⟨0, p, rfl, .zero _, fun _ _ => rfl⟩, fun _ _ => rfl, fun _ _ => rfl, rfl, ?_⟩
      intro h f hf hfp
      simp only at h
      omega

/-- Bear off the `k` checkers on point `d` with die `d`. -/
theorem bearoff_exact {d : Nat} (hd : 1 ≤ d) (hd6 : d ≤ 6) (k : Nat) : ∀ p : Pos N, p.pip d = k →
    (∀ i, 7 ≤ i → p.pip i ≤ 0) →
    ∃ q, Steps d k p q ∧ ∀ j, q.pip j = if j = d then 0 else p.pip j := by
  induction k with
  | zero =>
    intro p h _
    refine ⟨p, .zero _, fun j => ?_⟩
    split_ifs with e
    · subst e; simpa using h
    · rfl
  | succ k ih =>
    intro p h hh
    have hc : p.Can d d := ⟨hd, by omega, by rw [h]; push_cast; omega, fun _ => hh 25 (by omega), by intro; omega, fun _ => hh, by intro; omega⟩
    have e : ∀ j, (p.mv d d).pip j = if j = d then p.pip d - 1 else p.pip j := by
      intro j; rw [pip_mv p (by omega) hd, if_neg (by omega)]
    obtain ⟨q, h1, h2⟩ := ih (p.mv d d) (by rw [e, if_pos rfl, h]; push_cast; omega) (by
      intro i hi; rw [e, if_neg (by omega)]; exact hh i hi)
    refine ⟨q, .succ hc h1, fun j => ?_⟩
    rw [h2, e]; split_ifs <;> rfl

/-- Sum of `x`'s checkers on points `1..d`. -/
def sumX (p : Pos N) (d : Nat) : Int :=
  (((rng 1 (d + 1)).map p.pip).filter (fun v => decide (v > 0))).sum

theorem filter_pos_sum (l : List Int) : (l.filter (fun v => decide (v > 0))).sum = (l.map (fun v => max v 0)).sum := by
  induction l with
  | nil => rfl
  | cons a l ih =>
    by_cases h : a > 0
    · simp [h, ih]; omega
    · simp [h, ih]; omega

theorem sumX_eq (p : Pos N) (d : Nat) : p.sumX d = ((rng 1 (d + 1)).map (fun i => max (p.pip i) 0)).sum := by
  unfold sumX; rw [filter_pos_sum, List.map_map]; rfl

theorem sum_nonneg_list (l : List Nat) (f : Nat → Int) (h : ∀ i, 0 ≤ f i) : 0 ≤ (l.map f).sum := by
  induction l with
  | nil => simp
  | cons a l ih => have := h a; simp; omega

theorem sum_upd_list (l : List Nat) (hn : l.Nodup) (f g : Nat → Int) {b : Nat} (hb : b ∈ l)
    (h : ∀ i, i ≠ b → f i = g i) : (l.map f).sum = (l.map g).sum + (f b - g b) := by
  induction l with
  | nil => simp at hb
  | cons a l ih =>
    rw [List.nodup_cons] at hn
    by_cases e : b = a
    · subst e
      have : l.map f = l.map g := List.map_congr_left fun i hi => h i (fun e => hn.1 (e ▸ hi))
      simp [this]; omega
    · have hm : b ∈ l := by simpa [e] using hb
      have := ih hn.2 hm
      have := h a (fun x => e x.symm)
      simp; omega

theorem nodup_rng (a b : Nat) : (rng a b).Nodup := by unfold rng; exact List.nodup_range'

theorem sumX_nonneg (p : Pos N) (d : Nat) : 0 ≤ p.sumX d := by
  rw [sumX_eq]; exact sum_nonneg_list _ _ fun i => by omega

theorem sumX_dec {p q : Pos N} {d b : Nat} (hb : 1 ≤ b) (hbd : b ≤ d) (hp : 1 ≤ p.pip b)
    (h : ∀ j, q.pip j = if j = b then p.pip b - 1 else p.pip j) : p.sumX d = q.sumX d + 1 := by
  rw [sumX_eq, sumX_eq, sum_upd_list _ (nodup_rng _ _) (fun i => max (p.pip i) 0) (fun i => max (q.pip i) 0)
    (mem_rng.2 ⟨hb, by omega⟩ : b ∈ rng 1 (d + 1))]
  · simp only [h, if_true]; omega
  · intro i hi; simp only [h, if_neg hi]

theorem sumX_zero {p : Pos N} {d : Nat} (h : p.sumX d = 0) {i : Nat} (h1 : 1 ≤ i) (h2 : i ≤ d) : p.pip i ≤ 0 := by
  by_contra hc
  have : p.sumX d = (p.set i (p.pip i - 1)).sumX d + 1 → False := by
    intro e; have := sumX_nonneg (p.set i (p.pip i - 1)) d; omega
  by_cases hi : i < 26
  · exact this (sumX_dec h1 h2 (by omega) (fun j => pip_set p hi _ j))
  · rw [pip_ge (by omega)] at hc; omega

/-- All checkers on points `1..d`: they can all be borne off. -/
theorem bearoff_all {d : Nat} (hd : 1 ≤ d) (hd6 : d ≤ 6) (k : Nat) : ∀ p : Pos N, p.sumX d = k →
    p.pip 0 ≤ 0 → (∀ i, d < i → p.pip i ≤ 0) → ∃ q, Steps d k p q ∧ Stuck d q := by
  induction k with
  | zero =>
    intro p h h0 hh
    refine ⟨p, .zero _, fun f hf => ?_⟩
    have h1 := hf.own
    have h2 := hf.lo
    by_cases hfd : f ≤ d
    · have := sumX_zero (by simpa using h) h2 hfd; omega
    · have := hh f (by omega); omega
  | succ k ih =>
    intro p h h0 hh
    cases hr : p.rposX with
    | none =>
      exfalso
      have hn := rposX_none hr
      rw [sumX_eq] at h
      have : ((rng 1 (d + 1)).map (fun i => max (p.pip i) 0)) = (rng 1 (d + 1)).map (fun _ => (0 : Int)) :=
        List.map_congr_left fun i _ => by have := hn i; omega
      rw [this] at h
      have hz : ∀ l : List Nat, (l.map (fun _ => (0 : Int))).sum = 0 := by
        intro l; induction l with
        | nil => rfl
        | cons a l ih => simpa using ih
      rw [hz] at h; push_cast at h; omega
    | some b =>
      obtain ⟨b1, b2, b3⟩ := rposX_some hr
      have hbd : b ≤ d := by by_contra hc; have := hh b (by omega); omega
      have hb1 : 1 ≤ b := by by_contra hc; obtain rfl : b = 0 := by omega
                             omega
      have hc : p.Can b d := ⟨hb1, by omega, by omega, fun _ => hh 25 (by omega), by intro; omega,
        fun _ i hi => hh i (by omega), fun _ i hi => b3 i hi⟩
      have e : ∀ j, (p.mv b d).pip j = if j = b then p.pip b - 1 else p.pip j := by
        intro j; rw [pip_mv p (by omega) hd, if_neg (by omega)]
      have hs := sumX_dec hb1 hbd (by omega) e
      obtain ⟨q, h1, h2⟩ := ih (p.mv b d) (by push_cast at h; omega) (by rw [e, if_neg (by omega)]; exact h0)
        (by intro i hi; rw [e, if_neg (by omega)]; exact hh i hi)
      exact ⟨q, .succ hc h1, h2⟩

/-- The moves left when every remaining move is a bear-off. -/
theorem bearoff_phase {d : Nat} (hd : 1 ≤ d) (hd6 : d ≤ 6) {p : Pos N} (h0 : p.pip 0 ≤ 0)
    (h25 : p.pip 25 ≤ 0) (hs : ∀ f, d < f → f ≤ 24 → ¬ p.canMoveB f d = true) {b : Nat}
    (hr : p.rposX = some b) :
    ∃ q, Steps d (if b > 6 then 0 else if b > d then (max 0 (p.pip d)).toNat
        else (p.sumX d).toNat) p q ∧ Stuck d q := by
  obtain ⟨b1, b2, b3⟩ := rposX_some hr
  split_ifs with h6 hbd
  · refine ⟨p, .zero _, fun f hf => ?_⟩
    have := hf.lt25 h25
    by_cases hfd : d < f
    · exact not_can_of_not_canB (hs f hfd (by omega)) hf
    · have := hf.home (by omega) b (by omega); omega
  · by_cases hpd : p.pip d ≤ 0
    · refine ⟨p, ?_, fun f hf => ?_⟩
      · rw [show (max 0 (p.pip d)).toNat = 0 by omega]; exact .zero _
      · have := hf.lt25 h25
        by_cases hfd : d < f
        · exact not_can_of_not_canB (hs f hfd (by omega)) hf
        · by_cases e : f = d
          · subst e; have := hf.own; omega
          · have := hf.behind (by omega) b (by omega); omega
    · obtain ⟨q, h1, h2⟩ := bearoff_exact hd hd6 (max 0 (p.pip d)).toNat p (by omega)
        (fun i hi => b3 i (by omega))
      refine ⟨q, h1, fun f hf => ?_⟩
      have h25' : q.pip 25 ≤ 0 := by rw [h2, if_neg (by omega)]; exact h25
      have := hf.lt25 h25'
      by_cases hfd : d < f
      · have hn := hs f hfd (by omega)
        have ho := hf.own
        have hfr := hf.free hfd
        rw [h2, if_neg (by omega)] at ho
        rw [h2] at hfr
        apply hn
        rw [canB_iff]
        refine ⟨ho, fun _ => ?_⟩
        split_ifs at hfr with e
        · rw [e]; omega
        · exact hfr
      · by_cases e : f = d
        · subst e; have := hf.own; rw [h2, if_pos rfl] at this; omega
        · have := hf.behind (by omega) b (by omega)
          rw [h2, if_neg (by omega)] at this; omega
  · refine bearoff_all hd hd6 (p.sumX d).toNat p ?_ h0 (fun i hi => b3 i (by omega))
    have := sumX_nonneg p d
    omega

/-- `number_of_movable_checkers` is the length of the longest play, cut off at `4 - entered`. -/
theorem numberOfMovable_spec {p : Pos N} (hb : p.BarsOK) (h25 : p.pip 25 ≤ 0) {d entered : Nat}
    (hd : 1 ≤ d) (hd6 : d ≤ 6) :
    p.numberOfMovable d entered ≤ 4 - entered ∧
    (∃ q, Steps d (p.numberOfMovable d entered) p q) ∧
    (∀ n q, n ≤ 4 - entered → Steps d n p q → n ≤ p.numberOfMovable d entered) := by
  obtain ⟨⟨n, G, i1, i2, i3⟩, i4, i5, i6, i7⟩ := movableLoop_spec (M := 4 - entered) hd 24 0 p (by omega) h25
  generalize hr : movableLoop d (4 - entered) 24 0 p = r at *
  unfold numberOfMovable
  simp only [hr]
  obtain ⟨c, g⟩ := r
  simp only at *
  have key : ∀ k G', Steps d k g G' → Stuck d G' → ∃ G'', Steps d (c + k) p G'' ∧ Stuck d G'' := by
    intro k G' h1 h2
    obtain ⟨G'', s1, s2⟩ := Same.steps hd h1 i3
    exact ⟨G'', by rw [i1, Nat.zero_add]; exact i2.trans s1, fun f hf => h2 f (s2.symm.can hf)⟩
  split_ifs with hge
  · refine ⟨le_refl _, ?_, fun n q h _ => h⟩
    exact i2.take _ (by omega)
  · have hs := i7 (by omega)
    have fin : ∀ k, (∃ G', Steps d k g G' ∧ Stuck d G') → 
        min (c + k) (4 - entered) ≤ 4 - entered ∧ (∃ q, Steps d (min (c + k) (4 - entered)) p q) ∧
        (∀ n q, n ≤ 4 - entered → Steps d n p q → n ≤ min (c + k) (4 - entered)) := by
      rintro k ⟨G', h1, h2⟩
      obtain ⟨G'', s1, s2⟩ := key k G' h1 h2
      refine ⟨by omega, s1.take _ (by omega), fun n q hn hq => ?_⟩
      obtain ⟨m, hm, _⟩ := descent hd hd6 hq s1 s2
      omega
    cases hr : g.rposX with
    | none =>
      have hn := rposX_none hr
      have := fin 0 ⟨g, .zero _, fun f hf => by have := hf.own; have := hn f; omega⟩
      simp only
      rwa [show min (c + 0) (4 - entered) = c by omega] at this
    | some b =>
      have := bearoff_phase hd hd6 (p := g) (by rw [i6]; exact hb.1) (by rw [i4 25 (by omega)]; exact h25)
        (fun f h1 h2 => hs f h1 h2) hr
      exact fin _ this

/-- One level of the nested loops. -/
theorem mem_level {p : Pos N} (hb : p.BarsOK) (h25 : p.pip 25 ≤ 0) {d hi : Nat} (hd : 1 ≤ d) (hd6 : d ≤ 6)
    (hhi : hi ≤ 24) (F : Nat → List (Pos N)) (q : Pos N) :
    (q ∈ (rng (p.smallestPip d) (hi + 1)).flatMap fun i =>
      if p.canMoveB i d then F i else []) ↔
    ∃ i, i ≤ hi ∧ p.Can i d ∧ q ∈ F i := by
  rw [List.mem_flatMap]
  constructor
  · rintro ⟨i, hi', h⟩
    rw [mem_rng] at hi'
    split_ifs at h with hc
    · exact ⟨i, by omega, (canB_range hb h25 hd6 hd).1 ⟨hi'.1, by omega, hc⟩, h⟩
    · simp at h
  · rintro ⟨i, h1, h2, h3⟩
    have := (canB_range hb h25 hd6 hd).2 h2
    exact ⟨i, mem_rng.2 ⟨this.1, by omega⟩, by rw [if_pos this.2.2]; exact h3⟩

theorem ssteps_succ_iff {d hi n : Nat} {p q : Pos N} :
    SSteps d hi (n + 1) p q ↔ ∃ i, i ≤ hi ∧ p.Can i d ∧ SSteps d i n (p.mv i d) q := by
  constructor
  · intro h; cases h with
    | succ a b c => exact ⟨_, a, b, c⟩
  · rintro ⟨i, a, b, c⟩; exact .succ a b c

theorem ssteps_zero_iff {d hi : Nat} {p q : Pos N} : SSteps d hi 0 p q ↔ q = p := by
  constructor
  · intro h; cases h; rfl
  · rintro rfl; exact .zero _ _

theorem steps_iff {d n : Nat} (hd : 1 ≤ d) (hd6 : d ≤ 6) {p q : Pos N} (h25 : p.pip 25 ≤ 0) :
    Steps d n p q ↔ SSteps d 24 n p q := by
  constructor
  · intro h
    have := h.sort hd hd6
    cases this with
    | zero => exact .zero _ _
    | succ a b c => exact .succ (by have := b.lt25 h25; omega) b c
  · exact SSteps.steps

theorem mem_doubleAfterEntering {p q : Pos N} (hb : p.BarsOK) (h25 : p.pip 25 ≤ 0) {d entered : Nat}
    (hd : 1 ≤ d) (hd6 : d ≤ 6) :
    q ∈ p.doubleAfterEntering d entered ↔ Steps d (p.numberOfMovable d entered) p q := by
  have hle : p.numberOfMovable d entered ≤ 4 := by
    have := (numberOfMovable_spec (entered := entered) hb h25 hd hd6).1; omega
  rw [steps_iff hd hd6 h25]
  unfold doubleAfterEntering
  generalize p.numberOfMovable d entered = nr at *
  have st : ∀ (p : Pos N) i, p.BarsOK ∧ p.pip 25 ≤ 0 → p.Can i d → (p.mv i d).BarsOK ∧ (p.mv i d).pip 25 ≤ 0 := by
    intro p i h hc
    exact ⟨barsOK_mv h.1 hd hc, le_trans (pip25_mv_le hd hc) h.2⟩
  have lt : ∀ (p : Pos N) i, p.BarsOK ∧ p.pip 25 ≤ 0 → p.Can i d → i ≤ 24 := by
    intro p i h hc; have := hc.lt25 h.2; omega
  have lev : ∀ (p : Pos N) hi (F : Nat → List (Pos N)) (R : Nat → Prop),
      p.BarsOK ∧ p.pip 25 ≤ 0 → hi ≤ 24 →
      (∀ i, p.Can i d → (q ∈ F i ↔ R i)) →
      ((q ∈ (rng (p.smallestPip d) (hi + 1)).flatMap fun i => if p.canMoveB i d then F i else []) ↔
        ∃ i, i ≤ hi ∧ p.Can i d ∧ R i) := by
    intro p hi F R h1 h2 h3
    rw [mem_level h1.1 h1.2 hd hd6 h2]
    constructor
    · rintro ⟨i, a, b, c⟩; exact ⟨i, a, b, (h3 i b).1 c⟩
    · rintro ⟨i, a, b, c⟩; exact ⟨i, a, b, (h3 i b).2 c⟩
  rcases (by omega : nr = 0 ∨ nr = 1 ∨ nr = 2 ∨ nr = 3 ∨ nr = 4) with rfl | rfl | rfl | rfl | rfl
  · rw [if_pos rfl, ssteps_zero_iff, List.mem_singleton]
  · rw [if_neg (by omega), ssteps_succ_iff]
    refine lev p 24 (fun i1 => _) (fun i1 => SSteps d i1 0 (_) q) ⟨hb, h25⟩ (le_refl _) ?_
    intro i1 c1
    simp only [if_true, ssteps_zero_iff, List.mem_singleton]
  · rw [if_neg (by omega), ssteps_succ_iff]
    refine lev p 24 (fun i1 => _) (fun i1 => SSteps d i1 1 (_) q) ⟨hb, h25⟩ (le_refl _) ?_
    intro i1 c1
    have s1 := st p i1 ⟨hb, h25⟩ c1
    rw [ssteps_succ_iff, if_neg (by omega)]
    refine lev _ i1 (fun i2 => _) (fun i2 => SSteps d i2 0 (_) q) s1 (lt p i1 ⟨hb, h25⟩ c1) ?_
    intro i2 c2
    simp only [if_true, ssteps_zero_iff, List.mem_singleton]
  · rw [if_neg (by omega), ssteps_succ_iff]
    refine lev p 24 (fun i1 => _) (fun i1 => SSteps d i1 2 (_) q) ⟨hb, h25⟩ (le_refl _) ?_
    intro i1 c1
    have s1 := st p i1 ⟨hb, h25⟩ c1
    rw [ssteps_succ_iff, if_neg (by omega)]
    refine lev _ i1 (fun i2 => _) (fun i2 => SSteps d i2 1 (_) q) s1 (lt p i1 ⟨hb, h25⟩ c1) ?_
    intro i2 c2
    have s2 := st _ i2 s1 c2
    rw [ssteps_succ_iff, if_neg (by omega)]
    refine lev _ i2 (fun i3 => _) (fun i3 => SSteps d i3 0 (_) q) s2 (lt _ i2 s1 c2) ?_
    intro i3 c3
    simp only [if_true, ssteps_zero_iff, List.mem_singleton]
  · rw [if_neg (by omega), ssteps_succ_iff]
    refine lev p 24 (fun i1 => _) (fun i1 => SSteps d i1 3 (_) q) ⟨hb, h25⟩ (le_refl _) ?_
    intro i1 c1
    have s1 := st p i1 ⟨hb, h25⟩ c1
    rw [ssteps_succ_iff, if_neg (by omega)]
    refine lev _ i1 (fun i2 => _) (fun i2 => SSteps d i2 2 (_) q) s1 (lt p i1 ⟨hb, h25⟩ c1) ?_
    intro i2 c2
    have s2 := st _ i2 s1 c2
    rw [ssteps_succ_iff, if_neg (by omega)]
    refine lev _ i2 (fun i3 => _) (fun i3 => SSteps d i3 1 (_) q) s2 (lt _ i2 s1 c2) ?_
    intro i3 c3
    have s3 := st _ i3 s2 c3
    rw [ssteps_succ_iff, if_neg (by omega)]
    refine lev _ i3 (fun i4 => _) (fun i4 => SSteps d i4 0 (_) q) s3 (lt _ i3 s2 c3) ?_
    intro i4 c4
    simp only [ssteps_zero_iff, List.mem_singleton]

/-- Entering all the checkers at once is moving them from the bar one after the other. -/
theorem afterEntering_eq {p : Pos N} (hb : p.BarsOK) {d : Nat} (hd : 1 ≤ d) (hd6 : d ≤ 6)
    (hfree : 0 < p.pip 25 → -1 ≤ p.pip (25 - d)) :
    p.afterEntering d = (mvs 25 d (min 4 (p.pip 25)).toNat p, (min 4 (p.pip 25)).toNat) := by
  unfold afterEntering
  have h25 := hb.2
  by_cases h0 : p.pip 25 = 0
  · rw [if_pos h0, h0]; rfl
  rw [if_neg h0]
  have hn : min 4 (p.pip 25) > 0 := by omega
  simp only [if_pos hn, Prod.mk.injEq, and_true]
  have hf := hfree (by omega)
  have e0 : ¬ (25 - d = 25) := by omega
  have e1 : ¬ (0 = 25 - d) := by omega
  have e2 : ¬ ((min 4 (p.pip 25)).toNat = 0) := by omega
  have e3 : (((min 4 (p.pip 25)).toNat : Nat) : Int) = min 4 (p.pip 25) := by omega
  by_cases hh : p.pip (25 - d) = -1
  · rw [if_pos hh]
    apply ext_pip
    · simp
    · rw [xOff_mvs (by omega)]; simp
    · simp
    · intro j hj
      rw [pip_mvs (by omega) hd (by omega) _ _ hf]
      simp only [pip_set _ (by omega : 25 - d < 26), pip_set _ (by omega : 0 < 26), pip_set _ (by omega : 25 < 26),
        e2, hh, if_true, if_false, and_true, e3]
      by_cases j1 : j = 25
      · subst j1; simp; omega
      · by_cases j2 : j = 25 - d
        · subst j2; simp [e0]
        · simp [j1, j2]
  · rw [if_neg hh]
    apply ext_pip
    · simp
    · rw [xOff_mvs (by omega)]; simp
    · simp
    · intro j hj
      rw [pip_mvs (by omega) hd (by omega) _ _ hf]
      simp only [pip_set _ (by omega : 25 - d < 26), pip_set _ (by omega : 25 < 26),
        e2, hh, if_false, and_false, e3]
      by_cases j1 : j = 25
      · subst j1; simp; omega
      · by_cases j2 : j = 25 - d
        · subst j2; simp [e0]
        · simp [j1, j2]

/-- What a generator for a double has to return. -/
def DoubleLegal (p : Pos N) (d : Nat) (q : Pos N) : Prop :=
  ∃ n, n ≤ 4 ∧ Steps d n p q ∧ ∀ m r, m ≤ 4 → Steps d m p r → m ≤ n

/-- From the bar: the first moves are forced. -/
theorem steps_bar {d : Nat} (hd : 1 ≤ d) (hd6 : d ≤ 6) (k : Nat) : ∀ {p q : Pos N} {n : Nat},
    (k : Int) ≤ p.pip 25 → Steps d n p q → k ≤ n → Steps d (n - k) (mvs 25 d k p) q := by
  induction k with
  | zero => intro p q n _ h _; exact h
  | succ k ih =>
    intro p q n h25 h hn
    push_cast at h25
    cases h with
    | zero => omega
    | @succ m f _ _ hc hs =>
      obtain rfl := hc.eq25 (by omega)
      have := ih (p := p.mv 25 d) (by rw [pip_mv p (by omega) hd, if_pos (by omega), if_pos rfl]; omega) hs (by omega)
      rw [show m + 1 - (k + 1) = m - k by omega]
      exact this

theorem mem_doubleMoves {p q : Pos N} (hb : p.BarsOK) {d : Nat} (hd : 1 ≤ d) (hd6 : d ≤ 6) :
    q ∈ p.doubleMoves d ↔ p.DoubleLegal d q := by
  unfold doubleMoves DoubleLegal
  have h25 := hb.2
  split_ifs with hbl
  · have stuck : Stuck d p := by
      intro f hf
      obtain rfl := hf.eq25 (by omega)
      have := hf.free (by omega); omega
    have z : ∀ {m r}, Steps d m p r → m = 0 ∧ r = p := by
      intro m r h
      cases h with
      | zero => exact ⟨rfl, rfl⟩
      | succ a _ => exact absurd a (stuck _)
    rw [List.mem_singleton]
    constructor
    · rintro rfl
      exact ⟨0, by omega, .zero _, fun m r _ h => by rw [(z h).1]⟩
    · rintro ⟨n, _, h, _⟩; exact (z h).2
  · have hfree : 0 < p.pip 25 → -1 ≤ p.pip (25 - d) := by omega
    rw [afterEntering_eq hb hd hd6 hfree]
    simp only
    generalize hk : (min 4 (p.pip 25)).toNat = k
    have hkS : Steps d k p (mvs 25 d k p) := by
      by_cases k0 : k = 0
      · subst k0; exact .zero _
      · exact steps_mvs (by omega) hd (by omega) k p (by omega) (by omega) (hfree (by omega))
    split_ifs with h4
    · rw [List.mem_singleton]
      constructor
      · rintro rfl
        exact ⟨k, by omega, hkS, fun m r hm _ => by omega⟩
      · rintro ⟨n, hn, h, hmax⟩
        have hle := hmax k _ (by omega) hkS
        have := steps_bar hd hd6 k (by omega) h (by omega)
        rw [show n - k = 0 by omega] at this
        cases this; rfl
    · have hqb : (mvs 25 d k p).BarsOK := hkS.barsOK hd hb
      have hq25 : (mvs 25 d k p).pip 25 ≤ 0 := by
        by_cases k0 : k = 0
        · subst k0; simp only [mvs]; omega
        · rw [pip_mvs (by omega) hd (by omega) k p (hfree (by omega)), if_neg k0, if_pos rfl]; omega
      rw [mem_doubleAfterEntering hqb hq25 hd hd6]
      obtain ⟨s1, ⟨w, s2⟩, s3⟩ := numberOfMovable_spec (entered := k) hqb hq25 hd hd6
      generalize (mvs 25 d k p).numberOfMovable d k = nr at *
      constructor
      · intro h
        refine ⟨k + nr, by omega, hkS.trans h, fun m r hm hr => ?_⟩
        by_cases hmk : m ≤ k
        · omega
        · have := steps_bar hd hd6 k (by omega) hr (by omega)
          have := s3 _ _ (by omega) this
          omega
      · rintro ⟨n, hn, h, hmax⟩
        have h1 := hmax _ _ (by omega) (hkS.trans s2)
        have h2 := steps_bar hd hd6 k (by omega) h (by omega)
        have h3 := s3 _ _ (by omega) h2
        rwa [show n - k = nr by omega] at h2

end Pos
end Bkgm
