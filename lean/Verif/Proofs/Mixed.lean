import Verif.Proofs.Basic
/-!
Helper lemmas: the generator loops for mixed rolls enumerate exactly the two-move plays.
-/

namespace Bkgm
namespace Pos
variable {N : Nat}

theorem rposX_none {p : Pos N} (h : p.rposX = none) (i : Nat) : p.pip i ≤ 0 := by
  unfold rposX at h
  rw [List.find?_eq_none] at h
  by_cases hi : i < 26
  · have := h i (by simp [hi])
    simpa using this
  · rw [pip_ge (by omega)]

theorem rposX_some {p : Pos N} {b : Nat} (h : p.rposX = some b) :
    b < 26 ∧ 0 < p.pip b ∧ ∀ i, b < i → p.pip i ≤ 0 := by
  unfold rposX at h
  rw [List.find?_eq_some_iff_append] at h
  obtain ⟨h1, as, bs, hab, h2⟩ := h
  have hb : b ∈ (List.range 26).reverse := by rw [hab]; simp
  have hb' : b < 26 := by simpa using hb
  refine ⟨hb', by simpa using h1, ?_⟩
  intro i hi
  by_cases hi' : i < 26
  · have hmem : i ∈ as ++ b :: bs := by rw [← hab]; simp [hi']
    rcases List.mem_append.1 hmem with h | h
    · have := h2 i h; simpa using this
    · exfalso
      have hs : ((List.range 26).reverse).Pairwise (· > ·) := by decide
      rw [hab, List.pairwise_append] at hs
      have h3 := List.pairwise_cons.1 hs.2.1
      rcases List.mem_cons.1 h with h | h
      · omega
      · have := h3.1 i h; omega
  · rw [pip_ge (by omega)]

theorem canB_iff {p : Pos N} {f d : Nat} :
    p.canMoveB f d = true ↔ 1 ≤ p.pip f ∧ (d < f → -1 ≤ p.pip (f - d)) := by
  unfold canMoveB
  by_cases h1 : p.pip f < 1
  · simp [h1]; try omega
  · by_cases h2 : f > d
    · simp [h1, h2]; omega
    · simp [h1, h2]; omega

/-- The pips skipped by `smallest_pip_to_check` are exactly those where bearing off is illegal. -/
theorem canB_range {p : Pos N} (hb : p.BarsOK) (h25 : p.pip 25 ≤ 0) {f d : Nat} (hd6 : d ≤ 6) (hd1 : 1 ≤ d) :
    (p.smallestPip d ≤ f ∧ f < 25 ∧ p.canMoveB f d = true) ↔ p.Can f d := by
  rw [canB_iff]
  unfold smallestPip
  cases hr : p.rposX with
  | none =>
    have hn := rposX_none hr f
    simp only
    constructor
    · rintro ⟨_, _, h, _⟩; omega
    · intro h; have := h.own; omega
  | some b =>
    obtain ⟨b1, b2, b3⟩ := rposX_some hr
    have hb0 : b ≠ 0 := by rintro rfl; have := hb.1; omega
    have hb25 : b ≠ 25 := by rintro rfl; omega
    simp only
    constructor
    · rintro ⟨h1, h2, h3, h4⟩
      have hfb : f ≤ b := by
        by_contra hc; have := b3 f (by omega); omega
      split_ifs at h1 with h6
      · exact ⟨by omega, by omega, h3, fun _ => h25, h4, by intro; omega, by intro; omega⟩
      · refine ⟨by omega, by omega, h3, fun _ => h25, h4, ?_, ?_⟩
        · intro _ i hi; exact b3 i (by omega)
        · intro hfd i hi; exact b3 i (by omega)
    · intro h
      have hne : f ≠ 25 := by rintro rfl; have := h.own; omega
      have h1 := h.lo
      have h2 := h.hi
      refine ⟨?_, by omega, h.own, h.free⟩
      split_ifs with h6
      · by_contra hc
        have := h.home (by omega) b (by omega)
        omega
      · by_cases hfd : f < d
        · by_contra hc
          have := h.behind hfd b (by omega)
          omega
        · omega

theorem Can.lt25 {p : Pos N} {f d : Nat} (h : p.Can f d) (h25 : p.pip 25 ≤ 0) : f < 25 := by
  have := h.hi; have := h.own
  by_contra hc
  have : f = 25 := by omega
  subst this; omega

/-- Bars keep their sign. -/
theorem barsOK_mv {p : Pos N} (hb : p.BarsOK) {f d : Nat} (hd : 1 ≤ d) (h : p.Can f d) :
    (p.mv f d).BarsOK := by
  obtain ⟨h1, h2⟩ := hb
  have a1 := h.lo; have a2 := h.hi; have a3 := h.own
  constructor
  · rw [pip_mv p h.hi hd]; grind
  · rw [pip_mv p h.hi hd]; grind

theorem pip25_mv_le {p : Pos N} {f d : Nat} (hd : 1 ≤ d) (h : p.Can f d) :
    (p.mv f d).pip 25 ≤ p.pip 25 := by
  have a1 := h.lo; have a2 := h.hi
  rw [pip_mv p h.hi hd]; grind

theorem mem_movesFrom {p q : Pos N} {d : Nat} {r : List Nat} :
    q ∈ p.movesFrom d r ↔ ∃ i ∈ r, p.canMoveB i d = true ∧ q = p.mv i d := by
  unfold movesFrom
  rw [List.mem_flatMap]
  constructor
  · rintro ⟨i, hi, h⟩
    refine ⟨i, hi, ?_⟩
    by_cases hc : p.canMoveB i d = true
    · rw [if_pos hc] at h; exact ⟨hc, by simpa using h⟩
    · rw [if_neg hc] at h; simp at h
  · rintro ⟨i, hi, hc, rfl⟩
    exact ⟨i, hi, by rw [if_pos hc]; simp⟩

/-- one move with die `d` -/
def One (p : Pos N) (d : Nat) (q : Pos N) : Prop := ∃ a, p.Can a d ∧ q = p.mv a d
/-- one move with `d1`, then one with `d2` -/
def Two (p : Pos N) (d1 d2 : Nat) (q : Pos N) : Prop :=
  ∃ a b, p.Can a d1 ∧ (p.mv a d1).Can b d2 ∧ q = (p.mv a d1).mv b d2

theorem mem_oneChecker {p q : Pos N} (hb : p.BarsOK) (h25 : p.pip 25 ≤ 0) {d : Nat} (hd6 : d ≤ 6) (hd1 : 1 ≤ d) :
    q ∈ p.oneCheckerMoves d ↔ p.One d q := by
  unfold oneCheckerMoves One
  rw [mem_movesFrom]
  constructor
  · rintro ⟨i, hi, hc, rfl⟩
    rw [mem_rng] at hi
    exact ⟨i, (canB_range hb h25 hd6 hd1).1 ⟨hi.1, hi.2, hc⟩, rfl⟩
  · rintro ⟨i, hi, rfl⟩
    have := (canB_range hb h25 hd6 hd1).2 hi
    exact ⟨i, mem_rng.2 ⟨this.1, this.2.1⟩, this.2.2, rfl⟩

theorem mem_smallFirst {p q : Pos N} (hb : p.BarsOK) (h25 : p.pip 25 ≤ 0) {big small : Nat}
    (h1 : 1 ≤ small) (h2 : small < big) (h3 : big ≤ 6) :
    q ∈ p.smallFirst big small ↔
      ∃ a b, p.Can a small ∧ (p.mv a small).Can b big ∧ b ≤ a ∧ q = (p.mv a small).mv b big := by
  unfold smallFirst
  rw [List.mem_flatMap]
  constructor
  · rintro ⟨i, hi, h⟩
    rw [List.mem_reverse, mem_rng] at hi
    by_cases hc : p.canMoveB i small = true
    · rw [if_pos hc] at h
      simp only [mem_movesFrom] at h
      obtain ⟨j, hj, hc2, rfl⟩ := h
      have hcan := (canB_range hb h25 (by omega) h1).1 ⟨hi.1, hi.2, hc⟩
      rw [List.mem_reverse, mem_rng] at hj
      have hb' := barsOK_mv hb h1 hcan
      have h25' := le_trans (pip25_mv_le h1 hcan) h25
      exact ⟨i, j, hcan, (canB_range hb' h25' h3 (by omega)).1 ⟨hj.1, by omega, hc2⟩, by omega, rfl⟩
    · rw [if_neg hc] at h; simp at h
  · rintro ⟨a, b, ha, hbb, hab, rfl⟩
    have h' := (canB_range hb h25 (by omega) h1).2 ha
    refine ⟨a, ?_, ?_⟩
    · rw [List.mem_reverse, mem_rng]; exact ⟨h'.1, h'.2.1⟩
    · rw [if_pos h'.2.2]
      simp only [mem_movesFrom]
      have hb' := barsOK_mv hb h1 ha
      have h25' := le_trans (pip25_mv_le h1 ha) h25
      have h'' := (canB_range hb' h25' h3 (by omega)).2 hbb
      exact ⟨b, by rw [List.mem_reverse, mem_rng]; omega, h''.2.2, rfl⟩

/-- The order of the two dice does not matter when a single checker is moved by both over points
without opposing checkers. -/
theorem chain_swap {p : Pos N} {b d1 d2 : Nat} (hd1 : 1 ≤ d1) (hd2 : 1 ≤ d2) (h3 : d1 < d2) (h6 : d2 ≤ 6)
    (hbd : d2 < b) (o1 : 0 ≤ p.pip (b - d2)) (o2 : 0 ≤ p.pip (b - d1))
    (hb : p.Can b d2) (hc : (p.mv b d2).Can (b - d2) d1) :
    p.Can b d1 ∧ (p.mv b d1).Can (b - d1) d2 ∧
      (p.mv b d2).mv (b - d2) d1 = (p.mv b d1).mv (b - d1) d2 := by
  obtain ⟨a1, a2, a3, a4, a5, a6, a7⟩ := hb
  obtain ⟨b1, b2, b3, b4, b5, b6, b7⟩ := hc
  have hA := pip_mv p a2 hd2
  have hB := pip_mv p a2 hd1
  have heq : b - d2 - d1 = b - d1 - d2 := by omega
  refine ⟨⟨a1, a2, a3, a4, by intro; omega, by intro; omega, by intro; omega⟩,
    ⟨by omega, by omega, ?_, ?_, ?_, ?_, ?_⟩, ?_⟩
  · rw [hB]; grind
  · intro h; rw [hB]
    have := b4 (by omega)
    rw [hA] at this
    grind
  · intro h
    have := b5 (by omega)
    rw [hA] at this; rw [hB]
    grind
  · intro h i hi
    have := b6 (by omega) i hi
    have h7 := fun h => b7 h b
    have h8 := fun h => b7 h i
    rw [hA] at this; rw [hB]
    grind
  · intro h i hi
    have := b7 (by omega) i (by omega)
    rw [hA] at this; rw [hB]
    grind
  · apply ext_pip
    · simp
    · simp only [xOff_mv]; split_ifs <;> omega
    · simp
    · intro j hj
      rw [pip_mv (p.mv b d2) b2 hd1, pip_mv (p.mv b d1) (by omega) hd2]
      have e1 := hA (b - d2)
      have e2 := hA (b - d2 - d1)
      have e3 := hA 0
      have e4 := hA j
      have f1 := hB (b - d1)
      have f2 := hB (b - d1 - d2)
      have f3 := hB 0
      have f4 := hB j
      clear hA hB b3 b4 b6 b7 a6 a7 a4
      rw [← heq] at *
      generalize (p.mv b d2).pip (b - d2) = v1 at *
      generalize (p.mv b d2).pip (b - d2 - d1) = v2 at *
      generalize (p.mv b d2).pip 0 = v3 at *
      generalize (p.mv b d2).pip j = v4 at *
      generalize (p.mv b d1).pip (b - d1) = w1 at *
      generalize (p.mv b d1).pip (b - d2 - d1) = w2 at *
      generalize (p.mv b d1).pip 0 = w3 at *
      generalize (p.mv b d1).pip j = w4 at *
      generalize p.pip = g at *
      have hbd1 : d1 < b := by omega
      by_cases h1 : d1 < b - d2 <;>
        simp only [if_pos, if_neg, h1, hbd, hbd1, not_false_eq_true] at e1 e2 e3 e4 f1 f2 f3 f4 b5 ⊢ <;>
        grind (splits := 40)

theorem mem_bigFirst {p q : Pos N} (hb : p.BarsOK) (h25 : p.pip 25 ≤ 0) {big small : Nat}
    (h1 : 1 ≤ small) (h2 : small < big) (h3 : big ≤ 6) :
    q ∈ p.bigFirst big small ↔
      ∃ a b, p.Can a big ∧ (p.mv a big).Can b small ∧ b < a ∧
        ¬ (big < a ∧ b = a - big ∧ 0 ≤ p.pip (a - big) ∧ 0 ≤ p.pip (a - small)) ∧
        q = (p.mv a big).mv b small := by
  unfold bigFirst
  rw [List.mem_flatMap]
  constructor
  · rintro ⟨i, hi, h⟩
    rw [mem_rng] at hi
    by_cases hc : p.canMoveB i big = true
    · rw [if_pos hc] at h
      simp only [mem_movesFrom] at h
      obtain ⟨j, hj, hc2, rfl⟩ := h
      have hcan := (canB_range hb h25 h3 (by omega)).1 ⟨hi.1, hi.2, hc⟩
      have hb' := barsOK_mv hb (by omega : 1 ≤ big) hcan
      have h25' := le_trans (pip25_mv_le (by omega) hcan) h25
      split_ifs at hj with hdiff
      · rw [mem_rng] at hj
        simp only [Bool.and_eq_true, Bool.or_eq_true, decide_eq_true_eq] at hdiff
        exact ⟨i, j, hcan, (canB_range hb' h25' (by omega) h1).1 ⟨hj.1, by omega, hc2⟩, by omega,
          by omega, rfl⟩
      · rw [List.mem_append, mem_rng, mem_rng] at hj
        have hsm : (p.mv i big).smallestPip small ≤ j := by omega
        have hcan2 := (canB_range hb' h25' (by omega) h1).1 ⟨hsm, by omega, hc2⟩
        exact ⟨i, j, hcan, hcan2, by omega, by omega, rfl⟩
    · rw [if_neg hc] at h; simp at h
  · rintro ⟨a, b, ha, hbb, hab, hne, rfl⟩
    have h' := (canB_range hb h25 h3 (by omega)).2 ha
    have hb' := barsOK_mv hb (by omega : 1 ≤ big) ha
    have h25' := le_trans (pip25_mv_le (by omega) ha) h25
    have h'' := (canB_range hb' h25' (by omega) h1).2 hbb
    have hlo := hbb.lo
    refine ⟨a, by rw [mem_rng]; exact ⟨h'.1, h'.2.1⟩, ?_⟩
    rw [if_pos h'.2.2]
    simp only [mem_movesFrom]
    refine ⟨b, ?_, h''.2.2, rfl⟩
    split_ifs with hdiff
    · rw [mem_rng]; omega
    · rw [List.mem_append, mem_rng, mem_rng]
      simp only [Bool.and_eq_true, Bool.or_eq_true, decide_eq_true_eq] at hdiff
      have := h''.1
      omega

/-- Both loops together find exactly the plays using both dice. -/
theorem mem_two0 {p q : Pos N} (hb : p.BarsOK) (h25 : p.pip 25 ≤ 0) {big small : Nat}
    (h1 : 1 ≤ small) (h2 : small < big) (h3 : big ≤ 6) :
    q ∈ p.smallFirst big small ++ p.bigFirst big small ↔ p.Two big small q ∨ p.Two small big q := by
  rw [List.mem_append, mem_smallFirst hb h25 h1 h2 h3, mem_bigFirst hb h25 h1 h2 h3]
  constructor
  · rintro (⟨a, b, ha, hbb, -, rfl⟩ | ⟨a, b, ha, hbb, -, -, rfl⟩)
    · exact Or.inr ⟨a, b, ha, hbb, rfl⟩
    · exact Or.inl ⟨a, b, ha, hbb, rfl⟩
  · have key : ∀ a b, p.Can a big → (p.mv a big).Can b small → b < a → 
        (∃ a' b', p.Can a' small ∧ (p.mv a' small).Can b' big ∧ b' ≤ a' ∧
          (p.mv a big).mv b small = (p.mv a' small).mv b' big) ∨
        (∃ a' b', p.Can a' big ∧ (p.mv a' big).Can b' small ∧ b' < a' ∧
        ¬ (big < a' ∧ b' = a' - big ∧ 0 ≤ p.pip (a' - big) ∧ 0 ≤ p.pip (a' - small)) ∧
        (p.mv a big).mv b small = (p.mv a' big).mv b' small) := by
      intro a b ha hbb hab
      by_cases hom : big < a ∧ b = a - big ∧ 0 ≤ p.pip (a - big) ∧ 0 ≤ p.pip (a - small)
      · obtain ⟨g1, rfl, g3, g4⟩ := hom
        have := chain_swap h1 (by omega) h2 h3 g1 g3 g4 ha hbb
        exact Or.inl ⟨a, a - small, this.1, this.2.1, by omega, this.2.2⟩
      · exact Or.inr ⟨a, b, ha, hbb, hab, hom, rfl⟩
    rintro (⟨a, b, ha, hbb, rfl⟩ | ⟨a, b, ha, hbb, rfl⟩)
    · by_cases hab : b < a
      · exact key a b ha hbb hab
      · have := swap (by omega) h1 (by omega) ha hbb (by omega)
        exact Or.inl ⟨b, a, this.1, this.2.1, by omega, this.2.2⟩
    · by_cases hab : b ≤ a
      · exact Or.inl ⟨a, b, ha, hbb, hab, rfl⟩
      · have := swap h1 (by omega) h3 ha hbb (by omega)
        rw [this.2.2]
        exact key b a this.1 this.2.1 (by omega)

/-- What a generator for a mixed roll has to return. -/
def MixedLegal (p : Pos N) (big small : Nat) (q : Pos N) : Prop :=
  (p.Two big small q ∨ p.Two small big q) ∨
  ((∀ r, ¬ (p.Two big small r ∨ p.Two small big r)) ∧
    (p.One big q ∨ ((∀ r, ¬ p.One big r) ∧ (p.One small q ∨ ((∀ r, ¬ p.One small r) ∧ q = p)))))

theorem mem_mixed0 {p q : Pos N} (hb : p.BarsOK) (h25 : p.pip 25 = 0) {big small : Nat}
    (h1 : 1 ≤ small) (h2 : small < big) (h3 : big ≤ 6) :
    q ∈ p.mixed0 big small ↔ p.MixedLegal big small q := by
  have e2 := fun r => @mem_two0 N p r hb (by omega) big small h1 h2 h3
  have eb := fun r => @mem_oneChecker N p r hb (by omega) big h3 (by omega)
  have es := fun r => @mem_oneChecker N p r hb (by omega) small (by omega) h1
  unfold mixed0 MixedLegal
  simp only [← e2, ← eb, ← es]
  generalize p.smallFirst big small ++ p.bigFirst big small = l2
  generalize p.oneCheckerMoves big = lb
  generalize p.oneCheckerMoves small = ls
  cases l2 with
  | cons x l => simp; intro h; exact absurd rfl (h x).1
  | nil =>
    cases lb with
    | cons x l => simp; intro h; exact absurd rfl (h x).1
    | nil =>
      cases ls with
      | cons x l => simp; intro h; exact absurd rfl (h x).1
      | nil => simp

/-- Entering is moving from the bar. -/
theorem enter_eq_mv (p : Pos N) {d : Nat} (hd : d ≤ 6) : p.enter d = p.mv 25 d := by
  unfold enter mv
  have : 25 > d := by omega
  simp only [this, if_true]

theorem canEnter_iff {p : Pos N} (h25 : 1 ≤ p.pip 25) {d : Nat} (hd : d ≤ 6) :
    p.canEnter d = true ↔ p.Can 25 d := by
  unfold canEnter
  rw [decide_eq_true_iff]
  constructor
  · intro h
    exact ⟨by omega, by omega, h25, by omega, by intro; omega, by intro; omega, by intro; omega⟩
  · intro h; have := h.free (by omega); omega

theorem Can.eq25 {p : Pos N} {f d : Nat} (h : p.Can f d) (h25 : 1 ≤ p.pip 25) : f = 25 := by
  by_contra hc; have := h.bar hc; omega

theorem one_bar {p q : Pos N} (h25 : 1 ≤ p.pip 25) {d : Nat} (hd : d ≤ 6) :
    p.One d q ↔ p.canEnter d = true ∧ q = p.enter d := by
  unfold One
  rw [canEnter_iff h25 hd, enter_eq_mv p hd]
  constructor
  · rintro ⟨a, ha, rfl⟩
    obtain rfl := ha.eq25 h25
    exact ⟨ha, rfl⟩
  · rintro ⟨h, rfl⟩; exact ⟨25, h, rfl⟩

theorem mem_mixed2 {p q : Pos N} (h25 : 2 ≤ p.pip 25) {big small : Nat}
    (h1 : 1 ≤ small) (h2 : small < big) (h3 : big ≤ 6) :
    q ∈ p.mixed2 big small ↔ p.MixedLegal big small q := by
  have pipe : ∀ d, 1 ≤ d → d ≤ 6 → ∀ j, (p.enter d).pip j = (p.mv 25 d).pip j := fun d h1 h6 j => by
    rw [enter_eq_mv p h6]
  have e25 : ∀ d, 1 ≤ d → d ≤ 6 → (p.enter d).pip 25 = p.pip 25 - 1 := by
    intro d h h6; rw [pipe d h h6, pip_mv p (by omega) h, if_pos (by omega)]; simp
  have cross : ∀ d e, 1 ≤ d → d ≤ 6 → 1 ≤ e → e ≤ 6 → d ≠ e → (p.enter d).canEnter e = p.canEnter e := by
    intro d e a b c g ne
    unfold canEnter
    rw [pipe d a b, pip_mv p (by omega) a, if_pos (by omega)]
    have : ¬ (25 - e = 25) := by omega
    have : ¬ (25 - e = 25 - d) := by omega
    have : ¬ (25 - e = 0) := by omega
    simp [*]
  have two : ∀ d e r, 1 ≤ d → d ≤ 6 → 1 ≤ e → e ≤ 6 → d ≠ e →
      (p.Two d e r ↔ p.canEnter d = true ∧ p.canEnter e = true ∧ r = (p.enter d).enter e) := by
    intro d e r a b c g ne
    have hE : (p.enter d).canEnter e = true ↔ (p.enter d).Can 25 e :=
      canEnter_iff (by rw [e25 d a b]; omega) g
    rw [cross d e a b c g ne] at hE
    unfold Two
    rw [canEnter_iff (by omega) b]
    constructor
    · rintro ⟨x, y, hx, hy, rfl⟩
      obtain rfl := hx.eq25 (by omega)
      rw [← enter_eq_mv p b] at *
      obtain rfl := hy.eq25 (by rw [e25 d a b]; omega)
      rw [← enter_eq_mv _ g]
      exact ⟨hx, hE.2 hy, rfl⟩
    · rintro ⟨hx, hy, rfl⟩
      rw [enter_eq_mv _ g, enter_eq_mv p b]
      refine ⟨25, 25, hx, ?_, rfl⟩
      rw [← enter_eq_mv p b]; exact hE.1 hy
  have comm : p.canEnter big = true → p.canEnter small = true →
      (p.enter small).enter big = (p.enter big).enter small := by
    intro hB hS
    rw [enter_eq_mv _ h3, enter_eq_mv _ (by omega : small ≤ 6), enter_eq_mv _ (by omega : small ≤ 6), enter_eq_mv _ h3]
    refine (swap (by omega) (by omega) h3 ((canEnter_iff (by omega) (by omega)).1 hS) ?_ (le_refl _)).2.2
    rw [← enter_eq_mv p (by omega)]
    refine (canEnter_iff ?_ h3).1 ?_
    · rw [e25 _ h1 (by omega)]; omega
    · rw [cross _ _ h1 (by omega) (by omega) h3 (by omega)]; exact hB
  unfold mixed2 MixedLegal
  simp only [one_bar (by omega : 1 ≤ p.pip 25) h3, one_bar (by omega : 1 ≤ p.pip 25) (by omega : small ≤ 6),
    two big small _ (by omega) h3 h1 (by omega) (by omega),
    two small big _ h1 (by omega) (by omega) h3 (by omega), List.mem_singleton]
  by_cases hB : p.canEnter big = true <;> by_cases hS : p.canEnter small = true
  · have := comm hB hS
    simp [hB, hS, cross _ _ (by omega) h3 h1 (by omega) (by omega : big ≠ small), this]
  · simp [hB, hS, cross _ _ (by omega) h3 h1 (by omega) (by omega : big ≠ small)]
  · simp [hB, hS]
  · simp [hB, hS]

/-- Same without an order on the dice, away from bearing off. -/
theorem chain_swap_far {p : Pos N} {b d1 d2 : Nat} (hd1 : 1 ≤ d1) (hd2 : 1 ≤ d2)
    (hbd : d1 + d2 < b) (o1 : 0 ≤ p.pip (b - d2)) (o2 : 0 ≤ p.pip (b - d1))
    (hb : p.Can b d2) (hc : (p.mv b d2).Can (b - d2) d1) :
    p.Can b d1 ∧ (p.mv b d1).Can (b - d1) d2 ∧
      (p.mv b d2).mv (b - d2) d1 = (p.mv b d1).mv (b - d1) d2 := by
  by_cases hne : d1 = d2
  · subst hne; exact ⟨hb, hc, rfl⟩
  obtain ⟨a1, a2, a3, a4, a5, a6, a7⟩ := hb
  obtain ⟨b1, b2, b3, b4, b5, b6, b7⟩ := hc
  have hA := pip_mv p a2 hd2
  have hB := pip_mv p a2 hd1
  have heq : b - d2 - d1 = b - d1 - d2 := by omega
  refine ⟨⟨a1, a2, a3, a4, by intro; omega, by intro; omega, by intro; omega⟩,
    ⟨by omega, by omega, ?_, ?_, ?_, by intro; omega, by intro; omega⟩, ?_⟩
  · rw [hB]; grind
  · intro h; rw [hB]
    have := b4 (by omega)
    rw [hA] at this
    grind
  · intro h
    have := b5 (by omega)
    rw [hA] at this; rw [hB]
    grind
  · apply ext_pip
    · simp
    · simp only [xOff_mv]; split_ifs <;> omega
    · simp
    · intro j hj
      have n1 : ¬ p.pip (b - d2) = -1 := by omega
      have n2 : ¬ p.pip (b - d1) = -1 := by omega
      have h1 : d1 < b - d2 := by omega
      have h2 : d2 < b - d1 := by omega
      have h3 : d1 < b := by omega
      have h4 : d2 < b := by omega
      simp only [h4, n1, if_true, if_false, and_false] at hA
      simp only [h3, n2, if_true, if_false, and_false] at hB
      have c1 : ¬ (b - d2 = b) := by omega
      have c2 : ¬ (b - d1 = b) := by omega
      have c3 : ¬ (b - d2 - d1 = b) := by omega
      have c4 : ¬ (b - d2 - d1 = b - d2) := by omega
      have c5 : ¬ (b - d2 - d1 = b - d1) := by omega
      have c6 : ¬ (0 = b) := by omega
      have c7 : ¬ (0 = b - d1) := by omega
      have c8 : ¬ (0 = b - d2) := by omega
      rw [pip_mv (p.mv b d2) b2 hd1, pip_mv (p.mv b d1) (by omega) hd2, ← heq]
      simp only [h1, h2, if_true, hA, hB, c1, c2, c3, c4, c5, c6, c7, c8, if_false]
      clear hA hB b3 b4 b5 b6 b7 a6 a7 a4
      generalize p.pip = g at *
      have d5 : ¬ (b - d1 = b - d2) := by omega
      have d6 : ¬ (b - d1 = b - d2 - d1) := by omega
      have d7 : ¬ (b - d2 = b - d2 - d1) := by omega
      by_cases k1 : j = b
      · subst k1
        have k2 : ¬ (j = j - d2) := by omega
        have k3 : ¬ (j = j - d1) := by omega
        have k4 : ¬ (j = j - d2 - d1) := by omega
        have k5 : ¬ (j = 0) := by omega
        simp [k2, k3, k4, k5]
      by_cases k2 : j = b - d2
      · have k5 : ¬ (j = 0) := by omega
        have k3 : ¬ (j = b - d1) := by omega
        have k4 : ¬ (j = b - d2 - d1) := by omega
        simp only [k1, k2, k3, k4, k5, if_true, if_false, false_and]
        rw [← k2]; simp only [k3, k4, k5, k1, if_false, false_and]; omega
      by_cases k3 : j = b - d1
      · have k5 : ¬ (j = 0) := by omega
        have k4 : ¬ (j = b - d2 - d1) := by omega
        simp only [k3, if_true]
        rw [← k3]; simp only [k1, k2, k4, k5, if_false, false_and]; omega
      simp only [k1, k2, k3, if_false]

/-- After entering the only bar checker, the second move cannot be a bear-off. -/
theorem can_after_entering {p : Pos N} (h25 : p.pip 25 = 1) {d e b : Nat} (hd : 1 ≤ d) (hd6 : d ≤ 6)
    (he6 : e ≤ 6) (hc : p.Can 25 d) :
    (p.mv 25 d).Can b e ↔ e + 1 ≤ b ∧ b < 25 ∧ (p.mv 25 d).canMoveB b e = true := by
  rw [canB_iff]
  have hland : 1 ≤ (p.mv 25 d).pip (25 - d) := by
    have := hc.free (by omega)
    rw [pip_mv p (by omega) hd, if_pos (by omega), if_neg (by omega), if_pos rfl]
    split_ifs <;> omega
  have hbar : (p.mv 25 d).pip 25 = 0 := by
    rw [pip_mv p (by omega) hd, if_pos (by omega), if_pos rfl]; omega
  constructor
  · intro h
    have h1 := h.lt25 (by omega)
    refine ⟨?_, h1, h.own, h.free⟩
    by_contra hh
    have := h.home (by omega) (25 - d) (by omega)
    omega
  · rintro ⟨h1, h2, h3, h4⟩
    exact ⟨by omega, by omega, h3, by omega, h4, by intro; omega, by intro; omega⟩

theorem mem_mixed1 {p q : Pos N} (h25 : p.pip 25 = 1) {big small : Nat}
    (h1 : 1 ≤ small) (h2 : small < big) (h3 : big ≤ 6) :
    q ∈ p.mixed1 big small ↔ p.MixedLegal big small q := by
  have ce : ∀ d, d ≤ 6 → (p.canEnter d = true ↔ p.Can 25 d) := fun d hd => canEnter_iff (by omega) hd
  have two : ∀ d e r, p.Two d e r ↔ p.Can 25 d ∧ ∃ b, (p.mv 25 d).Can b e ∧ r = (p.mv 25 d).mv b e := by
    intro d e r
    unfold Two
    constructor
    · rintro ⟨x, y, hx, hy, rfl⟩
      obtain rfl := hx.eq25 (by omega)
      exact ⟨hx, y, hy, rfl⟩
    · rintro ⟨hx, y, hy, rfl⟩
      exact ⟨25, y, hx, hy, rfl⟩
  have memB : ∀ r, r ∈ (match (if p.canEnter big then some (p.enter big) else none : Option (Pos N)) with
      | some q => q.movesFrom small (rng (small + 1) X_BAR)
      | none => []) ↔ p.Two big small r := by
    intro r
    rw [two]
    by_cases hB : p.canEnter big = true
    · have hc := (ce big h3).1 hB
      simp only [hB, if_true, mem_movesFrom, mem_rng, enter_eq_mv p h3,
        can_after_entering h25 (by omega) h3 (by omega : small ≤ 6) hc, hc, true_and]
      constructor
      · rintro ⟨i, hi, h, rfl⟩; exact ⟨i, ⟨hi.1, hi.2, h⟩, rfl⟩
      · rintro ⟨i, hi, rfl⟩; exact ⟨i, ⟨hi.1, hi.2.1⟩, hi.2.2, rfl⟩
    · have hc : ¬ p.Can 25 big := fun h => hB ((ce big h3).2 h)
      simp [hB, hc]
  have memS : ∀ r, r ∈ (match (if p.canEnter small then some (p.enter small) else none : Option (Pos N)) with
      | some q =>
        let range :=
          if decide (p.pip (X_BAR - big) < 0) || decide (p.pip (X_BAR - small) < 0) then rng (big + 1) X_BAR
          else rng (big + 1) (X_BAR - small) ++ rng (X_BAR - small + 1) X_BAR
        q.movesFrom big range
      | none => []) ↔ p.Can 25 small ∧ ∃ b, (p.mv 25 small).Can b big ∧
          ¬ (b = 25 - small ∧ 0 ≤ p.pip (25 - big) ∧ 0 ≤ p.pip (25 - small)) ∧
          r = (p.mv 25 small).mv b big := by
    intro r
    by_cases hS : p.canEnter small = true
    · have hc := (ce small (by omega)).1 hS
      simp only [hS, if_true, mem_movesFrom, enter_eq_mv p (by omega : small ≤ 6),
        can_after_entering h25 h1 (by omega) h3 hc, hc, true_and]
      constructor
      · rintro ⟨i, hi, h, rfl⟩
        split_ifs at hi with hd
        · rw [mem_rng] at hi
          simp only [Bool.or_eq_true, decide_eq_true_eq] at hd
          exact ⟨i, ⟨hi.1, hi.2, h⟩, by omega, rfl⟩
        · rw [List.mem_append, mem_rng, mem_rng] at hi
          exact ⟨i, ⟨by omega, by omega, h⟩, by omega, rfl⟩
      · rintro ⟨i, hi, hne, rfl⟩
        refine ⟨i, ?_, hi.2.2, rfl⟩
        split_ifs with hd
        · rw [mem_rng]; omega
        · simp only [Bool.or_eq_true, decide_eq_true_eq] at hd
          rw [List.mem_append, mem_rng, mem_rng]; omega
    · have hc : ¬ p.Can 25 small := fun h => hS ((ce small (by omega)).2 h)
      simp [hS, hc]
  have memAll : ∀ r, (r ∈ (match (if p.canEnter big then some (p.enter big) else none : Option (Pos N)) with
      | some q => q.movesFrom small (rng (small + 1) X_BAR)
      | none => []) ++ (match (if p.canEnter small then some (p.enter small) else none : Option (Pos N)) with
      | some q =>
        let range :=
          if decide (p.pip (X_BAR - big) < 0) || decide (p.pip (X_BAR - small) < 0) then rng (big + 1) X_BAR
          else rng (big + 1) (X_BAR - small) ++ rng (X_BAR - small + 1) X_BAR
        q.movesFrom big range
      | none => [])) ↔ (p.Two big small r ∨ p.Two small big r) := by
    intro r
    rw [List.mem_append, memB, memS]
    constructor
    · rintro (h | ⟨h, b, hb, -, rfl⟩)
      · exact Or.inl h
      · exact Or.inr ((two _ _ _).2 ⟨h, b, hb, rfl⟩)
    · rintro (h | h)
      · exact Or.inl h
      · obtain ⟨hc, b, hb, rfl⟩ := (two _ _ _).1 h
        by_cases hom : b = 25 - small ∧ 0 ≤ p.pip (25 - big) ∧ 0 ≤ p.pip (25 - small)
        · obtain ⟨rfl, g1, g2⟩ := hom
          have := chain_swap_far (by omega : 1 ≤ big) h1 (by omega) g2 g1 hc hb
          exact Or.inl ((two _ _ _).2 ⟨this.1, 25 - big, this.2.1, this.2.2⟩)
        · exact Or.inr ⟨hc, b, hb, hom, rfl⟩
  unfold mixed1 MixedLegal
  simp only [← memAll, one_bar (by omega : 1 ≤ p.pip 25) h3, one_bar (by omega : 1 ≤ p.pip 25) (by omega : small ≤ 6)]
  generalize hl : (_ ++ _ : List (Pos N)) = l
  cases l with
  | cons x l => simp; intro h; exact absurd rfl (h x).1
  | nil =>
    by_cases hB : p.canEnter big = true <;> by_cases hS : p.canEnter small = true <;> simp [hB, hS]

theorem mem_mixedMoves {p q : Pos N} (hb : p.BarsOK) {big small : Nat}
    (h1 : 1 ≤ small) (h2 : small < big) (h3 : big ≤ 6) :
    q ∈ p.mixedMoves big small ↔ p.MixedLegal big small q := by
  unfold mixedMoves
  have := hb.2
  split_ifs with h h'
  · exact mem_mixed0 hb h h1 h2 h3
  · exact mem_mixed1 h' h1 h2 h3
  · exact mem_mixed2 (by omega) h1 h2 h3

end Pos
end Bkgm
