import Verif.Props.TextDup
/-!
Helper lemmas for C100: the exact positions with a repeated text.
-/

namespace Bkgm
open Pos
variable {N : Nat}

namespace MoveText

/-- The cells of a position with a repeated text for the roll `b`-`s`. -/
structure RepeatCells (p : Pos N) (b s : Nat) : Prop where
  barX : p.pip 25 = 1
  barO : p.pip 0 = -1
  big : p.pip b = 1
  big' : p.pip (25 - b) = 1
  small : p.pip s = -1
  small' : p.pip (25 - s) = -1
  own : 1 ≤ p.pip (b + s)
  off : p.xOff = p.oOff
  rest : ∀ i, i < 26 → i ≠ b → i ≠ 25 - b → i ≠ s → i ≠ 25 - s → p.pip i = - p.pip (25 - i)

set_option maxHeartbeats 2000000 in
theorem dup_bar {p : Pos N} (hb : p.BarsOK) {b s : Nat} (h1 : 1 ≤ s) (h2 : s < b) (h3 : b ≤ 6) {x y f f' : Nat}
    (hx : p.Can x s) (hy : (p.mv x s).Can y b) (hsx : s < x) (hby : b < y)
    (hf : p.flip.Can f b) (hf' : (p.flip.mv f b).Can f' s) (hbf : b < f) (hsf : s < f')
    (ho : p.Can f b) (ho' : (p.mv f b).Can f' s)
    (heq : ((p.flip.mv f b).mv f' s).eqv ((p.mv x s).mv y b) = true)
    (hn : ¬ p.Two b s ((p.mv x s).mv y b)) (hsym : ¬ p.eqv p.flip = true) (h25 : f = 25) :
    RepeatCells p b s ∧ x = 25 ∧ y = b + s ∧ f' = b + s := by
  subst h25
  have hb1 : 1 ≤ b := by omega
  have hbF := barsOK_flip hb
  have p25 := ho.own
  have x25 : x = 25 := hx.eq25 p25
  subst x25
  have F0 : p.flip.pip 0 = - p.pip 25 := by rw [pip_flip p (by omega)]
  have F25 : p.flip.pip 25 = - p.pip 0 := by rw [pip_flip p (by omega)]
  have E1 : (p.mv 25 s).pip 25 = p.pip 25 - 1 := by rw [pip_mv p (le_refl 25) h1, if_pos hsx, if_pos rfl]
  have E2 : (p.mv 25 b).pip 25 = p.pip 25 - 1 := by rw [pip_mv p (le_refl 25) hb1, if_pos hbf, if_pos rfl]
  have E3 : (p.flip.mv 25 b).pip 25 = p.flip.pip 25 - 1 := by rw [pip_mv _ (le_refl 25) hb1, if_pos hbf, if_pos rfl]
  have b25 : p.pip 25 = 1 := by
    by_contra hc
    have y25 := hy.eq25 (by omega)
    subst y25
    obtain ⟨k1, k2, k3⟩ := swap h1 hb1 h3 hx hy (le_refl _)
    exact hn ⟨25, 25, k1, k2, k3⟩
  have f25 : f' ≠ 25 := by
    intro e
    have := ho'.own
    rw [e, E2] at this
    omega
  have y25 : y ≠ 25 := by
    intro e
    have := hy.own
    rw [e, E1] at this
    omega
  have b0 : p.pip 0 = -1 := by
    have k := hf.own
    by_contra hc
    exact f25 (hf'.eq25 (by omega))
  have p0 : p.pip 0 = -1 := b0
  have F0 : p.flip.pip 0 = -1 := by omega
  obtain ⟨q1, q2, q3⟩ := eqv_iff.1 heq
  have hoff : p.xOff = p.oOff := by
    simp only [oOff_mv] at q3
    exact q3
  have hcell : ∀ i, ((p.flip.mv 25 b).mv f' s).pip i = ((p.mv 25 s).mv y b).pip i := fun i => by unfold pip; rw [q1]
  -- pips
  obtain ⟨u1, u2⟩ := pips_mv hb h1 hx
  obtain ⟨u3, u4⟩ := pips_mv (barsOK_mv hb h1 hx) hb1 hy
  obtain ⟨w1, w2⟩ := pips_mv hbF hb1 hf
  obtain ⟨w3, w4⟩ := pips_mv (barsOK_mv hbF hb1 hf) h1 hf'
  have hvw := eqv_view heq
  rw [hvw] at w3 w4
  have fX : p.flip.view.pipsX = p.view.pipsO := by rw [view_flip, (pips_mirror _).1]
  have fO : p.flip.view.pipsO = p.view.pipsX := by rw [view_flip, (pips_mirror _).2]
  -- parts
  have A1 := mv_parts hb h1 hx hsx
  have A2 := mv_parts (barsOK_mv hb h1 hx) hb1 hy hby
  have K1 := mv_parts hbF hb1 hf hbf
  have K2 := mv_parts (barsOK_mv hbF hb1 hf) h1 hf' hsf
  simp only [hsx, hby, hbf, hsf, true_and] at u2 u4 w2 w4
  have x1 := hx.hi
  have xo := hx.own
  have y1 := hy.hi
  have ff1 := hf.hi
  have ff1' := hf'.hi
  have hpip : (if p.pip (25 - s) = -1 then 25 - s else 0) + (if (p.mv 25 s).pip (y - b) = -1 then y - b else 0) =
      (if p.flip.pip (25 - b) = -1 then 25 - b else 0) + (if (p.flip.mv 25 b).pip (f' - s) = -1 then f' - s else 0) := by
    rw [min_eq_right (by omega)] at u1 u3 w1 w3
    clear A1 A2 K1 K2 hcell
    generalize (if p.pip (25 - s) = -1 then 25 - s else 0) = i1 at *
    generalize (if (p.mv 25 s).pip (y - b) = -1 then y - b else 0) = i2 at *
    generalize (if p.flip.pip (25 - b) = -1 then 25 - b else 0) = i3 at *
    generalize (if (p.flip.mv 25 b).pip (f' - s) = -1 then f' - s else 0) = i4 at *
    omega
  have d0 : ∀ z, 1 ≤ z → dl z 0 = 0 := fun z hz => by unfold dl; rw [if_neg (by omega)]
  have d00 : dl 0 0 = 1 := rfl
  have hcnt : (if p.pip (25 - s) = -1 then 1 else 0) + (if (p.mv 25 s).pip (y - b) = -1 then 1 else 0) =
      (if p.flip.pip (25 - b) = -1 then 1 else 0) + (if (p.flip.mv 25 b).pip (f' - s) = -1 then (1 : Int) else 0) := by
    have a10 := (A1 0).2
    have a20 := (A2 0).2
    have k10 := (K1 0).2
    have k20 := (K2 0).2
    rw [d0 _ (by omega), d00, Nat.cast_zero, Nat.cast_one, zero_sub] at a10 a20 k10 k20
    rw [hcell 0, k10] at k20
    rw [a10] at a20
    rw [a20, p0, F0] at k20
    clear A1 A2 K1 K2 hcell u1 u2 u3 u4 w1 w2 w3 w4 hpip a10 a20 k10
    split_ifs at k20 ⊢ <;> omega
  have hmin : ∀ i, min (p.flip.pip i) 0 + (if p.flip.pip (25 - b) = -1 then (dl (25 - b) i : Int) - (dl 0 i : Int) else 0) +
      (if (p.flip.mv 25 b).pip (f' - s) = -1 then (dl (f' - s) i : Int) - (dl 0 i : Int) else 0) =
      min (p.pip i) 0 + (if p.pip (25 - s) = -1 then (dl (25 - s) i : Int) - (dl 0 i : Int) else 0) +
      (if (p.mv 25 s).pip (y - b) = -1 then (dl (y - b) i : Int) - (dl 0 i : Int) else 0) := by
    intro i
    rw [← (K1 i).2, ← (K2 i).2, ← (A1 i).2, ← (A2 i).2, hcell]
  have hmax : ∀ i, max (p.flip.pip i) 0 - (dl 25 i : Int) + (dl (25 - b) i : Int) - (dl f' i : Int) + (dl (f' - s) i : Int) =
      max (p.pip i) 0 - (dl 25 i : Int) + (dl (25 - s) i : Int) - (dl y i : Int) + (dl (y - b) i : Int) := by
    intro i
    have := (K2 i).1
    rw [(K1 i).1, hcell, (A2 i).1, (A1 i).1] at this
    exact this.symm
  clear A1 A2 K1 K2 u1 u2 u3 u4 w1 w2 w3 w4 fX fO hvw
  have sym : (∀ i, min (p.flip.pip i) 0 = min (p.pip i) 0) → False := fun h => hsym (symmetric_of_min hoff h)
  by_cases hall : p.pip (25 - s) = -1 ∧ (p.mv 25 s).pip (y - b) = -1 ∧ p.flip.pip (25 - b) = -1 ∧ (p.flip.mv 25 b).pip (f' - s) = -1
  · obtain ⟨c1, c2, c3, c4⟩ := hall
    simp only [c1, c2, c3, c4, if_true] at hpip hmin
    have hyf : f' = y := by omega
    subst hyf
    have F : ∀ i, i < 26 → p.flip.pip i = - p.pip (25 - i) := fun i hi => pip_flip p hi
    have key : ∀ i, i < 26 → (dl (25 - b) i : Int) + dl (f' - s) i - dl (25 - s) i - dl (f' - b) i =
        (dl (25 - b) (25 - i) : Int) + dl (f' - s) (25 - i) - dl (25 - s) (25 - i) - dl (f' - b) (25 - i) := by
      intro i hi
      have m1 := hmin i
      have n2 := hmax (25 - i)
      rw [F i hi] at m1
      rw [F (25 - i) (by omega), show 25 - (25 - i) = i by omega] at n2
      have s1 : ∀ z : Int, max (-z) 0 = - min z 0 := fun z => by omega
      have s2 : ∀ z : Int, min (-z) 0 = - max z 0 := fun z => by omega
      rw [s2] at m1
      rw [s1] at n2
      clear hmin hmax hcell F s1 s2
      generalize max (p.pip (25 - i)) 0 = a1 at *
      generalize min (p.pip i) 0 = a2 at *
      omega
    have hfb : f' = b + s := by
      have k := key (25 - b) (by omega)
      rw [show 25 - (25 - b) = b by omega] at k
      by_contra hc
      unfold dl at k
      rw [if_pos rfl, if_neg (show ¬ (25 - b = 25 - s) by omega), if_neg (show ¬ (25 - b = f' - b) by omega),
        if_neg (show ¬ (b = 25 - b) by omega), if_neg (show ¬ (b = f' - s) by omega)] at k
      split_ifs at k <;> omega
    subst hfb
    rw [show b + s - s = b by omega] at c4 hmin hmax
    rw [show b + s - b = s by omega] at c2 hmin hmax
    refine ⟨⟨b25, b0, ?_, ?_, ?_, c1, ?_, hoff, ?_⟩, rfl, rfl, rfl⟩
    · rw [F _ (by omega), show 25 - (25 - b) = b by omega] at c3; omega
    · rw [pip_mv _ (le_refl 25) hb1, if_pos hbf, if_neg (by omega), if_neg (by omega), if_neg (by omega), F _ (by omega)] at c4
      omega
    · rw [pip_mv _ (le_refl 25) h1, if_pos hsx, if_neg (by omega), if_neg (by omega), if_neg (by omega)] at c2
      exact c2
    · have k := hy.own
      rw [pip_mv _ (le_refl 25) h1, if_pos hsx, if_neg (by omega), if_neg (by omega), if_neg (by omega)] at k
      exact k
    · intro i hi i1 i2 i3 i4
      have z : ∀ z, i ≠ z → dl z i = 0 := fun z hz => by unfold dl; rw [if_neg hz]
      have z' : ∀ z, 25 - i ≠ z → dl z (25 - i) = 0 := fun z hz => by unfold dl; rw [if_neg hz]
      have m1 := hmin i
      have m2 := hmin (25 - i)
      rw [z _ i1, z _ i2, z _ i3, z _ i4, F i hi] at m1
      rw [z' b (by omega), z' (25 - b) (by omega), z' s (by omega), z' (25 - s) (by omega), F (25 - i) (by omega), show 25 - (25 - i) = i by omega] at m2
      clear hmin hmax hcell F key z z'
      generalize dl 0 i = d1 at *
      generalize dl 0 (25 - i) = d2 at *
      omega
  · exfalso
    apply sym
    intro i
    have hm := hmin i
    have same : ∀ z w, z = w → (dl z i : Int) = dl w i := fun z w e => by rw [e]
    have e1 := same (25 - s) (25 - b)
    have e2 := same (25 - s) (f' - s)
    have e3 := same (y - b) (25 - b)
    have e4 := same (y - b) (f' - s)
    clear hmin hmax same hcell
    by_cases c1 : p.pip (25 - s) = -1 <;> by_cases c2 : (p.mv 25 s).pip (y - b) = -1 <;>
      by_cases c3 : p.flip.pip (25 - b) = -1 <;> by_cases c4 : (p.flip.mv 25 b).pip (f' - s) = -1 <;>
      simp only [c1, c2, c3, c4, if_true, if_false, and_self, and_true, and_false, not_true_eq_false, not_false_eq_true] at hpip hcnt hm hall <;>
      first
      | (exfalso; omega)
      | (generalize min (p.flip.pip i) 0 = m1 at *; generalize min (p.pip i) 0 = m2 at *
         first
         | omega
         | (have := e1 (by omega); omega)
         | (have := e2 (by omega); omega)
         | (have := e3 (by omega); omega)
         | (have := e4 (by omega); omega))

/-- Two entries with the same steps, one right and one wrong: the position is as described by `RepeatCells`. -/
theorem dup_cells {p c c' : Pos N} {b s : Nat} (hb : p.BarsOK) (hv : (Dice.mixed b s).Valid) {l : List Step} (h : (l, c) ∈ legalFor p (.mixed b s))
    (h' : (l, c') ∈ legalFor p (.mixed b s)) (hr : applyFor p (.mixed b s) (formatSteps l) = some c)
    (hw : applyFor p (.mixed b s) (formatSteps l) ≠ some c') : RepeatCells p b s := by
  obtain ⟨⟨q, hq, he⟩, hno, hsym⟩ := entry_wrong hb hv h' hw
  have hc' := (legalFor_entry hb hv h').1
  obtain ⟨ht, hn⟩ := entry_wrong_two hb hv hc' hno
  have hshape := right_shape hb hv h hr ⟨_, Or.inr ht⟩
  have hv' := hv
  obtain ⟨g1, g2, g3⟩ : 1 ≤ s ∧ s < b ∧ b ≤ 6 := hv'
  have hd : Dies [b, s] := orders_dies hv _ (by simp [orders])
  have hd' : Dies [s, b] := orders_dies hv _ (by simp [orders])
  obtain ⟨x, y, hx, hy, eg⟩ := ht
  have hg : Leaf [s, b] p [⟨x, x - s⟩, ⟨y, y - b⟩] c'.flip := by rw [eg]; exact .move hx (.move hy (.nil _))
  have hoff : c'.flip.xOff = p.xOff := by
    by_contra hc
    exact hsym (symmetric_of_bear hb hv hq hg he hc)
  obtain ⟨e1, e2, e3⟩ := eqv_iff.1 he
  have a1 := (hq.o hd (barsOK_flip hb)).1
  have a2 := (hg.o hd' hb).1
  have f1 : p.flip.oOff = p.xOff := rfl
  have f2 : p.flip.xOff = p.oOff := rfl
  have hoffq : q.xOff = p.flip.xOff := by omega
  cases hq with
  | @move _ _ f _ _ l' hc1 hq =>
    cases hq with
    | @move _ _ f' _ _ l'' hc2 hq =>
      cases hq
      rw [xOff_mv, xOff_mv] at hoffq
      have hbf : b < f := by by_contra hh; rw [if_neg hh] at hoffq; split_ifs at hoffq <;> omega
      have hsf : s < f' := by by_contra hh; rw [if_neg hh] at hoffq; split_ifs at hoffq <;> omega
      rw [eg, xOff_mv, xOff_mv] at hoff
      have hsx : s < x := by by_contra hh; rw [if_neg hh] at hoff; split_ifs at hoff <;> omega
      have hby : b < y := by by_contra hh; rw [if_neg hh] at hoff; split_ifs at hoff <;> omega
      rcases hshape with ⟨_, k⟩ | ⟨r, a, r', a', k, ha, ha', k1, k2⟩
      · simp at k
      · simp only [List.cons.injEq, Step.mk.injEq, and_true] at k
        obtain ⟨⟨rfl, ka⟩, rfl, ka'⟩ := k
        have : a = b := by omega
        have : a' = s := by omega
        subst_vars
        have heq : ((p.flip.mv f a).mv f' a').eqv ((p.mv x a').mv y a) = true := by rw [← eg]; exact he
        have hn' : ¬ p.Two a a' ((p.mv x a').mv y a) := by rw [← eg]; exact hn
        exact (dup_bar hb g1 g2 g3 hx hy hsx hby hc1 hc2 hbf hsf k1 k2 heq hn' hsym
          (dup_core hb g1 g2 g3 hx hy hsx hby hc1 hc2 hbf hsf k1 k2 heq hn' hsym)).1
    | skip hs hq =>
      cases hq
      rw [xOff_mv] at hoffq
      have hbf : b < f := by by_contra hh; rw [if_neg hh] at hoffq; omega
      rcases hshape with ⟨_, k⟩ | ⟨r, a, r', a', k, -⟩
      · simp only [List.cons.injEq, Step.mk.injEq, and_true] at k; omega
      · simp at k
  | skip hs hq =>
    cases hq with
    | @move _ _ f' _ _ l'' hc2 hq =>
      cases hq
      rw [xOff_mv] at hoffq
      have hsf : s < f' := by by_contra hh; rw [if_neg hh] at hoffq; omega
      rcases hshape with ⟨_, k⟩ | ⟨r, a, r', a', k, -⟩
      · simp only [List.cons.injEq, Step.mk.injEq, and_true] at k; omega
      · simp at k
    | skip hs' hq =>
      cases hq
      rcases hshape with ⟨_, k⟩ | ⟨r, a, r', a', k, -⟩ <;> simp at k

/-- The steps of an entry come from the player's paths with the larger die first, if one of them reaches the child. -/
theorem entry_own {p c : Pos N} {b s : Nat} (hb : p.BarsOK) (hv : (Dice.mixed b s).Valid) {l : List Step} (h : (l, c) ∈ legalFor p (.mixed b s))
    (hl : ∃ l', Leaf [b, s] p l' c.flip) : ∃ q, Leaf [b, s] p l q ∧ q.eqv c.flip = true := by
  obtain ⟨hc, x, hx⟩ := legalFor_entry hb hv h
  have h1 : [b, s] ∈ orders (.mixed b s) := by simp [orders]
  have hal : allLeaves p (.mixed b s) = paths [b, s] p ++ (paths [b, s] p.flip ++ (paths [s, b] p ++ paths [s, b] p.flip)) := by
    simp [allLeaves, orders]
  rw [hal, records_append, List.find?_append] at hx
  obtain ⟨l', hl'⟩ := hl
  cases e1 : (records (paths [b, s] p)).find? fun r => c.eqv r.1 with
  | some r =>
    rw [e1, Option.some_or] at hx
    cases hx
    have he := List.find?_some e1
    obtain ⟨q, hq, hx⟩ := mem_records.1 (List.mem_of_find?_eq_some e1)
    have hlq := paths_leaf hb hv h1 hq
    simp only at he hx hlq
    rcases hx with rfl | rfl
    · exact ⟨q, hlq, eqv_symm (by rw [← Pos.flip_flip q]; exact eqv_flip he)⟩
    · exact ⟨_, hlq, mixed_mirror hb hv h1 h1 hlq hl' (by rw [Pos.flip_flip]; exact eqv_symm he)⟩
  | none =>
    rw [List.find?_eq_none] at e1
    refine absurd (eqv_refl c) (e1 (c, l') (mem_records.2 ⟨c.flip, (mem_paths hb (orders_dies hv _ h1)).2 hl', Or.inl ?_⟩))
    rw [Pos.flip_flip]

/-- Otherwise from the opponent's paths with the larger die first, if one of them ends on the same board. -/
theorem entry_opp {p c : Pos N} {b s : Nat} (hb : p.BarsOK) (hv : (Dice.mixed b s).Valid) {l : List Step} (h : (l, c) ∈ legalFor p (.mixed b s))
    (hno : ∀ l', ¬ Leaf [b, s] p l' c.flip) (hl : ∃ l' q, Leaf [b, s] p.flip l' q ∧ q.eqv c.flip = true) :
    ∃ q, Leaf [b, s] p.flip l q ∧ q.eqv c.flip = true := by
  obtain ⟨hc, x, hx⟩ := legalFor_entry hb hv h
  have h1 : [b, s] ∈ orders (.mixed b s) := by simp [orders]
  have hal : allLeaves p (.mixed b s) = paths [b, s] p ++ (paths [b, s] p.flip ++ (paths [s, b] p ++ paths [s, b] p.flip)) := by
    simp [allLeaves, orders]
  have hturn := legal_turn hb hv hc
  obtain ⟨o1, ho1, l1, hl1⟩ := legal_leaf (q := c.flip) hb hv (by rw [Pos.flip_flip]; exact hc)
  rw [hal, records_append, records_append, List.find?_append, List.find?_append] at hx
  cases e1 : (records (paths [b, s] p)).find? fun r => c.eqv r.1 with
  | some r =>
    exfalso
    have he := List.find?_some e1
    obtain ⟨q, hq, hr⟩ := mem_records.1 (List.mem_of_find?_eq_some e1)
    have hlq := paths_leaf hb hv h1 hq
    have hqc : q.eqv c.flip = true := by
      rcases hr with hr | hr
      · rw [hr] at he
        exact eqv_symm (by rw [← Pos.flip_flip q]; exact eqv_flip he)
      · rw [hr] at he
        exact mixed_mirror hb hv h1 ho1 hlq hl1 (by rw [Pos.flip_flip]; exact eqv_symm he)
    have : q = c.flip := eqv_eq hqc (by rw [hlq.turn, turn_flip, hturn, Bool.not_not])
    rw [this] at hlq
    exact hno _ hlq
  | none =>
    rw [e1, Option.none_or] at hx
    cases e2 : (records (paths [b, s] p.flip)).find? fun r => c.eqv r.1 with
    | some r =>
      rw [e2, Option.some_or] at hx
      cases hx
      have he := List.find?_some e2
      obtain ⟨q, hq, hx⟩ := mem_records.1 (List.mem_of_find?_eq_some e2)
      have hlq := paths_leaf (barsOK_flip hb) hv h1 hq
      simp only at he hx hlq
      rcases hx with rfl | rfl
      · exact ⟨q, hlq, eqv_symm (by rw [← Pos.flip_flip q]; exact eqv_flip he)⟩
      · exfalso
        obtain ⟨rfl, rfl⟩ := opponent_same hb (orders_dies hv _ h1) (orders_dies hv _ ho1) hlq hl1 (by rw [Pos.flip_flip]; exact eqv_symm he)
        have hst := leaf_nil_stuck hl1
        have hcp := (leaf_all_stuck hl1 hst).2
        rw [hcp] at hno
        exact hno [] (.skip (hst _ (orders_same h1 ho1 (by simp))) (.skip (hst _ (orders_same h1 ho1 (by simp))) (.nil _)))
    | none =>
      exfalso
      obtain ⟨l', q, hq, hqc⟩ := hl
      rw [List.find?_eq_none] at e2
      refine e2 (q.flip, l') (mem_records.2 ⟨q, (mem_paths (barsOK_flip hb) (orders_dies hv _ h1)).2 hq, Or.inl rfl⟩) ?_
      have := eqv_flip hqc
      rw [Pos.flip_flip] at this
      exact eqv_symm this

/-- With a checker on the bar the path to a given board is the only one. -/
theorem leaf_pin {p q : Pos N} {b s y : Nat} {l : List Step} (h1 : 1 ≤ s) (h25 : 1 ≤ p.pip 25) (h : Leaf [b, s] p l q)
    (c1 : p.Can 25 b) (c2 : (p.mv 25 b).Can y s) (e : ∀ i, q.pip i = ((p.mv 25 b).mv y s).pip i) : l = [⟨25, 25 - b⟩, ⟨y, y - s⟩] := by
  have y1 := c2.lo
  cases h with
  | @move _ _ f _ _ l' hc h =>
    obtain rfl := hc.eq25 h25
    cases h with
    | @move _ _ f' _ _ l'' hc' h =>
      cases h
      by_cases hfy : f' = y
      · rw [hfy]
      · exfalso
        have k := e y
        have n : ¬ (y = f') := fun h => hfy h.symm
        have n0 : ¬ (y = 0) := by omega
        have n1 : s < y → ¬ (y = y - s) := by omega
        have r1 : ((p.mv 25 b).mv y s).pip y = (p.mv 25 b).pip y - 1 := by
          rw [pip_mv _ c2.hi h1]
          by_cases hh : s < y
          · rw [if_pos hh, if_pos rfl]
          · rw [if_neg hh, if_pos rfl]
        have r2 : (p.mv 25 b).pip y ≤ ((p.mv 25 b).mv f' s).pip y := by
          rw [pip_mv _ hc'.hi h1]
          by_cases hh : s < f'
          · rw [if_pos hh, if_neg n]
            by_cases h3 : y = f' - s
            · rw [if_pos h3, ← h3]; split_ifs <;> omega
            · rw [if_neg h3, if_neg (fun hh => n0 hh.1)]
          · rw [if_neg hh, if_neg n]
        omega
    | skip hs h => exact absurd c2 (hs _)
  | skip hs h => exact absurd c1 (hs _)

/-- The positions described by `RepeatCells` have two entries with the same steps. -/
theorem cells_dup {p : Pos N} (hb : p.BarsOK) {b s : Nat} (hv : (Dice.mixed b s).Valid) (hp : RepeatCells p b s) :
    ∃ l c c', (l, c) ∈ legalFor p (.mixed b s) ∧ (l, c') ∈ legalFor p (.mixed b s) ∧ c ≠ c' := by
  have hv' := hv
  obtain ⟨h1, h2, h3⟩ : 1 ≤ s ∧ s < b ∧ b ≤ 6 := hv'
  have hb1 : 1 ≤ b := by omega
  obtain ⟨p25, p0, pb, pb', ps, ps', pown, poff, prest⟩ := hp
  have F : ∀ i, i < 26 → p.flip.pip i = - p.pip (25 - i) := fun i hi => pip_flip p hi
  have hbF := barsOK_flip hb
  have Fown : 1 ≤ p.flip.pip (b + s) := by
    rw [F _ (by omega), ← prest (b + s) (by omega) (by omega) (by omega) (by omega) (by omega)]; exact pown
  have b25 : b < 25 := by omega
  have s25 : s < 25 := by omega
  -- the moves
  have cb : p.Can 25 b := ⟨by omega, le_refl _, by omega, fun h => absurd rfl h, fun _ => by omega, by omega, by omega⟩
  have cs : p.Can 25 s := ⟨by omega, le_refl _, by omega, fun h => absurd rfl h, fun _ => by omega, by omega, by omega⟩
  have cf : p.flip.Can 25 b := by
    refine ⟨by omega, le_refl _, ?_, fun h => absurd rfl h, fun _ => ?_, by omega, by omega⟩
    · rw [F _ (by omega)]; simp only [Nat.sub_self]; omega
    · rw [F _ (by omega), show 25 - (25 - b) = b by omega]; omega
  have mB := pip_mv p (le_refl 25) hb1
  have mS := pip_mv p (le_refl 25) h1
  have mF := pip_mv p.flip (le_refl 25) hb1
  have F25 : p.flip.pip 25 = 1 := by rw [F _ (by omega)]; simp only [Nat.sub_self]; omega
  have cb2 : (p.mv 25 b).Can (b + s) s := by
    refine ⟨by omega, by omega, ?_, fun _ => ?_, fun _ => ?_, by omega, by omega⟩
    · rw [mB, if_pos b25, if_neg (by omega), if_neg (by omega), if_neg (by omega)]; exact pown
    · rw [mB, if_pos b25, if_pos rfl]; omega
    · rw [show b + s - s = b by omega, mB, if_pos b25, if_neg (by omega), if_neg (by omega), if_neg (by omega)]; omega
  have cs2 : (p.mv 25 s).Can (b + s) b := by
    refine ⟨by omega, by omega, ?_, fun _ => ?_, fun _ => ?_, by omega, by omega⟩
    · rw [mS, if_pos s25, if_neg (by omega), if_neg (by omega), if_neg (by omega)]; exact pown
    · rw [mS, if_pos s25, if_pos rfl]; omega
    · rw [show b + s - b = s by omega, mS, if_pos s25, if_neg (by omega), if_neg (by omega), if_neg (by omega)]; omega
  have cf2 : (p.flip.mv 25 b).Can (b + s) s := by
    refine ⟨by omega, by omega, ?_, fun _ => ?_, fun _ => ?_, by omega, by omega⟩
    · rw [mF, if_pos b25, if_neg (by omega), if_neg (by omega), if_neg (by omega)]; exact Fown
    · rw [mF, if_pos b25, if_pos rfl]; omega
    · rw [show b + s - s = b by omega, mF, if_pos b25, if_neg (by omega), if_neg (by omega), if_neg (by omega), F _ (by omega)]; omega
  have hitF : p.flip.pip (25 - b) = -1 := by rw [F _ (by omega), show 25 - (25 - b) = b by omega]; omega
  have hitF2 : (p.flip.mv 25 b).pip b = -1 := by
    rw [mF, if_pos b25, if_neg (by omega), if_neg (by omega), if_neg (by omega), F _ (by omega)]; omega
  have hitS2 : (p.mv 25 s).pip s = -1 := by
    rw [mS, if_pos s25, if_neg (by omega), if_neg (by omega), if_neg (by omega)]; omega
  -- the two boards
  have hq : ((p.flip.mv 25 b).mv (b + s) s).eqv ((p.mv 25 s).mv (b + s) b) = true := by
    refine eqv_iff.2 ⟨?_, ?_, ?_⟩
    · funext i
      have e : ∀ s : Pos N, s.pips i = s.pip i.val := fun s => by simp [pip, i.isLt]
      rw [e, e]
      have hi := i.isLt
      generalize i.val = i at hi
      clear e
      have K1 := mv_parts hbF hb1 cf b25 i
      have K2 := mv_parts (barsOK_mv hbF hb1 cf) h1 cf2 (by omega) i
      have A1 := mv_parts hb h1 cs s25 i
      have A2 := mv_parts (barsOK_mv hb h1 cs) hb1 cs2 (by omega) i
      rw [show b + s - s = b by omega] at K2
      rw [show b + s - b = s by omega] at A2
      rw [if_pos hitF] at K1
      rw [if_pos hitF2] at K2
      rw [if_pos ps'] at A1
      rw [if_pos hitS2] at A2
      have base : p.flip.pip i + 2 * dl (25 - b) i + 2 * dl b i = p.pip i + 2 * dl (25 - s) i + 2 * dl s i := by
        have z : ∀ z, i ≠ z → dl z i = 0 := fun z hz => by unfold dl; rw [if_neg hz]
        have o : ∀ z, i = z → dl z i = 1 := fun z hz => by unfold dl; rw [if_pos hz]
        rw [F i hi]
        by_cases i1 : i = b
        · rw [o b i1, z (25 - b) (by omega), z (25 - s) (by omega), z s (by omega), i1]; omega
        · by_cases i2 : i = 25 - b
          · rw [o (25 - b) i2, z b (by omega), z (25 - s) (by omega), z s (by omega), i2, show 25 - (25 - b) = b by omega]; omega
          · by_cases i3 : i = s
            · rw [o s i3, z (25 - b) (by omega), z (25 - s) (by omega), z b (by omega), i3]; omega
            · by_cases i4 : i = 25 - s
              · rw [o (25 - s) i4, z b (by omega), z (25 - b) (by omega), z s (by omega), i4, show 25 - (25 - s) = s by omega]; omega
              · rw [z b i1, z (25 - b) i2, z s i3, z (25 - s) i4, prest i hi i1 i2 i3 i4]
      obtain ⟨K1a, K1b⟩ := K1
      obtain ⟨K2a, K2b⟩ := K2
      obtain ⟨A1a, A1b⟩ := A1
      obtain ⟨A2a, A2b⟩ := A2
      rw [K1a] at K2a
      rw [K1b] at K2b
      rw [A1a] at A2a
      rw [A1b] at A2b
      have s1 : ∀ z : Int, max z 0 + min z 0 = z := fun z => by omega
      rw [← s1 (((p.flip.mv 25 b).mv (b + s) s).pip i), ← s1 (((p.mv 25 s).mv (b + s) b).pip i), K2a, K2b, A2a, A2b]
      have t1 := s1 (p.flip.pip i)
      have t2 := s1 (p.pip i)
      clear K1a K1b K2a K2b A1a A1b A2a A2b
      generalize max (p.flip.pip i) 0 = v1 at *
      generalize min (p.flip.pip i) 0 = v2 at *
      generalize max (p.pip i) 0 = v3 at *
      generalize min (p.pip i) 0 = v4 at *
      omega
    · rw [xOff_mv, xOff_mv, xOff_mv, xOff_mv, if_pos (by omega), if_pos (by omega), if_pos (by omega), if_pos (by omega)]
      exact poff.symm
    · simp only [oOff_mv]
      exact poff
  -- the cell `25 - s` tells the player's two boards apart
  have gcell : ((p.mv 25 s).mv (b + s) b).pip (25 - s) = 1 := by
    rw [pip_mv _ cs2.hi hb1, if_pos (by omega), if_neg (by omega), if_neg (by omega), if_neg (by omega), mS, if_pos s25, if_neg (by omega),
      if_pos rfl, if_pos ps']
  have hno : ∀ l', ¬ Leaf [b, s] p l' ((p.mv 25 s).mv (b + s) b) := by
    intro l' hl'
    have B0 : (p.mv 25 b).pip (25 - s) = -1 := by
      rw [mB, if_pos b25, if_neg (by omega), if_neg (by omega), if_neg (by omega)]; exact ps'
    generalize hg : (p.mv 25 s).mv (b + s) b = g at *
    cases hl' with
    | @move _ _ f _ _ l' hc h =>
      obtain rfl := hc.eq25 (by omega)
      cases h with
      | @move _ _ f' _ _ l'' hc' h =>
        cases h
        have k25 : (p.mv 25 b).pip 25 = 0 := by rw [mB, if_pos b25, if_pos rfl]; omega
        have own := hc'.own
        have n25 : f' ≠ 25 := by rintro rfl; omega
        have ns : ¬ (25 - s = f') := by intro e; rw [← e] at own; omega
        have := hc'.hi
        rw [pip_mv _ hc'.hi h1] at gcell
        by_cases hh : s < f'
        · rw [if_pos hh, if_neg ns, if_neg (by omega), if_neg (by omega)] at gcell; omega
        · rw [if_neg hh, if_neg ns] at gcell; omega
      | skip hs h => cases h; omega
    | skip hs h => exact absurd cb (hs _)
  have leg : ∀ g, p.Two b s g ∨ p.Two s b g → g.flip ∈ p.legalPositions (.mixed b s) := by
    intro g hg
    unfold legalPositions playedPositions
    rw [mem_map_flip, Pos.flip_flip]
    exact (mem_mixedMoves hb h1 h2 h3).2 (Or.inl hg)
  have l1 := leg _ (Or.inl ⟨25, b + s, cb, cb2, rfl⟩)
  have l2 := leg _ (Or.inr ⟨25, b + s, cs, cs2, rfl⟩)
  have ch := (C35_children p hb (.mixed b s) hv).2.2.1
  obtain ⟨⟨k1, c⟩, m1, e1⟩ := List.mem_map.1 ((ch _).2 l1)
  obtain ⟨⟨k2, c'⟩, m2, e2⟩ := List.mem_map.1 ((ch _).2 l2)
  simp only at e1 e2
  subst e1 e2
  have hl1 : Leaf [b, s] p [⟨25, 25 - b⟩, ⟨b + s, b + s - s⟩] ((p.mv 25 b).mv (b + s) s) := .move cb (.move cb2 (.nil _))
  have hl2 : Leaf [b, s] p.flip [⟨25, 25 - b⟩, ⟨b + s, b + s - s⟩] ((p.flip.mv 25 b).mv (b + s) s) := .move cf (.move cf2 (.nil _))
  obtain ⟨q1, hq1, he1⟩ := entry_own hb hv m1 ⟨_, by rw [Pos.flip_flip]; exact hl1⟩
  obtain ⟨q2, hq2, he2⟩ := entry_opp hb hv m2 (by rw [Pos.flip_flip]; exact hno) ⟨_, _, hl2, by rw [Pos.flip_flip]; exact hq⟩
  rw [Pos.flip_flip] at he1 he2
  have r1 := leaf_pin h1 (by omega) hq1 cb cb2 (fun i => by unfold pip; rw [(eqv_iff.1 he1).1])
  have r2 := leaf_pin h1 (by omega) hq2 cf cf2 (fun i => by unfold pip; rw [(eqv_iff.1 (eqv_trans he2 (eqv_symm hq))).1])
  rw [r1] at m1
  rw [r2] at m2
  refine ⟨_, _, _, m1, m2, fun e => ?_⟩
  have e := congrArg Pos.flip e
  rw [Pos.flip_flip, Pos.flip_flip] at e
  exact hno _ (e ▸ hl1)

end MoveText
end Bkgm
