import Verif.Proofs.MoveSteps
/-!
Helper lemmas for C33–C36: applying the steps of a path whose end is a legal play.
-/

namespace Bkgm
open Pos
variable {N : Nat}

namespace MoveText

theorem pipsX_mv {p : Pos N} (hb : p.BarsOK) {f d : Nat} (hd : 1 ≤ d) (hc : p.Can f d) :
    p.view.pipsX = (p.mv f d).view.pipsX + min f d := by
  have h : Spec.Moves p.view [(f, d)] (p.mv f d).view := by
    rw [← after_view hb hd hc]
    exact .cons (canStep_iff.2 hc) (.nil _)
  have := h.pipsX (by simpa using hd)
  simpa using this

/-- A board reached by one die and by both dice: the checker bears off, and could have started with the other die. -/
theorem one_two {p : Pos N} (hb : p.BarsOK) {a b f : Nat} (ha : 1 ≤ a) (hbb : 1 ≤ b) (hf : p.Can f a)
    (h2 : p.Two a b (p.mv f a) ∨ p.Two b a (p.mv f a)) : f ≤ a ∧ b < f ∧ ¬ Stuck b p := by
  have e0 := pipsX_mv hb ha hf
  rcases h2 with ⟨m, g, hm, hg, e⟩ | ⟨m, g, hm, hg, e⟩
  · have e1 := pipsX_mv hb ha hm
    have e2 := pipsX_mv (barsOK_mv hb ha hm) hbb hg
    rw [← e] at e2
    have o0 := xOff_mv p f a
    have o1 := xOff_mv p m a
    have o2 := xOff_mv (p.mv m a) g b
    rw [← e] at o2
    have k1 := hm.lo
    have k2 := hg.lo
    exfalso
    by_cases c0 : a < f
    · rw [if_pos c0] at o0
      by_cases c1 : a < m <;> by_cases c2 : b < g <;> simp only [c1, c2, if_true, if_false] at o1 o2 <;> omega
    · rw [if_neg c0] at o0
      by_cases c1 : a < m <;> by_cases c2 : b < g <;> simp only [c1, c2, if_true, if_false] at o1 o2
      · omega
      · omega
      · have hmf : m < f := by omega
        have := hm.behind (by omega) f hmf
        have := hf.own
        omega
      · omega
  · have e1 := pipsX_mv hb hbb hm
    have e2 := pipsX_mv (barsOK_mv hb hbb hm) ha hg
    rw [← e] at e2
    have o0 := xOff_mv p f a
    have o1 := xOff_mv p m b
    have o2 := xOff_mv (p.mv m b) g a
    rw [← e] at o2
    have k1 := hm.lo
    have k2 := hg.lo
    have hns : ¬ Stuck b p := fun h => h m hm
    refine ⟨?_, ?_, hns⟩
    · by_contra c0
      rw [if_pos (by omega)] at o0
      by_cases c1 : b < m <;> by_cases c2 : a < g <;> simp only [c1, c2, if_true, if_false] at o1 o2 <;> omega
    · by_cases c0 : a < f
      · rw [if_pos c0] at o0
        by_cases c1 : b < m <;> by_cases c2 : a < g <;> simp only [c1, c2, if_true, if_false] at o1 o2 <;> omega
      · rw [if_neg c0] at o0
        by_cases c1 : b < m <;> by_cases c2 : a < g <;> simp only [c1, c2, if_true, if_false] at o1 o2 <;> omega

/-- One die played: the other one is stuck at the end if that end is legal, whichever die the step is taken for. -/
theorem other_stuck {p : Pos N} (hb : p.BarsOK) {a b f : Nat} (ha : 1 ≤ a) (hbb : 1 ≤ b) (hf : p.Can f a)
    (hs : Stuck b (p.mv f a) ∨ Stuck b p)
    (hl : (p.Two a b (p.mv f a) ∨ p.Two b a (p.mv f a)) ∨ ∀ r, ¬ (p.Two a b r ∨ p.Two b a r)) :
    Stuck b (p.mv f a) ∧ (stepMatches ⟨f, f - a⟩ b = true → p.Can f b → Stuck a (p.mv f a)) := by
  have key : Stuck b (p.mv f a) := by
    rcases hs with hs | hs
    · exact hs
    · intro g hg
      have ht : p.Two a b ((p.mv f a).mv g b) := ⟨f, g, hf, hg, rfl⟩
      rcases hl with hl | hl
      · exact (one_two hb ha hbb hf hl).2.2 hs
      · exact hl _ (Or.inl ht)
  refine ⟨key, fun hm hc g hg => ?_⟩
  have e : p.mv f b = p.mv f a := by
    rw [mv_stepMv (s := ⟨f, f - a⟩) hm, mv_stepMv (s := ⟨f, f - a⟩) (stepMatches_of ha)]
  have ht : p.Two b a ((p.mv f b).mv g a) := ⟨f, g, hc, e ▸ hg, rfl⟩
  rcases hl with hl | hl
  · have := one_two hb ha hbb hf hl
    unfold stepMatches at hm
    rw [if_pos (by simp only; omega)] at hm
    simp at hm
    omega
  · exact hl _ (Or.inr ht)

theorem leaf_of_stuck {d k : Nat} : ∀ {p q : Pos N} {l : List Step}, Stuck d p → Leaf (List.replicate k d) p l q → l = [] ∧ q = p := by
  induction k with
  | zero => intro p q l _ h; cases h; exact ⟨rfl, rfl⟩
  | succ k ih =>
    intro p q l hs h
    rw [List.replicate_succ] at h
    cases h with
    | move hc _ => exact absurd hc (hs _)
    | skip _ h => exact ih hs h

theorem leaf_double {d k : Nat} : ∀ {p q : Pos N} {l : List Step}, Leaf (List.replicate k d) p l q → Steps d l.length p q ∧ (l.length = k ∨ Stuck d q) := by
  induction k with
  | zero => intro p q l h; cases h; exact ⟨.zero _, Or.inl rfl⟩
  | succ k ih =>
    intro p q l h
    rw [List.replicate_succ] at h
    cases h with
    | move hc h =>
      obtain ⟨h1, h2⟩ := ih h
      exact ⟨.succ hc h1, h2.imp (by simp) id⟩
    | skip hs h =>
      obtain ⟨rfl, rfl⟩ := leaf_of_stuck hs h
      exact ⟨.zero _, Or.inr hs⟩

theorem assign_double {d : Nat} (hd : 1 ≤ d) {k : Nat} : ∀ {p q : Pos N} {l : List Step} {j : Nat}, j + k ≤ 4 →
    Leaf (List.replicate k d) p l q → ∃ used', Assign [d, d, d, d] l p (List.range j).reverse used' := by
  induction k with
  | zero => intro p q l j _ h; cases h; exact ⟨_, .nil _ _⟩
  | succ k ih =>
    intro p q l j hj h
    rw [List.replicate_succ] at h
    cases h with
    | @move _ _ f _ _ l' hc h =>
      have e : [d, d, d, d].getD j 0 = d := by
        have : j < 4 := by omega
        interval_cases j <;> rfl
      obtain ⟨u, hu⟩ := ih (j := j + 1) (by omega) h
      refine ⟨u, .cons (i := j) (by simp; omega) (by simp) ?_ ?_ ?_⟩
      · rw [e]; exact stepMatches_of hd
      · rw [e]; exact hc
      · rw [← mv_stepMv (d := d) (stepMatches_of hd)]
        rw [List.range_succ, List.reverse_append] at hu
        exact hu
    | skip _ h => exact ih (by omega) h

theorem assign_mixed {b s x y : Nat} (hb : 1 ≤ b) (hs : 1 ≤ s) (hxy : (x = b ∧ y = s) ∨ (x = s ∧ y = b)) {p q : Pos N} {l : List Step}
    (h : Leaf [x, y] p l q) : ∃ used', Assign [b, s] l p [] used' := by
  obtain ⟨i, j, hi, hj, hij, ei, ej, hx, hy⟩ : ∃ i j, i < 2 ∧ j < 2 ∧ i ≠ j ∧ [b, s].getD i 0 = x ∧ [b, s].getD j 0 = y ∧ 1 ≤ x ∧ 1 ≤ y := by
    rcases hxy with ⟨rfl, rfl⟩ | ⟨rfl, rfl⟩
    · exact ⟨0, 1, by omega, by omega, by omega, rfl, rfl, hb, hs⟩
    · exact ⟨1, 0, by omega, by omega, by omega, rfl, rfl, hs, hb⟩
  have mk : ∀ {k d f : Nat} {p : Pos N} {used used' : List Nat} {l : List Step}, k < 2 → k ∉ used → [b, s].getD k 0 = d → 1 ≤ d → p.Can f d →
      Assign [b, s] l (p.mv f d) (k :: used) used' → Assign [b, s] (⟨f, f - d⟩ :: l) p used used' := by
    intro k d f p used used' l hk hu e hd hc ha
    refine .cons (i := k) (by simpa using hk) hu (by rw [e]; exact stepMatches_of hd) (by rw [e]; exact hc) ?_
    rw [← mv_stepMv (d := d) (stepMatches_of hd)]
    exact ha
  cases h with
  | move hc h =>
    cases h with
    | move hc' h =>
      cases h
      exact ⟨_, mk hi (by simp) ei hx hc (mk hj (by simpa using hij.symm) ej hy hc' (.nil _ _))⟩
    | skip _ h =>
      cases h
      exact ⟨_, mk hi (by simp) ei hx hc (.nil _ _)⟩
  | skip _ h =>
    cases h with
    | move hc' h =>
      cases h
      exact ⟨_, mk hj (by simp) ej hy hc' (.nil _ _)⟩
    | skip _ h =>
      cases h
      exact ⟨_, .nil _ _⟩

theorem mem_of_nodup_full {used : List Nat} {n : Nat} (hn : used.Nodup) (hlt : ∀ i ∈ used, i < n) (hl : used.length = n) :
    ∀ i, i < n → i ∈ used := by
  intro i hi
  have hsub : used ⊆ List.range n := fun j hj => List.mem_range.2 (hlt j hj)
  have hp : used.Perm (List.range n) := (List.subperm_of_subset hn hsub).perm_of_length_le (by simp [hl])
  exact hp.mem_iff.2 (List.mem_range.2 hi)

theorem diceBuf_dies {dice : Dice} (hv : dice.Valid) : Dies (diceBuf dice) := by
  cases dice with
  | double d => exact orders_dies hv _ (by simp [orders, diceBuf])
  | mixed b s => exact orders_dies hv _ (by simp [orders, diceBuf])

/-- Applying the steps of a path to a legal play. -/
theorem apply_leaf {p q : Pos N} {dice : Dice} (hb : p.BarsOK) (hv : dice.Valid) {o : List Nat} (ho : o ∈ orders dice) {l : List Step}
    (hl : Leaf o p l q) (hq : q.flip ∈ p.legalPositions dice) : applyFor p dice (formatSteps l) = some q.flip := by
  have hod := orders_dies hv o ho
  have hok := hl.ok hod
  have hdd := diceBuf_dies hv
  have hbq := hl.barsOK hod hb
  unfold applyFor
  rw [normalize_format hok, Option.bind_some, parseSteps_format hok, Option.bind_some]
  have ha : ∃ used', Assign (diceBuf dice) l p [] used' := by
    cases dice with
    | double d =>
      simp only [orders, List.mem_singleton] at ho
      subst ho
      exact assign_double (j := 0) (hdd d (by simp [diceBuf])).1 (k := 4) (by omega) hl
    | mixed b s =>
      simp only [orders, List.mem_cons, List.not_mem_nil, or_false] at ho
      have h1 := (hdd b (by simp [diceBuf])).1
      have h2 := (hdd s (by simp [diceBuf])).1
      rcases ho with rfl | rfl
      · exact assign_mixed h1 h2 (Or.inl ⟨rfl, rfl⟩) hl
      · exact assign_mixed h1 h2 (Or.inr ⟨rfl, rfl⟩) hl
  obtain ⟨u0, ha⟩ := ha
  have hsome := applySteps_isSome hdd hb ha
  obtain ⟨⟨q', used⟩, hap⟩ := Option.isSome_iff_exists.1 hsome
  obtain ⟨ha', hq'⟩ := applySteps_some hdd hb hok hap
  rw [← leaf_foldl hod hl] at hq'
  subst hq'
  rw [hap, Option.bind_some]
  simp only
  have hlen := ha'.length
  obtain ⟨hnd, hlt⟩ := ha'.nodup List.nodup_nil (by simp)
  rw [if_neg]
  rw [Bool.not_eq_true, unusedPlayable_false hdd hbq]
  intro i hi hu
  by_cases hfull : used.length = (diceBuf dice).length
  · exact absurd (mem_of_nodup_full hnd hlt hfull i hi) hu
  cases dice with
  | double d =>
    simp only [orders, List.mem_singleton] at ho
    subst ho
    have e : (diceBuf (.double d)).getD i 0 = d := by
      have : i < 4 := hi
      interval_cases i <;> rfl
    rw [e]
    rcases (leaf_double (k := 4) hl).2 with h4 | h4
    · exfalso; apply hfull; rw [hlen, h4]; rfl
    · exact h4
  | mixed b s =>
    obtain ⟨h1, h2, h3⟩ : 1 ≤ s ∧ s < b ∧ b ≤ 6 := hv
    have hleg : p.MixedLegal b s q' := by
      have := hq
      unfold legalPositions playedPositions at this
      rw [mem_map_flip, Pos.flip_flip] at this
      exact (mem_mixedMoves hb h1 h2 h3).1 this
    have hleg' : (p.Two b s q' ∨ p.Two s b q') ∨ ∀ r, ¬ (p.Two b s r ∨ p.Two s b r) := hleg.imp id fun h => h.1
    have hleg'' : (p.Two s b q' ∨ p.Two b s q') ∨ ∀ r, ¬ (p.Two s b r ∨ p.Two b s r) :=
      hleg'.imp Or.symm fun h r hr => h r hr.symm
    -- the leaf, by cases on which dice were skipped
    have main : ∀ x y, (x = b ∧ y = s) ∨ (x = s ∧ y = b) → Leaf [x, y] p l q' → Stuck ([b, s].getD i 0) q' := by
      intro x y hxy hl
      have hx : 1 ≤ x := by omega
      have hy : 1 ≤ y := by omega
      have hi2 : i < 2 := hi
      have hdi : [b, s].getD i 0 = x ∨ [b, s].getD i 0 = y := by
        rcases hxy with ⟨rfl, rfl⟩ | ⟨rfl, rfl⟩ <;> interval_cases i <;> simp
      -- one step with die `u`, the other die is `v`
      have single : ∀ u v f, (u = b ∧ v = s) ∨ (u = s ∧ v = b) → l = [⟨f, f - u⟩] → p.Can f u → q' = p.mv f u →
          (Stuck v q' ∨ Stuck v p) → Stuck ([b, s].getD i 0) q' := by
        intro u v f huv el hc eq hst
        subst eq
        have hl' : (p.Two u v (p.mv f u) ∨ p.Two v u (p.mv f u)) ∨ ∀ r, ¬ (p.Two u v r ∨ p.Two v u r) := by
          rcases huv with ⟨rfl, rfl⟩ | ⟨rfl, rfl⟩
          · exact hleg'
          · exact hleg''
        obtain ⟨k1, k2⟩ := other_stuck hb (by omega) (by omega) hc hst hl'
        subst el
        cases ha' with
        | @cons _ _ _ _ _ j hj _ hm hcj ha'' =>
          cases ha''
          have hij : i ≠ j := by simpa using hu
          have hj2 : j < 2 := hj
          simp only [diceBuf] at hm hcj
          have hcase : ([b, s].getD i 0 = v ∧ [b, s].getD j 0 = u) ∨ ([b, s].getD i 0 = u ∧ [b, s].getD j 0 = v) := by
            rcases huv with ⟨rfl, rfl⟩ | ⟨rfl, rfl⟩ <;> interval_cases i <;> interval_cases j <;> simp at hij ⊢
          rcases hcase with ⟨e1, e2⟩ | ⟨e1, e2⟩
          · rw [e1]; exact k1
          · rw [e1]; rw [e2] at hm hcj; exact k2 hm hcj
      cases hl with
      | @move _ _ f _ _ l' hc hl =>
        cases hl with
        | move _ hl => cases hl; exfalso; apply hfull; rw [hlen]; rfl
        | skip hs hl => cases hl; exact single x y f hxy rfl hc rfl (Or.inl hs)
      | skip hs hl =>
        cases hl with
        | @move _ _ f _ _ l' hc hl => cases hl; exact single y x f (by omega) rfl hc rfl (Or.inr hs)
        | skip hs' hl =>
          cases hl
          rcases hdi with e | e
          · rw [e]; exact hs
          · rw [e]; exact hs'
    simp only [orders, List.mem_cons, List.not_mem_nil, or_false] at ho
    rcases ho with rfl | rfl
    · exact main b s (Or.inl ⟨rfl, rfl⟩) hl
    · exact main s b (Or.inr ⟨rfl, rfl⟩) hl

theorem legal_turn {p c : Pos N} {dice : Dice} (hb : p.BarsOK) (hv : dice.Valid) (hc : c ∈ p.legalPositions dice) : c.turn = !p.turn :=
  ((mem_legal hb hv).1 hc).1

/-- `encode_for` on a legal child. -/
theorem encode_legal {p c : Pos N} {dice : Dice} (hb : p.BarsOK) (hv : dice.Valid) (hc : c ∈ p.legalPositions dice) :
    ∃ l, encodeFor p c dice = .ok l ∧ ∃ o ∈ orders dice, Leaf o p l c.flip := by
  have hc' : c.flip.flip ∈ p.legalPositions dice := by rw [Pos.flip_flip]; exact hc
  obtain ⟨o, ho, l, hl⟩ := legal_leaf hb hv hc'
  have h1 : ((orders dice).findSome? fun order => findSteps c.flip order p).isSome = true := by
    rw [List.findSome?_isSome_iff]
    exact ⟨o, ho, findSteps_isSome hb (orders_dies hv o ho) hl (eqv_refl _)⟩
  obtain ⟨l', hl'⟩ := Option.isSome_iff_exists.1 h1
  obtain ⟨o', ho', hf⟩ := List.exists_of_findSome?_eq_some hl'
  obtain ⟨q, hq, he⟩ := findSteps_some hb (orders_dies hv o' ho') hf
  have : q = c.flip := eqv_eq he (by rw [hq.turn, turn_flip, legal_turn hb hv hc, Bool.not_not])
  subst this
  refine ⟨l', ?_, o', ho', hq⟩
  unfold encodeFor
  rw [hl']

end MoveText
end Bkgm
