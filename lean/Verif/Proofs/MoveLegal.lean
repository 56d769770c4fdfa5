import Verif.Proofs.MoveApply
import Mathlib.Data.List.Dedup
/-!
Helper lemmas for C35, C36: which slot of `legal_for_steps` is filled, and by which path.
-/

namespace Bkgm
open Pos
variable {N : Nat}

namespace MoveText

/-- What is recorded at the leaves, in order. -/
def records (leaves : List (List Step × Pos N)) : List (Pos N × List Step) :=
  leaves.flatMap fun e => [(e.2.flip, e.1), (e.2, e.1)]

theorem foldl_recordLeaf (legal : List (Pos N)) (leaves : List (List Step × Pos N)) : ∀ slots,
    leaves.foldl (recordLeaf legal) slots = (records leaves).foldl (fun s r => record legal r.1 r.2 s) slots := by
  induction leaves with
  | nil => intro s; rfl
  | cons e l ih =>
    intro s
    rw [List.foldl_cons, ih]
    simp only [records, List.flatMap_cons, List.foldl_append, List.foldl_cons, List.foldl_nil, recordLeaf]

theorem record_length (legal : List (Pos N)) (c : Pos N) (l : List Step) (slots : List (Option (List Step))) :
    (record legal c l slots).length = slots.length := by
  unfold record
  split
  · rfl
  · split
    · simp
    · rfl

theorem childIndex_some {legal : List (Pos N)} {c : Pos N} {i : Nat} (h : childIndex legal c = some i) :
    ∃ hi : i < legal.length, (legal[i].eqv c = true) ∧ ∀ j (hj : j < legal.length), i < j → legal[j].eqv c = false := by
  unfold childIndex at h
  rw [List.find?_eq_some_iff_append] at h
  obtain ⟨h1, as, bs, e, h2⟩ := h
  have hm : i ∈ (List.range legal.length).reverse := by rw [e]; simp
  have hi : i < legal.length := by simpa using hm
  refine ⟨hi, ?_, ?_⟩
  · simpa [List.getElem?_eq_getElem hi] using h1
  · intro j hj hij
    have hja : j ∈ as := by
      have hjm : j ∈ as ++ i :: bs := by rw [← e]; simpa using hj
      rcases List.mem_append.1 hjm with h | h
      · exact h
      · exfalso
        rcases List.mem_cons.1 h with rfl | h
        · omega
        · -- elements after `i` in the reversed range are smaller
          have hs : (as ++ i :: bs).Pairwise (· > ·) := by
            rw [← e, List.pairwise_reverse]
            exact List.pairwise_lt_range
          have := (List.pairwise_cons.1 (List.pairwise_append.1 hs).2.1).1 j h
          omega
    have := h2 j hja
    simpa [List.getElem?_eq_getElem hj] using this

theorem childIndex_eq {legal : List (Pos N)} {c : Pos N} {i : Nat} (hi : i < legal.length) (h1 : legal[i].eqv c = true)
    (h2 : ∀ j (hj : j < legal.length), i < j → legal[j].eqv c = false) : childIndex legal c = some i := by
  cases e : childIndex legal c with
  | none =>
    exfalso
    unfold childIndex at e
    rw [List.find?_eq_none] at e
    have := e i (by simpa using hi)
    simp [List.getElem?_eq_getElem hi, h1] at this
  | some k =>
    obtain ⟨hk, k1, k2⟩ := childIndex_some e
    rcases Nat.lt_trichotomy i k with h | h | h
    · have := h2 k hk h; rw [this] at k1; cases k1
    · rw [h]
    · have := k2 i hi h; rw [this] at h1; cases h1

/-- After all records, a slot holds what it held, or else the first record for it. -/
theorem slots_after (legal : List (Pos N)) (recs : List (Pos N × List Step)) : ∀ (slots : List (Option (List Step))) (i : Nat),
    (recs.foldl (fun s r => record legal r.1 r.2 s) slots)[i]? =
      match slots[i]? with
      | none => none
      | some (some l) => some (some l)
      | some none => some ((recs.find? fun r => decide (childIndex legal r.1 = some i)).map Prod.snd) := by
  induction recs with
  | nil =>
    intro slots i
    simp only [List.foldl_nil, List.find?_nil, Option.map_none]
    rcases slots[i]? with _ | _ | _ <;> rfl
  | cons r recs ih =>
    intro slots i
    rw [List.foldl_cons, ih]
    unfold record
    cases hc : childIndex legal r.1 with
    | none => simp [hc, List.find?_cons]
    | some k =>
      by_cases hk : k = i
      · subst hk
        cases hs : slots[k]? with
        | none => simp [hs]
        | some o =>
          cases o with
          | none =>
            have hlt : k < slots.length := (List.getElem?_eq_some_iff.1 hs).1
            have e : (slots.set k (some r.2))[k]? = some (some r.2) := by
              rw [List.getElem?_set]; simp [hlt]
            simp only [hs, e, List.find?_cons, hc, decide_true, Option.map_some]
          | some l => simp [hs]
      · dsimp only
        rcases slots[k]? with _ | _ | _ <;> simp [hc, List.find?_cons, hk, List.getElem?_set]

/-- `i` is the last index of its element. -/
def Last (legal : List (Pos N)) (i : Nat) : Prop := ∀ j, i < j → legal[j]? ≠ legal[i]?

theorem filterMap_last {α : Type} [DecidableEq α] (l : List α) :
    (List.range l.length).filterMap (fun i => if ∃ j, j < l.length ∧ i < j ∧ l[j]? = l[i]? then none else l[i]?) = l.dedup := by
  induction l with
  | nil => rfl
  | cons a l ih =>
    rw [List.length_cons, List.range_succ_eq_map, List.filterMap_cons, List.filterMap_map]
    have e : ((fun i => if ∃ j, j < l.length + 1 ∧ i < j ∧ (a :: l)[j]? = (a :: l)[i]? then none else (a :: l)[i]?) ∘ Nat.succ)
        = fun i => if ∃ j, j < l.length ∧ i < j ∧ l[j]? = l[i]? then none else l[i]? := by
      funext i
      simp only [Function.comp, Nat.succ_eq_add_one, List.getElem?_cons_succ]
      congr 1
      apply propext
      constructor
      · rintro ⟨j, h1, h2, h3⟩
        obtain ⟨j, rfl⟩ : ∃ k, j = k + 1 := ⟨j - 1, by omega⟩
        exact ⟨j, by omega, by omega, by simpa using h3⟩
      · rintro ⟨j, h1, h2, h3⟩
        exact ⟨j + 1, by omega, by omega, by simpa using h3⟩
    rw [e, ih]
    by_cases ha : a ∈ l
    · rw [List.dedup_cons_of_mem ha]
      obtain ⟨k, hk, hka⟩ := List.getElem_of_mem ha
      rw [if_pos ⟨k + 1, by omega, by omega, by simp [List.getElem?_eq_getElem hk, hka]⟩]
    · rw [List.dedup_cons_of_notMem ha, if_neg]
      · simp
      · rintro ⟨j, h1, h2, h3⟩
        obtain ⟨j, rfl⟩ : ∃ k, j = k + 1 := ⟨j - 1, by omega⟩
        simp only [List.getElem?_cons_succ, List.getElem?_cons_zero] at h3
        exact ha (List.mem_of_getElem? h3)

/-- An entry of `legalFor`: its index, which is the last one of its child, and the first record for it. -/
theorem legalFor_eq (p : Pos N) (dice : Dice) : legalFor p dice =
    (List.range (p.legalPositions dice).length).filterMap fun i =>
      match ((records (allLeaves p dice)).find? fun r => decide (childIndex (p.legalPositions dice) r.1 = some i)), (p.legalPositions dice)[i]? with
      | some r, some c => some (r.2, c)
      | _, _ => none := by
  unfold legalFor
  simp only
  rw [foldl_recordLeaf]
  apply List.filterMap_congr
  intro i hi
  rw [List.mem_range] at hi
  rw [slots_after, List.getElem?_replicate, if_pos hi]
  cases ((records (allLeaves p dice)).find? fun r => decide (childIndex (p.legalPositions dice) r.1 = some i)) <;>
    cases (p.legalPositions dice)[i]? <;> rfl

theorem mem_records {leaves : List (List Step × Pos N)} {r : Pos N × List Step} :
    r ∈ records leaves ↔ ∃ q, (r.2, q) ∈ leaves ∧ (r.1 = q.flip ∨ r.1 = q) := by
  unfold records
  rw [List.mem_flatMap]
  constructor
  · rintro ⟨⟨l, q⟩, he, h⟩
    simp only [List.mem_cons, List.not_mem_nil, or_false] at h
    rcases h with rfl | rfl
    · exact ⟨q, he, Or.inl rfl⟩
    · exact ⟨q, he, Or.inr rfl⟩
  · rintro ⟨q, he, h⟩
    refine ⟨(r.2, q), he, ?_⟩
    simp only [List.mem_cons, List.not_mem_nil, or_false]
    rcases h with h | h
    · left; exact Prod.ext h rfl
    · right; exact Prod.ext h rfl

theorem legal_eqv_eq {p c c' : Pos N} {dice : Dice} (hb : p.BarsOK) (hv : dice.Valid) (hc : c ∈ p.legalPositions dice)
    (hc' : c' ∈ p.legalPositions dice) (h : c.eqv c' = true) : c = c' :=
  eqv_eq h (by rw [legal_turn hb hv hc, legal_turn hb hv hc'])

theorem childIndex_legal {p : Pos N} {dice : Dice} (hb : p.BarsOK) (hv : dice.Valid) {x : Pos N} {i : Nat} (hi : i < (p.legalPositions dice).length) :
    childIndex (p.legalPositions dice) x = some i ↔ ((p.legalPositions dice)[i].eqv x = true ∧
      ¬ ∃ j, j < (p.legalPositions dice).length ∧ i < j ∧ (p.legalPositions dice)[j]? = (p.legalPositions dice)[i]?) := by
  constructor
  · intro h
    obtain ⟨_, h1, h2⟩ := childIndex_some h
    refine ⟨h1, ?_⟩
    rintro ⟨j, hj, hij, e⟩
    rw [List.getElem?_eq_getElem hi, List.getElem?_eq_getElem hj] at e
    have := h2 j hj hij
    rw [Option.some.inj e, h1] at this
    cases this
  · rintro ⟨h1, h2⟩
    refine childIndex_eq hi h1 fun j hj hij => ?_
    by_contra hc
    rw [Bool.not_eq_false] at hc
    apply h2
    refine ⟨j, hj, hij, ?_⟩
    rw [List.getElem?_eq_getElem hi, List.getElem?_eq_getElem hj]
    congr 1
    exact legal_eqv_eq hb hv (List.getElem_mem _) (List.getElem_mem _) (eqv_trans hc (eqv_symm h1))

/-- Every legal child has a record among the leaves of the start position itself. -/
theorem legal_record {p c : Pos N} {dice : Dice} (hb : p.BarsOK) (hv : dice.Valid) (hc : c ∈ p.legalPositions dice) :
    ∃ o ∈ orders dice, ∃ l, (c, l) ∈ records (paths o p) := by
  obtain ⟨o, ho, l, hl⟩ := legal_leaf (q := c.flip) hb hv (by rw [Pos.flip_flip]; exact hc)
  refine ⟨o, ho, l, mem_records.2 ⟨c.flip, (mem_paths hb (orders_dies hv o ho)).2 hl, Or.inl ?_⟩⟩
  rw [Pos.flip_flip]

theorem records_append (a b : List (List Step × Pos N)) : records (a ++ b) = records a ++ records b := by simp [records]

theorem mem_records_all {p : Pos N} {dice : Dice} {o : List Nat} (ho : o ∈ orders dice) {r : Pos N × List Step} (h : r ∈ records (paths o p)) :
    r ∈ records (allLeaves p dice) := by
  rw [mem_records] at h ⊢
  obtain ⟨q, hq, hr⟩ := h
  refine ⟨q, ?_, hr⟩
  unfold allLeaves
  exact List.mem_flatMap.2 ⟨o, ho, List.mem_append_left _ hq⟩

/-- The children listed by `legalFor`: the legal ones without duplicates, each where it stands last. -/
theorem legalFor_children {p : Pos N} {dice : Dice} (hb : p.BarsOK) (hv : dice.Valid) :
    (legalFor p dice).map Prod.snd = (p.legalPositions dice).dedup := by
  rw [legalFor_eq, List.map_filterMap, ← filterMap_last]
  apply List.filterMap_congr
  intro i hi
  rw [List.mem_range] at hi
  split_ifs with hlast
  · -- not the last one: no record
    have : ((records (allLeaves p dice)).find? fun r => decide (childIndex (p.legalPositions dice) r.1 = some i)) = none := by
      rw [List.find?_eq_none]
      intro r _
      rw [decide_eq_true_eq, childIndex_legal hb hv hi]
      rintro ⟨_, h⟩
      exact h hlast
    rw [this]
    rfl
  · obtain ⟨o, ho, l, hl⟩ := legal_record hb hv (List.getElem_mem hi)
    have hs : ((records (allLeaves p dice)).find? fun r => decide (childIndex (p.legalPositions dice) r.1 = some i)).isSome = true := by
      rw [List.find?_isSome]
      refine ⟨_, mem_records_all ho hl, ?_⟩
      rw [decide_eq_true_eq, childIndex_legal hb hv hi]
      exact ⟨eqv_refl _, hlast⟩
    obtain ⟨r, hr⟩ := Option.isSome_iff_exists.1 hs
    rw [hr, List.getElem?_eq_getElem hi]
    rfl

/-- Where the steps of an entry come from: a path from the start or from the flipped start, whose end or flipped end is the child. -/
theorem legalFor_entry {p c : Pos N} {dice : Dice} {l : List Step} (hb : p.BarsOK) (hv : dice.Valid) (h : (l, c) ∈ legalFor p dice) :
    c ∈ p.legalPositions dice ∧ ∃ x, (records (allLeaves p dice)).find? (fun r => c.eqv r.1) = some (x, l) := by
  rw [legalFor_eq, List.mem_filterMap] at h
  obtain ⟨i, hi, h⟩ := h
  rw [List.mem_range] at hi
  rw [List.getElem?_eq_getElem hi] at h
  cases e : (records (allLeaves p dice)).find? fun r => decide (childIndex (p.legalPositions dice) r.1 = some i) with
  | none => rw [e] at h; simp at h
  | some r =>
    rw [e] at h
    simp only [Option.some.injEq, Prod.mk.injEq] at h
    obtain ⟨rfl, rfl⟩ := h
    refine ⟨List.getElem_mem hi, r.1, ?_⟩
    have hlast : ¬ ∃ j, j < (p.legalPositions dice).length ∧ i < j ∧ (p.legalPositions dice)[j]? = (p.legalPositions dice)[i]? := by
      have := List.find?_some e
      rw [decide_eq_true_eq, childIndex_legal hb hv hi] at this
      exact this.2
    have hf : (fun r : Pos N × List Step => decide (childIndex (p.legalPositions dice) r.1 = some i)) =
        fun r => (p.legalPositions dice)[i].eqv r.1 := by
      funext r
      rw [Bool.eq_iff_iff, decide_eq_true_eq, childIndex_legal hb hv hi]
      simp [hlast]
    rw [hf] at e
    rw [e]

/-! ## No hit, no confusion -/

/-- Nothing was hit: the opponent's cells are unchanged. Otherwise its bar has grown. -/
theorem mv_o {p : Pos N} (hb : p.BarsOK) {f d : Nat} (hd : 1 ≤ d) (hc : p.Can f d) :
    (p.mv f d).pip 0 ≤ p.pip 0 ∧ ((p.mv f d).pip 0 = p.pip 0 → ∀ i, min ((p.mv f d).pip i) 0 = min (p.pip i) 0) := by
  obtain ⟨h1, h2, h3, h4, h5, h6, h7⟩ := hc
  have hA := pip_mv p h2 hd
  have h0 := hb.1
  constructor
  · rw [hA]; grind
  · intro e i
    rw [hA] at e ⊢
    grind

theorem Leaf.o {o : List Nat} (ho : Dies o) {p q : Pos N} {l : List Step} (h : Leaf o p l q) (hb : p.BarsOK) :
    q.oOff = p.oOff ∧ q.pip 0 ≤ p.pip 0 ∧ (q.pip 0 = p.pip 0 → ∀ i, min (q.pip i) 0 = min (p.pip i) 0) := by
  induction h with
  | nil => exact ⟨rfl, le_refl _, fun _ _ => rfl⟩
  | @move p q f d rest l hc _ ih =>
    have hd := (ho d (by simp)).1
    obtain ⟨a1, a2, a3⟩ := ih ho.tail (barsOK_mv hb hd hc)
    obtain ⟨b1, b2⟩ := mv_o hb hd hc
    refine ⟨by rw [a1]; simp, by omega, fun e i => ?_⟩
    rw [a3 (by omega), b2 (by omega)]
  | skip _ _ ih => exact ih ho.tail hb

/-- Two boards with the same opposing checkers, one the mirror image of the other, are equal. -/
theorem mirror_eq {q r : Pos N} (ho : ∀ i, min (q.pip i) 0 = min (r.pip i) 0) (hoff : q.oOff = r.oOff) (h : q.eqv r.flip = true) :
    q.eqv r = true := by
  obtain ⟨h1, h2, h3⟩ := eqv_iff.1 h
  have hp : ∀ i, i < 26 → q.pip i = - r.pip (25 - i) := by
    intro i hi
    have : q.pip i = r.flip.pip i := by unfold pip; rw [h1]
    rw [this, pip_flip r hi]
  refine eqv_iff.2 ⟨?_, ?_, hoff⟩
  · funext i
    have e : ∀ s : Pos N, s.pips i = s.pip i.val := fun s => by simp [pip, i.isLt]
    rw [e, e]
    have a1 := hp i.val i.isLt
    have a2 := hp (25 - i.val) (by omega)
    rw [show 25 - (25 - i.val) = i.val by omega] at a2
    have b1 := ho i.val
    have b2 := ho (25 - i.val)
    omega
  · have e1 : q.xOff = r.oOff := h2
    have e2 : q.oOff = r.xOff := h3
    omega

theorem steps_pip25 {d n : Nat} (hd : 1 ≤ d) {p q : Pos N} (h : Steps d n p q) (hb : p.BarsOK) :
    q.pip 25 = max (p.pip 25 - n) 0 := by
  induction h with
  | zero p => have := hb.2; simp; omega
  | @succ n f p q hc _ ih =>
    rw [ih (barsOK_mv hb hd hc)]
    have h2 := hb.2
    have hA := pip_mv p hc.hi hd 25
    by_cases hf : f = 25
    · subst hf
      have hown := hc.own
      rw [hA]
      push_cast
      split_ifs <;> omega
    · have h25 := hc.bar hf
      have hle := hc.hi
      have : (p.mv f d).pip 25 = p.pip 25 := by
        rw [hA]
        have c1 : ¬ (25 = f) := fun e => hf e.symm
        have c2 : ¬ (25 = f - d) := by omega
        simp [c1, c2]
      rw [this]
      push_cast
      omega

/-- Doubles: two plays whose boards are mirror images of each other are equal. -/
theorem double_mirror {p q r : Pos N} (hb : p.BarsOK) {d n : Nat} (hd : 1 ≤ d) (hd6 : d ≤ 6) (hq : Steps d n p q) (hr : Steps d n p r)
    (ho1 : q.oOff = p.oOff ∧ q.pip 0 ≤ p.pip 0 ∧ (q.pip 0 = p.pip 0 → ∀ i, min (q.pip i) 0 = min (p.pip i) 0))
    (ho2 : r.oOff = p.oOff ∧ r.pip 0 ≤ p.pip 0 ∧ (r.pip 0 = p.pip 0 → ∀ i, min (r.pip i) 0 = min (p.pip i) 0))
    (h : q.eqv r.flip = true) : q.eqv r = true := by
  have e1 := steps_pip25 hd hq hb
  have e2 := steps_pip25 hd hr hb
  obtain ⟨h1, -, -⟩ := eqv_iff.1 h
  have hp : ∀ i, i < 26 → q.pip i = - r.pip (25 - i) := by
    intro i hi
    have : q.pip i = r.flip.pip i := by unfold pip; rw [h1]
    rw [this, pip_flip r hi]
  have a0 := hp 0 (by omega)
  have a25 := hp 25 (by omega)
  simp only [Nat.sub_zero, Nat.sub_self] at a0 a25
  have hb0 := hb.1
  by_cases hbar : 1 ≤ q.pip 25
  · have hn : (n : Int) ≤ p.pip 25 := by omega
    have f1 := steps_bar hd hd6 n hn hq (le_refl n)
    have f2 := steps_bar hd hd6 n hn hr (le_refl n)
    rw [Nat.sub_self] at f1 f2
    have g1 : q = mvs 25 d n p := by cases f1; rfl
    have g2 : r = mvs 25 d n p := by cases f2; rfl
    rw [g1, g2]
    exact eqv_refl _
  · refine mirror_eq (fun i => ?_) (by rw [ho1.1, ho2.1]) h
    rw [ho1.2.2 (by omega), ho2.2.2 (by omega)]

end MoveText
end Bkgm
