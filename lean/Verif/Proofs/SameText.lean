import Verif.Props.TextDupExact
/-!
Helper lemmas for C101: `encode_move` and `legal_moves` find the same path.
-/

namespace Bkgm
open Pos
variable {N : Nat}

namespace MoveText

/-- The search of `encode_move` returns the first of the paths that ends on the target. -/
theorem findSteps_paths (t : Pos N) : ∀ (o : List Nat) (p : Pos N),
    findSteps t o p = ((paths o p).find? fun e => e.2.eqv t).map Prod.fst
  | [], p => by
    simp only [findSteps, paths, List.find?_singleton]
    split_ifs <;> rfl
  | d :: rest, p => by
    have ih := findSteps_paths t rest
    have hsome : ∀ (L : List Nat), (L.findSome? fun src => (p.tryMove src d).bind fun next => (findSteps t rest next).map fun l => (⟨src, src - d⟩ : Step) :: l) =
        ((L.flatMap fun src => match p.tryMove src d with
          | some next => (paths rest next).map fun (l, q) => ((⟨src, src - d⟩ : Step) :: l, q)
          | none => []).find? fun e => e.2.eqv t).map Prod.fst := by
      intro L
      induction L with
      | nil => rfl
      | cons f L ihL =>
        rw [List.findSome?_cons, List.flatMap_cons, List.find?_append, ihL]
        cases e : p.tryMove f d with
        | none => simp
        | some r =>
          simp only [Option.bind_some, ih, List.find?_map, Function.comp_def, Option.map_map]
          cases (paths rest r).find? fun e => e.2.eqv t <;> simp
    unfold findSteps paths
    rw [hsome]
    split_ifs with hany
    · cases (((rng 1 26).flatMap fun src => match p.tryMove src d with
          | some next => (paths rest next).map fun (l, q) => ((⟨src, src - d⟩ : Step) :: l, q)
          | none => []).find? fun e => e.2.eqv t) <;> simp
    · have hnil : ((rng 1 26).flatMap fun src => match p.tryMove src d with
          | some next => (paths rest next).map fun (l, q) => ((⟨src, src - d⟩ : Step) :: l, q)
          | none => []) = [] := by
        rw [List.flatMap_eq_nil_iff]
        intro f hf
        simp only [List.any_eq_true, not_exists, not_and, Bool.not_eq_true, Option.isSome_eq_false_iff, Option.isNone_iff_eq_none] at hany
        rw [hany f hf]
      rw [hnil]
      simp [ih]

/-- The first record for a child among paths for which the unflipped board never matters is the first path to it. -/
theorem records_find {c : Pos N} : ∀ {L : List (List Step × Pos N)}, (∀ e ∈ L, c.eqv e.2 = true → c.eqv e.2.flip = true) →
    ((records L).find? fun r => c.eqv r.1).map Prod.snd = (L.find? fun e => e.2.eqv c.flip).map Prod.fst
  | [], _ => rfl
  | e :: L, h => by
    have ih := records_find (c := c) (L := L) fun e he => h e (List.mem_cons_of_mem _ he)
    have hh := h e (by simp)
    have hflip : e.2.eqv c.flip = c.eqv e.2.flip := by
      rw [Bool.eq_iff_iff]
      constructor
      · intro k
        have := eqv_flip k
        rw [Pos.flip_flip] at this
        exact eqv_symm this
      · intro k
        have := eqv_flip k
        rw [Pos.flip_flip] at this
        exact eqv_symm this
    rw [show records (e :: L) = [(e.2.flip, e.1), (e.2, e.1)] ++ records L from rfl, List.find?_append, List.find?_cons (a := e), hflip]
    cases h1 : c.eqv e.2.flip with
    | true => simp [h1]
    | false =>
      have h2 : c.eqv e.2 = false := by
        by_contra hc
        rw [hh (by simpa using hc)] at h1
        cases h1
      simp only [List.find?_cons, h1, h2, List.find?_nil, Option.none_or]
      exact ih

/-- The same for the player's own paths. -/
theorem own_find {p c : Pos N} {o : List Nat} (hm : ∀ l q, (l, q) ∈ paths o p → c.eqv q = true → c.eqv q.flip = true) :
    ((records (paths o p)).find? fun r => c.eqv r.1).map Prod.snd = findSteps c.flip o p := by
  rw [findSteps_paths]
  exact records_find fun e he => hm e.1 e.2 he

theorem own_mirror {p c : Pos N} {b s : Nat} (hb : p.BarsOK) (hv : (Dice.mixed b s).Valid) (hc : c ∈ p.legalPositions (.mixed b s)) {o : List Nat}
    (ho : o ∈ orders (.mixed b s)) (l : List Step) (q : Pos N) (hq : (l, q) ∈ paths o p) (he : c.eqv q = true) : c.eqv q.flip = true := by
  obtain ⟨o1, ho1, l1, hl1⟩ := legal_leaf (q := c.flip) hb hv (by rw [Pos.flip_flip]; exact hc)
  have hl := paths_leaf hb hv ho hq
  have := mixed_mirror hb hv ho ho1 hl hl1 (by rw [Pos.flip_flip]; exact eqv_symm he)
  have := eqv_flip this
  rw [Pos.flip_flip] at this
  exact eqv_symm this

/-- A text recorded from the opponent's paths, where no path of the player's with the larger die first leads to the child, is wrong. -/
theorem opp_wrong {p c q : Pos N} {b s : Nat} (hb : p.BarsOK) (hv : (Dice.mixed b s).Valid) {l : List Step} (h : (l, c) ∈ legalFor p (.mixed b s))
    (hno : ∀ l', ¬ Leaf [b, s] p l' c.flip) (hq : Leaf [b, s] p.flip l q) (hqc : q.eqv c.flip = true) :
    applyFor p (.mixed b s) (formatSteps l) ≠ some c := by
  intro hr
  obtain ⟨ms, rfl, hu, hm⟩ := (C36_exact_partial p c hb _ hv l h).1 hr
  obtain ⟨hc, -⟩ := legalFor_entry hb hv h
  have hturn := legal_turn hb hv hc
  have hv' := hv
  obtain ⟨g1, g2, g3⟩ : 1 ≤ s ∧ s < b ∧ b ≤ 6 := hv'
  obtain ⟨htwo, hn2⟩ := entry_wrong_two hb hv hc hno
  have hsym : ¬ p.eqv p.flip = true := by
    intro hs
    have hd : Dies [b, s] := by intro d hd; simp at hd; omega
    have hl := leaf_withTurn hd hq p.turn
    rw [← eqv_withTurn hs] at hl
    have e : q.withTurn p.turn = c.flip := eqv_eq hqc (by rw [turn_flip, hturn, Bool.not_not]; rfl)
    rw [e] at hl
    exact hno _ hl
  have hoff : c.flip.xOff = p.xOff := by
    by_contra hne
    obtain ⟨x, y, hx, hy, e⟩ := htwo
    have hg : Leaf [s, b] p [⟨x, x - s⟩, ⟨y, y - b⟩] c.flip := by rw [e]; exact .move hx (.move hy (.nil _))
    exact hsym (symmetric_of_bear hb hv hq hg hqc hne)
  have hpos := uses_pos hv hu
  have lenle := uses_length hu
  match ms, hm, hu, hpos, lenle, hq with
  | [], hm, hu, hpos, _, _ =>
    have e : c.flip = p := by
      generalize e0 : c.flip.view = B at hm
      cases hm
      exact view_inj (by rw [turn_flip, hturn, Bool.not_not]) e0
    rw [e] at htwo
    obtain ⟨m, g, hm, hg, e⟩ := htwo
    have k1 := pipsX_mv hb g1 hm
    have k2 := pipsX_mv (barsOK_mv hb g1 hm) (by omega) hg
    rw [← e] at k2
    have := hm.lo
    omega
  | [(f, u)], hm, hu, hpos, _, _ =>
    have hu1 : 1 ≤ u := hpos _ (by simp)
    have hcan : p.Can f u ∧ c.flip = p.mv f u := by
      generalize e0 : c.flip.view = B at hm
      cases hm with
      | cons hc hm =>
        have hcan := canStep_iff.1 hc
        rw [after_view hb hu1 hcan] at hm
        cases hm
        exact ⟨hcan, view_inj (by rw [turn_flip, hturn, Bool.not_not, turn_mv]) e0⟩
    obtain ⟨hcan, ec⟩ := hcan
    have hfu : f ≤ u := by
      have hbs : b ≠ s := by omega
      rw [ec] at htwo
      rcases (uses_mixed hbs).1 hu with e | e | e | e | e <;> simp at e <;> subst e
      · exact (one_two hb hu1 g1 hcan (Or.inr htwo)).1
      · exact (one_two hb hu1 (by omega) hcan (Or.inl htwo)).1
    rw [ec, xOff_mv, if_neg (by omega)] at hoff
    omega
  | [(f, u), (f', u')], hm, hu, hpos, _, hq =>
    have hu1 : 1 ≤ u := hpos u (by simp)
    have hu2 : 1 ≤ u' := hpos u' (by simp)
    have hcan : p.Can f u ∧ (p.mv f u).Can f' u' ∧ c.flip = (p.mv f u).mv f' u' := by
      generalize e0 : c.flip.view = B at hm
      cases hm with
      | cons hc hm =>
        have hcan := canStep_iff.1 hc
        rw [after_view hb hu1 hcan] at hm
        cases hm with
        | cons hc' hm =>
          have hcan' := canStep_iff.1 hc'
          rw [after_view (barsOK_mv hb hu1 hcan) hu2 hcan'] at hm
          cases hm
          exact ⟨hcan, hcan', view_inj (by rw [turn_flip, hturn, Bool.not_not, turn_mv, turn_mv]) e0⟩
    obtain ⟨k1, k2, ec⟩ := hcan
    have hbs : b ≠ s := by omega
    rcases (uses_mixed hbs).1 hu with e | e | e | e | e <;> simp at e <;> obtain ⟨rfl, rfl⟩ := e
    · exact hn2 ⟨f, f', k1, k2, ec⟩
    · have hsf : u < f := by
        by_contra hc
        rw [ec, xOff_mv, xOff_mv, if_neg hc] at hoff
        split_ifs at hoff <;> omega
      simp only [Spec.stepsOf, List.map_cons, List.map_nil] at hq
      generalize hl : [(⟨f, f - u⟩ : Step), ⟨f', f' - u'⟩] = L at hq
      cases hq with
      | @move _ _ f1 _ _ l1 hc1 h1 =>
        simp only [List.cons.injEq, Step.mk.injEq] at hl
        omega
      | skip hs h1 =>
        subst hl
        have := h1.length_le
        simp at this
  | _ :: _ :: _ :: _, _, _, _, hl, _ => simp [Spec.faces] at hl

/-- With a mixed roll a right entry has the steps of `encode_move`. -/
theorem same_mixed {p c : Pos N} {b s : Nat} (hb : p.BarsOK) (hv : (Dice.mixed b s).Valid) {l : List Step} (h : (l, c) ∈ legalFor p (.mixed b s))
    (hr : applyFor p (.mixed b s) (formatSteps l) = some c) : encodeFor p c (.mixed b s) = .ok l := by
  obtain ⟨hc, x, hx⟩ := legalFor_entry hb hv h
  have h1 : [b, s] ∈ orders (.mixed b s) := by simp [orders]
  have h2 : [s, b] ∈ orders (.mixed b s) := by simp [orders]
  have hal : allLeaves p (.mixed b s) = paths [b, s] p ++ (paths [b, s] p.flip ++ (paths [s, b] p ++ paths [s, b] p.flip)) := by
    simp [allLeaves, orders]
  have f1 := own_find (own_mirror hb hv hc h1)
  have f2 := own_find (own_mirror hb hv hc h2)
  have henc : ∀ l', ((findSteps c.flip [b, s] p).or (findSteps c.flip [s, b] p)) = some l' → encodeFor p c (.mixed b s) = .ok l' := by
    intro l' e
    unfold encodeFor
    have : ((orders (.mixed b s)).findSome? fun order => findSteps c.flip order p) = some l' := by
      rw [← e]
      simp only [orders, List.findSome?_cons, List.findSome?_nil]
      cases findSteps c.flip [b, s] p <;> cases findSteps c.flip [s, b] p <;> rfl
    rw [this]
  rw [hal, records_append, records_append, records_append, List.find?_append, List.find?_append, List.find?_append] at hx
  cases e1 : (records (paths [b, s] p)).find? fun r => c.eqv r.1 with
  | some r =>
    rw [e1, Option.some_or] at hx
    cases hx
    rw [e1] at f1
    refine henc _ ?_
    rw [← f1]
    rfl
  | none =>
    rw [e1, Option.none_or] at hx
    have hno : ∀ l', ¬ Leaf [b, s] p l' c.flip := by
      intro l' hl'
      rw [List.find?_eq_none] at e1
      refine e1 (c, l') (mem_records.2 ⟨c.flip, (mem_paths hb (orders_dies hv _ h1)).2 hl', Or.inl ?_⟩) (eqv_refl _)
      rw [Pos.flip_flip]
    obtain ⟨o1, ho1, l1, hl1⟩ := legal_leaf (q := c.flip) hb hv (by rw [Pos.flip_flip]; exact hc)
    cases e2 : (records (paths [b, s] p.flip)).find? fun r => c.eqv r.1 with
    | some r =>
      rw [e2, Option.some_or] at hx
      cases hx
      exfalso
      have he := List.find?_some e2
      obtain ⟨q, hq, hx⟩ := mem_records.1 (List.mem_of_find?_eq_some e2)
      have hl := paths_leaf (barsOK_flip hb) hv h1 hq
      simp only at he hx hl
      rcases hx with rfl | rfl
      · exact opp_wrong hb hv h hno hl (eqv_symm (by rw [← Pos.flip_flip q]; exact eqv_flip he)) hr
      · obtain ⟨rfl, rfl⟩ := opponent_same hb (orders_dies hv _ h1) (orders_dies hv _ ho1) hl hl1 (by rw [Pos.flip_flip]; exact eqv_symm he)
        have hst := leaf_nil_stuck hl1
        have hcp := (leaf_all_stuck hl1 hst).2
        rw [hcp] at hno
        exact hno [] (.skip (hst _ (orders_same h1 ho1 (by simp))) (.skip (hst _ (orders_same h1 ho1 (by simp))) (.nil _)))
    | none =>
      rw [e2, Option.none_or] at hx
      rw [e1] at f1
      cases e3 : (records (paths [s, b] p)).find? fun r => c.eqv r.1 with
      | some r =>
        rw [e3, Option.some_or] at hx
        cases hx
        rw [e3] at f2
        refine henc _ ?_
        rw [← f1, ← f2]
        rfl
      | none =>
        exfalso
        have ho1' : o1 = [b, s] ∨ o1 = [s, b] := by simpa [orders] using ho1
        rcases ho1' with rfl | rfl
        · exact hno _ hl1
        · rw [List.find?_eq_none] at e3
          refine e3 (c, l1) (mem_records.2 ⟨c.flip, (mem_paths hb (orders_dies hv _ h2)).2 hl1, Or.inl ?_⟩) (eqv_refl _)
          rw [Pos.flip_flip]

theorem own_mirror_double {p c : Pos N} {d : Nat} (hb : p.BarsOK) (hv : (Dice.double d).Valid) (hc : c ∈ p.legalPositions (.double d))
    (l : List Step) (q : Pos N) (hq : (l, q) ∈ paths [d, d, d, d] p) (he : c.eqv q = true) : c.eqv q.flip = true := by
  have ho4 : [d, d, d, d] ∈ orders (.double d) := by simp [orders]
  have hl := paths_leaf hb hv ho4 hq
  have hd := orders_dies hv _ ho4
  obtain ⟨o1, ho1, l1, hl1⟩ := legal_leaf (q := c.flip) hb hv (by rw [Pos.flip_flip]; exact hc)
  obtain rfl : o1 = [d, d, d, d] := by simpa [orders] using ho1
  obtain ⟨s1, t1⟩ := leaf_double (k := 4) hl
  obtain ⟨s2, t2⟩ := leaf_double (k := 4) hl1
  obtain ⟨g1, g2⟩ : 1 ≤ d ∧ d ≤ 6 := hv
  have n1 : l.length ≤ 4 := hl.length_le
  have n2 : l1.length ≤ 4 := hl1.length_le
  have hn : l.length = l1.length := by
    rcases t1 with t1 | t1 <;> rcases t2 with t2 | t2
    · omega
    · obtain ⟨k, hk, _⟩ := descent g1 g2 s1 s2 t2; omega
    · obtain ⟨k, hk, _⟩ := descent g1 g2 s2 s1 t1; omega
    · obtain ⟨k, hk, _⟩ := descent g1 g2 s1 s2 t2
      obtain ⟨k', hk', _⟩ := descent g1 g2 s2 s1 t1
      omega
  rw [← hn] at s2
  have := double_mirror hb g1 g2 s1 s2 (hl.o hd hb) (hl1.o hd hb) (by rw [Pos.flip_flip]; exact eqv_symm he)
  have := eqv_flip this
  rw [Pos.flip_flip] at this
  exact eqv_symm this

/-- With doubles every entry has the steps of `encode_move`. -/
theorem same_double {p c : Pos N} {d : Nat} (hb : p.BarsOK) (hv : (Dice.double d).Valid) {l : List Step} (h : (l, c) ∈ legalFor p (.double d)) :
    encodeFor p c (.double d) = .ok l := by
  obtain ⟨hc, x, hx⟩ := legalFor_entry hb hv h
  have hal : allLeaves p (.double d) = paths [d, d, d, d] p ++ paths [d, d, d, d] p.flip := by simp [allLeaves, orders]
  rw [hal, records_append, List.find?_append] at hx
  obtain ⟨o, ho, l0, hl0⟩ := legal_record hb hv hc
  obtain rfl : o = [d, d, d, d] := by simpa [orders] using ho
  have hs : ((records (paths [d, d, d, d] p)).find? fun r => c.eqv r.1).isSome = true := by
    rw [List.find?_isSome]
    exact ⟨_, hl0, eqv_refl _⟩
  obtain ⟨r, hr⟩ := Option.isSome_iff_exists.1 hs
  have f1 := own_find (own_mirror_double hb hv hc)
  rw [hr, Option.some_or] at hx
  cases hx
  rw [hr] at f1
  unfold encodeFor
  have : ((orders (.double d)).findSome? fun order => findSteps c.flip order p) = some l := by
    simp only [orders, List.findSome?_cons, List.findSome?_nil, ← f1, Option.map_some]
  rw [this]

end MoveText
end Bkgm
