import Verif.Props.MoveApply
/-!
# C70: exactly which texts `apply_move` accepts
-/

namespace Bkgm
open Pos MoveText
variable {N : Nat}

/-- The steps written for single-checker moves `(src, die)`. -/
def Spec.stepsOf (ms : List (Nat × Nat)) : List Step := ms.map fun m => ⟨m.1, m.1 - m.2⟩

theorem stepsOf_ok {b b' : Spec.Board} {ms : List (Nat × Nat)} (h : Spec.Moves b ms b') (hd : ∀ d ∈ ms.map Prod.snd, 1 ≤ d) :
    ∀ s ∈ Spec.stepsOf ms, s.Ok := by
  induction h with
  | nil => simp [Spec.stepsOf]
  | @cons b b' src die rest hc _ ih =>
    intro s hs
    simp only [Spec.stepsOf, List.map_cons, List.mem_cons] at hs
    rcases hs with rfl | hs
    · have := hc.range
      have := hd die (by simp)
      unfold Step.Ok
      simp only
      omega
    · exact ih (fun d h => hd d (by simp only [List.map_cons, List.mem_cons]; exact Or.inr h)) s hs

theorem accept_assign_double {d : Nat} (hd : 1 ≤ d) : ∀ {n j : Nat} {p : Pos N} {ms : List (Nat × Nat)} {b : Spec.Board}, p.BarsOK → j + n ≤ 4 →
    ms.map Prod.snd = List.replicate n d → Spec.Moves p.view ms b →
    ∃ used', Assign [d, d, d, d] (Spec.stepsOf ms) p (List.range j).reverse used' := by
  intro n
  induction n with
  | zero =>
    intro j p ms b _ _ e _
    have : ms = [] := by simpa using e
    subst this
    exact ⟨_, .nil _ _⟩
  | succ n ih =>
    intro j p ms b hb hj e h
    cases h with
    | nil => simp [List.replicate_succ] at e
    | @cons _ _ src die rest hc h =>
      simp only [List.map_cons, List.replicate_succ, List.cons.injEq] at e
      obtain ⟨rfl, e⟩ := e
      have hcan := canStep_iff.1 hc
      rw [after_view hb hd hcan] at h
      obtain ⟨u, hu⟩ := ih (j := j + 1) (barsOK_mv hb hd hcan) (by omega) e h
      have ed : [die, die, die, die].getD j 0 = die := by
        have : j < 4 := by omega
        interval_cases j <;> rfl
      refine ⟨u, .cons (i := j) (by simp; omega) (by simp) (by rw [ed]; exact stepMatches_of hd) (by rw [ed]; exact hcan) ?_⟩
      rw [← mv_stepMv (d := die) (stepMatches_of hd)]
      rw [List.range_succ, List.reverse_append] at hu
      exact hu

theorem accept_assign_mixed {x y : Nat} (hx : 1 ≤ x) (hy : 1 ≤ y) (hne : x ≠ y) {p : Pos N} (hb : p.BarsOK) {ms : List (Nat × Nat)}
    {b : Spec.Board} (hu : Spec.Uses [x, y] (ms.map Prod.snd)) (h : Spec.Moves p.view ms b) :
    ∃ used', Assign [x, y] (Spec.stepsOf ms) p [] used' := by
  have one : ∀ {k f e : Nat} {p : Pos N} {used used' : List Nat} {l : List Step}, 1 ≤ e → k < 2 → k ∉ used → [x, y].getD k 0 = e → p.Can f e →
      Assign [x, y] l (p.mv f e) (k :: used) used' → Assign [x, y] (⟨f, f - e⟩ :: l) p used used' := by
    intro k f e p used used' l he hk hu ed hc ha
    refine .cons (i := k) (by simpa using hk) hu (by rw [ed]; exact stepMatches_of he) (by rw [ed]; exact hc) ?_
    rw [← mv_stepMv (d := e) (stepMatches_of he)]
    exact ha
  have uu := (uses_mixed hne).1 hu
  cases h with
  | nil => exact ⟨_, .nil _ _⟩
  | @cons _ _ src die rest hc h =>
    have hcan := canStep_iff.1 hc
    have hd : 1 ≤ die := by
      simp only [List.map_cons] at uu
      rcases uu with e | e | e | e | e <;> first | (simp at e; done) | (have := (List.cons.inj e).1; omega)
    rw [after_view hb hd hcan] at h
    cases h with
    | nil =>
      simp only [List.map_cons, List.map_nil] at uu
      rcases uu with e | e | e | e | e <;> simp at e
      · exact ⟨_, one (k := 0) hd (by omega) (by simp) (by simp [e]) hcan (.nil _ _)⟩
      · exact ⟨_, one (k := 1) hd (by omega) (by simp) (by simp [e]) hcan (.nil _ _)⟩
    | @cons _ _ src2 die2 rest hc2 h2 =>
      have hcan2 := canStep_iff.1 hc2
      simp only [List.map_cons] at uu
      rcases uu with e | e | e | e | e <;> simp at e
      · obtain ⟨rfl, rfl, rfl⟩ := e
        exact ⟨_, one (k := 0) hd (by omega) (by simp) rfl hcan (one (k := 1) hy (by omega) (by simp) rfl hcan2 (.nil _ _))⟩
      · obtain ⟨rfl, rfl, rfl⟩ := e
        exact ⟨_, one (k := 1) hd (by omega) (by simp) rfl hcan (one (k := 0) hx (by omega) (by simp) rfl hcan2 (.nil _ _))⟩

/-- A step that bears off a checker with either of two different dice: afterwards both can be played, or neither. -/
theorem either_stuck {p : Pos N} {f a a' : Nat} (hne : a ≠ a') (ha : 1 ≤ a) (ha' : 1 ≤ a') (h1 : p.Can f a) (h2 : p.Can f a')
    (e : f - a = f - a') (hs : Stuck a' (p.mv f a)) : Stuck a (p.mv f a) := by
  have hlo := h1.lo
  have hfa : f ≤ a := by omega
  have hfa' : f ≤ a' := by omega
  have hbeh : ∀ i, f < i → p.pip i ≤ 0 := by
    by_cases hlt : f < a
    · exact h1.behind hlt
    · exact h2.behind (by omega)
  have hq : ∀ i, (p.mv f a).pip i = if i = f then p.pip f - 1 else p.pip i := by
    intro i
    rw [pip_mv p h1.hi ha, if_neg (by omega)]
  intro g hg
  have hgf : g ≤ f := by
    by_contra hlt
    have := hg.own
    rw [hq, if_neg (by omega)] at this
    have := hbeh g (by omega)
    omega
  -- the highest checker left
  have hex : ∃ g, 1 ≤ g ∧ g ≤ f ∧ 1 ≤ (p.mv f a).pip g ∧ ∀ i, g < i → (p.mv f a).pip i ≤ 0 := by
    have hfin : ∀ n, ∀ g, f - g = n → g ≤ f → 1 ≤ g → 1 ≤ (p.mv f a).pip g →
        ∃ g, 1 ≤ g ∧ g ≤ f ∧ 1 ≤ (p.mv f a).pip g ∧ ∀ i, g < i → (p.mv f a).pip i ≤ 0 := by
      intro n
      induction n using Nat.strong_induction_on with
      | _ n ih =>
        intro g hn hgf hg1 hgp
        by_cases hall : ∀ i, g < i → (p.mv f a).pip i ≤ 0
        · exact ⟨g, hg1, hgf, hgp, hall⟩
        · obtain ⟨i, hi⟩ := not_forall.1 hall
          obtain ⟨hi1, hi2⟩ := Classical.not_imp.1 hi
          have hif : i ≤ f := by
            by_contra hlt
            apply hi2
            rw [hq, if_neg (by omega)]
            exact hbeh i (by omega)
          exact ih (f - i) (by omega) i rfl hif (by omega) (by omega)
    exact hfin _ g rfl hgf hg.lo hg.own
  obtain ⟨g, g1, g2, g3, g4⟩ := hex
  have hhi := h1.hi
  refine hs g ⟨g1, by omega, g3, fun hn => ?_, fun hlt => by omega, fun _ i hi => ?_, fun _ i hi => g4 i hi⟩
  · exact g4 25 (by omega)
  · by_cases h : g < i
    · exact g4 i h
    · have := h1.home hfa i hi
      rw [hq]
      split_ifs with hif
      · subst hif; omega
      · exact this

/-- **C70** `apply_move` returns the position `c` for a text exactly when: the turn passes; the normal form of the text consists of the steps of
single-checker moves allowed by the rules, one after the other, each made with a die of its own; these moves lead to `c`; and afterwards no die left over can be
played by any checker. -/
theorem C70_accept_iff (p c : Pos N) (hb : p.BarsOK) (dice : Dice) (hv : dice.Valid) (t : Str) :
    applyFor p dice t = some c ↔
      c.turn = !p.turn ∧ ∃ ms : List (Nat × Nat), normalize t = some (formatSteps (Spec.stepsOf ms)) ∧
        Spec.Uses (Spec.faces dice) (ms.map Prod.snd) ∧ Spec.Moves p.view ms c.flip.view ∧
        ∀ die src, (ms.map Prod.snd).count die < (Spec.faces dice).count die → ¬ Spec.CanStep c.flip.view src die := by
  refine ⟨C34_accepted_partial p c hb dice hv t, ?_⟩
  rintro ⟨ht, ms, hn, hu, hm, hun⟩
  have hdd := diceBuf_dies hv
  have hpos := uses_pos hv hu
  have hok := stepsOf_ok hm hpos
  have ha : ∃ used', Assign (diceBuf dice) (Spec.stepsOf ms) p [] used' := by
    cases dice with
    | double d =>
      obtain ⟨n, hn4, e⟩ := uses_double.1 hu
      exact accept_assign_double (j := 0) (hdd d (by simp [diceBuf])).1 hb (by omega) e hm
    | mixed b s =>
      obtain ⟨h1, h2, h3⟩ : 1 ≤ s ∧ s < b ∧ b ≤ 6 := hv
      exact accept_assign_mixed (by omega) h1 (by omega) hb hu hm
  obtain ⟨u0, ha⟩ := ha
  obtain ⟨⟨q, used⟩, hap⟩ := Option.isSome_iff_exists.1 (applySteps_isSome hdd hb ha)
  obtain ⟨ha', hq⟩ := applySteps_some hdd hb hok hap
  -- the position reached is `c.flip`
  have hfold : ∀ {ms : List (Nat × Nat)} {p : Pos N} {b : Spec.Board}, p.BarsOK → (∀ d ∈ ms.map Prod.snd, 1 ≤ d) → Spec.Moves p.view ms b →
      b = ((Spec.stepsOf ms).foldl stepMv p).view ∧ ((Spec.stepsOf ms).foldl stepMv p).turn = p.turn ∧ ((Spec.stepsOf ms).foldl stepMv p).BarsOK := by
    intro ms
    induction ms with
    | nil => intro p b hb _ h; cases h; exact ⟨rfl, rfl, hb⟩
    | cons m ms ih =>
      intro p b hb hp h
      cases h with
      | @cons _ _ src die rest hc h =>
        have hd : 1 ≤ die := hp die (by simp)
        have hcan := canStep_iff.1 hc
        rw [after_view hb hd hcan] at h
        have := ih (barsOK_mv hb hd hcan) (fun d h => hp d (by simp only [List.map_cons, List.mem_cons]; exact Or.inr h)) h
        rw [turn_mv] at this
        have e : stepMv p ⟨src, src - die⟩ = p.mv src die := (mv_stepMv (stepMatches_of hd)).symm
        simp only [Spec.stepsOf, List.map_cons, List.foldl_cons] at this ⊢
        rw [e]
        exact this
  obtain ⟨f1, f2, f3⟩ := hfold hb hpos hm
  rw [← hq] at f1 f2 f3
  have hqc : q = c.flip := view_inj (by rw [f2, turn_flip, ht, Bool.not_not]) f1.symm
  unfold applyFor
  rw [hn, Option.bind_some, parseSteps_format hok, Option.bind_some, hap, Option.bind_some]
  simp only
  rw [if_neg, hqc, Pos.flip_flip]
  rw [Bool.not_eq_true, unusedPlayable_false hdd f3]
  intro i hi hiu
  obtain ⟨hnd, hlt⟩ := ha'.nodup List.nodup_nil (by simp)
  have hlen : used.length = ms.length := by rw [ha'.length]; simp [Spec.stepsOf]
  by_cases hfull : used.length = (diceBuf dice).length
  · exact absurd (mem_of_nodup_full hnd hlt hfull i hi) hiu
  have hun' : ∀ die, (ms.map Prod.snd).count die < (Spec.faces dice).count die → Stuck die q := by
    intro die h f hc
    rw [← hqc] at hun
    exact hun die f h (canStep_iff.2 hc)
  cases dice with
  | double d =>
    have e : (diceBuf (.double d)).getD i 0 = d := by
      have : i < 4 := hi
      interval_cases i <;> rfl
    rw [e]
    apply hun'
    obtain ⟨n, hn4, en⟩ := uses_double.1 hu
    rw [en, List.count_replicate_self]
    have hl := congrArg List.length en
    rw [List.length_map, List.length_replicate] at hl
    simp only [diceBuf, List.length_cons, List.length_nil] at hfull
    simp [Spec.faces]
    omega
  | mixed b s =>
    obtain ⟨h1, h2, h3⟩ : 1 ≤ s ∧ s < b ∧ b ≤ 6 := hv
    have hi2 : i < 2 := hi
    have hsb : s ≠ b := by omega
    have hbs : b ≠ s := by omega
    have uu := (uses_mixed hbs).1 hu
    simp only [diceBuf] at *
    have single : ∀ x y f, ((x = b ∧ y = s) ∨ (x = s ∧ y = b)) → ms = [(f, x)] → Stuck y q → Stuck ([b, s].getD i 0) q := by
      intro x y f hxy ems hst
      subst ems
      have hcan : p.Can f x := by
        generalize c.flip.view = B at hm
        cases hm with
        | cons hc _ => exact canStep_iff.1 hc
      have eq : q = p.mv f x := by
        rw [hq]
        exact (mv_stepMv (s := ⟨f, f - x⟩) (stepMatches_of (by omega))).symm
      generalize used = used at ha' hiu
      generalize el : Spec.stepsOf [(f, x)] = l at ha'
      cases ha' with
      | nil => simp [Spec.stepsOf] at el
      | @cons st l' _ _ _ j hj _ hmt hcj ha'' =>
        simp only [Spec.stepsOf, List.map_cons, List.map_nil, List.cons.injEq] at el
        obtain ⟨rfl, rfl⟩ := el
        cases ha''
        have hij : i ≠ j := by simpa using hiu
        have hj2 : j < 2 := hj
        simp only at hcj
        have hcase : ([b, s].getD i 0 = y ∧ [b, s].getD j 0 = x) ∨ ([b, s].getD i 0 = x ∧ [b, s].getD j 0 = y) := by
          rcases hxy with ⟨rfl, rfl⟩ | ⟨rfl, rfl⟩ <;> interval_cases i <;> interval_cases j <;> simp at hij ⊢
        rcases hcase with ⟨e1, e2⟩ | ⟨e1, e2⟩
        · rw [e1]; exact hst
        · rw [e1]
          rw [e2] at hmt hcj
          rw [eq] at hst ⊢
          refine either_stuck (by omega) (by omega) (by omega) hcan hcj ?_ hst
          unfold stepMatches at hmt
          simp only at hmt
          split_ifs at hmt with h0
          · have : f ≤ y := by simpa using hmt
            omega
          · have : y < f ∧ f - y = f - x := by simpa using hmt
            omega
    have shape : ∀ x, ms.map Prod.snd = [x] → ∃ f, ms = [(f, x)] := by
      intro x e
      match ms, e with
      | [(f, z)], e => simp at e; exact ⟨f, by rw [e]⟩
    rcases uu with e | e | e | e | e
    · apply hun'
      rw [e]
      simp only [Spec.faces]
      interval_cases i <;> simp
    · obtain ⟨f, ef⟩ := shape b e
      exact single b s f (Or.inl ⟨rfl, rfl⟩) ef (hun' s (by rw [e]; simp [Spec.faces, hsb, hbs]))
    · obtain ⟨f, ef⟩ := shape s e
      exact single s b f (Or.inr ⟨rfl, rfl⟩) ef (hun' b (by rw [e]; simp [Spec.faces, hsb, hbs]))
    · exfalso; apply hfull; rw [hlen]; simpa using congrArg List.length e
    · exfalso; apply hfull; rw [hlen]; simpa using congrArg List.length e

/-- Accepted: a full play, and a partial one whose other die is blocked (although the rules demand the larger die there). Rejected: a partial play
with the other die playable. -/
example : (applyFor Ex.start (.mixed 6 1) "8/7 13/7".toList).isSome = true ∧ (applyFor Ex.onlyOne (.mixed 3 1) "8/7".toList).isSome = true ∧
    applyFor Ex.start (.mixed 6 1) "13/7".toList = none := by decide +kernel

end Bkgm
