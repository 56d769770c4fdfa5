import Verif.Proofs.TextDup
/-!
# C100: are the texts listed by `legal_moves` pairwise different?
-/

namespace Bkgm
open Pos MoveText
variable {N : Nat}

theorem entry_steps_ok {p c : Pos N} (hb : p.BarsOK) {dice : Dice} (hv : dice.Valid) {l : List Step} (h : (l, c) ∈ legalFor p dice) :
    ∀ s ∈ l, s.Ok := by
  obtain ⟨-, x, hx⟩ := legalFor_entry hb hv h
  obtain ⟨q, hq, -⟩ := mem_records.1 (List.mem_of_find?_eq_some hx)
  unfold allLeaves at hq
  obtain ⟨o, ho, hq⟩ := List.mem_flatMap.1 hq
  have hod := orders_dies hv o ho
  rcases List.mem_append.1 hq with hq | hq
  · exact ((mem_paths hb hod).1 hq).ok hod
  · exact ((mem_paths (barsOK_flip hb) hod).1 hq).ok hod

/-- Entries with equal texts have equal steps. -/
theorem entry_text_inj {p c c' : Pos N} (hb : p.BarsOK) {dice : Dice} (hv : dice.Valid) {l l' : List Step} (h : (l, c) ∈ legalFor p dice)
    (h' : (l', c') ∈ legalFor p dice) (e : formatSteps l = formatSteps l') : l = l' := by
  have e := congrArg parseSteps e
  rw [parseSteps_format (entry_steps_ok hb hv h), parseSteps_format (entry_steps_ok hb hv h')] at e
  exact Option.some.inj e

/-- Two entries with wrong texts that are equal are the same entry. -/
theorem entry_wrong_unique {p c c' : Pos N} (hb : p.BarsOK) {dice : Dice} (hv : dice.Valid) {l : List Step} (h : (l, c) ∈ legalFor p dice)
    (h' : (l, c') ∈ legalFor p dice) (hw : applyFor p dice (formatSteps l) ≠ some c) (hw' : applyFor p dice (formatSteps l) ≠ some c') : c = c' := by
  cases dice with
  | double d => exact absurd (entry_double hb hv h) hw
  | mixed b s =>
    obtain ⟨⟨q, hq, he⟩, -⟩ := entry_wrong hb hv h hw
    obtain ⟨⟨q', hq', he'⟩, -⟩ := entry_wrong hb hv h' hw'
    have hd : Dies [b, s] := orders_dies hv _ (by simp [orders])
    have e : q = q' := by rw [leaf_foldl hd hq, leaf_foldl hd hq']
    subst e
    have := eqv_flip (eqv_trans (eqv_symm he) he')
    rw [Pos.flip_flip, Pos.flip_flip] at this
    exact legal_eqv_eq hb hv (legalFor_entry hb hv h).1 (legalFor_entry hb hv h').1 this

/-- **C100, what is always true.** A text occurs at most twice in the list of `legal_moves`; if it is listed for two different children,
`apply_move` turns it into one of the two, the roll is not a double and both sides have a checker on the bar. -/
theorem C100_twice_partial (p : Pos N) (hb : p.BarsOK) (dice : Dice) (hv : dice.Valid) (t : Str) :
    ((legalFor p dice).map fun e => formatSteps e.1).count t ≤ 2 ∧
    ∀ c c', (t, c) ∈ (legalFor p dice).map (fun e => (formatSteps e.1, e.2)) → (t, c') ∈ (legalFor p dice).map (fun e => (formatSteps e.1, e.2)) →
      c ≠ c' → (applyFor p dice t = some c ∨ applyFor p dice t = some c') ∧ (∃ b s, dice = .mixed b s) ∧ 1 ≤ p.view.x 25 ∧ 1 ≤ p.view.o 0 := by
  have two : ∀ c c', (t, c) ∈ (legalFor p dice).map (fun e => (formatSteps e.1, e.2)) →
      (t, c') ∈ (legalFor p dice).map (fun e => (formatSteps e.1, e.2)) →
      c ≠ c' → (applyFor p dice t = some c ∨ applyFor p dice t = some c') ∧ (∃ b s, dice = .mixed b s) ∧ 1 ≤ p.view.x 25 ∧ 1 ≤ p.view.o 0 := by
    intro c c' h h' hne
    obtain ⟨⟨l, d⟩, hl, e⟩ := List.mem_map.1 h
    obtain ⟨⟨l', d'⟩, hl', e'⟩ := List.mem_map.1 h'
    simp only [Prod.mk.injEq] at e e'
    obtain ⟨et, rfl⟩ := e
    obtain ⟨et', rfl⟩ := e'
    have el : l = l' := entry_text_inj hb hv hl hl' (by rw [et, et'])
    subst el
    subst et
    have hor : applyFor p dice (formatSteps l) = some d ∨ applyFor p dice (formatSteps l) = some d' := by
      by_contra hc
      rw [not_or] at hc
      exact hne (entry_wrong_unique hb hv hl hl' hc.1 hc.2)
    refine ⟨hor, ?_⟩
    cases dice with
    | double e =>
      have k1 := entry_double hb hv hl
      have k2 := entry_double hb hv hl'
      rw [k1] at k2
      exact absurd (Option.some.inj k2) hne
    | mixed b s =>
      refine ⟨⟨b, s, rfl⟩, ?_⟩
      have hbars : 1 ≤ p.pip 25 ∧ p.pip 0 ≤ -1 := by
        rcases hor with hr | hr
        · exact dup_bars hb hv hl hl' hr (by rw [hr]; exact fun e => hne (Option.some.inj e))
        · exact dup_bars hb hv hl' hl hr (by rw [hr]; exact fun e => hne (Option.some.inj e).symm)
      simp only [view]
      omega
  refine ⟨?_, two⟩
  -- three occurrences would be three different children, and only two can be right or wrong
  by_contra hc
  have hlen : 3 ≤ ((legalFor p dice).filter fun e => formatSteps e.1 == t).length := by
    rw [← List.countP_eq_length_filter]
    have : ((legalFor p dice).map fun e => formatSteps e.1).count t = (legalFor p dice).countP fun e => formatSteps e.1 == t := by
      rw [List.count, List.countP_map]; rfl
    omega
  have hnd : (((legalFor p dice).filter fun e => formatSteps e.1 == t).map Prod.snd).Nodup :=
    (C35_children p hb dice hv).1.sublist (List.filter_sublist.map _)
  have hmem : ∀ e ∈ (legalFor p dice).filter fun e => formatSteps e.1 == t, (t, e.2) ∈ (legalFor p dice).map (fun e => (formatSteps e.1, e.2)) := by
    intro e he
    obtain ⟨h1, h2⟩ := List.mem_filter.1 he
    exact List.mem_map.2 ⟨e, h1, by simpa using h2⟩
  match hL : (legalFor p dice).filter fun e => formatSteps e.1 == t with
  | [] => rw [hL] at hlen; simp at hlen
  | [_] => rw [hL] at hlen; simp at hlen
  | [_, _] => rw [hL] at hlen; simp at hlen
  | e1 :: e2 :: e3 :: rest =>
    rw [hL] at hnd hmem
    simp only [List.map_cons, List.nodup_cons, List.mem_cons, not_or] at hnd
    have m1 := hmem e1 (by simp)
    have m2 := hmem e2 (by simp)
    have m3 := hmem e3 (by simp)
    obtain ⟨⟨n1, n2, -⟩, ⟨n3, -⟩, -⟩ := hnd
    have k1 := (two _ _ m1 m2 n1).1
    have k2 := (two _ _ m1 m3 n2).1
    have k3 := (two _ _ m2 m3 n3).1
    rcases k1 with k1 | k1
    · rcases k3 with k3 | k3
      · rw [k1] at k3; exact n1 (Option.some.inj k3)
      · rw [k1] at k3; exact n2 (Option.some.inj k3)
    · rcases k2 with k2 | k2
      · rw [k1] at k2; exact n1 (Option.some.inj k2).symm
      · rw [k1] at k2; exact n3 (Option.some.inj k2)

/-- **C100, where it holds.** With doubles, and unless both sides have a checker on the bar, the texts of `legal_moves` are pairwise different. -/
theorem C100_distinct_partial (p : Pos N) (hb : p.BarsOK) (dice : Dice) (hv : dice.Valid)
    (h : (∃ d, dice = .double d) ∨ p.view.x 25 = 0 ∨ p.view.o 0 = 0) : ((legalFor p dice).map fun e => formatSteps e.1).Nodup := by
  rw [List.Nodup, List.pairwise_map]
  have hnd := (C35_children p hb dice hv).1
  rw [List.Nodup, List.pairwise_map] at hnd
  refine List.Pairwise.imp_of_mem ?_ hnd
  intro a a' ha ha' hne e
  obtain ⟨-, ⟨b, s, hd⟩, h1, h2⟩ := (C100_twice_partial p hb dice hv (formatSteps a.1)).2 a.2 a'.2 (List.mem_map.2 ⟨a, ha, rfl⟩)
    (List.mem_map.2 ⟨a', ha', by rw [e]⟩) hne
  rcases h with ⟨d, hd'⟩ | h | h
  · rw [hd] at hd'; cases hd'
  · omega
  · omega

example := C100_distinct_partial Ex.start (by decide) (.mixed 3 1) (by decide) (Or.inr (Or.inl (by decide +kernel)))
/-- The list where C36 fails has no repeated text. -/
example := C100_distinct_partial Ex.doubleHit (by decide) (.mixed 3 1) (by decide) (Or.inr (Or.inl (by decide +kernel)))

/-- x: bar, 23, 3, 2; o: bar, 24, 22, 1 (numbered for x). -/
def Ex.bothBars : Pos 4 := Ex.cells 4 [-1, -1, 1, 1, 0, 0, 0, 0, 0, 0, 0, 0, 0, 0, 0, 0, 0, 0, 0, 0, 0, 0, -1, 1, -1, 1] 0 0

/-- **C100 is false of the code**: with 2-1 the plays bar/23 3/2 and bar/24* 3/1* are both listed with the text `bar/23 3/2`. -/
theorem C100_counterexample : Ex.bothBars.Valid ∧
    (formatSteps [⟨25, 23⟩, ⟨3, 2⟩] = "bar/23 3/2".toList) ∧
    ([⟨25, 23⟩, ⟨3, 2⟩], ((Ex.bothBars.mv 25 2).mv 3 1).flip) ∈ legalFor Ex.bothBars (.mixed 2 1) ∧
    ([⟨25, 23⟩, ⟨3, 2⟩], ((Ex.bothBars.mv 25 1).mv 3 2).flip) ∈ legalFor Ex.bothBars (.mixed 2 1) ∧
    ((Ex.bothBars.mv 25 2).mv 3 1).flip ≠ ((Ex.bothBars.mv 25 1).mv 3 2).flip := by decide +kernel

example := C100_twice_partial Ex.bothBars (by decide) (.mixed 2 1) (by decide) "bar/23 3/2".toList

/-- **C100** For positions of every variant (`legal_moves`). -/
theorem C100_variant_partial (q : VPos) (hx : q.view.x 0 = 0) (ho : q.view.o 25 = 0) (dice : Dice) (hv : dice.Valid)
    (h : (∃ d, dice = .double d) ∨ q.view.x 25 = 0 ∨ q.view.o 0 = 0) : ((legalV q dice).map Prod.fst).Nodup := by
  have key : ∀ {N : Nat} (p : Pos N), p.view.x 0 = 0 → p.view.o 25 = 0 → ((∃ d, dice = .double d) ∨ p.view.x 25 = 0 ∨ p.view.o 0 = 0) →
      ((legalFor p dice).map fun e => formatSteps e.1).Nodup := by
    intro N p h1 h2 h3
    have hb : p.BarsOK := ⟨by simp only [view] at h1; omega, by simp only [view] at h2; omega⟩
    exact C100_distinct_partial p hb dice hv h3
  cases q with
  | backgammon p => simpa [legalV, legalStepsV, Function.comp_def] using key p hx ho h
  | nackgammon p => simpa [legalV, legalStepsV, Function.comp_def] using key p hx ho h
  | longgammon p => simpa [legalV, legalStepsV, Function.comp_def] using key p hx ho h
  | hypergammon p => simpa [legalV, legalStepsV, Function.comp_def] using key p hx ho h
  | hypergammon2 p => simpa [legalV, legalStepsV, Function.comp_def] using key p hx ho h
  | hypergammon4 p => simpa [legalV, legalStepsV, Function.comp_def] using key p hx ho h
  | hypergammon5 p => simpa [legalV, legalStepsV, Function.comp_def] using key p hx ho h

/-- The counterexample is a position of `Hypergammon (4)`: the list of its legal moves has a text twice. -/
example : ¬ ((legalV (.hypergammon4 Ex.bothBars) (.mixed 2 1)).map Prod.fst).Nodup := by decide +kernel
/-- The start of the game. -/
example := C100_variant_partial (.hypergammon4 (Ex.cells 4 [0, -1, -1, -1, -1, 0, 0, 0, 0, 0, 0, 0, 0, 0, 0, 0, 0, 0, 0, 0, 0, 1, 1, 1, 1, 0] 0 0))
  (by decide +kernel) (by decide +kernel) (.mixed 2 1) (by decide) (Or.inr (Or.inl (by decide +kernel)))

end Bkgm
