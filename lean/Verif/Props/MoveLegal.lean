import Verif.Proofs.MoveLegal2
import Verif.Props.MoveApply
/-!
# Properties of the list of legal moves with their texts: C35, C36
-/

namespace Bkgm
open Pos MoveText
variable {N : Nat}

/-- **C35** The positions listed by `legal_moves`: the generated ones in the order of the generator, without repetition. -/
theorem C35_children (p : Pos N) (hb : p.BarsOK) (dice : Dice) (hv : dice.Valid) :
    ((legalFor p dice).map Prod.snd).Nodup ∧ ((legalFor p dice).map Prod.snd).Sublist (p.legalPositions dice) ∧
    (∀ c, c ∈ (legalFor p dice).map Prod.snd ↔ c ∈ p.legalPositions dice) ∧
    ∀ c, c ∈ (legalFor p dice).map Prod.snd ↔ c.turn = !p.turn ∧ Spec.Legal (Spec.faces dice) p.view c.flip.view := by
  rw [legalFor_children hb hv]
  exact ⟨List.nodup_dedup _, List.dedup_sublist _, fun c => List.mem_dedup, fun c => by rw [List.mem_dedup, mem_legal hb hv]⟩

example := C35_children Ex.barPos (by decide) (.mixed 6 5) (by decide)

/-- **C35** For positions of every variant (`legal_moves`). -/
theorem C35_variant_children (q : VPos) (hx : q.view.x 0 = 0) (ho : q.view.o 25 = 0) (dice : Dice) (hv : dice.Valid) :
    ((legalV q dice).map Prod.snd).Nodup ∧ ((legalV q dice).map Prod.snd).Sublist (classicRules q dice) ∧
    ∀ c, c ∈ (legalV q dice).map Prod.snd ↔ c ∈ classicRules q dice := by
  have key : ∀ {N : Nat} (p : Pos N) (f : Pos N → VPos), Function.Injective f → p.view.x 0 = 0 → p.view.o 25 = 0 →
      (((legalFor p dice).map fun e => f e.2).Nodup ∧ ((legalFor p dice).map fun e => f e.2).Sublist ((p.legalPositions dice).map f) ∧
      ∀ c, c ∈ ((legalFor p dice).map fun e => f e.2) ↔ c ∈ (p.legalPositions dice).map f) := by
    intro N p f hf h1 h2
    have hb : p.BarsOK := ⟨by simp only [view] at h1; omega, by simp only [view] at h2; omega⟩
    have e : ((legalFor p dice).map fun e => f e.2) = ((legalFor p dice).map Prod.snd).map f := by simp
    rw [e, legalFor_children hb hv]
    refine ⟨(List.nodup_dedup _).map hf, (List.dedup_sublist _).map f, fun c => ?_⟩
    simp only [List.mem_map, List.mem_dedup]
  cases q with
  | backgammon p =>
    have := key p .backgammon (fun a b h => VPos.backgammon.inj h) hx ho
    simpa [legalV, legalStepsV, classicRules, Function.comp_def] using this
  | nackgammon p =>
    have := key p .nackgammon (fun a b h => VPos.nackgammon.inj h) hx ho
    simpa [legalV, legalStepsV, classicRules, Function.comp_def] using this
  | longgammon p =>
    have := key p .longgammon (fun a b h => VPos.longgammon.inj h) hx ho
    simpa [legalV, legalStepsV, classicRules, Function.comp_def] using this
  | hypergammon p =>
    have := key p .hypergammon (fun a b h => VPos.hypergammon.inj h) hx ho
    simpa [legalV, legalStepsV, classicRules, Function.comp_def] using this
  | hypergammon2 p =>
    have := key p .hypergammon2 (fun a b h => VPos.hypergammon2.inj h) hx ho
    simpa [legalV, legalStepsV, classicRules, Function.comp_def] using this
  | hypergammon4 p =>
    have := key p .hypergammon4 (fun a b h => VPos.hypergammon4.inj h) hx ho
    simpa [legalV, legalStepsV, classicRules, Function.comp_def] using this
  | hypergammon5 p =>
    have := key p .hypergammon5 (fun a b h => VPos.hypergammon5.inj h) hx ho
    simpa [legalV, legalStepsV, classicRules, Function.comp_def] using this

/-- A position where the generator itself repeats a child, and the start position. -/
example : Ex.bearPos.BarsOK ∧ ¬ (Ex.bearPos.legalPositions (.mixed 6 4)).Nodup ∧ ((legalFor Ex.bearPos (.mixed 6 4)).map Prod.snd).Nodup ∧
    Ex.start.BarsOK ∧ (Dice.mixed 3 1).Valid ∧ ((legalFor Ex.start (.mixed 3 1)).map Prod.snd).length = 16 := by decide +kernel

/-- **C36, where it holds.** With doubles, and for plays that hit nothing, the text paired with a child by `legal_moves` leads to that child. -/
theorem C36_text_partial (p c : Pos N) (hb : p.BarsOK) (dice : Dice) (hv : dice.Valid) (l : List Step) (h : (l, c) ∈ legalFor p dice)
    (hh : (∃ d, dice = .double d) ∨ c.flip.view.o 0 = p.view.o 0) : applyFor p dice (formatSteps l) = some c := by
  cases dice with
  | double d => exact entry_double hb hv h
  | mixed b s =>
    obtain ⟨hc, -⟩ := legalFor_entry hb hv h
    rcases entry_mixed hb hv h with h1 | ⟨o, ho, q, hq, he⟩
    · exact h1
    · rcases hh with ⟨d, hd⟩ | hh
      · cases hd
      · obtain ⟨o1, ho1, l1, hl1⟩ := legal_leaf (q := c.flip) hb hv (by rw [Pos.flip_flip]; exact hc)
        have hd1 := orders_dies hv o1 ho1
        have hb1 := (hl1.barsOK hd1 hb).1
        have hb0 := hb.1
        have hhit : c.flip.pip 0 = p.pip 0 := by simp only [view] at hh; omega
        have hhit' := no_cross_hit hb hv hc hhit ho hq he
        exact entry_symmetric hb hv hc ho hq he (symmetric_of_no_hit hb (orders_dies hv o ho) hd1 hq hl1 he hhit hhit')

example : ∃ l c, (l, c) ∈ legalFor Ex.bearPos (.double 2) ∧ applyFor Ex.bearPos (.double 2) (formatSteps l) = some c := by
  have h : (legalFor Ex.bearPos (.double 2))[0]? ≠ none := by decide +kernel
  obtain ⟨⟨l, c⟩, hc⟩ := Option.ne_none_iff_exists'.1 h
  exact ⟨l, c, List.mem_of_getElem? hc, C36_text_partial _ c (by decide) _ (by decide) l (List.mem_of_getElem? hc) (Or.inl ⟨_, rfl⟩)⟩

/-- **C36** When the text is wrong, it is a play of the opponent's from the same board that ends on the same board. -/
theorem C36_wrong_text_partial (p c : Pos N) (hb : p.BarsOK) (dice : Dice) (hv : dice.Valid) (l : List Step) (h : (l, c) ∈ legalFor p dice)
    (hne : applyFor p dice (formatSteps l) ≠ some c) :
    ∃ ms : List (Nat × Nat), l = ms.map (fun m => ⟨m.1, m.1 - m.2⟩) ∧ Spec.Uses (Spec.faces dice) (ms.map Prod.snd) ∧
      Spec.Moves p.view.mirror ms c.flip.view := by
  cases dice with
  | double d => exact absurd (entry_double hb hv h) hne
  | mixed b s =>
    rcases entry_mixed hb hv h with h1 | ⟨o, ho, q, hq, he⟩
    · exact absurd h1 hne
    · have key : ∀ {o : List Nat} {p q : Pos N} {l : List Step}, Dies o → p.BarsOK → Leaf o p l q →
          ∃ ms : List (Nat × Nat), l = ms.map (fun m => ⟨m.1, m.1 - m.2⟩) ∧ (ms.map Prod.snd).Sublist o ∧ Spec.Moves p.view ms q.view := by
        intro o p q l ho hb hl
        induction hl with
        | nil p => exact ⟨[], rfl, by simp, .nil _⟩
        | @move p q f d rest l hc _ ih =>
          have hd := (ho d (by simp)).1
          obtain ⟨ms, e, h1, h2⟩ := ih ho.tail (barsOK_mv hb hd hc)
          refine ⟨(f, d) :: ms, by simp [e], by simpa using h1, .cons (canStep_iff.2 hc) ?_⟩
          rw [after_view hb hd hc]; exact h2
        | skip _ _ ih =>
          obtain ⟨ms, e, h1, h2⟩ := ih ho.tail hb
          exact ⟨ms, e, h1.cons _, h2⟩
      obtain ⟨ms, e, h1, h2⟩ := key (orders_dies hv o ho) (barsOK_flip hb) hq
      refine ⟨ms, e, fun v => ?_, ?_⟩
      · refine (h1.count_le v).trans ?_
        simp only [orders, List.mem_cons, List.not_mem_nil, or_false] at ho
        rcases ho with rfl | rfl
        · exact le_refl _
        · exact (List.Perm.swap b s []).count_eq v ▸ le_refl _
      · rw [← view_flip, ← eqv_view he]; exact h2

/-- x: 15, 13, 12; o: 14, 11, 10. -/
def Ex.doubleHit : Pos 3 := Ex.cells 3 [0, 0, 0, 0, 0, 0, 0, 0, 0, 0, -1, -1, 1, 1, -1, 1, 0, 0, 0, 0, 0, 0, 0, 0, 0, 0] 0 0

/-- **C36 is false of the code**: with 3-1 the play 15/14*/11* is listed with the text `15/12 14/13`, which is a play of the opponent's. -/
theorem C36_counterexample : Ex.doubleHit.Valid ∧
    ([⟨15, 12⟩, ⟨14, 13⟩], ((Ex.doubleHit.mv 15 1).mv 14 3).flip) ∈ legalFor Ex.doubleHit (.mixed 3 1) ∧
    applyFor Ex.doubleHit (.mixed 3 1) "15/12 14/13".toList = none := by decide +kernel

example := C36_wrong_text_partial Ex.doubleHit ((Ex.doubleHit.mv 15 1).mv 14 3).flip (by decide) (.mixed 3 1) (by decide) [⟨15, 12⟩, ⟨14, 13⟩] C36_counterexample.2.1
  (by decide +kernel)

/-- A non-hitting entry, and one for doubles, in a position where hitting is possible. -/
example : Ex.doubleHit.BarsOK ∧ ([⟨12, 9⟩, ⟨13, 12⟩], ((Ex.doubleHit.mv 12 3).mv 13 1).flip) ∈ legalFor Ex.doubleHit (.mixed 3 1) ∧
    ((Ex.doubleHit.mv 12 3).mv 13 1).view.o 0 = Ex.doubleHit.view.o 0 := by decide +kernel

end Bkgm
