import Verif.Props.MoveAccept
import Verif.Props.MoveLegal
/-!
# C36: exactly when the text paired with a child by `legal_moves` is right
-/

namespace Bkgm
open Pos MoveText
variable {N : Nat}

theorem stepsOf_single {ms : List (Nat × Nat)} {s : Step} (h : Spec.stepsOf ms = [s]) : ∃ f u, ms = [(f, u)] ∧ s = ⟨f, f - u⟩ := by
  match ms, h with
  | [(f, u)], h => simp [Spec.stepsOf] at h; exact ⟨f, u, rfl, h.symm⟩

/-- **C36, the exact condition.** The text that `legal_moves` pairs with a child is accepted by `apply_move` and gives that child if and only if its steps
are moves of the player's own checkers, each with a die of its own, that lead to the child. (Otherwise they are moves of the opponent:
`C36_wrong_text_partial`.) -/
theorem C36_exact_partial (p c : Pos N) (hb : p.BarsOK) (dice : Dice) (hv : dice.Valid) (l : List Step) (h : (l, c) ∈ legalFor p dice) :
    applyFor p dice (formatSteps l) = some c ↔
      ∃ ms, l = Spec.stepsOf ms ∧ Spec.Uses (Spec.faces dice) (ms.map Prod.snd) ∧ Spec.Moves p.view ms c.flip.view := by
  obtain ⟨hc, -⟩ := legalFor_entry hb hv h
  have hturn := legal_turn hb hv hc
  constructor
  · intro ha
    obtain ⟨-, ms, hn, hu, hm, -⟩ := C34_accepted_partial p c hb dice hv _ ha
    refine ⟨ms, ?_, hu, hm⟩
    have hok := stepsOf_ok hm (uses_pos hv hu)
    have hl : ∀ s ∈ l, s.Ok := by
      obtain ⟨-, x, hx⟩ := legalFor_entry hb hv h
      obtain ⟨q, hq, -⟩ := mem_records.1 (List.mem_of_find?_eq_some hx)
      unfold allLeaves at hq
      obtain ⟨o, ho, hq⟩ := List.mem_flatMap.1 hq
      have hod := orders_dies hv o ho
      rcases List.mem_append.1 hq with hq | hq
      · exact ((mem_paths hb hod).1 hq).ok hod
      · exact ((mem_paths (barsOK_flip hb) hod).1 hq).ok hod
    rw [normalize_format hl] at hn
    change some (formatSteps l) = some (formatSteps (Spec.stepsOf ms)) at hn
    have e := congrArg (fun o => o.bind parseSteps) hn
    simp only [Option.bind_some] at e
    rw [parseSteps_format hl, parseSteps_format (l := Spec.stepsOf ms) hok] at e
    exact Option.some.inj e
  · rintro ⟨ms, rfl, hu, hm⟩
    have hok := stepsOf_ok hm (uses_pos hv hu)
    cases dice with
    | double d => exact entry_double hb hv h
    | mixed b s =>
      have hv' := hv
      obtain ⟨h1, h2, h3⟩ : 1 ≤ s ∧ s < b ∧ b ≤ 6 := hv'
      rcases entry_mixed hb hv h with hr | ⟨o, ho, q, hq, he⟩
      · exact hr
      · have hleg : p.MixedLegal b s c.flip := by
          have := hc
          unfold legalPositions playedPositions at this
          rw [mem_map_flip] at this
          exact (mem_mixedMoves hb h1 h2 h3).1 this
        have accept : (∀ die src, (ms.map Prod.snd).count die < ([b, s] : List Nat).count die → ¬ Spec.CanStep c.flip.view src die) →
            applyFor p (.mixed b s) (formatSteps (Spec.stepsOf ms)) = some c := fun hun =>
          (C70_accept_iff p c hb (.mixed b s) hv _).2 ⟨hturn, ms, normalize_format hok, hu, hm, hun⟩
        have hbs : b ≠ s := by omega
        have memb : ∀ die, 0 < ([b, s] : List Nat).count die → die = b ∨ die = s := by
          intro die hd
          simpa using List.count_pos_iff.1 hd
        have lenle := uses_length hu
        match ms, hm, hu, accept, hq, lenle with
        | [], hm, hu, accept, hq, _ =>
          have e : c.flip = p := by
            generalize e0 : c.flip.view = B at hm
            cases hm
            exact view_inj (by rw [turn_flip, hturn, Bool.not_not]) e0
          refine accept fun die src hd hcs => ?_
          rw [e] at hcs hleg
          have hcan := canStep_iff.1 hcs
          have pp : ∀ a f, 1 ≤ a → p.Can f a → (p.mv f a).view.pipsX < p.view.pipsX := by
            intro a f ha hf
            have := pipsX_mv hb ha hf
            have := hf.lo
            omega
          have two : ∀ a a', 1 ≤ a → 1 ≤ a' → ¬ p.Two a a' p := by
            rintro a a' ha ha' ⟨m, g, hm, hg, e⟩
            have k1 := pp a m ha hm
            have k2 := pipsX_mv (barsOK_mv hb ha hm) ha' hg
            rw [← e] at k2
            omega
          have one : ∀ a, 1 ≤ a → ¬ p.One a p := by
            rintro a ha ⟨m, hm, e⟩
            have := pp a m ha hm
            rw [← e] at this
            omega
          rcases hleg with (k | k) | ⟨-, k | ⟨hb', k | ⟨hs', -⟩⟩⟩
          · exact two _ _ (by omega) (by omega) k
          · exact two _ _ (by omega) (by omega) k
          · exact one _ (by omega) k
          · exact one _ (by omega) k
          · rcases memb die (by simpa using hd) with rfl | rfl
            · exact hb' _ ⟨src, hcan, rfl⟩
            · exact hs' _ ⟨src, hcan, rfl⟩
        | [(f, u)], hm, hu, accept, hq, _ =>
          have huv : ∃ v, (u = b ∧ v = s) ∨ (u = s ∧ v = b) := by
            rcases (uses_mixed hbs).1 hu with e | e | e | e | e <;> simp at e
            · exact ⟨s, Or.inl ⟨e, rfl⟩⟩
            · exact ⟨b, Or.inr ⟨e, rfl⟩⟩
          obtain ⟨v, huv⟩ := huv
          have hu1 : 1 ≤ u := by omega
          have hcan : p.Can f u ∧ c.flip = p.mv f u := by
            generalize e0 : c.flip.view = B at hm
            cases hm with
            | cons hc hm =>
              have hcan := canStep_iff.1 hc
              rw [after_view hb hu1 hcan] at hm
              cases hm
              exact ⟨hcan, view_inj (by rw [turn_flip, hturn, Bool.not_not, turn_mv]) e0⟩
          obtain ⟨hcan, ec⟩ := hcan
          rw [ec] at he hleg
          have hleg' : (p.Two u v (p.mv f u) ∨ p.Two v u (p.mv f u)) ∨ ∀ r, ¬ (p.Two u v r ∨ p.Two v u r) := by
            rcases huv with ⟨rfl, rfl⟩ | ⟨rfl, rfl⟩
            · exact hleg.imp id fun h => h.1
            · exact hleg.imp Or.symm fun h r hr => h.1 r hr.symm
          rcases hleg' with ht | ht
          · -- a bear-off, so the two boards agree
            have hfu := (one_two hb hu1 (by omega) hcan ht).1
            have hsym : p.eqv p.flip = true := by
              have hod := orders_dies (dice := .mixed b s) ⟨h1, h2, h3⟩ o ho
              have hq' := leaf_foldl hod hq
              simp only [Spec.stepsOf, List.map_cons, List.map_nil, List.foldl_cons, List.foldl_nil] at hq'
              have e1 : stepMv p.flip ⟨f, f - u⟩ = p.flip.mv f u := (mv_stepMv (stepMatches_of hu1)).symm
              rw [e1] at hq'
              subst hq'
              obtain ⟨g1, g2, g3⟩ := eqv_iff.1 he
              rw [xOff_mv, xOff_mv, if_neg (by omega), if_neg (by omega)] at g2
              rw [oOff_mv, oOff_mv] at g3
              refine eqv_iff.2 ⟨?_, by omega, g3.symm⟩
              funext i
              have k : (p.flip.mv f u).pip i.val = (p.mv f u).pip i.val := by unfold Pos.pip; rw [g1]
              have hnf : ¬ u < f := by omega
              simp only [pip_mv _ hcan.hi hu1, if_neg hnf] at k
              have k' : p.flip.pip i.val = p.pip i.val := by
                split_ifs at k with hi
                · rw [hi]; omega
                · exact k
              unfold Pos.pip at k'
              rw [dif_pos i.isLt, dif_pos i.isLt] at k'
              exact k'.symm
            exact entry_symmetric hb hv hc ho hq (by rw [ec]; exact he) hsym
          · refine accept fun die src hd hcs => ?_
            rw [ec] at hcs
            have hcan' := canStep_iff.1 hcs
            have hdv : die = v := by
              rcases memb die (by omega) with rfl | rfl <;> rcases huv with ⟨rfl, rfl⟩ | ⟨rfl, rfl⟩ <;> first | rfl | (simp [hbs, hbs.symm] at hd)
            subst hdv
            exact ht _ (Or.inl ⟨f, src, hcan, hcan', rfl⟩)
        | [(f, u), (f', u')], hm, hu, accept, hq, _ =>
          refine accept fun die src hd => ?_
          exfalso
          rcases (uses_mixed hbs).1 hu with e | e | e | e | e <;> simp at e <;> obtain ⟨rfl, rfl⟩ := e <;>
            simp only [List.map_cons, List.map_nil] at hd
          · omega
          · have := (List.Perm.swap u' u []).count_eq die
            omega
        | _ :: _ :: _ :: _, _, _, _, _, hl => simp [Spec.faces] at hl

/-- Both cases occur, in the same list. -/
example : (∃ l c, (l, c) ∈ legalFor Ex.doubleHit (.mixed 3 1) ∧ applyFor Ex.doubleHit (.mixed 3 1) (formatSteps l) = some c) ∧
    ∃ l c, (l, c) ∈ legalFor Ex.doubleHit (.mixed 3 1) ∧ applyFor Ex.doubleHit (.mixed 3 1) (formatSteps l) ≠ some c :=
  ⟨⟨[⟨12, 9⟩, ⟨13, 12⟩], ((Ex.doubleHit.mv 12 3).mv 13 1).flip, by decide +kernel, by decide +kernel⟩,
   ⟨[⟨15, 12⟩, ⟨14, 13⟩], ((Ex.doubleHit.mv 15 1).mv 14 3).flip, by decide +kernel, by decide +kernel⟩⟩

end Bkgm
