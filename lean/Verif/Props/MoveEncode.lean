import Verif.Props.Position
import Verif.Props.MoveAccept
import Verif.Props.MoveLegalExact
/-!
# C74: what `encode_move` returns; C70 and C36 at the level of variants
-/

namespace Spec

/-- `Tried o b ms b'`: the dice `o` are tried in this order; a die is played with some checker, or passed over if no checker can play it; the moves made are `ms` and
lead from `b` to `b'`. -/
inductive Tried : List Nat → Board → List (Nat × Nat) → Board → Prop
  | nil (b : Board) : Tried [] b [] b
  | move {b b' : Board} {src die : Nat} {rest : List Nat} {ms : List (Nat × Nat)} :
      CanStep b src die → Tried rest (after b src die) ms b' → Tried (die :: rest) b ((src, die) :: ms) b'
  | pass {b b' : Board} {die : Nat} {rest : List Nat} {ms : List (Nat × Nat)} :
      (∀ src, ¬ CanStep b src die) → Tried rest b ms b' → Tried (die :: rest) b ms b'

theorem Tried.moves {o : List Nat} {b b' : Board} {ms : List (Nat × Nat)} (h : Tried o b ms b') : Moves b ms b' := by
  induction h with
  | nil => exact .nil _
  | move hc _ ih => exact .cons hc ih
  | pass _ _ ih => exact ih

theorem Tried.sublist {o : List Nat} {b b' : Board} {ms : List (Nat × Nat)} (h : Tried o b ms b') : (ms.map Prod.snd).Sublist o := by
  induction h with
  | nil => simp
  | move _ _ ih => exact ih.cons_cons _
  | pass _ _ ih => exact ih.cons _

end Spec

namespace Bkgm
open Pos MoveText
variable {N : Nat}

theorem leaf_tried {o : List Nat} (ho : Dies o) {p q : Pos N} {l : List Step} (h : Leaf o p l q) (hb : p.BarsOK) :
    ∃ ms, l = Spec.stepsOf ms ∧ Spec.Tried o p.view ms q.view := by
  induction h with
  | nil p => exact ⟨[], rfl, .nil _⟩
  | @move p q f d rest l hc _ ih =>
    have hd := (ho d (by simp)).1
    obtain ⟨ms, rfl, h1⟩ := ih ho.tail (barsOK_mv hb hd hc)
    refine ⟨(f, d) :: ms, rfl, .move (canStep_iff.2 hc) ?_⟩
    rw [after_view hb hd hc]; exact h1
  | skip hs _ ih =>
    obtain ⟨ms, rfl, h1⟩ := ih ho.tail hb
    exact ⟨ms, rfl, .pass (fun src h => hs src (canStep_iff.1 h)) h1⟩

theorem tried_leaf {o : List Nat} {b b' : Spec.Board} {ms : List (Nat × Nat)} (h : Spec.Tried o b ms b') :
    ∀ {p : Pos N}, Dies o → p.BarsOK → p.view = b → ∃ q, Leaf o p (Spec.stepsOf ms) q ∧ q.view = b' := by
  induction h with
  | nil b => intro p _ _ e; exact ⟨p, .nil _, e⟩
  | @move b b' f d rest ms hc _ ih =>
    intro p ho hb e
    subst e
    have hc := canStep_iff.1 hc
    have hd := (ho d (by simp)).1
    obtain ⟨q, h1, h2⟩ := ih ho.tail (barsOK_mv hb hd hc) (after_view hb hd hc).symm
    exact ⟨q, .move hc h1, h2⟩
  | pass hs _ ih =>
    intro p ho hb e
    subst e
    obtain ⟨q, h1, h2⟩ := ih ho.tail hb rfl
    exact ⟨q, .skip (fun f h => hs f (canStep_iff.2 h)) h1, h2⟩

theorem mem_orders {dice : Dice} {o : List Nat} : o ∈ orders dice ↔ o.Perm (Spec.faces dice) := by
  cases dice with
  | double d =>
    simp only [orders, List.mem_singleton, Spec.faces]
    refine ⟨fun h => h ▸ .refl _, fun h => ?_⟩
    have : [d, d, d, d] = List.replicate 4 d := rfl
    rw [this] at h ⊢
    exact List.perm_replicate.1 h
  | mixed big small =>
    simp only [orders, List.mem_cons, List.not_mem_nil, or_false, Spec.faces]
    constructor
    · rintro (rfl | rfl)
      · exact .refl _
      · exact .swap _ _ _
    · intro h
      match o, h.length_eq with
      | [a, b], _ =>
        have ha : a ∈ [big, small] := h.mem_iff.1 (by simp)
        simp only [List.mem_cons, List.not_mem_nil, or_false] at ha
        rcases ha with rfl | rfl
        · have := (List.perm_cons _).1 h
          simp at this
          left; simp [this]
        · have := (List.perm_cons _).1 (h.trans (.swap _ _ _))
          simp at this
          right; simp [this]

theorem eqv_view {p q : Pos N} : p.eqv q = true ↔ p.view = q.view := (C55_eq_and_hash p q).1

/-- **C74** What `encode_move` returns is the text of moves that really lead to the given child: for some order of the dice, the moves are made one after the other by
the rules, and a die is passed over only if it cannot be played. -/
theorem C74_encode_sound (p c : Pos N) (hb : p.BarsOK) (dice : Dice) (hv : dice.Valid) (l : List Step) (h : encodeFor p c dice = .ok l) :
    ∃ o ms, o.Perm (Spec.faces dice) ∧ l = Spec.stepsOf ms ∧ Spec.Tried o p.view ms c.view.mirror := by
  unfold encodeFor at h
  cases e : (orders dice).findSome? fun order => findSteps c.flip order p with
  | none => rw [e] at h; cases h
  | some l' =>
    rw [e] at h
    cases h
    obtain ⟨o, ho, hf⟩ := List.exists_of_findSome?_eq_some e
    obtain ⟨q, hq, he⟩ := findSteps_some hb (orders_dies hv o ho) hf
    obtain ⟨ms, hl, ht⟩ := leaf_tried (orders_dies hv o ho) hq hb
    rw [eqv_view.1 he, view_flip] at ht
    exact ⟨o, ms, mem_orders.1 ho, hl, ht⟩

example : ∃ l o ms, encodeFor Ex.barPos ((Ex.barPos.mv 25 5).mv 20 6).flip (.mixed 6 5) = .ok l ∧ o.Perm (Spec.faces (.mixed 6 5)) ∧ l = Spec.stepsOf ms ∧ Spec.Tried o Ex.barPos.view ms ((Ex.barPos.mv 25 5).mv 20 6).flip.view.mirror := by
  obtain ⟨l, hl, -⟩ := C33_encode_apply Ex.barPos ((Ex.barPos.mv 25 5).mv 20 6).flip (by decide) (.mixed 6 5) (by decide) (by decide +kernel)
  obtain ⟨o, ms, h⟩ := C74_encode_sound Ex.barPos _ (by decide) (.mixed 6 5) (by decide) l hl
  exact ⟨l, o, ms, hl, h⟩

/-- **C74** It succeeds exactly if there are such moves; otherwise the error is "target not reachable". -/
theorem C74_encode_ok_iff (p c : Pos N) (hb : p.BarsOK) (dice : Dice) (hv : dice.Valid) :
    ((∃ l, encodeFor p c dice = .ok l) ↔ ∃ o ms, o.Perm (Spec.faces dice) ∧ Spec.Tried o p.view ms c.view.mirror) ∧
    (∀ e, encodeFor p c dice = .error e → e = .encodeTargetNotReachable) := by
  refine ⟨⟨fun ⟨l, h⟩ => ?_, ?_⟩, fun e he => ?_⟩
  · obtain ⟨o, ms, h1, -, h2⟩ := C74_encode_sound p c hb dice hv l h
    exact ⟨o, ms, h1, h2⟩
  · rintro ⟨o, ms, h1, h2⟩
    have ho := mem_orders.2 h1
    obtain ⟨q, hq, hv'⟩ := tried_leaf (p := p) h2 (orders_dies hv o ho) hb rfl
    have h3 : ((orders dice).findSome? fun order => findSteps c.flip order p).isSome = true := by
      rw [List.findSome?_isSome_iff]
      exact ⟨o, ho, findSteps_isSome hb (orders_dies hv o ho) hq (eqv_view.2 (by rw [hv', view_flip]))⟩
    obtain ⟨l, hl⟩ := Option.isSome_iff_exists.1 h3
    exact ⟨l, by unfold encodeFor; rw [hl]⟩
  · unfold encodeFor at he
    cases e1 : (orders dice).findSome? fun order => findSteps c.flip order p with
    | none => rw [e1] at he; cases he; rfl
    | some l' => rw [e1] at he; cases he

example := C74_encode_ok_iff Ex.barPos ((Ex.barPos.mv 25 5).mv 20 6).flip (by decide) (.mixed 6 5) (by decide)

/-- **C74** For positions of variants: different variants are refused as such, and only they. -/
theorem C74_variant_mismatch (q c : VPos) (dice : Dice) :
    (q.variant ≠ c.variant → encodeV q c dice = .error .variantMismatch) ∧
    (q.view.x 0 = 0 → q.view.o 25 = 0 → dice.Valid → encodeV q c dice = .error .variantMismatch → q.variant ≠ c.variant) := by
  have key : ∀ {N : Nat} (p d : Pos N), p.view.x 0 = 0 → p.view.o 25 = 0 → dice.Valid →
      Except.map formatSteps (encodeFor p d dice) = .error .variantMismatch → False := by
    intro N p d h1 h2 hv h
    have hb : p.BarsOK := ⟨by simp only [view] at h1; omega, by simp only [view] at h2; omega⟩
    cases e : encodeFor p d dice with
    | ok l => rw [e] at h; cases h
    | error x =>
      rw [e] at h
      have := (C74_encode_ok_iff p d hb dice hv).2 x e
      subst this
      cases h
  constructor
  · intro h
    cases q <;> cases c <;> first | rfl | exact absurd rfl h
  · intro h1 h2 hv h
    cases q <;> cases c <;> first | (intro h3; cases h3; done) | exact (key _ _ h1 h2 hv h).elim

example : encodeV (.hypergammon Ex.barPos) Variant.backgammon.startPosition (.mixed 6 5) = .error .variantMismatch := (C74_variant_mismatch _ _ _).1 (by decide)

/-- **C74** at the level of variants: the text returned is that of moves leading to the child. -/
theorem C74_variant (q c : VPos) (hx : q.view.x 0 = 0) (ho : q.view.o 25 = 0) (dice : Dice) (hv : dice.Valid) :
    (∀ t, encodeV q c dice = .ok t → q.variant = c.variant ∧
      ∃ o ms, o.Perm (Spec.faces dice) ∧ t = formatSteps (Spec.stepsOf ms) ∧ Spec.Tried o q.view ms c.view.mirror) ∧
    ((∃ t, encodeV q c dice = .ok t) ↔ q.variant = c.variant ∧ ∃ o ms, o.Perm (Spec.faces dice) ∧ Spec.Tried o q.view ms c.view.mirror) := by
  have key : ∀ {N : Nat} (p d : Pos N), p.view.x 0 = 0 → p.view.o 25 = 0 →
      (∀ t, Except.map formatSteps (encodeFor p d dice) = .ok t →
        ∃ o ms, o.Perm (Spec.faces dice) ∧ t = formatSteps (Spec.stepsOf ms) ∧ Spec.Tried o p.view ms d.view.mirror) ∧
      ((∃ t, Except.map formatSteps (encodeFor p d dice) = .ok t) ↔ ∃ o ms, o.Perm (Spec.faces dice) ∧ Spec.Tried o p.view ms d.view.mirror) := by
    intro N p d h1 h2
    have hb : p.BarsOK := ⟨by simp only [view] at h1; omega, by simp only [view] at h2; omega⟩
    refine ⟨fun t h => ?_, ?_⟩
    · cases e : encodeFor p d dice with
      | error x => rw [e] at h; cases h
      | ok l =>
        rw [e] at h
        cases h
        obtain ⟨o, ms, a, rfl, b⟩ := C74_encode_sound p d hb dice hv l e
        exact ⟨o, ms, a, rfl, b⟩
    · rw [← (C74_encode_ok_iff p d hb dice hv).1]
      constructor
      · rintro ⟨t, h⟩
        cases e : encodeFor p d dice with
        | error x => rw [e] at h; cases h
        | ok l => exact ⟨l, rfl⟩
      · rintro ⟨l, h⟩
        exact ⟨formatSteps l, by rw [h]; rfl⟩
  constructor
  · intro t h
    cases q <;> cases c <;> first | exact ⟨rfl, (key _ _ hx ho).1 t h⟩ | (simp [encodeV, encodeStepsV, Except.map] at h; done)
  · cases q <;> cases c <;> first
      | exact (key _ _ hx ho).2.trans ⟨fun h => ⟨rfl, h⟩, fun h => h.2⟩
      | exact ⟨fun ⟨t, h⟩ => (by simp [encodeV, encodeStepsV, Except.map] at h), fun h => (by cases h.1)⟩

example := C74_variant (.hypergammon Ex.barPos) (.hypergammon ((Ex.barPos.mv 25 5).mv 20 6).flip) (by decide) (by decide) (.mixed 6 5) (by decide)

/-- x: 13, 1, 1; o: two on 7, one on 12. -/
def Ex.later : Pos 3 := Ex.cells 3 [0, 2, 0, 0, 0, 0, 0, -2, 0, 0, 0, 0, -1, 1, 0, 0, 0, 0, 0, 0, 0, 0, 0, 0, 0, 0] 0 0

/-- **C74** `encode_move` also encodes children that are not legal (only one of two playable dice used), even ones whose text `apply_move` then refuses. -/
theorem C74_illegal_child_counterexample :
    Ex.later.Valid ∧ (Ex.later.mv 13 2).flip ∉ Ex.later.legalPositions (.mixed 6 2) ∧
    encodeFor Ex.later (Ex.later.mv 13 2).flip (.mixed 6 2) = .ok [⟨13, 11⟩] ∧ applyFor Ex.later (.mixed 6 2) "13/11".toList = none := by
  decide +kernel

/-- **C70** at the level of variants. -/
theorem C70_variant_accept_iff (q c : VPos) (hx : q.view.x 0 = 0) (ho : q.view.o 25 = 0) (dice : Dice) (hv : dice.Valid) (t : Str) :
    applyV q dice t = some c ↔
      c.variant = q.variant ∧ c.turn = (!q.turn) ∧ ∃ ms : List (Nat × Nat), normalize t = some (formatSteps (Spec.stepsOf ms)) ∧
        Spec.Uses (Spec.faces dice) (ms.map Prod.snd) ∧ Spec.Moves q.view ms c.view.mirror ∧
        ∀ die src, (ms.map Prod.snd).count die < (Spec.faces dice).count die → ¬ Spec.CanStep c.view.mirror src die := by
  have key : ∀ {N : Nat} (p d : Pos N), p.view.x 0 = 0 → p.view.o 25 = 0 →
      (applyFor p dice t = some d ↔ d.turn = (!p.turn) ∧ ∃ ms : List (Nat × Nat), normalize t = some (formatSteps (Spec.stepsOf ms)) ∧
        Spec.Uses (Spec.faces dice) (ms.map Prod.snd) ∧ Spec.Moves p.view ms d.view.mirror ∧
        ∀ die src, (ms.map Prod.snd).count die < (Spec.faces dice).count die → ¬ Spec.CanStep d.view.mirror src die) := by
    intro N p d h1 h2
    have hb : p.BarsOK := ⟨by simp only [view] at h1; omega, by simp only [view] at h2; omega⟩
    rw [C70_accept_iff p d hb dice hv t, view_flip]
  cases q <;> cases c <;>
    simp only [applyV, Option.map_eq_some_iff, VPos.variant, VPos.turn, VPos.view, reduceCtorEq, and_false, exists_false, false_and, true_and,
      VPos.backgammon.injEq, VPos.nackgammon.injEq, VPos.longgammon.injEq, VPos.hypergammon.injEq, VPos.hypergammon2.injEq, VPos.hypergammon4.injEq,
      VPos.hypergammon5.injEq, exists_eq_right] <;>
    exact key _ _ hx ho

example := C70_variant_accept_iff (.hypergammon Ex.barPos) (.hypergammon ((Ex.barPos.mv 25 5).mv 20 6).flip) (by decide) (by decide) (.mixed 6 5) (by decide) "bar/20 20/14".toList

/-- **C36** at the level of variants: an entry of `legal_moves` has a text that leads to its child exactly if the text lists moves that do. -/
theorem C36_variant_exact_partial (q c : VPos) (hx : q.view.x 0 = 0) (ho : q.view.o 25 = 0) (dice : Dice) (hv : dice.Valid) (l : List Step)
    (h : (l, c) ∈ legalStepsV q dice) :
    (formatSteps l, c) ∈ legalV q dice ∧
    (applyV q dice (formatSteps l) = some c ↔
      ∃ ms, l = Spec.stepsOf ms ∧ Spec.Uses (Spec.faces dice) (ms.map Prod.snd) ∧ Spec.Moves q.view ms c.view.mirror) := by
  refine ⟨List.mem_map.2 ⟨_, h, rfl⟩, ?_⟩
  have key : ∀ {N : Nat} (p d : Pos N), p.view.x 0 = 0 → p.view.o 25 = 0 → (l, d) ∈ legalFor p dice →
      (applyFor p dice (formatSteps l) = some d ↔
        ∃ ms, l = Spec.stepsOf ms ∧ Spec.Uses (Spec.faces dice) (ms.map Prod.snd) ∧ Spec.Moves p.view ms d.view.mirror) := by
    intro N p d h1 h2 h
    have hb : p.BarsOK := ⟨by simp only [view] at h1; omega, by simp only [view] at h2; omega⟩
    rw [C36_exact_partial p d hb dice hv l h, view_flip]
  cases q <;> cases c <;>
    simp only [legalStepsV, List.mem_map, Prod.mk.injEq, reduceCtorEq, and_false, exists_false, 
      VPos.backgammon.injEq, VPos.nackgammon.injEq, VPos.longgammon.injEq, VPos.hypergammon.injEq, VPos.hypergammon2.injEq, VPos.hypergammon4.injEq,
      VPos.hypergammon5.injEq] at h <;>
    (obtain ⟨⟨l', d'⟩, hm, rfl, rfl⟩ := h
     simp only [applyV, Option.map_eq_some_iff, 
      VPos.backgammon.injEq, VPos.nackgammon.injEq, VPos.longgammon.injEq, VPos.hypergammon.injEq, VPos.hypergammon2.injEq, VPos.hypergammon4.injEq,
      VPos.hypergammon5.injEq, exists_eq_right]
     exact key _ _ hx ho hm)

/-- The hypotheses are met by the start position, and an entry exists. -/
example : (VPos.hypergammon HYPERGAMMON).view.x 0 = 0 ∧ (VPos.hypergammon HYPERGAMMON).view.o 25 = 0 ∧ (Dice.mixed 6 2).Valid ∧
    legalStepsV (.hypergammon HYPERGAMMON) (.mixed 6 2) ≠ [] ∧ HYPERGAMMON.BarsOK := by decide +kernel

end Bkgm
