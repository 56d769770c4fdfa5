import Verif.Proofs.SameText
/-!
# C101: `encode_move` and `legal_moves` write the same text
-/

namespace Bkgm
open Pos MoveText
variable {N : Nat}

/-- **C101** An entry of `legal_moves` has the steps `encode_move` gives for its child, exactly if its text, applied, leads to that child. -/
theorem C101_same_text (p c : Pos N) (hb : p.BarsOK) (dice : Dice) (hv : dice.Valid) (l : List Step) (h : (l, c) ∈ legalFor p dice) :
    encodeFor p c dice = .ok l ↔ applyFor p dice (formatSteps l) = some c := by
  constructor
  · intro he
    obtain ⟨l', h1, h2⟩ := C33_encode_apply p c hb dice hv (legalFor_entry hb hv h).1
    rw [he] at h1
    cases h1
    exact h2
  · intro hr
    cases dice with
    | double d => exact same_double hb hv h
    | mixed b s => exact same_mixed hb hv h hr

/-- **C101** So always with doubles and for plays that hit nothing. -/
theorem C101_no_hit (p c : Pos N) (hb : p.BarsOK) (dice : Dice) (hv : dice.Valid) (l : List Step) (h : (l, c) ∈ legalFor p dice)
    (hh : (∃ d, dice = .double d) ∨ c.flip.view.o 0 = p.view.o 0) : encodeFor p c dice = .ok l :=
  (C101_same_text p c hb dice hv l h).2 (C36_text_partial p c hb dice hv l h hh)

/-- **C101** For the texts and for positions of every variant: two texts written for one legal child are the same exactly if the listed one leads to it. -/
theorem C101_variant (q c : VPos) (hx : q.view.x 0 = 0) (ho : q.view.o 25 = 0) (dice : Dice) (hv : dice.Valid) (t : Str) (h : (t, c) ∈ legalV q dice) :
    encodeV q c dice = .ok t ↔ applyV q dice t = some c := by
  have key : ∀ {N : Nat} (p : Pos N) (f : Pos N → VPos), (∀ a b, f a = f b → a = b) → p.view.x 0 = 0 → p.view.o 25 = 0 →
      ∀ (l : List Step) (d : Pos N), (l, d) ∈ legalFor p dice →
        ((encodeFor p d dice).map formatSteps = .ok (formatSteps l) ↔ (applyFor p dice (formatSteps l)).map f = some (f d)) := by
    intro N p f hf h1 h2 l d hl
    have hb : p.BarsOK := ⟨by simp only [view] at h1; omega, by simp only [view] at h2; omega⟩
    constructor
    · intro he
      obtain ⟨l', e1, e2⟩ := C33_encode_apply p d hb dice hv (legalFor_entry hb hv hl).1
      rw [e1] at he
      have he : formatSteps l' = formatSteps l := by simpa [Except.map] using he
      rw [← he, e2]
      rfl
    · intro hr
      obtain ⟨d', e1, e2⟩ := Option.map_eq_some_iff.1 hr
      obtain rfl := hf _ _ e2
      rw [(C101_same_text p d' hb dice hv l hl).2 e1]
      rfl
  cases q with
  | backgammon p =>
    simp only [legalV, legalStepsV, List.map_map, List.mem_map, Function.comp_def, Prod.mk.injEq, Prod.exists] at h
    obtain ⟨l, d, hl, rfl, rfl⟩ := h
    exact key p VPos.backgammon (fun a b e => by simpa using e) hx ho l d hl
  | nackgammon p =>
    simp only [legalV, legalStepsV, List.map_map, List.mem_map, Function.comp_def, Prod.mk.injEq, Prod.exists] at h
    obtain ⟨l, d, hl, rfl, rfl⟩ := h
    exact key p VPos.nackgammon (fun a b e => by simpa using e) hx ho l d hl
  | longgammon p =>
    simp only [legalV, legalStepsV, List.map_map, List.mem_map, Function.comp_def, Prod.mk.injEq, Prod.exists] at h
    obtain ⟨l, d, hl, rfl, rfl⟩ := h
    exact key p VPos.longgammon (fun a b e => by simpa using e) hx ho l d hl
  | hypergammon p =>
    simp only [legalV, legalStepsV, List.map_map, List.mem_map, Function.comp_def, Prod.mk.injEq, Prod.exists] at h
    obtain ⟨l, d, hl, rfl, rfl⟩ := h
    exact key p VPos.hypergammon (fun a b e => by simpa using e) hx ho l d hl
  | hypergammon2 p =>
    simp only [legalV, legalStepsV, List.map_map, List.mem_map, Function.comp_def, Prod.mk.injEq, Prod.exists] at h
    obtain ⟨l, d, hl, rfl, rfl⟩ := h
    exact key p VPos.hypergammon2 (fun a b e => by simpa using e) hx ho l d hl
  | hypergammon4 p =>
    simp only [legalV, legalStepsV, List.map_map, List.mem_map, Function.comp_def, Prod.mk.injEq, Prod.exists] at h
    obtain ⟨l, d, hl, rfl, rfl⟩ := h
    exact key p VPos.hypergammon4 (fun a b e => by simpa using e) hx ho l d hl
  | hypergammon5 p =>
    simp only [legalV, legalStepsV, List.map_map, List.mem_map, Function.comp_def, Prod.mk.injEq, Prod.exists] at h
    obtain ⟨l, d, hl, rfl, rfl⟩ := h
    exact key p VPos.hypergammon5 (fun a b e => by simpa using e) hx ho l d hl

/-- The entry where C36 fails: `encode_move` gives another text for the same child. -/
theorem C101_different : ([⟨15, 12⟩, ⟨14, 13⟩], ((Ex.doubleHit.mv 15 1).mv 14 3).flip) ∈ legalFor Ex.doubleHit (.mixed 3 1) ∧
    encodeFor Ex.doubleHit ((Ex.doubleHit.mv 15 1).mv 14 3).flip (.mixed 3 1) = .ok [⟨15, 14⟩, ⟨14, 11⟩] := by
  refine ⟨C36_counterexample.2.1, ?_⟩
  decide +kernel

/-- A list in which both texts agree throughout. -/
example : ∀ e ∈ legalFor Ex.dodge (.mixed 2 1), encodeFor Ex.dodge e.2 (.mixed 2 1) = .ok e.1 ∧ 2 ≤ (legalFor Ex.dodge (.mixed 2 1)).length := by decide +kernel

end Bkgm
