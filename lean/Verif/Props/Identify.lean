import Verif.Props.GnuId
import Verif.Props.Xgid
import Verif.Props.Fibs
import Verif.Props.ShowBoard
import Verif.Props.DbHash
import Verif.Props.Game
/-!
# C104: all names of a position name the same thing
-/

namespace Bkgm
open Pos
variable {N : Nat}

theorem fibs_turn (p : Pos N) : (Fibs.encode p)[5]? = some (if p.turn then 'x' else 'o') := by
  unfold Fibs.encode
  cases p.turn <;> rfl

theorem fibs_injective (hN : N ≤ 127) (p q : Pos N) (hp : p.Valid) (hq : q.Valid) : Fibs.encode p = Fibs.encode q ↔ p = q := by
  refine ⟨fun h => ?_, fun h => by rw [h]⟩
  have ht : p.turn = q.turn := by
    have h1 := fibs_turn p
    rw [h, fibs_turn q] at h1
    revert h1
    cases p.turn <;> cases q.turn <;> decide
  have h' : Fibs.encode ({ p with turn := true } : Pos N) = Fibs.encode ({ q with turn := true } : Pos N) := by
    unfold Fibs.encode at h ⊢
    rw [ht] at h
    simp only [List.append_assoc] at h ⊢
    have h2 := List.append_cancel_left (List.append_cancel_left h)
    simp only [if_true]
    exact congrArg (fun r => "turn=".toList ++ (['x'] ++ r)) h2
  have e1 := C28_round_trip_partial hN ({ p with turn := true } : Pos N) hp rfl true
  have e2 := C28_round_trip_partial hN ({ q with turn := true } : Pos N) hq rfl true
  rw [h', e2] at e1
  have e := Except.ok.inj (Option.some.inj e1)
  cases p; cases q
  simp only [Pos.mk.injEq] at e ht ⊢
  exact ⟨ht, e.2.1.symm, e.2.2.1.symm, e.2.2.2.symm⟩

theorem xgid_injective (hN : N ≤ 16) (p q : Pos N) (hp : p.Valid) (hq : q.Valid) : Xgid.encode p = Xgid.encode q ↔ p.view = q.view := by
  constructor
  · intro h
    have e1 := (C25_round_trip hN p hp true).2
    have e2 := (C25_round_trip hN q hq true).2
    rw [h, e2] at e1
    have e := Except.ok.inj (Option.some.inj e1)
    exact (congrArg Pos.view e).symm
  · intro h
    have e1 := ((C55_eq_and_hash p q).1).2 h
    simp only [eqv, Bool.and_eq_true, decide_eq_true_eq] at e1
    unfold Xgid.encode Pos.xBar Pos.oBar Pos.pip
    rw [e1.1.1]

/-- **C104** For two valid positions with the same number of checkers, up to 15, these are all the same: the boards are the same (point by point, bars
and checkers borne off), they compare equal, they hash alike, they have the same GNU id, the same XGID board, the same debug text, the same printed
board, and the same database number, if there is one. The FIBS text says who is to move as well. -/
theorem C104_names (hN : N ≤ 15) (h1 : 1 ≤ N) (p q : Pos N) (hp : p.Valid) (hq : q.Valid) :
    (p.eqv q = true ↔ p.view = q.view) ∧ (p.hashInput = q.hashInput ↔ p.view = q.view) ∧
    (GnuId.encode p = GnuId.encode q ↔ p.view = q.view) ∧ (Xgid.encode p = Xgid.encode q ↔ p.view = q.view) ∧
    (p.debugText = q.debugText ↔ p.view = q.view) ∧ (p.showBoard = q.showBoard ↔ p.view = q.view) ∧
    (∀ a b, dbhash .debug p = some a → dbhash .debug q = some b → (a = b ↔ p.view = q.view)) ∧
    (Fibs.encode p = Fibs.encode q ↔ p.turn = q.turn ∧ p.view = q.view) := by
  have e := (C55_eq_and_hash p q).1
  have e2 := (C55_eq_and_hash p q).2.1
  refine ⟨e, e2.symm.trans e, (C22_injective hN p q hp hq).trans e, xgid_injective (by omega) p q hp hq, (C56_debug_injective p q hp hq h1).trans e,
    (C59_show_injective p q hp hq (by omega)).trans e, fun a b ha hb => (C30_perfect_hash (by omega) p q hp hq a b ha hb).1.trans e, ?_⟩
  rw [fibs_injective (by omega) p q hp hq]
  exact ⟨fun h => h ▸ ⟨rfl, rfl⟩, fun h => view_inj h.1 h.2⟩

/-- **C104** The same for the positions of a variant. -/
theorem C104_variant (v : Variant) (q r : VPos) (hq : VPos.ValidFor v q) (hr : VPos.ValidFor v r) :
    (q.eqv r = true ↔ q.view = r.view) ∧ (GnuId.encodeV q = GnuId.encodeV r ↔ q.view = r.view) ∧ (Xgid.encodeV q = Xgid.encodeV r ↔ q.view = r.view) ∧
    (Fibs.encodeV q = Fibs.encodeV r ↔ q = r) ∧ (q = r ↔ q.turn = r.turn ∧ q.view = r.view) := by
  obtain ⟨rfl, hq⟩ := hq
  obtain ⟨hv, hr⟩ := hr
  cases q <;> cases r <;> first | (cases hv; done) | skip
  all_goals
    rename_i p p'
    have e := C104_names (by omega) (by omega) p p' hq hr
    simp only [GnuId.encodeV, Xgid.encodeV, Fibs.encodeV, VPos.encodeWith, VPos.view, VPos.turn, VPos.eqv, VPos.backgammon.injEq, VPos.nackgammon.injEq,
      VPos.longgammon.injEq, VPos.hypergammon.injEq, VPos.hypergammon2.injEq, VPos.hypergammon4.injEq, VPos.hypergammon5.injEq]
    exact ⟨e.1, e.2.2.1, e.2.2.2.1, fibs_injective (by omega) p p' hq hr, ⟨fun h => h ▸ ⟨rfl, rfl⟩, fun h => view_inj h.1 h.2⟩⟩

/-- Two different positions, all of whose names differ; and two that differ only in the turn. -/
example : GnuId.encode Ex.hitPos ≠ GnuId.encode Ex.barPos ∧ Xgid.encode Ex.hitPos ≠ Xgid.encode Ex.barPos ∧
    Ex.hitPos.showBoard ≠ Ex.barPos.showBoard ∧ Fibs.encode Ex.hitPos ≠ Fibs.encode Ex.barPos := by
  have h := C104_names (by omega) (by omega) Ex.hitPos Ex.barPos (by decide) (by decide)
  have hne : ¬ Ex.hitPos.view = Ex.barPos.view := fun e => absurd (h.1.2 e) (by decide)
  exact ⟨fun e => hne (h.2.2.1.1 e), fun e => hne (h.2.2.2.1.1 e), fun e => hne (h.2.2.2.2.2.1.1 e), fun e => hne (h.2.2.2.2.2.2.2.1 e).2⟩
example : Fibs.encode Ex.start ≠ Fibs.encode ({ Ex.start with turn := false } : Pos 15) := by
  have h := C104_names (by omega) (by omega) Ex.start ({ Ex.start with turn := false } : Pos 15) (by decide) (by decide)
  exact fun e => absurd (h.2.2.2.2.2.2.2.1 e).1 (by decide)
example : GnuId.encodeV (.hypergammon fibsPos) ≠ GnuId.encodeV Variant.hypergammon.startPosition ∧
    Xgid.encodeV (.hypergammon fibsPos) ≠ Xgid.encodeV Variant.hypergammon.startPosition := by
  have h := C104_variant .hypergammon (.hypergammon fibsPos) Variant.hypergammon.startPosition ⟨rfl, C28_counterexample.1.1⟩ (C41_start_position _).1
  have hne : ¬ (VPos.hypergammon fibsPos).view = Variant.hypergammon.startPosition.view := by
    intro e
    have e' := congrArg (fun b : Spec.Board => b.x 24) e
    exact absurd e' (by decide)
  exact ⟨fun e => hne (h.2.1.1 e), fun e => hne (h.2.2.1.1 e)⟩

end Bkgm
