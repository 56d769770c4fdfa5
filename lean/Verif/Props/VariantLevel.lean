import Verif.Props.Game
import Verif.Props.Position
import Verif.Props.MoveGen
/-!
# C73: the variant-level API; C41: the start layouts
-/

namespace Bkgm
open Pos

/-- **C73** The rules for a position of any variant: the children are the positions of the same variant with the turn passed whose board, mirrored back, arises by a
complete legal play. -/
theorem C73_children (q c : VPos) (hx : q.view.x 0 = 0) (ho : q.view.o 25 = 0) (dice : Dice) (hv : dice.Valid) :
    c ∈ classicRules q dice ↔ c.variant = q.variant ∧ c.turn = !q.turn ∧ Spec.Legal (Spec.faces dice) q.view c.view.mirror := by
  have key : ∀ {N : Nat} (p d : Pos N), p.view.x 0 = 0 → p.view.o 25 = 0 →
      (d ∈ p.legalPositions dice ↔ d.turn = !p.turn ∧ Spec.Legal (Spec.faces dice) p.view d.view.mirror) := by
    intro N p d h1 h2
    have hb : p.BarsOK := ⟨by simp only [view] at h1; omega, by simp only [view] at h2; omega⟩
    rw [C01_legal_positions_iff p d hb dice hv, view_flip]
  cases q <;> cases c <;>
    simp only [classicRules, List.mem_map, VPos.variant, VPos.turn, VPos.view, reduceCtorEq, and_false, exists_false, false_and, true_and,
      VPos.backgammon.injEq, VPos.nackgammon.injEq, VPos.longgammon.injEq, VPos.hypergammon.injEq, VPos.hypergammon2.injEq, VPos.hypergammon4.injEq,
      VPos.hypergammon5.injEq, exists_eq_right] <;>
    exact key _ _ hx ho

example := C73_children (.hypergammon Ex.barPos) (.hypergammon ((Ex.barPos.mv 25 5).mv 20 6).flip) (by decide) (by decide) (.mixed 6 5) (by decide)

/-- **C73** There is always a child. -/
theorem C73_never_empty (q : VPos) (hx : q.view.x 0 = 0) (ho : q.view.o 25 = 0) (dice : Dice) (hv : dice.Valid) : classicRules q dice ≠ [] := by
  have key : ∀ {N : Nat} (p : Pos N), p.view.x 0 = 0 → p.view.o 25 = 0 → p.legalPositions dice ≠ [] := by
    intro N p h1 h2
    have hb : p.BarsOK := ⟨by simp only [view] at h1; omega, by simp only [view] at h2; omega⟩
    exact C02_never_empty p hb dice hv
  cases q <;> simp only [classicRules, ne_eq, List.map_eq_nil_iff] <;> exact key _ hx ho

example := C73_never_empty (.hypergammon Ex.blockedPos) (by decide) (by decide) (.double 1) (by decide)

/-- **C73** `game_state` of a position of a variant with `N = variant.checkers` checkers per side. -/
theorem C73_game_state (q : VPos) (hn : ¬ (q.view.xOff = q.variant.checkers ∧ q.view.oOff = q.variant.checkers)) :
    (q.gameState = .ongoing ↔ q.view.xOff ≠ q.variant.checkers ∧ q.view.oOff ≠ q.variant.checkers) ∧
    (q.gameState = .gameOver .winNormal ↔ q.view.xOff = q.variant.checkers ∧ 1 ≤ q.view.oOff) ∧
    (q.gameState = .gameOver .winBackgammon ↔ q.view.xOff = q.variant.checkers ∧ q.view.oOff = 0 ∧ ∃ i ≤ 6, 1 ≤ q.view.o i) ∧
    (q.gameState = .gameOver .winGammon ↔ q.view.xOff = q.variant.checkers ∧ q.view.oOff = 0 ∧ ∀ i ≤ 6, q.view.o i = 0) ∧
    (q.gameState = .gameOver .loseNormal ↔ q.view.oOff = q.variant.checkers ∧ 1 ≤ q.view.xOff) ∧
    (q.gameState = .gameOver .loseBackgammon ↔ q.view.oOff = q.variant.checkers ∧ q.view.xOff = 0 ∧ ∃ i ≥ 19, 1 ≤ q.view.x i) ∧
    (q.gameState = .gameOver .loseGammon ↔ q.view.oOff = q.variant.checkers ∧ q.view.xOff = 0 ∧ ∀ i ≥ 19, q.view.x i = 0) := by
  cases q <;> exact C10_game_state _ hn

example := C73_game_state (.hypergammon (Ex.cells 3 [-1, -2] 3 0)) (by decide)

/-- **C73** `phase` of a valid position of a variant. -/
theorem C73_phase (v : Variant) (q : VPos) (hq : VPos.ValidFor v q) (hn : ¬ (q.view.xOff = v.checkers ∧ q.view.oOff = v.checkers)) :
    q.phase ≠ none ∧
    (∀ r, q.phase = some (.gameOver r) ↔ q.gameState = .gameOver r) ∧
    (q.phase = some (.ongoing .contact) ↔ q.gameState = .ongoing ∧ Spec.Contact q.view) ∧
    (q.phase = some (.ongoing .race) ↔ q.gameState = .ongoing ∧ ¬ Spec.Contact q.view) := by
  obtain ⟨rfl, hq⟩ := hq
  cases q <;> exact C12_phase _ hq hn

example := C73_phase .longgammon _ (C41_start_position _).1 (by decide)

/-- **C73** `==` on positions of variants: the same variant and the same board; the turn is ignored. -/
theorem C73_eq (q r : VPos) : q.eqv r = true ↔ q.variant = r.variant ∧ q.view = r.view := by
  cases q <;> cases r <;> simp only [VPos.eqv, VPos.variant, VPos.view, reduceCtorEq, false_and, Bool.false_eq_true, true_and] <;>
    exact (C55_eq_and_hash _ _).1

/-- **C73** The number of checkers of a position is that of its variant. -/
theorem C73_num_checkers (q : VPos) : q.numCheckers = q.variant.checkers := by cases q <;> rfl

/-- **C14** for the positions of all variants: what the filter of the no-hit rules keeps. -/
theorem C14_variant_partial (q c : VPos) (dice : Dice) : c ∈ noHitRules q dice ↔ c ∈ classicRules q dice ∧ c.view.o 0 ≤ q.view.o 0 := by
  have key : ∀ {N : Nat} (p d : Pos N), d ∈ p.noHitPositions dice ↔ d ∈ p.legalPositions dice ∧ d.view.o 0 ≤ p.view.o 0 :=
    fun p d => C14_no_hit_partial p d dice
  cases q <;> cases c <;> simp only [noHitRules, classicRules, List.mem_map, VPos.view, reduceCtorEq, and_false, exists_false, false_and,
      VPos.backgammon.injEq, VPos.nackgammon.injEq, VPos.longgammon.injEq, VPos.hypergammon.injEq, VPos.hypergammon2.injEq, VPos.hypergammon4.injEq,
      VPos.hypergammon5.injEq, exists_eq_right] <;>
    exact key _ _

/-- A position with a checker of each side, in two variants, and its children. -/
example : (VPos.hypergammon Ex.bearPos).view.x 0 = 0 ∧ (VPos.hypergammon Ex.bearPos).view.o 25 = 0 ∧ (Dice.mixed 6 2).Valid ∧
    ¬ ((VPos.hypergammon Ex.bearPos).view.xOff = 3 ∧ (VPos.hypergammon Ex.bearPos).view.oOff = 3) ∧
    (classicRules (.hypergammon Ex.bearPos) (.mixed 6 2)).length ≠ 0 ∧
    (VPos.backgammon BACKGAMMON).eqv (.nackgammon BACKGAMMON) = false := by decide +kernel

end Bkgm

namespace Spec

/-- The start layouts: points (from the player's own side) with the number of checkers each side has there. -/
def startLayout : Bkgm.Variant → List (Nat × Nat)
  | .backgammon => [(24, 2), (13, 5), (8, 3), (6, 5)]
  | .nackgammon => [(24, 2), (23, 2), (13, 4), (8, 3), (6, 4)]
  | .longgammon => [(24, 15)]
  | .hypergammon => [(24, 1), (23, 1), (22, 1)]
  | .hypergammon2 => [(24, 1), (23, 1)]
  | .hypergammon4 => [(24, 1), (23, 1), (22, 1), (21, 1)]
  | .hypergammon5 => [(24, 1), (23, 1), (22, 1), (21, 1), (20, 1)]

/-- The number of checkers a layout puts on point `i`. -/
def onPoint (l : List (Nat × Nat)) (i : Nat) : Nat := ((l.filter fun e => e.1 = i).map Prod.snd).sum

end Spec

namespace Bkgm

/-- **C41** The start position of each variant is the documented layout, for both sides. -/
theorem C41_layout (v : Variant) (i : Nat) :
    v.startPosition.view.x i = Spec.onPoint (Spec.startLayout v) i ∧
    (i ≤ 25 → v.startPosition.view.o i = Spec.onPoint (Spec.startLayout v) (25 - i)) := by
  by_cases hi : i < 26
  · have : ∀ v : Variant, ∀ i : Fin 26, v.startPosition.view.x i = Spec.onPoint (Spec.startLayout v) i ∧
        v.startPosition.view.o i = Spec.onPoint (Spec.startLayout v) (25 - i) := by
      intro v
      cases v <;> decide +kernel
    have := this v ⟨i, hi⟩
    exact ⟨this.1, fun _ => this.2⟩
  · refine ⟨?_, fun h => by omega⟩
    have h0 : Spec.onPoint (Spec.startLayout v) i = 0 := by
      have hall : ∀ e ∈ Spec.startLayout v, e.1 < 26 := by cases v <;> decide
      unfold Spec.onPoint
      rw [List.filter_eq_nil_iff.2 fun e he => by have := hall e he; simp; omega]
      rfl
    rw [h0]
    have h1 : ∀ q : VPos, q.view.x i = 0 := by
      intro q
      have : ∀ {N : Nat} (p : Pos N), p.view.x i = 0 := fun p => by show (p.pip i).toNat = 0; rw [Pos.pip_ge (by omega)]; rfl
      cases q <;> exact this _
    exact h1 _

example : Spec.onPoint (Spec.startLayout .nackgammon) 13 = 4 := by decide

/-- **C40** The long names of the variants (`spec().name`): the ordinary ones are their short names with a capital, the hypergammon ones give the number of
checkers a player has. They are distinct, too. -/
theorem C40_spec_names (v : Variant) :
    (v.spec.numCheckers = 15 → v.spec.name = (v.toText.head?.map Char.toUpper).toList ++ v.toText.tail) ∧
    (v.spec.numCheckers ≠ 15 → v.spec.name = "Hypergammon (".toList ++ (toString v.spec.numCheckers).toList ++ ")".toList) ∧
    ∀ w : Variant, v.spec.name = w.spec.name → v = w := by
  refine ⟨by cases v <;> decide, by cases v <;> decide, fun w => by cases v <;> cases w <;> decide⟩

end Bkgm
