import Verif.Model.MoveGen
import Mathlib.Tactic.SplitIfs
/-!
# The move generator does not look at the checkers off (lemmas for C95)
-/

namespace Bkgm
namespace Rel
open Pos
variable {M N : Nat}

/-- The same board, with `a` and `b` more checkers off. -/
def more (N a b : Nat) (p : Pos M) : Pos N := ⟨p.turn, p.pips, p.xOff + a, p.oOff + b⟩

variable {a b : Nat}

theorem mv_more (p : Pos M) (f d : Nat) : (more N a b p).mv f d = more N a b (p.mv f d) := by
  unfold Pos.mv
  have e1 : ∀ (q : Pos M) i v, (more N a b q).set i v = more N a b (q.set i v) := fun _ _ _ => rfl
  have e2 : ∀ (q : Pos M) i, (more N a b q).pip i = q.pip i := fun _ _ => rfl
  simp only [e1, e2]
  split_ifs
  · rfl
  · rfl
  · simp only [more, Pos.mk.injEq, true_and, and_true]
    omega

theorem ite_more {c : Prop} [Decidable c] {x y : List (Pos M)} {x' y' : List (Pos N)} (h1 : c → x' = x.map (more N a b)) (h2 : ¬ c → y' = y.map (more N a b)) :
    (if c then x' else y') = (if c then x else y).map (more N a b) := by
  split_ifs with h
  · exact h1 h
  · exact h2 h

theorem flatMap_more {f : Nat → List (Pos M)} {g : Nat → List (Pos N)} (l : List Nat) (h : ∀ i, g i = (f i).map (more N a b)) :
    l.flatMap g = (l.flatMap f).map (more N a b) := by
  rw [List.map_flatMap]
  congr 1
  exact funext h

theorem movesFrom_more (p : Pos M) (d : Nat) (l : List Nat) : (more N a b p).movesFrom d l = (p.movesFrom d l).map (more N a b) :=
  flatMap_more l fun i => ite_more (fun _ => by rw [mv_more]; rfl) fun _ => rfl

theorem afterEntering_more (p : Pos M) (d : Nat) : (more N a b p).afterEntering d = (more N a b (p.afterEntering d).1, (p.afterEntering d).2) := by
  unfold Pos.afterEntering
  have e1 : ∀ (q : Pos M) i v, (more N a b q).set i v = more N a b (q.set i v) := fun _ _ _ => rfl
  have e2 : ∀ (q : Pos M) i, (more N a b q).pip i = q.pip i := fun _ _ => rfl
  simp only [e1, e2]
  split_ifs <;> rfl

theorem movableLoop_more (d m : Nat) : ∀ (n c : Nat) (p : Pos M),
    movableLoop d m n c (more N a b p) = ((movableLoop d m n c p).1, more N a b (movableLoop d m n c p).2)
  | 0, c, p => rfl
  | n + 1, c, p => by
    have e1 : ∀ (q : Pos M) i v, (more N a b q).set i v = more N a b (q.set i v) := fun _ _ _ => rfl
    have e2 : ∀ (q : Pos M) i, (more N a b q).pip i = q.pip i := fun _ _ => rfl
    have e3 : (more N a b p).canMoveB (n + 1) d = p.canMoveB (n + 1) d := rfl
    unfold movableLoop
    simp only [e1, e2, e3]
    split_ifs <;> first | exact movableLoop_more d m n _ _ | rfl

theorem numberOfMovable_more (p : Pos M) (d e : Nat) : (more N a b p).numberOfMovable d e = p.numberOfMovable d e := by
  unfold Pos.numberOfMovable
  simp only [movableLoop_more]
  rfl

theorem doubleAfterEntering_more (p : Pos M) (d e : Nat) : (more N a b p).doubleAfterEntering d e = (p.doubleAfterEntering d e).map (more N a b) := by
  unfold Pos.doubleAfterEntering
  simp only [numberOfMovable_more]
  refine ite_more (fun _ => rfl) fun _ => flatMap_more _ fun i1 => ite_more (fun _ => ?_) fun _ => rfl
  rw [mv_more]
  refine ite_more (fun _ => rfl) fun _ => flatMap_more _ fun i2 => ite_more (fun _ => ?_) fun _ => rfl
  rw [mv_more]
  refine ite_more (fun _ => rfl) fun _ => flatMap_more _ fun i3 => ite_more (fun _ => ?_) fun _ => rfl
  rw [mv_more]
  refine ite_more (fun _ => rfl) fun _ => flatMap_more _ fun i4 => ite_more (fun _ => ?_) fun _ => rfl
  rw [mv_more]
  rfl

theorem doubleMoves_more (p : Pos M) (d : Nat) : (more N a b p).doubleMoves d = (p.doubleMoves d).map (more N a b) := by
  unfold Pos.doubleMoves
  refine ite_more (fun _ => rfl) fun _ => ?_
  rw [afterEntering_more]
  exact ite_more (fun _ => rfl) fun _ => doubleAfterEntering_more _ _ _

theorem enter_more (p : Pos M) (d : Nat) : (more N a b p).enter d = more N a b (p.enter d) := by
  unfold Pos.enter
  have e1 : ∀ (q : Pos M) i v, (more N a b q).set i v = more N a b (q.set i v) := fun _ _ _ => rfl
  have e2 : ∀ (q : Pos M) i, (more N a b q).pip i = q.pip i := fun _ _ => rfl
  simp only [e1, e2]
  split_ifs <;> rfl

theorem canEnter_more (p : Pos M) (d : Nat) : (more N a b p).canEnter d = p.canEnter d := rfl

theorem mixed1_more (p : Pos M) (big small : Nat) : (more N a b p).mixed1 big small = (p.mixed1 big small).map (more N a b) := by
  unfold Pos.mixed1
  have e2 : ∀ (q : Pos M) i, (more N a b q).pip i = q.pip i := fun _ _ => rfl
  simp only [canEnter_more, enter_more, e2]
  by_cases h1 : p.canEnter big = true <;> by_cases h2 : p.canEnter small = true <;>
    simp only [h1, h2, if_true, if_false, Bool.false_eq_true, movesFrom_more, ← List.map_append, List.isEmpty_map, List.nil_append, List.append_nil] <;>
    first | exact ite_more (fun _ => rfl) fun _ => rfl | rfl

theorem smallFirst_more (p : Pos M) (big small : Nat) : (more N a b p).smallFirst big small = (p.smallFirst big small).map (more N a b) :=
  flatMap_more _ fun i => ite_more (fun _ => by rw [mv_more]; exact movesFrom_more _ _ _) fun _ => rfl

theorem bigFirst_more (p : Pos M) (big small : Nat) : (more N a b p).bigFirst big small = (p.bigFirst big small).map (more N a b) :=
  flatMap_more _ fun i => ite_more (fun _ => by rw [mv_more]; exact movesFrom_more _ _ _) fun _ => rfl

theorem mixed0_more (p : Pos M) (big small : Nat) : (more N a b p).mixed0 big small = (p.mixed0 big small).map (more N a b) := by
  unfold Pos.mixed0
  simp only [smallFirst_more, bigFirst_more, ← List.map_append, List.isEmpty_map, oneCheckerMoves]
  refine ite_more (fun _ => ?_) fun _ => rfl
  simp only [movesFrom_more, List.isEmpty_map]
  exact ite_more (fun _ => ite_more (fun _ => rfl) fun _ => rfl) fun _ => rfl

theorem mixed2_more (p : Pos M) (big small : Nat) : (more N a b p).mixed2 big small = (p.mixed2 big small).map (more N a b) := by
  unfold Pos.mixed2
  simp only [canEnter_more, enter_more]
  by_cases h1 : p.canEnter big = true <;> simp only [h1, if_true, if_false, Bool.false_eq_true, canEnter_more, enter_more] <;> split_ifs <;> rfl

theorem played_more (p : Pos M) (dice : Dice) : (more N a b p).playedPositions dice = (p.playedPositions dice).map (more N a b) := by
  cases dice with
  | double d => exact doubleMoves_more p d
  | mixed big small => exact ite_more (fun _ => mixed0_more p big small) fun _ => ite_more (fun _ => mixed1_more p big small) fun _ => mixed2_more p big small

end Rel
end Bkgm
