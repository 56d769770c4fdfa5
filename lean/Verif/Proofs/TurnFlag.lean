import Verif.Proofs.MoveLegal2
/-!
Helper lemmas for C57: the generator does not look at the turn flag.
-/

namespace Bkgm
namespace Pos
variable {N : Nat} (p : Pos N) (t : Bool)

theorem wt_pip (i : Nat) : (p.withTurn t).pip i = p.pip i := rfl
theorem wt_set (i : Nat) (v : Int) : (p.withTurn t).set i v = (p.set i v).withTurn t := rfl
theorem wt_anyX (a b : Nat) : (p.withTurn t).anyX a b = p.anyX a b := rfl
theorem wt_anyO (a b : Nat) : (p.withTurn t).anyO a b = p.anyO a b := rfl
theorem wt_rposX : (p.withTurn t).rposX = p.rposX := rfl
theorem wt_posO : (p.withTurn t).posO = p.posO := rfl
theorem wt_gameState : (p.withTurn t).gameState = p.gameState := rfl
theorem wt_phase : (p.withTurn t).phase = p.phase := rfl
theorem wt_flip : (p.withTurn t).flip = p.flip.withTurn (!t) := rfl
theorem wt_canMove (i d : Nat) : (p.withTurn t).canMove i d = p.canMove i d := rfl
theorem wt_canMoveB (i d : Nat) : (p.withTurn t).canMoveB i d = p.canMoveB i d := rfl
theorem wt_smallestPip (d : Nat) : (p.withTurn t).smallestPip d = p.smallestPip d := rfl
theorem wt_canEnter (d : Nat) : (p.withTurn t).canEnter d = p.canEnter d := rfl

theorem wt_mv (i d : Nat) : (p.withTurn t).mv i d = (p.mv i d).withTurn t := by
  unfold mv
  simp only [wt_pip, wt_set]
  split_ifs <;> first | rfl | contradiction | (simp [*]; done)

theorem wt_enter (d : Nat) : (p.withTurn t).enter d = (p.enter d).withTurn t := by
  unfold enter
  simp only [wt_pip, wt_set]
  split_ifs <;> first | rfl | contradiction | (simp [*]; done)

theorem wt_movesFrom (d : Nat) (r : List Nat) : (p.withTurn t).movesFrom d r = (p.movesFrom d r).map (·.withTurn t) := by
  unfold movesFrom
  rw [List.map_flatMap]
  congr 1
  funext i
  simp only [wt_canMoveB, wt_mv]
  split_ifs <;> first | rfl | contradiction | (simp [*]; done)

theorem wt_oneChecker (d : Nat) : (p.withTurn t).oneCheckerMoves d = (p.oneCheckerMoves d).map (·.withTurn t) := by
  unfold oneCheckerMoves
  rw [wt_movesFrom]; rfl

theorem wt_smallFirst (b s : Nat) : (p.withTurn t).smallFirst b s = (p.smallFirst b s).map (·.withTurn t) := by
  unfold smallFirst
  rw [List.map_flatMap, wt_smallestPip]
  congr 1
  funext i
  simp only [wt_canMoveB, wt_mv, wt_movesFrom, wt_smallestPip]
  split_ifs <;> first | rfl | contradiction | (simp [*]; done)

theorem wt_bigFirst (b s : Nat) : (p.withTurn t).bigFirst b s = (p.bigFirst b s).map (·.withTurn t) := by
  unfold bigFirst
  rw [List.map_flatMap, wt_smallestPip]
  congr 1
  funext i
  simp only [wt_canMoveB, wt_mv, wt_movesFrom, wt_smallestPip, wt_pip]
  split_ifs <;> first | rfl | contradiction | (simp [*]; done)

theorem wt_mixed0 (b s : Nat) : (p.withTurn t).mixed0 b s = (p.mixed0 b s).map (·.withTurn t) := by
  unfold mixed0
  simp only [wt_smallFirst, wt_bigFirst, wt_oneChecker, ← List.map_append, List.isEmpty_map]
  split_ifs <;> first | rfl | contradiction | (simp [*]; done)

theorem ite_wt {c : Prop} [i1 : Decidable c] [i2 : Decidable c] {a b a' b' : List (Pos N)} (ha : a = a'.map (·.withTurn t))
    (hb : b = b'.map (·.withTurn t)) : @ite _ c i1 a b = (@ite _ c i2 a' b').map (·.withTurn t) := by
  split_ifs <;> assumption

theorem flatMap_wt {l : List Nat} {f g : Nat → List (Pos N)} (h : ∀ i, f i = (g i).map (·.withTurn t)) :
    l.flatMap f = (l.flatMap g).map (·.withTurn t) := by
  rw [List.map_flatMap]; congr 1; funext i; exact h i

theorem wt_mixed1 (b s : Nat) : (p.withTurn t).mixed1 b s = (p.mixed1 b s).map (·.withTurn t) := by
  unfold mixed1
  have e : ∀ x y : List Nat, (if (decide ((p.withTurn t).pip (25 - b) < 0) || decide ((p.withTurn t).pip (25 - s) < 0)) = true then x
    else y) = (if (decide (p.pip (25 - b) < 0) || decide (p.pip (25 - s) < 0)) = true then x else y) := fun _ _ => rfl
  simp only [e]
  generalize (if (decide (p.pip (25 - b) < 0) || decide (p.pip (25 - s) < 0)) = true then rng (b + 1) 25
    else rng (b + 1) (25 - s) ++ rng (25 - s + 1) 25) = r
  simp only [wt_canEnter, wt_enter]
  by_cases hB : p.canEnter b = true <;> by_cases hS : p.canEnter s = true <;>
    simp only [hB, hS, if_true, if_false, wt_movesFrom, ← List.map_append, List.isEmpty_map, List.nil_append, List.append_nil,
      Bool.false_eq_true] <;> split_ifs <;> first | rfl | contradiction | (simp [*]; done)

theorem wt_mixed2 (b s : Nat) : (p.withTurn t).mixed2 b s = (p.mixed2 b s).map (·.withTurn t) := by
  unfold mixed2
  simp only [wt_canEnter, wt_enter]
  by_cases hB : p.canEnter b = true
  · simp only [hB, if_true, wt_canEnter, wt_enter]
    split_ifs <;> first | rfl | contradiction | (simp [*]; done)
  · simp only [hB, if_false, wt_canEnter, wt_enter, Bool.false_eq_true]
    split_ifs <;> first | rfl | contradiction | (simp [*]; done)

theorem wt_mixedMoves (b s : Nat) : (p.withTurn t).mixedMoves b s = (p.mixedMoves b s).map (·.withTurn t) := by
  unfold mixedMoves
  simp only [wt_pip, wt_mixed0, wt_mixed1, wt_mixed2]
  split_ifs <;> first | rfl | contradiction | (simp [*]; done)

theorem wt_movableLoop (d m : Nat) : ∀ (k c : Nat) (p : Pos N), (movableLoop d m k c (p.withTurn t)) =
    ((movableLoop d m k c p).1, (movableLoop d m k c p).2.withTurn t) := by
  intro k
  induction k with
  | zero => intro c p; rfl
  | succ k ih =>
    intro c p
    unfold movableLoop
    simp only [wt_canMoveB, wt_pip, wt_set]
    by_cases h1 : c < m ∧ k + 1 > d
    · by_cases h2 : p.canMoveB (k + 1) d = true
      · by_cases h3 : (p.set (k + 1) 0).pip (k + 1 - d) = -1
        · simp only [h1, h2, h3, if_true, ih, and_self]
        · simp only [h1, h2, h3, if_true, if_false, ih, and_self]
      · simp only [h1, h2, if_true, if_false, ih, and_self, Bool.false_eq_true]
    · simp only [h1, if_false]

theorem wt_numberOfMovable (d e : Nat) : (p.withTurn t).numberOfMovable d e = p.numberOfMovable d e := by
  unfold numberOfMovable
  simp only [wt_movableLoop, wt_rposX]
  rfl

theorem wt_afterEntering (d : Nat) : (p.withTurn t).afterEntering d = ((p.afterEntering d).1.withTurn t, (p.afterEntering d).2) := by
  unfold afterEntering
  by_cases h1 : p.pip 25 = 0
  · rw [if_pos h1, if_pos (show (p.withTurn t).pip 25 = 0 from h1)]
  · rw [if_neg h1, if_neg (show ¬ (p.withTurn t).pip 25 = 0 from h1)]
    by_cases h2 : min 4 (p.pip 25) > 0
    · by_cases h3 : p.pip (25 - d) = -1
      · simp only [wt_pip, wt_set, h2, h3, if_true]
      · simp only [wt_pip, wt_set, h2, h3, if_true, if_false]
    · simp only [wt_pip, wt_set, h2, if_false]

theorem wt_doubleAfterEntering (d e : Nat) : (p.withTurn t).doubleAfterEntering d e = (p.doubleAfterEntering d e).map (·.withTurn t) := by
  unfold doubleAfterEntering
  simp only [wt_numberOfMovable, wt_smallestPip, wt_canMoveB, wt_mv]
  refine ite_wt t rfl (flatMap_wt t fun i1 => ite_wt t (ite_wt t rfl (flatMap_wt t fun i2 => ite_wt t (ite_wt t rfl
    (flatMap_wt t fun i3 => ite_wt t (ite_wt t rfl (flatMap_wt t fun i4 => ite_wt t rfl rfl)) rfl)) rfl)) rfl)

theorem wt_doubleMoves (d : Nat) : (p.withTurn t).doubleMoves d = (p.doubleMoves d).map (·.withTurn t) := by
  unfold doubleMoves
  simp only [wt_pip, wt_afterEntering, wt_doubleAfterEntering]
  split_ifs <;> first | rfl | contradiction | (simp [*]; done)

theorem wt_legal (dice : Dice) : (p.withTurn t).legalPositions dice = (p.legalPositions dice).map (·.withTurn (!t)) := by
  unfold legalPositions playedPositions
  cases dice <;> simp only [wt_doubleMoves, wt_mixedMoves, List.map_map] <;> rfl

end Pos
end Bkgm
