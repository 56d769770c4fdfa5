import Verif.Model.Buffer
import Verif.Proofs.Boards
import Verif.Spec.Examples
/-!
# C71: the output buffer of the move generator
-/

namespace Bkgm
open Pos
variable {N : Nat}

theorem forEach_flatMap {range : List Nat} {body : Nat → List (Pos N) → List (Pos N)} {g : Nat → List (Pos N)} (h : ∀ i b, body i b = b ++ g i)
    (buf : List (Pos N)) : forEach range body buf = buf ++ range.flatMap g := by
  unfold forEach
  induction range generalizing buf with
  | nil => simp
  | cons i r ih => rw [List.foldl_cons, h, ih, List.flatMap_cons, List.append_assoc]

theorem pushMove_eq (p : Pos N) (die i : Nat) (b : List (Pos N)) : p.pushMove die i b = b ++ if p.canMoveB i die then [p.mv i die] else [] := by
  unfold pushMove push
  split_ifs <;> simp

theorem forEach_moves (p : Pos N) (die : Nat) (range : List Nat) (buf : List (Pos N)) :
    forEach range (fun i b => p.pushMove die i b) buf = buf ++ p.movesFrom die range :=
  forEach_flatMap (pushMove_eq p die) buf

theorem twoCheckerInto_eq (p : Pos N) (big small : Nat) (buf : List (Pos N)) :
    p.twoCheckerInto big small buf = buf ++ (p.smallFirst big small ++ p.bigFirst big small) := by
  unfold twoCheckerInto
  simp only [forEach_moves]
  have h1 := fun buf => forEach_flatMap (range := (rng (p.smallestPip small) X_BAR).reverse)
    (body := fun i b => if p.canMoveB i small then b ++ (p.mv i small).movesFrom big (rng ((p.mv i small).smallestPip big) (i + 1)).reverse else b)
    (g := fun i => if p.canMoveB i small then (p.mv i small).movesFrom big (rng ((p.mv i small).smallestPip big) (i + 1)).reverse else [])
    (fun i b => by split_ifs <;> simp) buf
  rw [h1, forEach_flatMap (g := fun i => if p.canMoveB i big then (p.mv i big).movesFrom small
      (if (decide (i ≥ big) && (decide (p.pip (i - big) < 0) || decide (p.pip (i - small) < 0))) = true then rng ((p.mv i big).smallestPip small) i
       else rng ((p.mv i big).smallestPip small) (i - big) ++ rng (max ((p.mv i big).smallestPip small) (i - big + 1)) i) else [])
    (fun i b => by by_cases h : p.canMoveB i big = true <;> simp [h])]
  rw [List.append_assoc]
  rfl

theorem mixed0Into_eq (p : Pos N) (big small : Nat) : p.mixed0Into big small [] = p.mixed0 big small := by
  unfold mixed0Into mixed0 oneCheckerInto oneCheckerMoves push
  simp only [twoCheckerInto_eq, forEach_moves, List.nil_append]
  split_ifs with h1 h2 h3
  all_goals simp_all

theorem mixed1Into_eq (p : Pos N) (big small : Nat) : p.mixed1Into big small [] = p.mixed1 big small := by
  unfold mixed1Into mixed1 push
  simp only [forEach_moves, List.nil_append]
  by_cases h1 : p.canEnter big = true <;> by_cases h2 : p.canEnter small = true <;> simp only [h1, h2, if_true, if_false, List.append_nil, List.nil_append]
  · split_ifs <;> simp_all
  · split_ifs <;> simp_all
  · split_ifs <;> simp_all
  · simp

theorem doubleAfterEnteringInto_eq (p : Pos N) (die entered : Nat) (buf : List (Pos N)) :
    p.doubleAfterEnteringInto die entered buf = p.doubleAfterEntering die entered := by
  unfold doubleAfterEnteringInto doubleAfterEntering
  by_cases h0 : p.numberOfMovable die entered = 0
  · simp [h0, push]
  · simp only [h0, if_false, forEach_moves]
    rw [← List.nil_append (List.flatMap _ _)]
    apply forEach_flatMap
    intro i1 b
    by_cases c1 : p.canMoveB i1 die = true
    · simp only [c1, if_true]
      by_cases n1 : p.numberOfMovable die entered = 1
      · simp [n1, push]
      · simp only [n1, if_false]
        apply forEach_flatMap
        intro i2 b
        by_cases c2 : (p.mv i1 die).canMoveB i2 die = true
        · simp only [c2, if_true]
          by_cases n2 : p.numberOfMovable die entered = 2
          · simp [n2, push]
          · simp only [n2, if_false]
            apply forEach_flatMap
            intro i3 b
            by_cases c3 : ((p.mv i1 die).mv i2 die).canMoveB i3 die = true
            · simp only [c3, if_true]
              by_cases n3 : p.numberOfMovable die entered = 3
              · simp [n3, push]
              · simp only [n3, if_false]
                rfl
            · simp [c3]
        · simp [c2]
    · simp [c1]

theorem flipInPlace_eq (out : List (Pos N)) : flipInPlace out = out.map Pos.flip := by
  unfold flipInPlace
  have key : ∀ k, k ≤ out.length →
      (List.range k).foldl (fun b i => match b[i]? with | some p => b.set i p.flip | none => b) out = (out.take k).map Pos.flip ++ out.drop k := by
    intro k
    induction k with
    | zero => simp
    | succ k ih =>
      intro hk
      rw [List.range_succ, List.foldl_append, ih (by omega), List.foldl_cons, List.foldl_nil]
      have hl : ((out.take k).map Pos.flip).length = k := by simp; omega
      have hg : ((out.take k).map Pos.flip ++ out.drop k)[k]? = some out[k] := by
        rw [List.getElem?_append_right (by omega), hl, Nat.sub_self, List.getElem?_drop, Nat.add_zero, List.getElem?_eq_getElem (by omega)]
      rw [hg]
      simp only
      rw [List.set_append_right _ _ (by omega), hl, Nat.sub_self, List.drop_eq_getElem_cons (by omega), List.set_cons_zero, List.take_succ_eq_append_getElem (by omega),
        List.map_append, List.append_assoc]
      rfl
  refine (key _ le_rfl).trans ?_
  simp

/-- **C71** Whatever the buffer contained before, `generate_legal_positions_in` leaves in it exactly the list of legal positions, in the same order, that a call with
a new buffer returns. -/
theorem C71_buffer_irrelevant (p : Pos N) (dice : Dice) (out : List (Pos N)) : p.legalPositionsIn dice out = p.legalPositions dice := by
  unfold legalPositionsIn legalPositions
  rw [flipInPlace_eq]
  congr 1
  cases dice with
  | double die =>
    show p.doubleMovesInto die out = p.doubleMoves die
    unfold doubleMovesInto doubleMoves push
    simp only [doubleAfterEnteringInto_eq, List.nil_append]
  | mixed big small =>
    show p.mixedMovesInto big small out = p.mixedMoves big small
    unfold mixedMovesInto mixedMoves
    simp only [mixed0Into_eq, mixed1Into_eq]
    rfl

/-- **C71** The same for the rules of the game: with any buffer, the positions left in it are the children by complete legal plays. -/
theorem C71_buffer_legal (p c : Pos N) (hb : p.BarsOK) (dice : Dice) (hv : dice.Valid) (out : List (Pos N)) :
    c ∈ p.legalPositionsIn dice out ↔ c.turn = !p.turn ∧ Spec.Legal (Spec.faces dice) p.view c.flip.view := by
  rw [C71_buffer_irrelevant]
  exact mem_legal hb hv

example := C71_buffer_legal Ex.barPos (Ex.barPos.mv 25 5).flip (by decide) (.mixed 6 5) (by decide) [Ex.barPos, Ex.bearPos]

/-- **C71** Counting and visiting with a scratch buffer: the number is the number of legal positions, and the closure sees every legal position once, in order. -/
theorem C71_len_and_visit {σ : Type} (p : Pos N) (dice : Dice) (scratch : List (Pos N)) (f : σ → Pos N → σ) (s : σ) :
    p.legalPositionsLenIn dice scratch = ((p.legalPositions dice).length, p.legalPositions dice) ∧
    p.forEachLegalIn dice scratch f s = ((p.legalPositions dice).foldl f s, p.legalPositions dice) := by
  unfold legalPositionsLenIn forEachLegalIn
  rw [C71_buffer_irrelevant]
  exact ⟨rfl, rfl⟩

example := C71_len_and_visit Ex.start (.double 6) [Ex.start] (fun (n : Nat) _ => n + 1) 0

/-- **C71** Reusing one buffer for a whole sequence of positions and rolls gives the same as a new buffer each time. -/
theorem C71_reuse (calls : List (Pos N × Dice)) (scratch : List (Pos N)) :
    reuse calls scratch = calls.map fun c => c.1.legalPositions c.2 := by
  induction calls generalizing scratch with
  | nil => rfl
  | cons c rest ih =>
    obtain ⟨p, dice⟩ := c
    show p.legalPositionsIn dice scratch :: reuse rest (p.legalPositionsIn dice scratch) = _
    rw [ih, C71_buffer_irrelevant]
    rfl

/-- A buffer that still holds the legal positions of another roll. -/
example : Ex.start.legalPositionsIn (.mixed 3 1) (Ex.start.legalPositions (.double 6)) ≠ [] ∧
    (Ex.start.legalPositionsIn (.mixed 3 1) (Ex.start.legalPositions (.double 6))).length = 16 := by
  rw [C71_buffer_irrelevant]
  decide +kernel

end Bkgm
