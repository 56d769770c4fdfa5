import Verif.Proofs.Boards
import Verif.Spec.Examples
/-!
# Properties of the move generator: C01, C02, C04–C08, C14
-/

namespace Bkgm
open Pos
variable {N : Nat}

/-- **C01** `legal_positions` returns exactly the positions reached by a legal play, seen from the
opponent's side with the turn passed. -/
theorem C01_legal_positions_iff (p c : Pos N) (hb : p.BarsOK) (dice : Dice) (hv : dice.Valid) :
    c ∈ p.legalPositions dice ↔
      (c.turn = !p.turn ∧ Spec.Legal (Spec.faces dice) p.view c.flip.view) :=
  mem_legal hb hv

/-- The hypotheses of C01 are met, and membership is not trivial. -/
example : Ex.barPos.BarsOK ∧ (Dice.mixed 5 2).Valid ∧
    (((Ex.barPos.mv 25 5).mv 6 2).flip ∈ Ex.barPos.legalPositions (.mixed 5 2)) ∧
    ¬ (Ex.barPos.flip ∈ Ex.barPos.legalPositions (.mixed 5 2)) := by decide

/-- Every legal board has a representing child: the converse reading of C01 at the level of boards. -/
theorem C01_every_play_is_listed (p : Pos N) (hb : p.BarsOK) (dice : Dice) (hv : dice.Valid)
    (b : Spec.Board) (h : Spec.Legal (Spec.faces dice) p.view b) :
    ∃ c ∈ p.legalPositions dice, c.flip.view = b := by
  obtain ⟨used, hu, hp, hmax, hbig⟩ := h
  obtain ⟨q, e, hr⟩ := (play_iff (uses_pos hv hu) hb).1 hp
  refine ⟨q.flip, (mem_legal hb hv).2 ⟨by rw [turn_flip, hr.turn], ?_⟩, by rw [Pos.flip_flip, e]⟩
  rw [Pos.flip_flip, ← e]
  exact ⟨used, hu, hp, hmax, hbig⟩

example : Spec.Legal (Spec.faces (.mixed 5 2)) Ex.barPos.view ((Ex.barPos.mv 25 5).mv 6 2).view := by
  have h := (C01_legal_positions_iff Ex.barPos ((Ex.barPos.mv 25 5).mv 6 2).flip (by decide) (.mixed 5 2)
    (by decide)).1 (by decide)
  rw [Pos.flip_flip] at h
  exact h.2

/-- **C02** The generator never returns an empty list ... -/
theorem C02_never_empty (p : Pos N) (hb : p.BarsOK) (dice : Dice) (hv : dice.Valid) :
    p.legalPositions dice ≠ [] := by
  suffices h : ∃ q, q ∈ p.playedPositions dice by
    obtain ⟨q, hq⟩ := h
    unfold legalPositions
    intro e
    rw [List.map_eq_nil_iff] at e
    rw [e] at hq
    cases hq
  cases dice with
  | mixed big small =>
    obtain ⟨h1, h2, h3⟩ : 1 ≤ small ∧ small < big ∧ big ≤ 6 := hv
    simp only [playedPositions, mem_mixedMoves hb h1 h2 h3]
    unfold MixedLegal
    by_cases e2 : ∃ r, p.Two big small r ∨ p.Two small big r
    · obtain ⟨r, hr⟩ := e2; exact ⟨r, Or.inl hr⟩
    · by_cases e1 : ∃ r, p.One big r
      · obtain ⟨r, hr⟩ := e1
        exact ⟨r, Or.inr ⟨fun r h => e2 ⟨r, h⟩, Or.inl hr⟩⟩
      · by_cases e0 : ∃ r, p.One small r
        · obtain ⟨r, hr⟩ := e0
          exact ⟨r, Or.inr ⟨fun r h => e2 ⟨r, h⟩, Or.inr ⟨fun r h => e1 ⟨r, h⟩, Or.inl hr⟩⟩⟩
        · exact ⟨p, Or.inr ⟨fun r h => e2 ⟨r, h⟩, Or.inr ⟨fun r h => e1 ⟨r, h⟩, Or.inr ⟨fun r h => e0 ⟨r, h⟩, rfl⟩⟩⟩⟩
  | double d =>
    obtain ⟨h1, h2⟩ : 1 ≤ d ∧ d ≤ 6 := hv
    simp only [playedPositions, mem_doubleMoves hb h1 h2]
    unfold DoubleLegal
    -- the longest play of length at most 4
    by_contra hcon
    push Not at hcon
    have : ∀ n, n ≤ 4 → ∃ q, Steps d n p q := by
      intro n
      induction n with
      | zero => intro _; exact ⟨p, .zero _⟩
      | succ n ih =>
        intro hn
        obtain ⟨q, hq⟩ := ih (by omega)
        obtain ⟨m, r, hm, hr, hlt⟩ := hcon q n (by omega) hq
        exact hr.take _ (by omega)
    obtain ⟨q, hq⟩ := this 4 (by omega)
    obtain ⟨m, r, hm, hr, hlt⟩ := hcon q 4 (by omega) hq
    omega

example : Ex.start.BarsOK ∧ (Dice.double 6).Valid := by decide

/-- ... and when no checker can move with any of the dice, it returns exactly the flipped input. -/
theorem C02_no_move (p : Pos N) (hb : p.BarsOK) (dice : Dice) (hv : dice.Valid)
    (hn : ∀ src, ∀ die ∈ Spec.faces dice, ¬ Spec.CanStep p.view src die) :
    p.legalPositions dice = [p.flip] := by
  have hn' : ∀ src, ∀ die ∈ Spec.faces dice, ¬ p.Can src die := fun s d hd hc => hn s d hd (canStep_iff.2 hc)
  unfold legalPositions
  suffices h : p.playedPositions dice = [p] by rw [h]; rfl
  cases dice with
  | mixed big small =>
    obtain ⟨h1, h2, h3⟩ : 1 ≤ small ∧ small < big ∧ big ≤ 6 := hv
    have nb := fun s => hn' s big (by simp [Spec.faces])
    have ns := fun s => hn' s small (by simp [Spec.faces])
    have h25 := hb.2
    have empty : ∀ l : List (Pos N), (∀ q, ¬ q ∈ l) → l.isEmpty = true := by
      intro l; cases l with
      | nil => intro _; rfl
      | cons a l => intro h; exact absurd (by simp) (h a)
    simp only [playedPositions]
    unfold mixedMoves
    split_ifs with e0 e1
    · unfold mixed0
      simp only
      rw [empty (p.smallFirst big small ++ p.bigFirst big small), empty (p.oneCheckerMoves big),
        empty (p.oneCheckerMoves small)]
      · rfl
      · intro q hq
        obtain ⟨a, ha, _⟩ := (mem_oneChecker hb (by omega) (by omega) h1).1 hq
        exact ns a ha
      · intro q hq
        obtain ⟨a, ha, _⟩ := (mem_oneChecker hb (by omega) h3 (by omega)).1 hq
        exact nb a ha
      · intro q hq
        rcases (mem_two0 hb (by omega) h1 h2 h3).1 hq with ⟨a, _, ha, _⟩ | ⟨a, _, ha, _⟩
        · exact nb a ha
        · exact ns a ha
    · have c1 : ¬ p.canEnter big = true := fun h => nb 25 ((canEnter_iff (by omega) h3).1 h)
      have c2 : ¬ p.canEnter small = true := fun h => ns 25 ((canEnter_iff (by omega) (by omega)).1 h)
      unfold mixed1
      simp [c1, c2]
    · have c1 : ¬ p.canEnter big = true := fun h => nb 25 ((canEnter_iff (by omega) h3).1 h)
      have c2 : ¬ p.canEnter small = true := fun h => ns 25 ((canEnter_iff (by omega) (by omega)).1 h)
      unfold mixed2
      simp [c1, c2]
  | double d =>
    obtain ⟨h1, h2⟩ : 1 ≤ d ∧ d ≤ 6 := hv
    have nd := fun s => hn' s d (by simp [Spec.faces])
    have h25 := hb.2
    simp only [playedPositions]
    unfold doubleMoves
    split_ifs with hbl
    · rfl
    · have h0 : p.pip 25 = 0 := by
        by_contra hne
        exact nd 25 ⟨by omega, by omega, by omega, by omega, by intro; omega, by intro; omega, by intro; omega⟩
      have hae : p.afterEntering d = (p, 0) := by unfold afterEntering; rw [if_pos h0]
      rw [hae]
      simp only
      rw [if_neg (by omega)]
      have hz : p.numberOfMovable d 0 = 0 := by
        obtain ⟨_, ⟨q, hq⟩, _⟩ := numberOfMovable_spec (entered := 0) hb (by omega) h1 h2
        generalize p.numberOfMovable d 0 = k at *
        cases hq with
        | zero => rfl
        | succ a _ => exact absurd a (nd _)
      unfold doubleAfterEntering
      simp only [hz, if_true]

/-- `x` cannot enter from the bar with 1-1: the generator returns the flipped position. -/
example : ∀ src, ∀ die ∈ Spec.faces (.double 1), ¬ Spec.CanStep Ex.blockedPos.view src die := by
  intro s d hd hc
  obtain rfl : d = 1 := by simpa [Spec.faces] using hd
  obtain rfl := hc.barFirst (by decide)
  have := hc.unblocked (by decide)
  exact absurd this (by decide)

/-- **C04** Every child of a valid position is valid with the same number of checkers. -/
theorem C04_children_valid (p c : Pos N) (hp : p.Valid) (dice : Dice) (hv : dice.Valid)
    (hc : c ∈ p.legalPositions dice) : c.Valid := by
  obtain ⟨-, used, hu, hpl, -, -⟩ := (mem_legal hp.barsOK hv).1 hc
  have : c.flip.Valid := Spec.Play.valid (uses_pos hv hu) hpl hp
  rw [← Pos.flip_flip c]
  exact this.flip

example : Ex.start.Valid ∧ Ex.barPos.Valid ∧ Ex.bearPos.Valid ∧ (Dice.mixed 6 4).Valid ∧
    ((Ex.bearPos.mv 3 6).mv 2 4).flip ∈ Ex.bearPos.legalPositions (.mixed 6 4) := by decide

/-- **C05** Turn passes; the mover's borne-off count grows by at most the number of dice; the opponent's
is unchanged; the opponent's checkers change only by hits. (In the child the mover is `o`, and the
opponent's number `i` is number `25 - i`.) -/
theorem C05_turn_off_hits (p c : Pos N) (hb : p.BarsOK) (dice : Dice) (hv : dice.Valid)
    (hc : c ∈ p.legalPositions dice) :
    c.turn = !p.turn ∧
    p.xOff ≤ c.oOff ∧ c.oOff ≤ p.xOff + (Spec.faces dice).length ∧
    c.xOff = p.oOff ∧
    (∀ i, 1 ≤ i → i ≤ 24 → c.view.x (25 - i) = p.view.o i ∨ (p.view.o i = 1 ∧ c.view.x (25 - i) = 0)) ∧
    c.view.x 25 = p.view.o 0 +
      ((Finset.Icc 1 24).filter fun i => p.view.o i = 1 ∧ c.view.x (25 - i) = 0).card := by
  obtain ⟨ht, used, hu, hpl, -, -⟩ := (mem_legal hb hv).1 hc
  have hx : ∀ i, i < 26 → c.flip.view.o i = c.view.x (25 - i) := by
    intro i hi; rw [view_flip]; simp [Spec.Board.mirror, hi]
  have h1 := hpl.xOff
  have h2 := hpl.oOff
  have h3 := uses_length hu
  refine ⟨ht, h1.1, by have : c.flip.view.xOff = c.oOff := rfl; have : p.view.xOff = p.xOff := rfl; omega, h2, ?_, ?_⟩
  · intro i a b
    have := hpl.o_points i a
    rwa [hx i (by omega)] at this
  · have h := hpl.hits (uses_pos hv hu)
    rw [hx 0 (by omega)] at h
    rw [h]
    congr 2
    unfold Spec.hitPoints
    apply Finset.filter_congr
    intro i hi
    rw [Finset.mem_Icc] at hi
    rw [hx i (by omega)]

/-- A play that hits a blot on 5 from 10 with a 5. -/
example : Ex.hitPos.BarsOK ∧ (Dice.mixed 5 2).Valid ∧
    ((Ex.hitPos.mv 10 5).mv 5 2).flip ∈ Ex.hitPos.legalPositions (.mixed 5 2) ∧
    ((Ex.hitPos.mv 10 5).mv 5 2).flip.view.x 25 = 1 := by decide

/-- **C06** Pip counts: there is a sequence of moves with (at most) the rolled dice leading to the child
such that the mover's pip count drops by exactly the sum over the moves of `min(source, die)` — hence at
most by the sum of the dice used, and exactly by it when no die is larger than its source — and the
opponent's rises by the number of each hit point. -/
theorem C06_pip_accounting (p c : Pos N) (hb : p.BarsOK) (dice : Dice) (hv : dice.Valid)
    (hc : c ∈ p.legalPositions dice) :
    (∃ ms : List (Nat × Nat), Spec.Uses (Spec.faces dice) (ms.map Prod.snd) ∧
      Spec.Moves p.view ms c.flip.view ∧
      p.view.pipsX = c.flip.view.pipsX + (ms.map fun m => min m.1 m.2).sum ∧
      p.view.pipsX ≤ c.flip.view.pipsX + (ms.map Prod.snd).sum ∧
      ((∀ m ∈ ms, m.2 ≤ m.1) → p.view.pipsX = c.flip.view.pipsX + (ms.map Prod.snd).sum)) ∧
    c.flip.view.pipsO = p.view.pipsO + ∑ i ∈ Spec.hitPoints p.view c.flip.view, i := by
  obtain ⟨ht, used, hu, hpl, -, -⟩ := (mem_legal hb hv).1 hc
  refine ⟨?_, hpl.pipsO (uses_pos hv hu)⟩
  obtain ⟨ms, rfl, hm⟩ := hpl.moves
  have hpos := uses_pos hv hu
  have he := hm.pipsX (fun m h => hpos _ (List.mem_map_of_mem h))
  have hle : ∀ l : List (Nat × Nat), (l.map fun m => min m.1 m.2).sum ≤ (l.map Prod.snd).sum := by
    intro l
    induction l with
    | nil => simp
    | cons m ms ih => simp only [List.map_cons, List.sum_cons]; omega
  refine ⟨ms, hu, hm, he, ?_, ?_⟩
  · rw [he]
    exact Nat.add_le_add_left (hle ms) _
  · intro h
    have e : (ms.map fun m => min m.1 m.2) = ms.map Prod.snd := by
      apply List.map_congr_left
      intro m hm
      have := h m hm
      omega
    rw [he, e]

example : Ex.hitPos.BarsOK ∧ (Dice.mixed 5 2).Valid ∧ Ex.hitPos.view.pipsX = 28 ∧
    ((Ex.hitPos.mv 10 5).mv 5 2).flip ∈ Ex.hitPos.legalPositions (.mixed 5 2) ∧
    ((Ex.hitPos.mv 10 5).mv 5 2).view.pipsX = 21 ∧ Ex.hitPos.view.pipsO = 62 ∧
    ((Ex.hitPos.mv 10 5).mv 5 2).view.pipsO = 67 := by decide

/-- **C07** `Dice::new` does not depend on the order of its arguments (so nothing computed from the roll
does), is a double exactly for equal dice, and otherwise puts the larger die first. -/
theorem C07_dice_new (a b : Nat) :
    Dice.new a b = Dice.new b a ∧
    (a = b → Dice.new a b = .double a) ∧
    (a ≠ b → Dice.new a b = .mixed (max a b) (min a b)) ∧
    (1 ≤ a → a ≤ 6 → 1 ≤ b → b ≤ 6 → (Dice.new a b).Valid) := by
  unfold Dice.new mixedNew
  refine ⟨?_, ?_, ?_, ?_⟩
  · by_cases h : a = b
    · subst h; rfl
    · have h' : ¬ b = a := fun e => h e.symm
      simp only [h, h', if_false]
      split_ifs <;> first | rfl | omega
  · intro h; simp [h]
  · intro h
    simp only [h, if_false]
    split_ifs with h1 <;> simp <;> omega
  · intro h1 h2 h3 h4
    split_ifs <;> simp [Dice.Valid] <;> omega

example : Dice.new 2 5 = .mixed 5 2 ∧ (Dice.new 2 5).Valid := ⟨(C07_dice_new 2 5).2.2.1 (by decide), (C07_dice_new 2 5).2.2.2 (by decide) (by decide) (by decide) (by decide)⟩

/-- **C07** (consequence) the legal positions, and with them everything derived from the roll, are the same for both orders. -/
theorem C07_same_positions (p : Pos N) (a b : Nat) :
    p.legalPositions (Dice.new a b) = p.legalPositions (Dice.new b a) := by
  rw [(C07_dice_new a b).1]

example : Dice.new 2 5 = Dice.new 5 2 ∧ Dice.new 2 5 = .mixed 5 2 ∧ Dice.new 3 3 = .double 3 := by decide

/-- **C08** `try_move_single_checker` implements the single-checker rule. -/
theorem C08_try_move_single_checker (p : Pos N) (hb : p.BarsOK) (src die : Nat)
    (hs : 1 ≤ src ∧ src ≤ 25) (hd : 1 ≤ die ∧ die ≤ 6) :
    (p.tryMove src die = none ↔ ¬ Spec.CanStep p.view src die) ∧
    (∀ q, p.tryMove src die = some q ↔
      (Spec.CanStep p.view src die ∧ q.turn = p.turn ∧ q.view = Spec.after p.view src die)) := by
  unfold tryMove
  have hc := canMove_iff p hb hs.1 hs.2 hd.2
  rw [canStep_iff]
  by_cases h : p.canMove src die = true
  · have hcan := hc.1 h
    rw [if_pos h]
    constructor
    · simp [hcan]
    · intro q
      constructor
      · intro e
        obtain rfl : p.mv src die = q := by simpa using e
        exact ⟨hcan, turn_mv _ _ _, (after_view hb hd.1 hcan).symm⟩
      · rintro ⟨-, ht, hq⟩
        rw [after_view hb hd.1 hcan] at hq
        rw [view_inj (by rw [ht, turn_mv]) hq]
  · have hcan : ¬ p.Can src die := fun x => h (hc.2 x)
    rw [if_neg h]
    simp [hcan]

example : Ex.hitPos.BarsOK ∧ Ex.hitPos.tryMove 10 5 = some (Ex.hitPos.mv 10 5) ∧
    Ex.hitPos.tryMove 10 6 = none ∧ (Ex.hitPos.mv 10 5).pip 0 = -1 := by decide

/-! ## C14: `NoHitRules` -/

/-- **C14 is false of the code**: from this valid position `NoHitRules` returns a child in which the
opponent (who is `x` in the child) has been hit. -/
theorem C14_no_hit_counterexample :
    ∃ (p c : Pos 3) (dice : Dice), p.Valid ∧ dice.Valid ∧ c ∈ p.noHitPositions dice ∧
      p.oBar = 0 ∧ c.xBar = 1 := by
  refine ⟨Ex.hitPos, ((Ex.hitPos.mv 10 5).mv 5 2).flip, .mixed 5 2, ?_⟩
  decide

/-- **C14, what the filter really keeps**: the classic legal positions in which the *mover's own* bar count
(`o` in the child) is at most the opponent's bar count before the move. -/
theorem C14_no_hit_partial (p c : Pos N) (dice : Dice) :
    c ∈ p.noHitPositions dice ↔ (c ∈ p.legalPositions dice ∧ c.view.o 0 ≤ p.view.o 0) := by
  unfold noHitPositions
  rw [List.mem_filter]
  simp [oBar, view]

/-- In particular, whenever the mover has no checker left on the bar, nothing is filtered: all hits stay. -/
theorem C14_hits_are_kept_partial (p c : Pos N) (hb : p.BarsOK) (dice : Dice) (hv : dice.Valid)
    (h : p.xBar = 0) : c ∈ p.noHitPositions dice ↔ c ∈ p.legalPositions dice := by
  rw [C14_no_hit_partial]
  refine ⟨fun h => h.1, fun hc => ⟨hc, ?_⟩⟩
  obtain ⟨ht, used, hu, hpl, -, -⟩ := (mem_legal hb hv).1 hc
  obtain ⟨q, e, hr⟩ := (play_iff (uses_pos hv hu) hb).1 hpl
  have h25 : q.pip 25 ≤ 0 := by
    have h0 : p.pip 25 ≤ 0 := by unfold xBar at h; omega
    have hpos := uses_pos hv hu
    clear e hpl hu hc h ht
    induction hr with
    | nil => exact h0
    | cons a _ ih =>
      exact ih (barsOK_mv hb (hpos _ (by simp)) a) (le_trans (pip25_mv_le (hpos _ (by simp)) a) h0)
        (fun d hd => hpos d (List.mem_cons_of_mem _ hd))
  have : c.flip.view.x 25 = c.view.o 0 := by rw [view_flip]; simp [Spec.Board.mirror]
  have e' : c.flip.view.x 25 = q.view.x 25 := by rw [e]
  simp only [view] at *
  omega

example : Ex.hitPos.xBar = 0 ∧ Ex.hitPos.BarsOK ∧
    ((Ex.hitPos.mv 10 5).mv 5 2).flip ∈ Ex.hitPos.noHitPositions (.mixed 5 2) := by decide

end Bkgm
