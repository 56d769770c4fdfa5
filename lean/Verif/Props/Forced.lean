import Verif.Spec.Forced
import Verif.Proofs.Forced
import Verif.Props.Finish
/-!
# C88: the dice can end every game, whatever the players do
-/

namespace Bkgm
open Pos

/-- What a ply of a variant game does, in terms of the rules. -/
theorem vpos_play {v : Variant} {q c : VPos} (hq : VPos.ValidFor v q) {dice : Dice} (hd : dice.Valid) (hc : c ∈ classicRules q dice) :
    ∃ b' used, Spec.Uses (Spec.faces dice) used ∧ Spec.Play q.view used b' ∧ c.view = b'.mirror ∧ b' = c.view.mirror ∧
      (∀ src die, die ∈ Spec.faces dice → Spec.CanStep q.view src die → used ≠ []) := by
  have key : ∀ {N : Nat} (p x : Pos N), Spec.Valid N p.view → x ∈ p.legalPositions dice →
      ∃ b' used, Spec.Uses (Spec.faces dice) used ∧ Spec.Play p.view used b' ∧ x.view = b'.mirror ∧ b' = x.view.mirror ∧
        (∀ src die, die ∈ Spec.faces dice → Spec.CanStep p.view src die → used ≠ []) := fun p x h hx => by
    obtain ⟨-, used, hu, hpl, hmax, -⟩ := (mem_legal (Pos.Valid.barsOK h) hd).1 hx
    refine ⟨x.flip.view, used, hu, hpl, by rw [← view_flip, Pos.flip_flip], view_flip x, fun src die hm hcs e => ?_⟩
    subst e
    have := hmax [die] _ (fun v => by
      by_cases e : v = die
      · subst e
        have := List.count_pos_iff.2 hm
        simp
        omega
      · simp [List.count_cons, Ne.symm e]) (.cons hcs (.nil _))
    simp at this
  obtain ⟨rfl, h⟩ := hq
  cases q <;> (simp only [classicRules] at hc; obtain ⟨x, hx, rfl⟩ := List.mem_map.1 hc; exact key _ x h hx)

theorem uses_double {d : Nat} {used : List Nat} (hu : Spec.Uses (Spec.faces (.double d)) used) : ∀ e ∈ used, e = d := fun e he => by
  have h1 := List.count_pos_iff.2 he
  have h2 := hu e
  have h3 : e ∈ Spec.faces (.double d) := List.count_pos_iff.1 (by omega)
  simpa [Spec.faces] using h3

theorem vpos_view_out (q : VPos) {i : Nat} (hi : 26 ≤ i) : q.view.x i = 0 := by cases q <;> exact view_out _ hi

theorem forced_of_over {q : VPos} (h : q.gameState ≠ .ongoing) : ∀ n, Forced n q
  | 0 => h
  | _ + 1 => Or.inl h

theorem forced_mono {n m : Nat} (hnm : n ≤ m) : ∀ {q : VPos}, Forced n q → Forced m q := by
  induction n generalizing m with
  | zero => exact fun h => forced_of_over h m
  | succ n ih =>
    intro q h
    obtain ⟨m, rfl⟩ : ∃ k, m = k + 1 := ⟨m - 1, by omega⟩
    rcases h with h | ⟨dice, hd, h⟩
    · exact Or.inl h
    · exact Or.inr ⟨dice, hd, fun c hc => ih (by omega) (h c hc)⟩

/-- A ply with an even double. -/
theorem even_ply {v : Variant} {q c : VPos} (hq : VPos.ValidFor v q) {d : Nat} (hd : d = 2 ∨ d = 4 ∨ d = 6) (hc : c ∈ classicRules q (.double d)) :
    c.view.energy ≤ q.view.energy ∧ (Spec.EvenStuck c.view → Spec.EvenStuck q.view) ∧
      ((∃ src, Spec.CanStep q.view src d) → c.view.energy < q.view.energy) ∧ ((∀ src, ¬ Spec.CanStep q.view src d) → c.view = q.view.mirror) := by
  have hdv : (Dice.double d).Valid := ⟨by omega, by omega⟩
  obtain ⟨b', used, hu, hp, e1, e2, hmax⟩ := vpos_play hq hdv hc
  have hud : ∀ e ∈ used, e = 2 ∨ e = 4 ∨ e = 6 := fun e he => by rw [uses_double hu e he]; exact hd
  have en := Spec.energy_play hp hud
  have eb : c.view.energy = b'.energy := by rw [e1, Spec.energy_mirror]
  refine ⟨by omega, fun h => Spec.EvenStuck.no_play_into hp hud (by rw [e2]; exact h.mirror), fun ⟨src, hs⟩ => ?_, fun hn => ?_⟩
  · have := List.length_pos_iff.2 (hmax src d (by simp [Spec.faces]) hs)
    omega
  · cases hp with
    | nil => exact e1
    | @cons _ _ src die rest hcs _ =>
      rw [uses_double hu die (by simp)] at hcs
      exact absurd hcs (hn src)

/-- From any position where not both players are on the bar, shut out from 2, 4 and 6. -/
theorem forced_even {v : Variant} (m : Nat) : ∀ q : VPos, VPos.ValidFor v q → ¬ Spec.EvenStuck q.view → q.view.energy ≤ m → Forced (2 * m) q := by
  induction m with
  | zero =>
    intro q hq hs hm
    by_contra hg
    have hg : q.gameState = .ongoing := by
      by_contra h
      exact hg h
    have hv2 : (Dice.double 2).Valid := ⟨by omega, by omega⟩
    have prog : ∀ q : VPos, VPos.ValidFor v q → q.view.energy = 0 → ¬ Spec.CanEven q.view := fun q hq h0 ⟨src, d, hd, hc⟩ => by
      have := Spec.energy_after hd hc
      omega
    rcases Spec.canEven hq.2 (vpos_off hq hg).1 (fun i hi => vpos_view_out q hi) hs with h | ⟨src, d, hd, hc⟩
    · exact prog q hq (by omega) h
    · have := Spec.energy_after hd hc
      rw [Spec.energy_mirror] at this
      omega
  | succ m ih =>
    intro q hq hs hm
    by_cases hg : q.gameState = .ongoing
    swap
    · exact forced_of_over hg _
    by_cases hcan : Spec.CanEven q.view
    · obtain ⟨src, d, hd, hc⟩ := hcan
      have hdv : (Dice.double d).Valid := ⟨by omega, by omega⟩
      show Forced (2 * m + 1 + 1) q
      refine Or.inr ⟨.double d, hdv, fun c hcc => ?_⟩
      obtain ⟨-, h2, h3, -⟩ := even_ply hq hd hcc
      have := h3 ⟨src, hc⟩
      exact forced_mono (by omega) (ih c (classic_child hq hdv hcc) (fun h => hs (h2 h)) (by omega))
    · have hdv : (Dice.double 2).Valid := ⟨by omega, by omega⟩
      have hm' := (Spec.canEven hq.2 (vpos_off hq hg).1 (fun i hi => vpos_view_out q hi) hs).resolve_left hcan
      obtain ⟨src, d, hd, hc⟩ := hm'
      refine Or.inr ⟨.double 2, hdv, fun c hcc => ?_⟩
      obtain ⟨h1, h2, -, h4⟩ := even_ply hq (Or.inl rfl) hcc
      have e := h4 fun src hc => hcan ⟨src, 2, Or.inl rfl, hc⟩
      rw [← e] at hc
      have hcv := classic_child hq hdv hcc
      have hdv' : (Dice.double d).Valid := ⟨by omega, by omega⟩
      refine Or.inr ⟨.double d, hdv', fun c' hcc' => ?_⟩
      obtain ⟨-, k2, k3, -⟩ := even_ply hcv hd hcc'
      have := k3 ⟨src, hc⟩
      exact ih c' (classic_child hcv hdv' hcc') (fun h => hs (h2 (k2 h))) (by omega)

/-- Both are shut out from 2, 4 and 6, but the player to move can enter with another number. -/
theorem forced_enter {v : Variant} {d : Nat} (h1 : 1 ≤ d) (h6 : d ≤ 6) (k : Nat) : ∀ q : VPos, VPos.ValidFor v q → Spec.EvenStuck q.view →
    q.view.o (25 - d) ≤ 1 → q.view.x 25 ≤ k → Forced (2596 * v.checkers + 2 * k) q := by
  have hdv : (Dice.double d).Valid := ⟨h1, h6⟩
  have hdv2 : (Dice.double 2).Valid := ⟨by omega, by omega⟩
  induction k with
  | zero =>
    intro q hq hs ho hx
    have := hs.xBar
    omega
  | succ k ih =>
    intro q hq hs ho hx
    show Forced (2596 * v.checkers + 2 * k + 1 + 1) q
    refine Or.inr ⟨.double d, hdv, fun c hc => ?_⟩
    have hcv := classic_child hq hdv hc
    obtain ⟨b', used, hu, hp, e1, e2, hmax⟩ := vpos_play hq hdv hc
    have hne := hmax 25 d (by simp [Spec.faces]) ⟨by omega, hs.xBar, fun _ => rfl, fun _ => ho, fun h => by omega, fun h => by omega⟩
    by_cases hsc : Spec.EvenStuck c.view
    · have hsb : Spec.EvenStuck b' := by rw [e2]; exact hsc.mirror
      obtain ⟨l1, l2⟩ := Spec.enter_play hp h1 h6 (uses_double hu) hsb.xBar
      have hlen := List.length_pos_iff.2 hne
      refine Or.inr ⟨.double 2, hdv2, fun c' hc' => ?_⟩
      obtain ⟨-, -, -, h4⟩ := even_ply hcv (Or.inl rfl) hc'
      have e3 := h4 fun src => hsc.no_step (Or.inl rfl)
      have e4 : c'.view = b' := by rw [e3, e2]
      have hcv' := classic_child hcv hdv2 hc'
      refine ih c' hcv' (by rw [e4]; exact hsb) ?_ (by rw [e4]; omega)
      have := l2 hne
      rcases hcv'.2.alone (25 - d) (by omega) with h | h
      · rw [e4] at h; omega
      · omega
    · refine forced_mono ?_ (forced_even _ c hcv hsc (Spec.energy_le hcv.2))
      omega

/-- **C88** From every valid position that is not a mutual close-out, the dice can be chosen, ply by ply, so that the game is over within 2600
plies per checker, whatever the players do. -/
theorem C88_dice_can_end (v : Variant) (q : VPos) (hq : VPos.ValidFor v q) (hd : ¬ Spec.Deadlock q.view) : Forced (2600 * v.checkers) q := by
  have hN : 2 ≤ v.checkers := by cases v <;> decide
  by_cases hs : Spec.EvenStuck q.view
  swap
  · exact forced_mono (by omega) (forced_even _ q hq hs (Spec.energy_le hq.2))
  have barx : ∀ {c : VPos}, VPos.ValidFor v c → c.view.x 25 ≤ v.checkers := fun {c} hc => by
    have h1 := hc.2.sumX
    have : c.view.x 25 ≤ c.view.countX := Finset.single_le_sum (f := c.view.x) (fun _ _ => Nat.zero_le _) (by simp)
    omega
  by_cases hx : ∃ d, 1 ≤ d ∧ d ≤ 6 ∧ q.view.o (25 - d) ≤ 1
  · obtain ⟨d, h1, h6, ho⟩ := hx
    exact forced_mono (by omega) (forced_enter h1 h6 _ q hq hs ho (barx hq))
  by_cases ho : ∃ d, 1 ≤ d ∧ d ≤ 6 ∧ q.view.x d ≤ 1
  · obtain ⟨d, h1, h6, ho⟩ := ho
    have hdv2 : (Dice.double 2).Valid := ⟨by omega, by omega⟩
    refine forced_mono (n := 2596 * v.checkers + 2 * v.checkers + 1) (by omega) (Or.inr ⟨.double 2, hdv2, fun c hc => ?_⟩)
    obtain ⟨-, -, -, h4⟩ := even_ply hq (Or.inl rfl) hc
    have e := h4 fun src => hs.no_step (Or.inl rfl)
    have hcv := classic_child hq hdv2 hc
    refine forced_enter h1 h6 _ c hcv (by rw [e]; exact hs.mirror) ?_ (barx hcv)
    rw [e]
    simp only [Spec.Board.mirror, show 25 - d < 26 by omega, if_true, show 25 - (25 - d) = d by omega]
    exact ho
  · push Not at hx ho
    refine absurd ⟨hs.xBar, hs.oBar, fun i h1 h6 => ho i h1 h6, fun i h1 h6 => ?_⟩ hd
    have := hx (25 - i) (by omega) (by omega)
    rwa [show 25 - (25 - i) = i by omega] at this

/-- **C88** In a mutual close-out no dice end the game; so a valid position can be ended by the dice exactly if it is not a mutual close-out. -/
theorem C88_exactly (v : Variant) (q : VPos) (hq : VPos.ValidFor v q) : (∃ n, Forced n q) ↔ ¬ Spec.Deadlock q.view := by
  refine ⟨?_, fun h => ⟨_, C88_dice_can_end v q hq h⟩⟩
  rintro ⟨n, h⟩ hd
  induction n generalizing q with
  | zero => exact h (vpos_deadlock_ongoing hq hd)
  | succ n ih =>
    rcases h with h | ⟨dice, hdv, h⟩
    · exact h (vpos_deadlock_ongoing hq hd)
    · obtain ⟨c, hc⟩ := List.exists_mem_of_ne_nil _ (C73_never_empty q hq.2.xBar hq.2.oBar dice hdv)
      exact ih c (classic_child hq hdv hc) (h c hc) ((vpos_deadlock hq hdv hc).2 hd).1

/-- **C88** Every position of every game of every variant, reached with any dice and any plays, can be ended by the dice whatever the players do. -/
theorem C88_every_game (v : Variant) (q : VPos) (h : Reachable v q) : Forced (2600 * v.checkers) q :=
  C88_dice_can_end v q (C17_reachable_valid v q h) (C82_never_stuck v q h).1

/-- **C88** So every unfinished game can be brought to an end. -/
theorem C88_can_finish (v : Variant) (q : VPos) (h : Reachable v q) :
    ∃ n r, Leads q n r ∧ (∃ res, r.gameState = .gameOver res) ∧ n ≤ 2600 * v.checkers := by
  have key : ∀ n (q : VPos), VPos.ValidFor v q → Forced n q → ∃ k r, Leads q k r ∧ (∃ res, r.gameState = .gameOver res) ∧ k ≤ n := by
    have over : ∀ n (q : VPos), q.gameState ≠ .ongoing → ∃ k r, Leads q k r ∧ (∃ res, r.gameState = .gameOver res) ∧ k ≤ n := fun n q h => by
      refine ⟨0, q, .nil q, ?_, by omega⟩
      cases e : q.gameState with
      | ongoing => exact absurd e h
      | gameOver res => exact ⟨res, rfl⟩
    intro n
    induction n with
    | zero => exact fun q _ h => over 0 q h
    | succ n ih =>
      intro q hq h
      by_cases hg : q.gameState = .ongoing
      · obtain ⟨dice, hd, h⟩ := h.resolve_left (fun h => h hg)
        obtain ⟨c, hc⟩ := List.exists_mem_of_ne_nil _ (C73_never_empty q hq.2.xBar hq.2.oBar dice hd)
        obtain ⟨k, r, hl, hr, hk⟩ := ih c (classic_child hq hd hc) (h c hc)
        exact ⟨k + 1, r, .cons hg hd hc hl, hr, by omega⟩
      · exact over _ q hg
  exact key _ q (C17_reachable_valid v q h) (C88_every_game v q h)

/-- **C88** With fair dice every game ends, whatever the players do. -/
theorem C88_fair_dice (v : Variant) (pos : Nat → VPos) (dice : Nat → Dice) (hv : VPos.ValidFor v (pos 0)) (hnd : ¬ Spec.Deadlock (pos 0).view)
    (hplay : PlayedWith pos dice) (hfair : FairDice pos dice) : ∃ n res, (pos n).gameState = .gameOver res := by
  by_contra hc
  have hon : ∀ n, (pos n).gameState = .ongoing := fun n => by
    cases h : (pos n).gameState with
    | ongoing => rfl
    | gameOver res => exact absurd ⟨n, res, h⟩ hc
  have hall : ∀ n, VPos.ValidFor v (pos n) ∧ ¬ Spec.Deadlock (pos n).view := by
    intro n
    induction n with
    | zero => exact ⟨hv, hnd⟩
    | succ n ih =>
      obtain ⟨hd, hm⟩ := hplay n (hon n)
      exact ⟨classic_child ih.1 hd hm, fun h => ih.2 ((vpos_deadlock ih.1 hd hm).1 h)⟩
  -- a set of indices without bound, and a position for each from a finite set: one position takes infinitely many
  have pigeon : ∀ P : Nat → Prop, (∀ n, ∃ m, n ≤ m ∧ P m) → ∃ q, ∀ n, ∃ m, n ≤ m ∧ P m ∧ pos m = q := by
    intro P hP
    by_contra hno
    push Not at hno
    choose N hN using hno
    have hfin := validFor_finite v
    obtain ⟨B, hB⟩ := (hfin.image N).bddAbove
    obtain ⟨m, hm, hp⟩ := hP B
    exact hN (pos m) m ((hB ⟨pos m, (hall m).1, rfl⟩).trans hm) hp rfl
  have main : ∀ n (q : VPos), Recurs pos q → ¬ Forced n q := by
    intro n
    induction n with
    | zero =>
      intro q hq h
      obtain ⟨m, -, rfl⟩ := hq 0
      exact h (hon m)
    | succ n ih =>
      intro q hq h
      obtain ⟨m0, -, e0⟩ := hq 0
      obtain ⟨d, hd, h⟩ := h.resolve_left (fun h => h (e0 ▸ hon m0))
      obtain ⟨c, hcc⟩ := pigeon (fun m => 1 ≤ m ∧ pos (m - 1) = q ∧ dice (m - 1) = d) fun k => by
        obtain ⟨m, hm, e1, e2⟩ := hfair q d hd hq k
        exact ⟨m + 1, by omega, by omega, e1, e2⟩
      refine ih c (fun k => ?_) (h c ?_)
      · obtain ⟨m, hm, -, e⟩ := hcc k
        exact ⟨m, hm, e⟩
      · obtain ⟨m, -, ⟨h1, e1, e2⟩, e⟩ := hcc 0
        have := (hplay (m - 1) (hon _)).2
        rwa [show m - 1 + 1 = m by omega, e1, e2, e] at this
  obtain ⟨q, hq⟩ := pigeon (fun _ => True) fun n => ⟨n, le_rfl, trivial⟩
  have hrec : Recurs pos q := fun n => by
    obtain ⟨m, hm, -, e⟩ := hq n
    exact ⟨m, hm, e⟩
  obtain ⟨m, -, e⟩ := hrec 0
  exact main _ q hrec (e ▸ C88_dice_can_end v (pos m) (hall m).1 (hall m).2)

/-- Both sides on the bar, with nine checkers each, and shut out from 2, 4 and 6, but not from the other numbers. -/
def Ex.shutOutEven : Pos 15 := Ex.cells 15 [-9, 0, 2, 0, 2, 0, 2, 0, 0, 0, 0, 0, 0, 0, 0, 0, 0, 0, 0, -2, 0, -2, 0, -2, 0, 9] 0 0

example : VPos.ValidFor .backgammon (.backgammon Ex.shutOutEven) ∧ Spec.EvenStuck (VPos.backgammon Ex.shutOutEven).view ∧
    ¬ Spec.Deadlock (VPos.backgammon Ex.shutOutEven).view :=
  ⟨⟨rfl, (by decide +kernel : Ex.shutOutEven.Valid)⟩, by constructor <;> decide, fun h => absurd (h.xHome 1 (by omega) (by omega)) (by decide)⟩
example : VPos.ValidFor .backgammon (.backgammon Ex.closedOut) ∧ Spec.Deadlock (VPos.backgammon Ex.closedOut).view :=
  ⟨⟨rfl, (by decide +kernel : Ex.closedOut.Valid)⟩, by decide, by decide, by decide, fun i h1 h2 => by
    have : ∀ i ∈ [19, 20, 21, 22, 23, 24], 2 ≤ Ex.closedOut.view.o i := by decide
    exact this i (by simp; omega)⟩

/-- Dice that go through all 36 rolls again and again, after a line of play that ends the game. -/
theorem fair_of_line {q r : VPos} {n : Nat} (h : Leads q n r) (hr : r.gameState ≠ .ongoing) :
    ∃ (pos : Nat → VPos) (dice : Nat → Dice), pos 0 = q ∧ PlayedWith pos dice ∧ FairDice pos dice := by
  have key : ∃ (pos : Nat → VPos) (dice : Nat → Dice), pos 0 = q ∧ PlayedWith pos dice ∧ (∀ m, n ≤ m → pos m = r) ∧
      ∀ m, n ≤ m → dice m = rollOf ((m - n) % 36) := by
    induction h with
    | nil q => exact ⟨fun _ => q, fun m => rollOf (m % 36), rfl, fun _ hg => absurd hg hr, fun _ _ => rfl, fun _ _ => rfl⟩
    | @cons q c r n d hg hd hc _ ih =>
      obtain ⟨pos, dice, h0, h1, h2, h3⟩ := ih hr
      refine ⟨fun k => match k with | 0 => q | k + 1 => pos k, fun k => match k with | 0 => d | k + 1 => dice k, rfl, fun k => ?_, fun m hm => ?_,
        fun m hm => ?_⟩
      · cases k with
        | zero => exact fun _ => ⟨hd, (show pos 0 ∈ classicRules q d from h0 ▸ hc)⟩
        | succ k => exact h1 k
      · cases m with
        | zero => omega
        | succ m => exact h2 m (by omega)
      · cases m with
        | zero => omega
        | succ m => rw [show m + 1 - (n + 1) = m - n by omega]; exact h3 m (by omega)
  obtain ⟨pos, dice, h0, h1, h2, h3⟩ := key
  refine ⟨pos, dice, h0, h1, fun q' d hd hrec k => ?_⟩
  obtain ⟨m, hm, e⟩ := hrec n
  obtain ⟨a, ha, e'⟩ : ∃ a, a < 36 ∧ rollOf a = d := by
    cases d with
    | mixed b s =>
      obtain ⟨k1, k2, k3⟩ : 1 ≤ s ∧ s < b ∧ b ≤ 6 := hd
      obtain ⟨r, ⟨hr, e', -⟩, -⟩ := C43_roll_unbiased.2.1 b s (by omega) (by omega) (by omega) (by omega)
      refine ⟨r, hr, e'.trans ?_⟩
      rw [Dice.new, if_neg (by omega), mixedNew, if_pos k2]
    | double d =>
      obtain ⟨k1, k2⟩ : 1 ≤ d ∧ d ≤ 6 := hd
      obtain ⟨r, ⟨hr, e', -⟩, -⟩ := C43_roll_unbiased.2.1 d d k1 k2 k1 k2
      exact ⟨r, hr, e'.trans (by simp [Dice.new])⟩
  refine ⟨n + 36 * k + a, by omega, ?_, ?_⟩
  · rw [h2 _ (by omega), ← e, h2 m hm]
  · rw [h3 _ (by omega), show (n + 36 * k + a - n) % 36 = a by omega, e']

/-- The hypotheses of `C88_fair_dice` are met from the start position of every variant. -/
example (v : Variant) : ∃ (pos : Nat → VPos) (dice : Nat → Dice), VPos.ValidFor v (pos 0) ∧ ¬ Spec.Deadlock (pos 0).view ∧
    pos 0 = v.startPosition ∧ PlayedWith pos dice ∧ FairDice pos dice := by
  obtain ⟨n, r, hl, ⟨res, hr⟩, -⟩ := C88_can_finish v v.startPosition .start
  obtain ⟨pos, dice, h0, h1, h2⟩ := fair_of_line hl (by rw [hr]; exact nofun)
  exact ⟨pos, dice, h0 ▸ (C41_start_position v).1, h0 ▸ (C82_never_stuck v _ .start).1, h0, h1, h2⟩

end Bkgm
