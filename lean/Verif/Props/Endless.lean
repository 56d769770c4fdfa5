import Verif.Spec.History
import Verif.Props.Race
import Verif.Proofs.MoveLegal2
import Mathlib.Algebra.Order.BigOperators.Group.Finset
/-!
# C83: games without end; C84: only hits prolong a game
-/

namespace Bkgm

/-- The opening of an endless game, the two positions of its cycle, and the rolls: number of plies of the opening, positions, rolls. -/
def Ex.endless : Variant → Nat × List VPos × List Dice
  | .backgammon => (2,
    [.backgammon ⟨true, fun i => ([0, -2, 0, 0, 0, 0, 5, 0, 3, 0, 0, 0, -5, 5, 0, 0, 0, -3, 0, -5, 0, 0, 0, 0, 2, 0] : List Int).getD i.val 0, 0, 0⟩,
     .backgammon ⟨false, fun i => ([0, -2, 0, 0, 0, 0, 5, 0, 3, 0, 0, 0, -5, 5, 0, 0, 0, -1, -1, -6, 0, 0, 0, 0, 2, 0] : List Int).getD i.val 0, 0, 0⟩,
     .backgammon ⟨true, fun i => ([0, -1, 0, 0, 0, 0, 6, -1, 1, 0, 0, 0, -5, 5, 0, 0, 0, -3, 0, -4, -1, 0, 0, 0, 2, 1] : List Int).getD i.val 0, 0, 0⟩,
     .backgammon ⟨false, fun i => ([0, -2, 0, 0, 0, 0, 4, 0, 3, 0, 0, 0, -5, 5, 0, 0, 0, -1, 1, -6, -1, 0, 0, 0, 1, 1] : List Int).getD i.val 0, 0, 0⟩],
    [.mixed 2 1, .mixed 6 1, .double 5, .double 5])
  | .nackgammon => (2,
    [.nackgammon ⟨true, fun i => ([0, -2, -2, 0, 0, 0, 4, 0, 3, 0, 0, 0, -4, 4, 0, 0, 0, -3, 0, -4, 0, 0, 0, 2, 2, 0] : List Int).getD i.val 0, 0, 0⟩,
     .nackgammon ⟨false, fun i => ([0, -1, -1, -2, 0, 0, 4, 0, 3, 0, 0, 0, -4, 4, 0, 0, 0, -3, 0, -4, 0, 0, 0, 2, 2, 0] : List Int).getD i.val 0, 0, 0⟩,
     .nackgammon ⟨true, fun i => ([0, -2, -2, 0, 0, 0, 4, 0, 3, 0, 0, 0, -4, 4, 0, 0, 0, -3, 0, -2, -1, 0, 2, -1, 1, 1] : List Int).getD i.val 0, 0, 0⟩,
     .nackgammon ⟨false, fun i => ([0, -1, 1, -2, 0, 0, 2, 0, 3, 0, 0, 0, -4, 4, 0, 0, 0, -3, 0, -4, -1, 0, 0, 2, 2, 1] : List Int).getD i.val 0, 0, 0⟩],
    [.mixed 2 1, .mixed 4 1, .double 5, .double 5])
  | .longgammon => (3,
    [.longgammon ⟨true, fun i => ([0, -15, 0, 0, 0, 0, 0, 0, 0, 0, 0, 0, 0, 0, 0, 0, 0, 0, 0, 0, 0, 0, 0, 0, 15, 0] : List Int).getD i.val 0, 0, 0⟩,
     .longgammon ⟨false, fun i => ([0, -14, 0, 0, -1, 0, 0, 0, 0, 0, 0, 0, 0, 0, 0, 0, 0, 0, 0, 0, 0, 0, 0, 0, 15, 0] : List Int).getD i.val 0, 0, 0⟩,
     .longgammon ⟨true, fun i => ([0, -14, 0, 0, 0, -1, 0, 0, 0, 0, 0, 0, 0, 0, 0, 0, 0, 0, 0, 0, 0, 1, 0, 0, 14, 0] : List Int).getD i.val 0, 0, 0⟩,
     .longgammon ⟨false, fun i => ([0, -14, 0, 0, 0, 0, 0, 0, 0, 0, 0, 0, 0, 0, 0, 0, 0, 0, 0, 0, -1, 0, 0, 0, 14, 1] : List Int).getD i.val 0, 0, 0⟩,
     .longgammon ⟨true, fun i => ([0, -14, 0, 0, 0, 0, 0, 0, 0, 0, 0, 0, 0, 0, 0, 0, 0, 0, 0, 0, -1, 0, 0, 0, 14, 1] : List Int).getD i.val 0, 0, 0⟩],
    [.mixed 2 1, .mixed 3 1, .double 4, .double 5, .double 5])
  | .hypergammon => (2,
    [.hypergammon ⟨true, fun i => ([0, -1, -1, -1, 0, 0, 0, 0, 0, 0, 0, 0, 0, 0, 0, 0, 0, 0, 0, 0, 0, 0, 1, 1, 1, 0] : List Int).getD i.val 0, 0, 0⟩,
     .hypergammon ⟨false, fun i => ([0, -1, 0, -1, 0, -1, 0, 0, 0, 0, 0, 0, 0, 0, 0, 0, 0, 0, 0, 0, 0, 0, 1, 1, 1, 0] : List Int).getD i.val 0, 0, 0⟩,
     .hypergammon ⟨true, fun i => ([0, 0, 0, -1, 0, 0, 0, -1, 0, 0, 0, 0, 0, 0, 0, 0, 0, 0, 0, 0, -1, 0, 1, 0, 1, 1] : List Int).getD i.val 0, 0, 0⟩,
     .hypergammon ⟨false, fun i => ([0, -1, 0, -1, 0, 0, 0, 0, 0, 0, 0, 0, 0, 0, 0, 0, 0, 0, 1, 0, -1, 0, 1, 0, 0, 1] : List Int).getD i.val 0, 0, 0⟩],
    [.mixed 2 1, .double 6, .double 5, .double 5])
  | .hypergammon2 => (2,
    [.hypergammon2 ⟨true, fun i => ([0, -1, -1, 0, 0, 0, 0, 0, 0, 0, 0, 0, 0, 0, 0, 0, 0, 0, 0, 0, 0, 0, 0, 1, 1, 0] : List Int).getD i.val 0, 0, 0⟩,
     .hypergammon2 ⟨false, fun i => ([0, -1, 0, 0, 0, -1, 0, 0, 0, 0, 0, 0, 0, 0, 0, 0, 0, 0, 0, 0, 0, 0, 0, 1, 1, 0] : List Int).getD i.val 0, 0, 0⟩,
     .hypergammon2 ⟨true, fun i => ([0, 0, 0, 0, 0, 0, 0, -1, 0, 0, 0, 0, 0, 0, 0, 0, 0, 0, 0, 0, -1, 0, 0, 0, 1, 1] : List Int).getD i.val 0, 0, 0⟩,
     .hypergammon2 ⟨false, fun i => ([0, -1, 0, 0, 0, 0, 0, 0, 0, 0, 0, 0, 0, 0, 0, 0, 0, 0, 1, 0, -1, 0, 0, 0, 0, 1] : List Int).getD i.val 0, 0, 0⟩],
    [.mixed 2 1, .double 6, .double 5, .double 5])
  | .hypergammon4 => (2,
    [.hypergammon4 ⟨true, fun i => ([0, -1, -1, -1, -1, 0, 0, 0, 0, 0, 0, 0, 0, 0, 0, 0, 0, 0, 0, 0, 0, 1, 1, 1, 1, 0] : List Int).getD i.val 0, 0, 0⟩,
     .hypergammon4 ⟨false, fun i => ([0, 0, -2, 0, -1, -1, 0, 0, 0, 0, 0, 0, 0, 0, 0, 0, 0, 0, 0, 0, 0, 1, 1, 1, 1, 0] : List Int).getD i.val 0, 0, 0⟩,
     .hypergammon4 ⟨true, fun i => ([0, -1, -1, -1, 0, 0, 0, 0, 0, 0, 0, 0, 0, 0, 0, 0, 0, 0, 0, 0, -1, 1, 0, 2, 0, 1] : List Int).getD i.val 0, 0, 0⟩,
     .hypergammon4 ⟨false, fun i => ([0, 0, -2, 0, -1, 0, 0, 0, 0, 0, 0, 0, 0, 0, 0, 0, 0, 0, 0, 0, -1, 0, 1, 1, 1, 1] : List Int).getD i.val 0, 0, 0⟩],
    [.mixed 2 1, .double 4, .double 5, .double 5])
  | .hypergammon5 => (2,
    [.hypergammon5 ⟨true, fun i => ([0, -1, -1, -1, -1, -1, 0, 0, 0, 0, 0, 0, 0, 0, 0, 0, 0, 0, 0, 0, 1, 1, 1, 1, 1, 0] : List Int).getD i.val 0, 0, 0⟩,
     .hypergammon5 ⟨false, fun i => ([0, -1, -1, 0, -1, -1, -1, 0, 0, 0, 0, 0, 0, 0, 0, 0, 0, 0, 0, 0, 1, 1, 1, 1, 1, 0] : List Int).getD i.val 0, 0, 0⟩,
     .hypergammon5 ⟨true, fun i => ([0, -1, 0, -1, -1, 0, 0, -1, 0, 0, 0, 0, 0, 0, 0, 0, 0, 0, 0, 1, -1, 1, 0, 1, 1, 1] : List Int).getD i.val 0, 0, 0⟩,
     .hypergammon5 ⟨false, fun i => ([0, -1, -1, 0, -1, 0, -1, 0, 0, 0, 0, 0, 0, 0, 0, 0, 0, 0, 1, 0, -1, 1, 1, 0, 1, 1] : List Int).getD i.val 0, 0, 0⟩],
    [.mixed 2 1, .double 5, .double 5, .double 5])

/-- The position after ply `n`, and the roll of ply `n`, run through the opening once and then through the two positions of the cycle. -/
def Ex.endlessIdx (k n : Nat) : Nat := if n < k then n else k + (n - k) % 2

/-- The following index. -/
def Ex.endlessNext (k i : Nat) : Nat := if i = k + 1 then k else i + 1

theorem endlessIdx_succ (k n : Nat) : Ex.endlessIdx k (n + 1) = Ex.endlessNext k (Ex.endlessIdx k n) := by
  unfold Ex.endlessIdx Ex.endlessNext
  split_ifs <;> omega

theorem endlessIdx_lt (k n : Nat) : Ex.endlessIdx k n < k + 2 := by
  unfold Ex.endlessIdx
  split_ifs <;> omega

/-- Equality of variant positions, in a form the kernel evaluates. -/
def VPos.same : VPos → VPos → Bool
  | .backgammon p, .backgammon q => decide (p = q)
  | .nackgammon p, .nackgammon q => decide (p = q)
  | .longgammon p, .longgammon q => decide (p = q)
  | .hypergammon p, .hypergammon q => decide (p = q)
  | .hypergammon2 p, .hypergammon2 q => decide (p = q)
  | .hypergammon4 p, .hypergammon4 q => decide (p = q)
  | .hypergammon5 p, .hypergammon5 q => decide (p = q)
  | _, _ => false

theorem VPos.same_eq {q r : VPos} (h : q.same r = true) : q = r := by
  cases q <;> cases r <;> simp only [VPos.same, Bool.false_eq_true, decide_eq_true_eq] at h <;> rw [h]

/-- What is checked of the opening and the cycle. -/
theorem endless_check (v : Variant) : ∀ i, i < (Ex.endless v).1 + 2 →
    ((Ex.endless v).2.2.getD i (.double 1)).Valid ∧
    (classicRules ((Ex.endless v).2.1.getD i v.startPosition) ((Ex.endless v).2.2.getD i (.double 1))).any
      (VPos.same ((Ex.endless v).2.1.getD (Ex.endlessNext (Ex.endless v).1 i) v.startPosition)) = true ∧
    ((Ex.endless v).2.1.getD i v.startPosition).gameState = .ongoing ∧
    ∃ j, j < 26 ∧ ((Ex.endless v).2.1.getD (Ex.endlessNext (Ex.endless v).1 i) v.startPosition).view.o (25 - j) ≠
      ((Ex.endless v).2.1.getD i v.startPosition).view.x j := by
  cases v <;> decide +kernel

/-- **C83** In every variant there is a game that never ends: infinitely many plies from the start position, each with a legal roll (the
first not a double), each choosing a legal position, each moving a checker, and the game is never over. -/
theorem C83_endless (v : Variant) : ∃ (pos : Nat → VPos) (dice : Nat → Dice),
    pos 0 = v.startPosition ∧ (∃ b s, dice 0 = .mixed b s) ∧
    ∀ n, (dice n).Valid ∧ pos (n + 1) ∈ classicRules (pos n) (dice n) ∧ (pos n).gameState = .ongoing ∧
      ∃ j, j < 26 ∧ (pos (n + 1)).view.o (25 - j) ≠ (pos n).view.x j := by
  refine ⟨fun n => (Ex.endless v).2.1.getD (Ex.endlessIdx (Ex.endless v).1 n) v.startPosition,
    fun n => (Ex.endless v).2.2.getD (Ex.endlessIdx (Ex.endless v).1 n) (.double 1), ?_, ?_, fun n => ?_⟩
  · exact VPos.same_eq (by cases v <;> decide +kernel)
  · cases v <;> exact ⟨2, 1, rfl⟩
  · simp only [endlessIdx_succ]
    obtain ⟨h1, h2, h3, h4⟩ := endless_check v _ (endlessIdx_lt _ n)
    obtain ⟨c, hc, he⟩ := List.any_eq_true.1 h2
    exact ⟨h1, VPos.same_eq he ▸ hc, h3, h4⟩

/-- An episode that follows a given sequence of rolls and positions. -/
theorem follow {pos : Nat → VPos} {dice : Nat → Dice}
    (h : ∀ n, pos (n + 1) ∈ classicRules (pos n) (dice n) ∧ (pos n).gameState = .ongoing) (gen : DiceGen Nat)
    (hg : ∀ n, gen.rollMixed n = some (dice n, n + 1) ∧ gen.roll n = some (dice n, n + 1)) (v : Variant) :
    ∀ (left n ply : Nat), ∃ r, Game.playLoop classicRules gen (fun t _ _ legal => (legal.idxOf (pos (t + 1)), t + 1)) left ply ⟨v, pos n⟩ n n = some r ∧
      r.result = .ok (ply + left) ∧ r.game.position = pos (n + left) := by
  intro left
  induction left with
  | zero => exact fun n ply => ⟨_, rfl, rfl, rfl⟩
  | succ left ih =>
    intro n ply
    obtain ⟨hm, -⟩ := h n
    have hlt := List.idxOf_lt_length_of_mem hm
    have hget : (classicRules (pos n) (dice n))[List.idxOf (pos (n + 1)) (classicRules (pos n) (dice n))] = pos (n + 1) := List.getElem_idxOf hlt
    obtain ⟨r, hr, h1, h2⟩ := ih (n + 1) (ply + 1)
    refine ⟨r, ?_, by rw [h1]; congr 1; omega, by rw [h2]; congr 1; omega⟩
    unfold Game.playLoop
    have e : (if ply = 0 then gen.rollMixed n else gen.roll n) = some (dice n, n + 1) := by split_ifs <;> [exact (hg n).1; exact (hg n).2]
    rw [e]
    have hne : (classicRules (pos n) (dice n)).isEmpty = false := by
      rw [List.isEmpty_eq_false_iff]; exact List.ne_nil_of_mem hm
    simp only [Option.bind_some, Game.legalPositionsWith, hne, Bool.false_eq_true, if_false, ge_iff_le, Nat.not_le.2 hlt, dif_neg, not_false_eq_true,
      hget, (h (n + 1)).2]
    exact hr

/-- **C83** So no bound on the number of plies is large enough for every game: in every variant there are a source of legal dice (whose
`roll_mixed` gives no double) and a policy with which an episode of `max` plies makes all of them and is not finished, for every `max`. -/
theorem C83_no_bound (v : Variant) : ∃ (gen : DiceGen Nat) (pick : Game.Policy Nat),
    (∀ s, ∃ d s', gen.roll s = some (d, s') ∧ d.Valid) ∧ (∃ b s s', gen.rollMixed 0 = some (.mixed b s, s') ∧ (Dice.mixed b s).Valid) ∧
    ∀ max, ∃ r, Game.playEpisode classicRules gen pick max (Game.new v) 0 0 = some r ∧ r.result = .ok max ∧
      r.game.position.gameState = .ongoing := by
  obtain ⟨pos, dice, h0, ⟨b, s, hd⟩, h⟩ := C83_endless v
  refine ⟨⟨fun n => some (dice n, n + 1), fun n => some (dice n, n + 1)⟩, fun t _ _ legal => (legal.idxOf (pos (t + 1)), t + 1), ?_, ?_, fun max => ?_⟩
  · exact fun n => ⟨dice n, n + 1, rfl, (h n).1⟩
  · exact ⟨b, s, 1, by simp [hd], hd ▸ (h 0).1⟩
  · obtain ⟨r, h1, h2, h3⟩ := follow (fun n => ⟨(h n).2.1, (h n).2.2.1⟩) ⟨fun n => some (dice n, n + 1), fun n => some (dice n, n + 1)⟩
      (fun n => ⟨rfl, rfl⟩) v max 0 0
    refine ⟨r, ?_, by simpa using h2, by rw [h3]; exact (h _).2.2.1⟩
    rw [← h1, h0]
    rfl


/-! ## Only hits prolong a game -/

open Pos in
theorem ply_pips {N : Nat} {p c : Pos N} (hb : p.BarsOK) {dice : Dice} (hd : dice.Valid) (hc : c ∈ p.legalPositions dice) :
    p.view.o 0 ≤ c.view.x 25 ∧
    c.view.pipsX + c.view.pipsO ≤ p.view.pipsX + p.view.pipsO + 24 * (c.view.x 25 - p.view.o 0) ∧
    (c.view ≠ p.view.mirror → c.view.pipsX + c.view.pipsO + 1 ≤ p.view.pipsX + p.view.pipsO + 24 * (c.view.x 25 - p.view.o 0)) := by
  obtain ⟨⟨ms, hu, hms, he, -, -⟩, ho⟩ := C06_pip_accounting p c hb dice hd hc
  obtain ⟨-, used, hu', hpl, -, -⟩ := (mem_legal hb hd).1 hc
  have hh := hpl.hits (uses_pos hd hu')
  have hm := MoveText.pips_mirror c.view
  rw [view_flip] at he ho hh hms
  rw [hm.1] at he
  rw [hm.2] at ho
  have h25 : c.view.mirror.o 0 = c.view.x 25 := by simp [Spec.Board.mirror]
  rw [h25] at hh
  have hle : ∑ i ∈ Spec.hitPoints p.view c.view.mirror, i ≤ (Spec.hitPoints p.view c.view.mirror).card * 24 := by
    refine Finset.sum_le_card_nsmul _ _ _ fun i hi => ?_
    simp only [Spec.hitPoints, Finset.mem_filter, Finset.mem_Icc] at hi
    omega
  refine ⟨by omega, by omega, fun hne => ?_⟩
  have hpos := uses_pos hd hu
  have : 1 ≤ (ms.map fun m => min m.1 m.2).sum := by
    revert hms hne
    generalize hb1 : p.view = b
    generalize hb2 : c.view.mirror = b'
    intro hms hne
    cases hms with
    | nil =>
      exfalso
      apply hne
      have e : c.flip.view = p.view := by rw [view_flip, hb1, hb2]
      rw [← hb1, ← e, ← view_flip, Pos.flip_flip]
    | @cons _ _ src die rest hcs _ =>
      have a := hcs.range.1
      have b := hpos die (by simp)
      simp only [List.map_cons, List.sum_cons]
      omega
  omega

theorem vpos_pips {v : Variant} {q c : VPos} (hq : VPos.ValidFor v q) {dice : Dice} (hd : dice.Valid) (hc : c ∈ classicRules q dice) :
    c.view.pipsX + c.view.pipsO ≤ q.view.pipsX + q.view.pipsO + 24 * (c.view.x 25 - q.view.o 0) ∧
    (c.view ≠ q.view.mirror → c.view.pipsX + c.view.pipsO + 1 ≤ q.view.pipsX + q.view.pipsO + 24 * (c.view.x 25 - q.view.o 0)) := by
  obtain ⟨rfl, h⟩ := hq
  cases q <;> (simp only [classicRules] at hc; obtain ⟨x, hx, rfl⟩ := List.mem_map.1 hc; exact (ply_pips (Pos.Valid.barsOK h) hd hx).2)

/-- **C84** In a game every ply that moves a checker is paid for by the pips the two sides have to go, and only a hit gives some back, at most
24: after `moves` such plies with `hits` hits altogether (and any number of passes), the pips left and the number of these plies do not exceed
the pips at the beginning plus 24 per hit. -/
theorem C84_only_hits_prolong (v : Variant) (q r : VPos) (hq : VPos.ValidFor v q) (moves passes hits : Nat) (h : History q moves passes hits r) :
    moves + (r.view.pipsX + r.view.pipsO) ≤ q.view.pipsX + q.view.pipsO + 24 * hits := by
  have key : VPos.ValidFor v r ∧ moves + (r.view.pipsX + r.view.pipsO) ≤ q.view.pipsX + q.view.pipsO + 24 * hits := by
    induction h with
    | nil => exact ⟨hq, by omega⟩
    | move _ hd hc hne ih =>
      have := (vpos_pips ih.1 hd hc).2 hne
      exact ⟨classic_child ih.1 hd hc, by rw [Nat.mul_add]; omega⟩
    | @pass r _ _ _ _ _ _ hd hc he ih =>
      refine ⟨classic_child ih.1 hd hc, ?_⟩
      have := MoveText.pips_mirror r.view
      rw [he]
      omega
  exact key.2

/-- **C84** A game of backgammon with `hits` hits so far has at most `334 + 24 * hits` plies in which a checker moved. -/
theorem C84_backgammon (r : VPos) (moves passes hits : Nat) (h : History Variant.backgammon.startPosition moves passes hits r) :
    moves ≤ 334 + 24 * hits := by
  have h1 := C84_only_hits_prolong .backgammon _ r (C41_start_position _).1 moves passes hits h
  have h2 : Variant.backgammon.startPosition.view.pipsX + Variant.backgammon.startPosition.view.pipsO = 334 := by decide +kernel
  omega

/-- There are such histories of every length, in every variant. -/
example (v : Variant) (n : Nat) : ∃ hits r, History v.startPosition n 0 hits r ∧ r.gameState = .ongoing := by
  obtain ⟨pos, dice, h0, -, h⟩ := C83_endless v
  have key : ∀ n, ∃ hits, History v.startPosition n 0 hits (pos n) := by
    intro n
    induction n with
    | zero => exact ⟨0, h0 ▸ .nil _⟩
    | succ n ih =>
      obtain ⟨hits, hh⟩ := ih
      obtain ⟨a, b, -, j, hj, hne⟩ := h n
      refine ⟨_, .move hh a b fun e => hne ?_⟩
      rw [e]
      simp [Spec.Board.mirror, show 25 - j < 26 by omega, show 25 - (25 - j) = j by omega]
  obtain ⟨hits, hh⟩ := key n
  exact ⟨hits, pos n, hh, (h n).2.2.1⟩

end Bkgm
