import Verif.Proofs.Boards
import Verif.Spec.Examples
/-!
# C09-C13, C55: flipping, results, phases, equality
-/

namespace Bkgm
open Pos
variable {N : Nat}

/-- **C09** `flip` is an involution (turn included); it swaps the sides: own checkers at `i` become the other
side's checkers at `25 - i`, the bars and the borne-off counts are swapped, the turn passes, validity is kept. -/
theorem C09_flip (p : Pos N) :
    p.flip.flip = p ∧ p.flip.turn = !p.turn ∧
    p.flip.xOff = p.oOff ∧ p.flip.oOff = p.xOff ∧ p.flip.xBar = p.oBar ∧ p.flip.oBar = p.xBar ∧
    (∀ i, i ≤ 25 → p.flip.pip i = - p.pip (25 - i)) ∧
    (∀ i, i ≤ 25 → p.flip.view.x i = p.view.o (25 - i) ∧ p.flip.view.o i = p.view.x (25 - i)) ∧
    (p.flip.Valid ↔ p.Valid) := by
  refine ⟨Pos.flip_flip p, rfl, rfl, rfl, ?_, ?_, fun i hi => pip_flip p (by omega), fun i hi => ?_, ?_⟩
  · simp [xBar, oBar, pip_flip]
  · simp [xBar, oBar, pip_flip]
  · simp [view, pip_flip p (show i < 26 by omega)]
  · exact ⟨fun h => by have := h.flip; rwa [Pos.flip_flip] at this, fun h => h.flip⟩

example : Ex.barPos.Valid ∧ Ex.barPos.flip ≠ Ex.barPos ∧ Ex.barPos.flip.oBar = 1 := by decide

theorem view_x_pos {p : Pos N} {i : Nat} : 0 < p.pip i ↔ 1 ≤ p.view.x i := by simp only [view]; omega
theorem view_o_pos {p : Pos N} {i : Nat} : p.pip i < 0 ↔ 1 ≤ p.view.o i := by simp only [view]; omega

/-- Helper: the cases of `game_state`. -/
theorem gameState_cases (p : Pos N) :
    (p.xOff = N ∧ 1 ≤ p.oOff ∧ p.gameState = .gameOver .winNormal) ∨
    (p.xOff = N ∧ p.oOff = 0 ∧ (∃ i ≤ 6, 1 ≤ p.view.o i) ∧ p.gameState = .gameOver .winBackgammon) ∨
    (p.xOff = N ∧ p.oOff = 0 ∧ (¬ ∃ i ≤ 6, 1 ≤ p.view.o i) ∧ p.gameState = .gameOver .winGammon) ∨
    (p.xOff ≠ N ∧ p.oOff = N ∧ 1 ≤ p.xOff ∧ p.gameState = .gameOver .loseNormal) ∨
    (p.xOff ≠ N ∧ p.oOff = N ∧ p.xOff = 0 ∧ (∃ i ≥ 19, 1 ≤ p.view.x i) ∧ p.gameState = .gameOver .loseBackgammon) ∨
    (p.xOff ≠ N ∧ p.oOff = N ∧ p.xOff = 0 ∧ (¬ ∃ i ≥ 19, 1 ≤ p.view.x i) ∧ p.gameState = .gameOver .loseGammon) ∨
    (p.xOff ≠ N ∧ p.oOff ≠ N ∧ p.gameState = .ongoing) := by
  have e1 : p.anyO O_BAR 7 = true ↔ ∃ i ≤ 6, 1 ≤ p.view.o i := by
    rw [anyO_true]
    exact ⟨fun ⟨i, _, h, h'⟩ => ⟨i, by omega, view_o_pos.1 h'⟩, fun ⟨i, h, h'⟩ => ⟨i, by omega, by omega, view_o_pos.2 h'⟩⟩
  have e2 : p.anyX 19 (X_BAR + 1) = true ↔ ∃ i ≥ 19, 1 ≤ p.view.x i := by
    rw [anyX_true]
    refine ⟨fun ⟨i, h, _, h'⟩ => ⟨i, by omega, view_x_pos.1 h'⟩, fun ⟨i, h, h'⟩ => ⟨i, by omega, ?_, view_x_pos.2 h'⟩⟩
    by_contra hc
    have := view_x_pos.2 h'
    rw [pip_ge (by omega)] at this
    omega
  rw [← e1, ← e2]
  unfold gameState
  by_cases h1 : p.xOff = N <;> by_cases h2 : p.oOff = N <;> by_cases h3 : 0 < p.oOff <;> by_cases h4 : 0 < p.xOff <;>
    cases h5 : p.anyO O_BAR 7 <;> cases h6 : p.anyX 19 (X_BAR + 1) <;> simp_all <;> omega

/-- **C10** The result reported by `game_state`, case by case, for a position where not both sides have borne off
all `N` checkers (`x` moves from 24 down to 1, its home are the points 1..6; `o`'s home are 19..24; bars are 25, 0). -/
theorem C10_game_state (p : Pos N) (hn : ¬ (p.xOff = N ∧ p.oOff = N)) :
    (p.gameState = .ongoing ↔ p.xOff ≠ N ∧ p.oOff ≠ N) ∧
    (p.gameState = .gameOver .winNormal ↔ p.xOff = N ∧ 1 ≤ p.oOff) ∧
    (p.gameState = .gameOver .winBackgammon ↔ p.xOff = N ∧ p.oOff = 0 ∧ ∃ i ≤ 6, 1 ≤ p.view.o i) ∧
    (p.gameState = .gameOver .winGammon ↔ p.xOff = N ∧ p.oOff = 0 ∧ ∀ i ≤ 6, p.view.o i = 0) ∧
    (p.gameState = .gameOver .loseNormal ↔ p.oOff = N ∧ 1 ≤ p.xOff) ∧
    (p.gameState = .gameOver .loseBackgammon ↔ p.oOff = N ∧ p.xOff = 0 ∧ ∃ i ≥ 19, 1 ≤ p.view.x i) ∧
    (p.gameState = .gameOver .loseGammon ↔ p.oOff = N ∧ p.xOff = 0 ∧ ∀ i ≥ 19, p.view.x i = 0) := by
  have f1 : (∀ i ≤ 6, p.view.o i = 0) ↔ ¬ ∃ i ≤ 6, 1 ≤ p.view.o i :=
    ⟨fun h ⟨i, hi, h'⟩ => by have := h i hi; omega, fun h i hi => by by_contra hc; exact h ⟨i, hi, by omega⟩⟩
  have f2 : (∀ i ≥ 19, p.view.x i = 0) ↔ ¬ ∃ i ≥ 19, 1 ≤ p.view.x i :=
    ⟨fun h ⟨i, hi, h'⟩ => by have := h i hi; omega, fun h i hi => by by_contra hc; exact h ⟨i, hi, by omega⟩⟩
  rw [f1, f2]
  have hc := gameState_cases p
  generalize (∃ i ≤ 6, 1 ≤ p.view.o i) = A at *
  generalize (∃ i ≥ 19, 1 ≤ p.view.x i) = B at *
  rcases hc with ⟨h1, h2, h⟩ | ⟨h1, h2, h3, h⟩ | ⟨h1, h2, h3, h⟩ | ⟨h1, h2, h3, h⟩ | ⟨h1, h2, h3, h4, h⟩ |
    ⟨h1, h2, h3, h4, h⟩ | ⟨h1, h2, h⟩ <;> rw [h] <;>
    refine ⟨?_, ?_, ?_, ?_, ?_, ?_, ?_⟩ <;> simp_all <;> omega

example : ¬ (Ex.bearPos.xOff = 3 ∧ Ex.bearPos.oOff = 3) ∧ Ex.bearPos.gameState = .ongoing ∧
    (Ex.cells 3 [-1, -2] 3 0).gameState = .gameOver .winBackgammon := by decide

/-- **C10** The default `game_state` of the trait and the override in `Position` agree wherever the bar cells have
the right sign. -/
theorem C10_default_agrees (p : Pos N) (hb : p.BarsOK) : p.gameStateDefault = p.gameState := by
  have h0 := hb.1
  have h25 := hb.2
  have e1 : (decide (p.oBar > 0) || (rng 1 7).any (fun i => decide (p.pip i < 0))) = p.anyO O_BAR 7 := by
    rw [Bool.eq_iff_iff, anyO_true]
    simp only [Bool.or_eq_true, decide_eq_true_eq, List.any_eq_true, mem_rng, oBar]
    constructor
    · rintro (h | ⟨i, h1, h2⟩)
      · exact ⟨0, by omega, by omega, by have := of_decide_eq_true h; omega⟩
      · exact ⟨i, by omega, by omega, h2⟩
    · rintro ⟨i, h1, h2, h3⟩
      rcases Nat.eq_zero_or_pos i with rfl | hi
      · exact Or.inl (decide_eq_true (by omega))
      · exact Or.inr ⟨i, by omega, h3⟩
  have e2 : (decide (p.xBar > 0) || (rng 19 25).any (fun i => decide (p.pip i > 0))) = p.anyX 19 (X_BAR + 1) := by
    rw [Bool.eq_iff_iff, anyX_true]
    simp only [Bool.or_eq_true, decide_eq_true_eq, List.any_eq_true, mem_rng, xBar]
    constructor
    · rintro (h | ⟨i, h1, h2⟩)
      · exact ⟨25, by omega, by omega, by have := of_decide_eq_true h; omega⟩
      · exact ⟨i, by omega, by omega, h2⟩
    · rintro ⟨i, h1, h2, h3⟩
      by_cases hi : i = 25
      · subst hi; exact Or.inl (decide_eq_true (by omega))
      · exact Or.inr ⟨i, by omega, h3⟩
  unfold gameStateDefault gameState
  rw [e1, e2]

example : Ex.barPos.BarsOK := by decide

/-- **C11** Both players agree on the result: the flipped position has the reversed result. -/
theorem C11_flip_reverses (p : Pos N) (hn : ¬ (p.xOff = N ∧ p.oOff = N)) :
    p.flip.gameState = (match p.gameState with | .ongoing => .ongoing | .gameOver r => .gameOver r.reverse) := by
  have hn' : ¬ (p.flip.xOff = N ∧ p.flip.oOff = N) := fun h => hn ⟨h.2, h.1⟩
  obtain ⟨a1, a2, a3, a4, a5, a6, a7⟩ := C10_game_state p.flip hn'
  have e1 : (∃ i ≤ 6, 1 ≤ p.flip.view.o i) ↔ ∃ i ≥ 19, 1 ≤ p.view.x i := by
    constructor
    · rintro ⟨i, hi, h⟩
      refine ⟨25 - i, by omega, ?_⟩
      rwa [((C09_flip p).2.2.2.2.2.2.2.1 i (by omega)).2] at h
    · rintro ⟨i, hi, h⟩
      have hi2 : i ≤ 25 := by
        by_contra hc
        have := view_x_pos.2 h
        rw [pip_ge (by omega)] at this
        omega
      refine ⟨25 - i, by omega, ?_⟩
      rw [((C09_flip p).2.2.2.2.2.2.2.1 _ (by omega)).2, show 25 - (25 - i) = i by omega]
      exact h
  have e2 : (∃ i ≥ 19, 1 ≤ p.flip.view.x i) ↔ ∃ i ≤ 6, 1 ≤ p.view.o i := by
    constructor
    · rintro ⟨i, hi, h⟩
      have hi2 : i ≤ 25 := by
        by_contra hc
        have := view_x_pos.2 h
        rw [pip_ge (by omega)] at this
        omega
      refine ⟨25 - i, by omega, ?_⟩
      rwa [((C09_flip p).2.2.2.2.2.2.2.1 i (by omega)).1] at h
    · rintro ⟨i, hi, h⟩
      refine ⟨25 - i, by omega, ?_⟩
      rw [((C09_flip p).2.2.2.2.2.2.2.1 _ (by omega)).1, show 25 - (25 - i) = i by omega]
      exact h
  rw [e1] at a3
  rw [e2] at a6
  have f1 : (∀ i ≤ 6, p.flip.view.o i = 0) ↔ ¬ ∃ i ≥ 19, 1 ≤ p.view.x i := by
    rw [← e1]
    exact ⟨fun h ⟨i, hi, h'⟩ => by have := h i hi; omega, fun h i hi => by by_contra hc; exact h ⟨i, hi, by omega⟩⟩
  have f2 : (∀ i ≥ 19, p.flip.view.x i = 0) ↔ ¬ ∃ i ≤ 6, 1 ≤ p.view.o i := by
    rw [← e2]
    exact ⟨fun h ⟨i, hi, h'⟩ => by have := h i hi; omega, fun h i hi => by by_contra hc; exact h ⟨i, hi, by omega⟩⟩
  rw [f1] at a4
  rw [f2] at a7
  have x1 : p.flip.xOff = p.oOff := rfl
  have x2 : p.flip.oOff = p.xOff := rfl
  rw [x1, x2] at a1 a2 a3 a4 a5 a6 a7
  rcases gameState_cases p with ⟨h1, h2, h⟩ | ⟨h1, h2, h3, h⟩ | ⟨h1, h2, h3, h⟩ | ⟨h1, h2, h3, h⟩ |
    ⟨h1, h2, h3, h4, h⟩ | ⟨h1, h2, h3, h4, h⟩ | ⟨h1, h2, h⟩ <;> rw [h]
  · exact a5.2 ⟨h1, h2⟩
  · exact a6.2 ⟨h1, h2, h3⟩
  · exact a7.2 ⟨h1, h2, h3⟩
  · exact a2.2 ⟨h2, h3⟩
  · exact a3.2 ⟨h2, h3, h4⟩
  · exact a4.2 ⟨h2, h3, h4⟩
  · exact a1.2 ⟨h2, h1⟩

example : (Ex.cells 3 [-1, -2] 3 0).flip.gameState = .gameOver .loseBackgammon := by decide

/-- **C11** `reverse` is an involution, negates the value and swaps winning and losing. -/
theorem C11_reverse (r : GameResult) :
    r.reverse.reverse = r ∧ r.reverse.value = - r.value ∧ r.reverse.isWin = !r.isWin ∧ (r.isWin = true ↔ 0 < r.value) := by
  cases r <;> decide

theorem exists_x_of_valid {p : Pos N} (hv : p.Valid) (h : p.xOff ≠ N) : ∃ i, 1 ≤ p.view.x i := by
  by_contra hc
  have : p.view.countX = 0 := by
    unfold Spec.Board.countX
    refine Finset.sum_eq_zero fun i _ => ?_
    by_contra hi
    exact hc ⟨i, by omega⟩
  have h2 := hv.sumX
  rw [this] at h2
  exact h (by simpa [view] using h2)

theorem exists_o_of_valid {p : Pos N} (hv : p.Valid) (h : p.oOff ≠ N) : ∃ i, 1 ≤ p.view.o i := by
  by_contra hc
  have : p.view.countO = 0 := by
    unfold Spec.Board.countO
    refine Finset.sum_eq_zero fun i _ => ?_
    by_contra hi
    exact hc ⟨i, by omega⟩
  have h2 := hv.sumO
  rw [this] at h2
  exact h (by simpa [view] using h2)

theorem posO_none {p : Pos N} (h : p.posO = none) (i : Nat) : 0 ≤ p.pip i := by
  unfold posO at h
  rw [List.find?_eq_none] at h
  by_cases hi : i < 26
  · have := h i (List.mem_range.2 hi)
    simp only [decide_eq_true_eq] at this
    omega
  · rw [pip_ge (by omega)]

theorem posO_some {p : Pos N} {b : Nat} (h : p.posO = some b) : p.pip b < 0 ∧ ∀ i, i < b → 0 ≤ p.pip i := by
  unfold posO at h
  rw [List.find?_range_eq_some] at h
  obtain ⟨h1, _, h2⟩ := h
  refine ⟨by simpa using h1, fun i hi => ?_⟩
  have := h2 i hi
  simp only [Bool.not_eq_true', decide_eq_false_iff_not] at this
  omega

/-- **C12** `phase` never panics on a valid position that is not finished for both sides: it reports the result when
the game is over, otherwise `Contact` exactly when the sides are still in contact, else `Race`. -/
theorem C12_phase (p : Pos N) (hv : p.Valid) (hn : ¬ (p.xOff = N ∧ p.oOff = N)) :
    p.phase ≠ none ∧
    (∀ r, p.phase = some (.gameOver r) ↔ p.gameState = .gameOver r) ∧
    (p.phase = some (.ongoing .contact) ↔ p.gameState = .ongoing ∧ Spec.Contact p.view) ∧
    (p.phase = some (.ongoing .race) ↔ p.gameState = .ongoing ∧ ¬ Spec.Contact p.view) := by
  unfold phase
  cases hg : p.gameState with
  | gameOver r => simp
  | ongoing =>
    obtain ⟨hx, ho⟩ := (C10_game_state p hn).1.1 hg
    obtain ⟨i, hi⟩ := exists_x_of_valid hv hx
    obtain ⟨j, hj⟩ := exists_o_of_valid hv ho
    rw [← view_x_pos] at hi
    rw [← view_o_pos] at hj
    cases h1 : p.rposX with
    | none => have := rposX_none h1 i; omega
    | some a =>
      cases h2 : p.posO with
      | none => have := posO_none h2 j; omega
      | some b =>
        obtain ⟨a1, a2, a3⟩ := rposX_some h1
        obtain ⟨b1, b2⟩ := posO_some h2
        have key : a > b ↔ Spec.Contact p.view := by
          constructor
          · intro h; exact ⟨a, b, view_x_pos.1 (by omega), view_o_pos.1 (by omega), h⟩
          · rintro ⟨i, j, hi, hj, hij⟩
            rw [← view_x_pos] at hi
            rw [← view_o_pos] at hj
            have c1 : i ≤ a := by by_contra hc; have := a3 i (by omega); omega
            have c2 : b ≤ j := by by_contra hc; have := b2 j (by omega); omega
            omega
        by_cases hab : a > b
        · simp [key.1 hab, hab]
        · simp [mt key.2 hab, hab]

example : Ex.start.Valid ∧ ¬ (Ex.start.xOff = 15 ∧ Ex.start.oOff = 15) ∧ Ex.start.phase = some (.ongoing .contact) ∧
    Ex.bearPos.phase = some (.ongoing .race) := by decide

/-- Without contact nothing is hit and there is never contact again. -/
theorem no_contact_play {b b' : Spec.Board} {l : List Nat} (hl : ∀ d ∈ l, 1 ≤ d) (h : Spec.Play b l b')
    (hc : ¬ Spec.Contact b) : ¬ Spec.Contact b' ∧ b'.o = b.o := by
  induction h with
  | nil => exact ⟨hc, rfl⟩
  | @cons b b' f d l hs _ ih =>
    have hd : 1 ≤ d := hl d (by simp)
    have ho : (Spec.after b f d).o = b.o := by
      unfold Spec.after
      split_ifs with h1
      · rfl
      · simp only
        split_ifs with h2
        · exact absurd ⟨f, f - d, hs.own, by omega, by omega⟩ hc
        · rfl
    have h1 : ¬ Spec.Contact (Spec.after b f d) := by
      rintro ⟨i, j, hi, hj, hij⟩
      rw [ho] at hj
      rw [Spec.after_x hd] at hi
      by_cases hf : i = f - d ∧ d < f
      · exact hc ⟨f, j, hs.own, hj, by omega⟩
      · refine hc ⟨i, j, ?_, hj, hij⟩
        have := hs.own
        split_ifs at hi <;> first | omega | (subst_vars; omega)
    obtain ⟨c1, c2⟩ := ih (fun d hd => hl d (List.mem_cons_of_mem _ hd)) h1
    exact ⟨c1, by rw [c2, ho]⟩

/-- **C13** Once the phase is `Race` it stays so: every child is a race again or the game is over, and no opposing
checker is hit (all of them stay where they were). -/
theorem C13_race_stays (p c : Pos N) (hv : p.Valid) (dice : Dice) (hd : dice.Valid)
    (hp : p.phase = some (.ongoing .race)) (hc : c ∈ p.legalPositions dice) :
    (c.phase = some (.ongoing .race) ∨ ∃ r, c.phase = some (.gameOver r)) ∧
    (∀ i, i ≤ 25 → c.view.x (25 - i) = p.view.o i) := by
  have hg : p.gameState = .ongoing := by
    unfold phase at hp
    cases h : p.gameState with
    | ongoing => rfl
    | gameOver r => rw [h] at hp; simp at hp
  have hn : ¬ (p.xOff = N ∧ p.oOff = N) := by
    rintro ⟨h1, h2⟩
    rcases gameState_cases p with h | h | h | h | h | h | h <;> simp_all
  have hon := (C10_game_state p hn).1.1 hg
  have hcon := ((C12_phase p hv hn).2.2.2.1 hp).2
  obtain ⟨-, used, hu, hpl, -, -⟩ := (mem_legal hv.barsOK hd).1 hc
  obtain ⟨k1, k2⟩ := no_contact_play (uses_pos hd hu) hpl hcon
  have hcv : c.Valid := by
    have : c.flip.Valid := hpl.valid (uses_pos hd hu) hv
    have := this.flip
    rwa [Pos.flip_flip] at this
  have hoff : c.xOff = p.oOff := hpl.oOff
  have hn' : ¬ (c.xOff = N ∧ c.oOff = N) := fun h => hon.2 (hoff ▸ h.1)
  have hview : ∀ i, i ≤ 25 → c.view.x (25 - i) = p.view.o i := fun i hi => by
    rw [← k2]; exact (((C09_flip c).2.2.2.2.2.2.2.1 i hi).2).symm
  refine ⟨?_, hview⟩
  have hcc : ¬ Spec.Contact c.view := by
    rintro ⟨i, j, hi, hj, hij⟩
    have hi' : i ≤ 25 := by
      by_contra h; rw [← view_x_pos, pip_ge (by omega)] at hi; omega
    refine k1 ⟨25 - j, 25 - i, ?_, ?_, by omega⟩
    · rw [((C09_flip c).2.2.2.2.2.2.2.1 _ (by omega)).1, show 25 - (25 - j) = j by omega]; exact hj
    · rw [((C09_flip c).2.2.2.2.2.2.2.1 _ (by omega)).2, show 25 - (25 - i) = i by omega]; exact hi
  have h12 := C12_phase c hcv hn'
  cases h : c.gameState with
  | ongoing => exact Or.inl (h12.2.2.2.2 ⟨h, hcc⟩)
  | gameOver r => exact Or.inr ⟨r, (h12.2.1 r).2 h⟩

example : Ex.bearPos.Valid ∧ (Dice.mixed 6 2).Valid ∧ Ex.bearPos.phase = some (.ongoing .race) ∧
    Ex.bearPos.legalPositions (.mixed 6 2) ≠ [] := by decide

/-- **C55** Positions are equal (`==`) iff they show the same board, turn ignored; `==` is an equivalence relation; the
data fed to the hasher is the same exactly for equal positions. -/
theorem C55_eq_and_hash (p q : Pos N) :
    (p.eqv q = true ↔ p.view = q.view) ∧
    (p.eqv q = true ↔ p.hashInput = q.hashInput) ∧
    (∀ t, ({ p with turn := t } : Pos N).eqv p = true) := by
  have h1 : p.eqv q = true ↔ p.pips = q.pips ∧ p.xOff = q.xOff ∧ p.oOff = q.oOff := by
    simp [eqv, and_assoc]
  refine ⟨?_, ?_, fun t => by simp [eqv]⟩
  · rw [h1]
    constructor
    · rintro ⟨a, b, c⟩
      simp only [view, pip, a, b, c]
    · intro h
      have := view_inj (p := ({ p with turn := true } : Pos N)) (q := { q with turn := true }) rfl h
      simp only [mk.injEq] at this
      exact this.2
  · rw [h1]
    unfold hashInput
    constructor
    · rintro ⟨a, b, c⟩; rw [a, b, c]
    · intro h
      obtain ⟨a, b⟩ := List.append_inj h (by simp)
      simp only [List.cons.injEq, and_true] at b
      exact ⟨List.ofFn_injective a, by omega, by omega⟩

example : Ex.start.eqv { Ex.start with turn := false } = true ∧ Ex.barPos.eqv Ex.hitPos = false := by decide

end Bkgm
