import Verif.Spec.Deadlock
import Verif.Props.Race
import Verif.Props.VariantLevel
/-!
# C82: a game never gets stuck
-/

namespace Spec

theorem Deadlock.mirror {b : Board} (h : Deadlock b) : Deadlock b.mirror := by
  obtain ⟨h1, h2, h3, h4⟩ := h
  refine ⟨by simpa [Board.mirror] using h2, by simpa [Board.mirror] using h1, fun i hi hi' => ?_, fun i hi hi' => ?_⟩
  · have := h4 (25 - i) (by omega) (by omega)
    simpa [Board.mirror, show i < 26 by omega] using this
  · have := h3 (25 - i) (by omega) (by omega)
    simpa [Board.mirror, show i < 26 by omega] using this

theorem Deadlock.of_mirror {b : Board} (h : Deadlock b.mirror) : Deadlock b := by
  obtain ⟨h1, h2, h3, h4⟩ := h
  refine ⟨by simpa [Board.mirror] using h2, by simpa [Board.mirror] using h1, fun i hi hi' => ?_, fun i hi hi' => ?_⟩
  · have := h4 (25 - i) (by omega) (by omega)
    simpa [Board.mirror, show 25 - i < 26 by omega, show 25 - (25 - i) = i by omega] using this
  · have := h3 (25 - i) (by omega) (by omega)
    simpa [Board.mirror, show 25 - i < 26 by omega, show 25 - (25 - i) = i by omega] using this

theorem Deadlock.no_step {b : Board} (h : Deadlock b) {src die : Nat} (h1 : 1 ≤ die) (h6 : die ≤ 6) : ¬ CanStep b src die := by
  intro hc
  have e := hc.barFirst h.xBar
  subst e
  have := hc.unblocked (by omega)
  have := h.oHome (25 - die) (by omega) (by omega)
  omega

/-- A player on the bar who cannot move is closed out. -/
theorem closed_of_bar {b : Board} (hb : 1 ≤ b.x 25) (hn : ¬ CanMove b) : ∀ i, 19 ≤ i → i ≤ 24 → 2 ≤ b.o i := by
  intro i h1 h2
  by_contra hlt
  refine hn ⟨25, 25 - i, by omega, by omega, ⟨by omega, by omega⟩, hb, fun _ => rfl, fun _ => ?_, fun h => by omega, fun h => by omega⟩
  rw [show 25 - (25 - i) = i by omega]
  omega

/-- The rearmost checker. -/
theorem exists_rear {N : Nat} {b : Board} (hv : Valid N b) (hx : b.xOff < N) : ∃ s, 1 ≤ s ∧ s ≤ 25 ∧ 1 ≤ b.x s ∧ ∀ i, s < i → i ≤ 25 → b.x i = 0 := by
  have hex : ∃ i ∈ Finset.range 26, b.x i ≠ 0 := by
    by_contra hc
    push Not at hc
    have : b.countX = 0 := Finset.sum_eq_zero hc
    have := hv.sumX
    omega
  classical
  let P := fun n => ∀ j, n < j → j ≤ 25 → b.x j = 0
  have hP : ∃ n, P n := ⟨25, fun j h1 h2 => by omega⟩
  have hle : Nat.find hP ≤ 25 := Nat.find_min' hP (fun j h1 h2 => by omega)
  obtain ⟨i, hi, hi0⟩ := hex
  have hi := Finset.mem_range.1 hi
  have h0 := hv.xBar
  have hi1 : i ≠ 0 := by rintro rfl; omega
  have hge : i ≤ Nat.find hP := by
    by_contra hlt
    exact hi0 (Nat.find_spec hP i (by omega) (by omega))
  refine ⟨Nat.find hP, by omega, hle, ?_, Nat.find_spec hP⟩
  by_contra hlt
  refine Nat.find_min hP (m := Nat.find hP - 1) (by omega) fun j hj hj' => ?_
  rcases Nat.lt_or_eq_of_le (show Nat.find hP ≤ j by omega) with h1 | h1
  · exact Nat.find_spec hP j h1 hj'
  · rw [← h1]; omega

/-- If neither side can move, the player to move is on the bar. -/
theorem bar_of_stuck {N : Nat} {b : Board} (hv : Valid N b) (hx : b.xOff < N) (hn : ¬ CanMove b) (hm : ¬ CanMove b.mirror)
    (hout : ∀ i, 26 ≤ i → b.x i = 0) : 1 ≤ b.x 25 := by
  by_contra h25
  obtain ⟨s, hs1, hs25, hs, hmax⟩ := exists_rear hv hx
  have hmax' : ∀ i, s < i → b.x i = 0 := fun i hi => by
    rcases Nat.lt_or_ge i 26 with h | h
    · exact hmax i hi (by omega)
    · exact hout i h
  have hne : s ≠ 25 := by rintro rfl; omega
  have hs7 : 7 ≤ s := by
    by_contra hlt
    exact hn ⟨s, 6, by omega, by omega, ⟨hs1, hs25⟩, hs, fun h => by omega, fun h => by omega, fun _ i hi => hmax' i (by omega),
      fun _ => hmax'⟩
  have hprime : ∀ d, 1 ≤ d → d ≤ 6 → 2 ≤ b.o (s - d) := by
    intro d h1 h6
    by_contra hlt
    exact hn ⟨s, d, h1, h6, ⟨hs1, hs25⟩, hs, fun h => by omega, fun _ => by omega, fun h => by omega, fun h => by omega⟩
  rcases Nat.eq_zero_or_pos (b.o 0) with ho | ho
  · -- `o` is not on the bar: its rearmost prime checker moves up one point
    refine hm ⟨31 - s, 1, by omega, by omega, ⟨by omega, by omega⟩, ?_, fun h => ?_, fun _ => ?_, fun h => by omega, fun h => by omega⟩
    · have := hprime 6 (by omega) (by omega)
      simp only [Board.mirror, show 31 - s < 26 by omega, if_true, show 25 - (31 - s) = s - 6 by omega]
      omega
    · simp [Board.mirror, ho] at h
    · have h1 := hprime 5 (by omega) (by omega)
      simp only [Board.mirror, show 31 - s - 1 < 26 by omega, if_true, show 25 - (31 - s - 1) = s - 5 by omega]
      rcases hv.alone (s - 5) (by omega) with h | h <;> omega
  · -- `o` is on the bar against a closed board: `x` can move from 2 to 1
    have hb : 1 ≤ b.mirror.x 25 := ho
    have hc := closed_of_bar hb hm
    have hh : ∀ i, 1 ≤ i → i ≤ 6 → 2 ≤ b.x i := fun i h1 h6 => by
      have := hc (25 - i) (by omega) (by omega)
      simpa [Board.mirror, show 25 - i < 26 by omega, show 25 - (25 - i) = i by omega] using this
    have k1 := hh 1 (by omega) (by omega)
    have k2 := hh 2 (by omega) (by omega)
    refine hn ⟨2, 1, by omega, by omega, ⟨by omega, by omega⟩, by omega, fun h => by omega, fun _ => ?_, fun h => by omega, fun h => by omega⟩
    rcases hv.alone 1 (by omega) with h | h
    · omega
    · simp [h]

/-- On a valid board of an unfinished game neither side can move with any die exactly in a mutual close-out. -/
theorem stuck_iff {N : Nat} {b : Board} (hv : Valid N b) (hx : b.xOff < N) (ho : b.oOff < N) (hout : ∀ i, 26 ≤ i → b.x i = 0) :
    ¬ CanMove b ∧ ¬ CanMove b.mirror ↔ Deadlock b := by
  constructor
  · rintro ⟨hn, hm⟩
    have hbar := bar_of_stuck hv hx hn hm hout
    have hbar' : 1 ≤ b.o 0 := by
      have hmm : ¬ CanMove b.mirror.mirror := by
        rintro ⟨src, die, h1, h6, hr, hown, hbf, hun, hho, hnb⟩
        have ex : ∀ i, i < 26 → b.mirror.mirror.x i = b.x i := fun i hi => mirror_mirror_x b hi
        have eo : ∀ i, i < 26 → b.mirror.mirror.o i = b.o i := fun i hi => by
          simp only [Board.mirror, hi, if_true, show 25 - i < 26 by omega, show 25 - (25 - i) = i by omega]
        refine hn ⟨src, die, h1, h6, hr, by rw [← ex src (by omega)]; exact hown, fun h => hbf (by rw [ex 25 (by omega)]; exact h),
          fun h => by rw [← eo (src - die) (by omega)]; exact hun h, fun h i hi => ?_, fun h i hi => ?_⟩
        · rcases Nat.lt_or_ge i 26 with h' | h'
          · rw [← ex i h']; exact hho h i hi
          · exact hout i h'
        · rcases Nat.lt_or_ge i 26 with h' | h'
          · rw [← ex i h']; exact hnb h i hi
          · exact hout i h'
      have := bar_of_stuck hv.mirror ho hm hmm (fun i hi => by simp [Board.mirror, show ¬ i < 26 by omega])
      simpa [Board.mirror] using this
    refine ⟨hbar, hbar', fun i h1 h6 => ?_, closed_of_bar hbar hn⟩
    have := closed_of_bar (b := b.mirror) (by simpa [Board.mirror] using hbar') hm (25 - i) (by omega) (by omega)
    simpa [Board.mirror, show 25 - i < 26 by omega, show 25 - (25 - i) = i by omega] using this
  · intro h
    exact ⟨fun ⟨_, _, h1, h6, hc⟩ => h.no_step h1 h6 hc, fun ⟨_, _, h1, h6, hc⟩ => h.mirror.no_step h1 h6 hc⟩

/-- No step leads into a mutual close-out: the mover would have entered on a closed point. -/
theorem Deadlock.no_step_into {b : Board} {src die : Nat} (h1 : 1 ≤ die) (h6 : die ≤ 6) (hc : CanStep b src die) :
    ¬ Deadlock (after b src die) := by
  intro h
  have hr := hc.range
  have h25 : 1 ≤ b.x 25 := by
    have := h.xBar
    rw [after_x h1] at this
    split_ifs at this with e e' <;> [skip; skip; skip]
    · subst e; omega
    · omega
    · exact this
  have e := hc.barFirst h25
  subst e
  have hu := hc.unblocked (by omega)
  have := h.oHome (25 - die) (by omega) (by omega)
  rw [after_o] at this
  split_ifs at this <;> omega

theorem Deadlock.no_play_into {b b' : Board} {used : List Nat} (hp : Play b used b') (hd : ∀ d ∈ used, 1 ≤ d ∧ d ≤ 6) (h : Deadlock b') :
    b = b' := by
  induction hp with
  | nil => rfl
  | @cons b b' src die rest hc _ ih =>
    have e := ih (fun d hd' => hd d (by simp [hd'])) h
    rw [← e] at h
    have := hd die (by simp)
    exact absurd h (no_step_into this.1 this.2 hc)

/-- A mutual close-out takes at least 13 checkers a side. -/
theorem Deadlock.thirteen {N : Nat} {b : Board} (hv : Valid N b) (h : Deadlock b) : 13 ≤ N := by
  have hs := hv.sumX
  have : 13 ≤ b.countX := by
    have h1 := h.xHome 1 (by omega) (by omega)
    have h2 := h.xHome 2 (by omega) (by omega)
    have h3 := h.xHome 3 (by omega) (by omega)
    have h4 := h.xHome 4 (by omega) (by omega)
    have h5 := h.xHome 5 (by omega) (by omega)
    have h6 := h.xHome 6 (by omega) (by omega)
    have h7 := h.xBar
    simp only [Board.countX, Finset.sum_range_succ, Finset.sum_range_zero]
    omega
  omega

end Spec

namespace Bkgm
open Pos
variable {N : Nat}

/-- The player can move a checker with one of the dice exactly if the roll is not answered by a mere pass. -/
theorem pass_iff {p : Pos N} (hb : p.BarsOK) {dice : Dice} (hv : dice.Valid) :
    p.legalPositions dice = [p.flip] ↔ ∀ src, ∀ die ∈ Spec.faces dice, ¬ Spec.CanStep p.view src die := by
  constructor
  · intro h src die hd hc
    have hm : p.flip ∈ p.legalPositions dice := by rw [h]; simp
    obtain ⟨-, used, hu, hpl, hmax, -⟩ := (mem_legal hb hv).1 hm
    rw [Pos.flip_flip] at hpl
    obtain ⟨ms, rfl, hms⟩ := hpl.moves
    have hpos := uses_pos hv hu
    have he := hms.pipsX (fun m h => hpos _ (List.mem_map_of_mem h))
    have h1 : 1 ≤ (ms.map Prod.snd).length := hmax [die] _ (fun v => by
      by_cases e : v = die
      · subst e
        have := List.count_pos_iff.2 hd
        simp
        omega
      · simp [List.count_cons, Ne.symm e]) (.cons hc (.nil _))
    have : 1 ≤ (ms.map fun m => min m.1 m.2).sum := by
      revert he hms
      generalize p.view = b
      generalize hb' : b = b'
      intro hms _
      cases hms with
      | nil => simp at h1
      | @cons _ _ src die rest hcs _ =>
        have a := hcs.range.1
        have b := hpos die (by simp)
        simp only [List.map_cons, List.sum_cons]
        omega
    omega
  · exact C02_no_move p hb dice hv

theorem canMove_iff {p : Pos N} (hb : p.BarsOK) : Spec.CanMove p.view ↔ ∃ dice, dice.Valid ∧ p.legalPositions dice ≠ [p.flip] := by
  constructor
  · rintro ⟨src, die, h1, h6, hc⟩
    refine ⟨.double die, ⟨h1, h6⟩, fun h => ?_⟩
    exact (pass_iff (dice := .double die) hb (show (Dice.double die).Valid from ⟨h1, h6⟩)).1 h src die (by simp [Spec.faces]) hc
  · rintro ⟨dice, hv, h⟩
    by_contra hn
    refine h (C02_no_move p hb dice hv fun src die hd hc => hn ⟨src, die, ?_, ?_, hc⟩)
    all_goals cases dice with
    | mixed b s =>
      obtain ⟨k1, k2, k3⟩ : 1 ≤ s ∧ s < b ∧ b ≤ 6 := hv
      simp only [Spec.faces, List.mem_cons, List.not_mem_nil, or_false] at hd
      omega
    | double d =>
      obtain ⟨k1, k2⟩ : 1 ≤ d ∧ d ≤ 6 := hv
      simp only [Spec.faces, List.mem_cons, List.not_mem_nil, or_false, or_self] at hd
      omega

/-- Mutual close-out: 12 checkers in the home board and 3 on the bar, for both sides. -/
def Ex.closedOut : Pos 15 := Ex.cells 15 [-3, 2, 2, 2, 2, 2, 2, 0, 0, 0, 0, 0, 0, 0, 0, 0, 0, 0, 0, -2, -2, -2, -2, -2, -2, 3] 0 0

theorem view_out (p : Pos N) {i : Nat} (hi : 26 ≤ i) : p.view.x i = 0 := by simp [view, pip_ge hi]

/-- **C82** In a valid position of an unfinished game, neither side can do anything but pass, whatever either rolls, exactly if both sides
are on the bar against closed boards. -/
theorem C82_stuck_iff (p : Pos N) (hv : p.Valid) (hx : p.xOff < N) (ho : p.oOff < N) :
    ((∀ dice : Dice, dice.Valid → p.legalPositions dice = [p.flip]) ∧ (∀ dice : Dice, dice.Valid → p.flip.legalPositions dice = [p])) ↔
      Spec.Deadlock p.view := by
  have hvf : p.flip.Valid := (C09_flip p).2.2.2.2.2.2.2.2.2 hv
  have h := Spec.stuck_iff (b := p.view) hv hx ho (fun i hi => view_out p hi)
  rw [← h, ← view_flip, canMove_iff hv.barsOK, canMove_iff hvf.barsOK, Pos.flip_flip]
  push Not
  exact Iff.rfl

example : Ex.closedOut.Valid ∧ Ex.closedOut.xOff < 15 ∧ Ex.closedOut.oOff < 15 ∧ Spec.Deadlock Ex.closedOut.view :=
  ⟨by decide +kernel, by decide, by decide, by decide, by decide, by decide, fun i h1 h2 => by
    have : ∀ i ∈ [19, 20, 21, 22, 23, 24], 2 ≤ Ex.closedOut.view.o i := by decide
    exact this i (by simp; omega)⟩


theorem uses_le_six {dice : Dice} (hv : dice.Valid) {used : List Nat} (hu : Spec.Uses (Spec.faces dice) used) : ∀ d ∈ used, 1 ≤ d ∧ d ≤ 6 := by
  intro d hd
  refine ⟨uses_pos hv hu d hd, ?_⟩
  have h1 := List.count_pos_iff.2 hd
  have h2 := hu d
  have h3 : d ∈ Spec.faces dice := List.count_pos_iff.1 (by omega)
  cases dice with
  | mixed b s =>
    obtain ⟨k1, k2, k3⟩ : 1 ≤ s ∧ s < b ∧ b ≤ 6 := hv
    simp only [Spec.faces, List.mem_cons, List.not_mem_nil, or_false] at h3
    omega
  | double d =>
    obtain ⟨k1, k2⟩ : 1 ≤ d ∧ d ≤ 6 := hv
    simp only [Spec.faces, List.mem_cons, List.not_mem_nil, or_false, or_self] at h3
    omega

/-- **C82** The only way into a mutual close-out is to pass in one; and from one there is only the pass, which leads to one. -/
theorem C82_in_and_out (p c : Pos N) (hb : p.BarsOK) (dice : Dice) (hd : dice.Valid) (hc : c ∈ p.legalPositions dice)
    (h : Spec.Deadlock c.view ∨ Spec.Deadlock p.view) : c = p.flip ∧ Spec.Deadlock p.view ∧ Spec.Deadlock c.view := by
  have back : Spec.Deadlock c.view → Spec.Deadlock p.view := by
    intro h
    obtain ⟨-, used, hu, hpl, -, -⟩ := (mem_legal hb hd).1 hc
    have h' : Spec.Deadlock c.flip.view := by rw [view_flip]; exact h.mirror
    have e := Spec.Deadlock.no_play_into hpl (uses_le_six hd hu) h'
    rw [e]; exact h'
  have hp : Spec.Deadlock p.view := h.elim back id
  have e : p.legalPositions dice = [p.flip] := C02_no_move p hb dice hd fun src die hdie hcs => by
    have := uses_le_six hd (used := [die]) (fun v => by
      by_cases e : v = die
      · subst e
        have := List.count_pos_iff.2 hdie
        simp
        omega
      · simp [List.count_cons, Ne.symm e]) die (by simp)
    exact hp.no_step this.1 this.2 hcs
  rw [e, List.mem_singleton] at hc
  exact ⟨hc, hp, by rw [hc, view_flip]; exact hp.mirror⟩

example : Spec.Deadlock Ex.closedOut.view ∧ Ex.closedOut.flip ∈ Ex.closedOut.legalPositions (.mixed 6 1) ∧ (Dice.mixed 6 1).Valid :=
  ⟨⟨by decide, by decide, by decide, fun i h1 h2 => by
    have : ∀ i ∈ [19, 20, 21, 22, 23, 24], 2 ≤ Ex.closedOut.view.o i := by decide
    exact this i (by simp; omega)⟩, by decide +kernel, by decide⟩

/-- The same for the positions of the variants. -/
theorem vpos_deadlock {v : Variant} {q c : VPos} (hq : VPos.ValidFor v q) {dice : Dice} (hd : dice.Valid) (hc : c ∈ classicRules q dice) :
    (Spec.Deadlock c.view → Spec.Deadlock q.view) ∧ (Spec.Deadlock q.view → Spec.Deadlock c.view ∧ c.view = q.view.mirror) := by
  have key : ∀ {N : Nat} (p x : Pos N), Spec.Valid N p.view → x ∈ p.legalPositions dice →
      (Spec.Deadlock x.view → Spec.Deadlock p.view) ∧ (Spec.Deadlock p.view → Spec.Deadlock x.view ∧ x.view = p.view.mirror) :=
    fun p x h hx => ⟨fun h' => (C82_in_and_out p x (Pos.Valid.barsOK h) dice hd hx (Or.inl h')).2.1, fun h' => by
      obtain ⟨a, -, b⟩ := C82_in_and_out p x (Pos.Valid.barsOK h) dice hd hx (Or.inr h')
      exact ⟨b, by rw [a, view_flip]⟩⟩
  obtain ⟨rfl, h⟩ := hq
  cases q <;> (simp only [classicRules] at hc; obtain ⟨x, hx, rfl⟩ := List.mem_map.1 hc; exact key _ x h hx)

theorem vpos_stuck_iff {v : Variant} {q : VPos} (hq : VPos.ValidFor v q) (hx : q.view.xOff < v.checkers) (ho : q.view.oOff < v.checkers) :
    ¬ Spec.CanMove q.view ∧ ¬ Spec.CanMove q.view.mirror ↔ Spec.Deadlock q.view :=
  Spec.stuck_iff hq.2 hx ho fun i hi => by cases q <;> exact view_out _ hi

theorem vpos_off {v : Variant} {q : VPos} (hq : VPos.ValidFor v q) (hg : q.gameState = .ongoing) :
    q.view.xOff < v.checkers ∧ q.view.oOff < v.checkers := by
  have key : ∀ {N : Nat} (p : Pos N), Spec.Valid N p.view → p.gameState = .ongoing → p.view.xOff < N ∧ p.view.oOff < N := by
    intro N p h hg
    have a := h.sumX
    have b := h.sumO
    have : p.xOff ≠ N ∧ p.oOff ≠ N := by
      rcases gameState_cases p with ⟨_, _, e⟩ | ⟨_, _, _, e⟩ | ⟨_, _, _, e⟩ | ⟨_, _, _, e⟩ | ⟨_, _, _, _, e⟩ | ⟨_, _, _, _, e⟩ | ⟨a, b, _⟩
      · rw [hg] at e; cases e
      · rw [hg] at e; cases e
      · rw [hg] at e; cases e
      · rw [hg] at e; cases e
      · rw [hg] at e; cases e
      · rw [hg] at e; cases e
      · exact ⟨a, b⟩
    have e1 : p.view.xOff = p.xOff := rfl
    have e2 : p.view.oOff = p.oOff := rfl
    omega
  obtain ⟨rfl, h⟩ := hq
  cases q <;> exact key _ h hg

/-- **C82** No game from a start position ever reaches a mutual close-out; so as long as it is not over, one of the two players can
move a checker with some roll. -/
theorem C82_never_stuck (v : Variant) (q : VPos) (h : Reachable v q) :
    ¬ Spec.Deadlock q.view ∧ (q.gameState = .ongoing → Spec.CanMove q.view ∨ Spec.CanMove q.view.mirror) := by
  have hd : ¬ Spec.Deadlock q.view := by
    induction h with
    | start =>
      intro h
      have := h.xBar
      rw [(C41_layout v 25).1] at this
      revert this
      cases v <;> decide
    | ply hr hd hc ih => exact fun h => ih ((vpos_deadlock (C17_reachable_valid v _ hr) hd hc).1 h)
  refine ⟨hd, fun hg => ?_⟩
  have hv := C17_reachable_valid v q h
  obtain ⟨hx, ho⟩ := vpos_off hv hg
  by_contra hc
  rw [not_or] at hc
  exact hd ((vpos_stuck_iff hv hx ho).1 hc)

/-- The hypotheses hold of every variant's start position, and of a position further on. -/
example : ∃ c, Reachable .longgammon c ∧ c.gameState = .ongoing ∧ c ≠ Variant.longgammon.startPosition := by
  obtain ⟨c, hc⟩ := Option.ne_none_iff_exists'.1 (show (classicRules Variant.longgammon.startPosition (.mixed 6 1))[0]? ≠ none by decide +kernel)
  refine ⟨c, .ply .start (by decide : (Dice.mixed 6 1).Valid) (List.mem_of_getElem? hc), ?_, ?_⟩
  · have : ((classicRules Variant.longgammon.startPosition (.mixed 6 1))[0]?).map VPos.gameState = some .ongoing := by decide +kernel
    rw [hc] at this
    exact Option.some.inj this
  · rintro rfl
    exact absurd hc (by decide +kernel)

/-- **C82** A mutual close-out takes 13 checkers a side: it does not exist in the hypergammon variants. -/
theorem C82_needs_thirteen (v : Variant) (q : VPos) (hq : VPos.ValidFor v q) (h : Spec.Deadlock q.view) :
    v = .backgammon ∨ v = .nackgammon ∨ v = .longgammon := by
  have := h.thirteen hq.2
  revert this
  cases v <;> simp [Variant.checkers]

theorem vpos_deadlock_ongoing {v : Variant} {q : VPos} (hq : VPos.ValidFor v q) (h : Spec.Deadlock q.view) : q.gameState = .ongoing := by
  have key : ∀ {N : Nat} (p : Pos N), Spec.Valid N p.view → Spec.Deadlock p.view → p.gameState = .ongoing := by
    intro N p hv h
    have a := hv.sumX
    have b := hv.sumO
    have a' : 1 ≤ p.view.countX := by
      have := h.xBar
      simp only [Spec.Board.countX, Finset.sum_range_succ, Finset.sum_range_zero]
      omega
    have b' : 1 ≤ p.view.countO := by
      have := h.oBar
      simp only [Spec.Board.countO, Finset.sum_range_succ, Finset.sum_range_zero]
      omega
    have e1 : p.view.xOff = p.xOff := rfl
    have e2 : p.view.oOff = p.oOff := rfl
    exact (C10_game_state p (by omega)).1.2 ⟨by omega, by omega⟩
  obtain ⟨rfl, hv⟩ := hq
  cases q <;> exact key _ hv h

theorem plies_deadlock {σ π : Type} {gen : DiceGen σ} {pick : Game.Policy π}
    (h1 : ∀ s d s', gen.rollMixed s = some (d, s') → d.Valid) (h2 : ∀ s d s', gen.roll s = some (d, s') → d.Valid)
    {b : Bool} {p p' : VPos} {s s' : σ} {t t' : π} {l : List (Dice × Nat)} {v : Variant} (hv : VPos.ValidFor v p)
    (hp : Spec.Deadlock p.view) (h : Plies classicRules gen pick b p s t l p' s' t') : Spec.Deadlock p'.view := by
  induction h with
  | nil => exact hp
  | @cons first p q p' s s1 s' t t1 t' dice i l hr _ hq hg hl ih =>
    have hd : dice.Valid := by
      cases first
      · exact h2 _ _ _ (by simpa using hr)
      · exact h1 _ _ _ (by simpa using hr)
    exact ih (classic_child hv hd (List.mem_of_getElem? hq)) ((vpos_deadlock hv hd (List.mem_of_getElem? hq)).2 hp).1

/-- **C82** An episode started in a mutual close-out (set with `set_position`) passes until its plies are used up: it never ends the game. -/
theorem C82_episode_runs_out {σ π : Type} (gen : DiceGen σ) (pick : Game.Policy π)
    (h1 : ∀ s d s', gen.rollMixed s = some (d, s') → d.Valid) (h2 : ∀ s d s', gen.roll s = some (d, s') → d.Valid)
    (max : Nat) (g : Game) (hv : VPos.ValidFor g.variant g.position) (hp : Spec.Deadlock g.position.view) (s : σ) (t : π)
    (r : Game.EpisodeResult σ π) (h : Game.playEpisode classicRules gen pick max g s t = some r) :
    Spec.Deadlock r.game.position.view ∧ r.game.position.gameState = .ongoing ∧ ∀ n, r.result = .ok n → n = max := by
  obtain ⟨-, l, s1, t1, hpl, hok, -, -⟩ := C21_play_episode classicRules gen pick max g s t r h
  have hd := plies_deadlock h1 h2 hv hp hpl
  have hg := vpos_deadlock_ongoing (plies_valid h1 h2 hv hpl) hd
  refine ⟨hd, hg, fun n hn => ?_⟩
  have hle := (hok n hn).2.1
  by_contra hne
  obtain ⟨res, e⟩ := (C21_classic_episode gen pick h1 h2 max g hv s t r h).2 n hn (by omega)
  rw [hg] at e
  cases e

/-- Seven plies of passing. -/
example : VPos.ValidFor .backgammon (.backgammon Ex.closedOut) ∧
    (Game.playEpisode (σ := Unit) (π := Unit) classicRules
      ⟨fun s => some (.mixed 6 1, s), fun s => some (.mixed 6 1, s)⟩ (fun t _ _ _ => (0, t)) 7 ⟨.backgammon, .backgammon Ex.closedOut⟩ ()
      ()).map (fun r => r.result.toOption) = some (some 7) :=
  ⟨⟨rfl, (by decide +kernel : Ex.closedOut.Valid)⟩, by decide +kernel⟩

end Bkgm
