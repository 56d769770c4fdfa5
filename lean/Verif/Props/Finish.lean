import Verif.Spec.Finish
import Verif.Proofs.Finish2
import Verif.Props.Endless
import Mathlib.Order.Interval.Finset.Basic
import Mathlib.Order.Interval.Set.Infinite
import Mathlib.Data.Fintype.EquivFin
import Mathlib.Data.Pi.Interval
import Mathlib.Data.Int.Interval
/-!
# C87: with few checkers left a game can always be finished
-/


namespace Bkgm
open Pos
variable {N : Nat}

theorem view_off (p : Pos N) : p.view.xOff = p.xOff ∧ p.view.oOff = p.oOff := ⟨rfl, rfl⟩

/-- Against so few checkers there is a roll and a child in which nothing was hit. -/
theorem pos_quiet (p : Pos N) (hv : p.Valid) (hx : p.xOff < N) (hl : Spec.LooseO p.view) :
    ∃ dice : Dice, dice.Valid ∧ ∃ c ∈ p.legalPositions dice, c.view.pipsX = p.view.pipsO := by
  have key : ∀ c : Pos N, c.flip.view.o = p.view.o → c.view.pipsX = p.view.pipsO := fun c h => by
    have : c.view.pipsX = c.flip.view.pipsO := by rw [view_flip, (MoveText.pips_mirror _).2]
    rw [this]
    unfold Spec.Board.pipsO
    rw [h]
  obtain ⟨dice, hd, ⟨b', hl, ho⟩ | hall⟩ := Spec.quiet hv hx hl fun i hi => view_out p hi
  · obtain ⟨c, hc, e⟩ := C01_every_play_is_listed p hv.barsOK dice hd b' hl
    exact ⟨dice, hd, c, hc, key c (by rw [e, ho])⟩
  · obtain ⟨c, hc⟩ := List.exists_mem_of_ne_nil _ (C02_never_empty p hv.barsOK dice hd)
    exact ⟨dice, hd, c, hc, key c (hall _ ((C01_legal_positions_iff p c hv.barsOK dice hd).1 hc).2)⟩

/-- Few checkers left for the player to move: at most four against at most eleven, or at most five on both sides. -/
abbrev Few (N xOff oOff : Nat) : Prop := N ≤ xOff + 4 ∧ N ≤ oOff + 11 ∨ N ≤ xOff + 5 ∧ N ≤ oOff + 5

/-- With few checkers left there is a roll and a child in which the mover has come nearer to the end, and the opponent has a quiet reply. -/
theorem pos_progress (p : Pos N) (hv : p.Valid) (hx : p.xOff < N) (hfew : Few N p.xOff p.oOff) :
    ∃ dice : Dice, dice.Valid ∧ ∃ c ∈ p.legalPositions dice, c.view.pipsO < p.view.pipsX ∧ Spec.LooseO c.view := by
  have hs := hv.sumO
  rw [(view_off p).2] at hs
  -- a play with which a move is possible makes progress
  have less : ∀ {dice : Dice}, dice.Valid → (∃ src die, die ∈ Spec.faces dice ∧ Spec.CanStep p.view src die) → ∀ c ∈ p.legalPositions dice,
      c.view.pipsO < p.view.pipsX := by
    rintro dice hd ⟨src, die, hmem, hcs⟩ c hc
    obtain ⟨-, used, hu, hpl, hmax, -⟩ := (mem_legal hv.barsOK hd).1 hc
    have hlen : 1 ≤ used.length := hmax [die] _ (fun v => by
      have := List.count_pos_iff.2 hmem
      simp only [List.count_cons, List.count_nil]
      by_cases e : die = v
      · subst e; simp; omega
      · simp [e]) (.cons hcs (.nil _))
    obtain ⟨ms, rfl, hm⟩ := hpl.moves
    have hpos := uses_pos hd hu
    have he := hm.pipsX (fun m h => hpos _ (List.mem_map_of_mem h))
    have hxx : c.view.pipsO = c.flip.view.pipsX := by rw [view_flip, (MoveText.pips_mirror _).1]
    rw [hxx]
    have : 1 ≤ (ms.map fun m => min m.1 m.2).sum := by
      generalize p.view = b, c.flip.view = b' at hm
      cases hm with
      | nil => simp at hlen
      | @cons _ _ src die rest hcs _ =>
        have a := hcs.range.1
        have b := hpos die (by simp)
        simp only [List.map_cons, List.sum_cons]
        omega
    omega
  have loose : ∀ c : Pos N, Spec.LooseX c.flip.view → Spec.LooseO c.view := fun c h => by
    have := Spec.looseO_mirror h
    rwa [← view_flip, Pos.flip_flip] at this
  rcases hfew with ⟨h4, h11⟩ | ⟨h5, h5'⟩
  · obtain ⟨src, die, h1, h6, hcs⟩ := Spec.canMove_of_eleven hv hx (by omega) fun i hi => view_out p hi
    have hd : (Dice.double die).Valid := ⟨h1, h6⟩
    obtain ⟨c, hc⟩ := List.exists_mem_of_ne_nil _ (C02_never_empty p hv.barsOK _ hd)
    refine ⟨_, hd, c, hc, less hd ⟨src, die, by simp [Spec.faces], hcs⟩ c hc, Or.inl ?_⟩
    refine (Spec.pointsO_le _).trans ?_
    have e1 := (C04_children_valid p c hv _ hd hc).sumO
    obtain ⟨-, e2, -⟩ := C05_turn_off_hits p c hv.barsOK _ hd hc
    rw [(view_off c).2] at e1
    omega
  · obtain ⟨dice, hd, hcs, ⟨b', hl, hloose⟩ | hall⟩ := Spec.loose_play hv hx h5 (by omega) fun i hi => view_out p hi
    · obtain ⟨c, hc, e⟩ := C01_every_play_is_listed p hv.barsOK dice hd b' hl
      exact ⟨dice, hd, c, hc, less hd hcs c hc, loose c (by rw [e]; exact hloose)⟩
    · obtain ⟨c, hc⟩ := List.exists_mem_of_ne_nil _ (C02_never_empty p hv.barsOK dice hd)
      exact ⟨dice, hd, c, hc, less hd hcs c hc, loose c (hall _ ((C01_legal_positions_iff p c hv.barsOK dice hd).1 hc).2)⟩

/-- What a ply does to the borne-off checkers. -/
theorem vpos_offs {v : Variant} {q c : VPos} (hq : VPos.ValidFor v q) {dice : Dice} (hd : dice.Valid) (hc : c ∈ classicRules q dice) :
    c.view.xOff = q.view.oOff ∧ q.view.xOff ≤ c.view.oOff := by
  have key : ∀ {N : Nat} (p x : Pos N), Spec.Valid N p.view → x ∈ p.legalPositions dice → x.view.xOff = p.view.oOff ∧ p.view.xOff ≤ x.view.oOff :=
    fun p x h hx => by
      obtain ⟨-, h1, -, h2, -⟩ := C05_turn_off_hits p x (Pos.Valid.barsOK h) dice hd hx
      exact ⟨h2, h1⟩
  obtain ⟨rfl, h⟩ := hq
  cases q <;> (simp only [classicRules] at hc; obtain ⟨x, hx, rfl⟩ := List.mem_map.1 hc; exact key _ x h hx)

theorem vpos_quiet {v : Variant} {q : VPos} (hq : VPos.ValidFor v q) (hx : q.view.xOff < v.checkers) (hl : Spec.LooseO q.view) :
    ∃ dice : Dice, dice.Valid ∧ ∃ c ∈ classicRules q dice, c.view.pipsX = q.view.pipsO := by
  obtain ⟨rfl, h⟩ := hq
  cases q <;> (obtain ⟨dice, hd, c, hc, e⟩ := pos_quiet _ h hx hl; exact ⟨dice, hd, _, List.mem_map_of_mem hc, e⟩)

theorem vpos_progress {v : Variant} {q : VPos} (hq : VPos.ValidFor v q) (hx : q.view.xOff < v.checkers) (hfew : FewLeft v q) :
    ∃ dice : Dice, dice.Valid ∧ ∃ c ∈ classicRules q dice, c.view.pipsO < q.view.pipsX ∧ Spec.LooseO c.view := by
  obtain ⟨rfl, h⟩ := hq
  cases q <;> (obtain ⟨dice, hd, c, hc, e⟩ := pos_progress _ h hx hfew; exact ⟨dice, hd, _, List.mem_map_of_mem hc, e⟩)

theorem finish_x {v : Variant} (m : Nat) : ∀ q : VPos, VPos.ValidFor v q → q.gameState = .ongoing → q.view.pipsX ≤ m →
    FewLeft v q → ∃ n r, Leads q n r ∧ r.gameState ≠ .ongoing ∧ n + 1 ≤ 2 * m := by
  induction m with
  | zero =>
    intro q hq hg hm hfew
    obtain ⟨dice, hd, c, hc, hlt, -⟩ := vpos_progress hq (vpos_off hq hg).1 hfew
    omega
  | succ m ih =>
    intro q hq hg hm hfew
    obtain ⟨dice, hd, c, hc, hlt, hl⟩ := vpos_progress hq (vpos_off hq hg).1 hfew
    have hcv := classic_child hq hd hc
    have o1 := vpos_offs hq hd hc
    by_cases hgc : c.gameState = .ongoing
    · obtain ⟨dice', hd', c', hc', he⟩ := vpos_quiet hcv (vpos_off hcv hgc).1 hl
      have hcv' := classic_child hcv hd' hc'
      have o2 := vpos_offs hcv hd' hc'
      by_cases hgc' : c'.gameState = .ongoing
      · obtain ⟨n, r, hl, hr, hn⟩ := ih c' hcv' hgc' (by omega) (by unfold FewLeft at *; omega)
        exact ⟨n + 2, r, .cons hg hd hc (.cons hgc hd' hc' hl), hr, by omega⟩
      · have : 0 < m := by
          by_contra h0
          have h1 : c.view.pipsO = 0 := by omega
          have h2 := hcv.2.sumO
          have h3 := (vpos_off hcv hgc).2
          have h4 : 1 ≤ c.view.countO := by omega
          have : c.view.countO = 0 := by
            unfold Spec.Board.pipsO at h1
            rw [Finset.sum_eq_zero_iff] at h1
            refine Finset.sum_eq_zero fun i hi => ?_
            have := h1 i hi
            rcases Nat.mul_eq_zero.1 this with h | h
            · have : i = 25 := by rw [Finset.mem_range] at hi; omega
              rw [this]; exact hcv.2.oBar
            · exact h
          omega
        exact ⟨2, c', .cons hg hd hc (.cons hgc hd' hc' (.nil _)), hgc', by omega⟩
    · exact ⟨1, c, .cons hg hd hc (.nil _), hgc, by omega⟩

/-- **C87** If the player to move has at most four checkers left and the opponent at most eleven, or both have at most five, then there are rolls and
legal plays that bring the game to an end, and it takes no more than twice as many plies as that player has pips to go. -/
theorem C87_can_finish (v : Variant) (q : VPos) (hq : VPos.ValidFor v q) (hg : q.gameState = .ongoing) (hfew : FewLeft v q) :
    ∃ n r, Leads q n r ∧ (∃ res, r.gameState = .gameOver res) ∧ n ≤ 2 * q.view.pipsX := by
  obtain ⟨n, r, hl, hr, hn⟩ := finish_x q.view.pipsX q hq hg le_rfl hfew
  refine ⟨n, r, hl, ?_, by omega⟩
  cases h : r.gameState with
  | ongoing => exact absurd h hr
  | gameOver res => exact ⟨res, rfl⟩

/-- **C87** The same if it is the player who is not to move who has at most four checkers left, and the other at most eleven. -/
theorem C87_can_finish_other (v : Variant) (q : VPos) (hq : VPos.ValidFor v q) (hg : q.gameState = .ongoing)
    (h11 : v.checkers ≤ q.view.xOff + 11) (h4 : v.checkers ≤ q.view.oOff + 4) :
    ∃ n r, Leads q n r ∧ (∃ res, r.gameState = .gameOver res) ∧ n ≤ 2 * q.view.pipsO + 1 := by
  have hs := hq.2.sumO
  have hp := Spec.pointsO_le q.view
  obtain ⟨dice, hd, c, hc, he⟩ := vpos_quiet hq (vpos_off hq hg).1 (Or.inl (by omega))
  have hcv := classic_child hq hd hc
  have o1 := vpos_offs hq hd hc
  cases hgc : c.gameState with
  | gameOver res => exact ⟨1, c, .cons hg hd hc (.nil _), ⟨res, hgc⟩, by omega⟩
  | ongoing =>
    obtain ⟨n, r, hl, hr, hn⟩ := C87_can_finish v c hcv hgc (Or.inl ⟨by omega, by omega⟩)
    exact ⟨n + 1, r, .cons hg hd hc hl, hr, by omega⟩

theorem x_le_countX (b : Spec.Board) {i : Nat} (hi : i < 26) : b.x i ≤ b.countX :=
  Finset.single_le_sum (f := b.x) (fun _ _ => Nat.zero_le _) (Finset.mem_range.2 hi)
theorem o_le_countO (b : Spec.Board) {i : Nat} (hi : i < 26) : b.o i ≤ b.countO :=
  Finset.single_le_sum (f := b.o) (fun _ _ => Nat.zero_le _) (Finset.mem_range.2 hi)

theorem pipsX_le (b : Spec.Board) : b.pipsX ≤ 25 * b.countX := by
  unfold Spec.Board.pipsX Spec.Board.countX
  rw [Finset.mul_sum]
  refine Finset.sum_le_sum fun i hi => Nat.mul_le_mul_right _ ?_
  rw [Finset.mem_range] at hi
  omega

/-- **C87** In hypergammon with two, three, four or five checkers, every position of an unfinished game can be brought to an end, within 50 plies per
checker. -/
theorem C87_small_variants (v : Variant) (h5 : v.checkers ≤ 5) (q : VPos) (hq : VPos.ValidFor v q) (hg : q.gameState = .ongoing) :
    ∃ n r, Leads q n r ∧ (∃ res, r.gameState = .gameOver res) ∧ n ≤ 50 * v.checkers := by
  obtain ⟨n, r, hl, hr, hn⟩ := C87_can_finish v q hq hg (Or.inr ⟨by omega, by omega⟩)
  have h1 := pipsX_le q.view
  have h2 := hq.2.sumX
  exact ⟨n, r, hl, hr, by omega⟩

theorem pos_valid_finite (N : Nat) : {p : Pos N | Spec.Valid N p.view}.Finite := by
  let f : Pos N → Bool × (Fin 26 → Int) × Nat × Nat := fun p => (p.turn, p.pips, p.xOff, p.oOff)
  have hf : Function.Injective f := fun p q h => by
    simp only [f, Prod.mk.injEq] at h
    exact Pos.ext h.1 h.2.1 h.2.2.1 h.2.2.2
  have hfin : (Set.univ ×ˢ Set.Icc (fun _ => -(N : Int)) (fun _ => (N : Int)) ×ˢ Set.Iic N ×ˢ Set.Iic N :
      Set (Bool × (Fin 26 → Int) × Nat × Nat)).Finite :=
    Set.finite_univ.prod ((Set.finite_Icc _ _).prod ((Set.finite_Iic _).prod (Set.finite_Iic _)))
  refine (hfin.preimage hf.injOn).subset fun p hp => ?_
  have hp : Spec.Valid N p.view := hp
  have h1 := hp.sumX
  have h2 := hp.sumO
  rw [(view_off p).1] at h1
  rw [(view_off p).2] at h2
  have hc : ∀ i : Fin 26, -(N : Int) ≤ p.pips i ∧ p.pips i ≤ N := fun i => by
    have a := x_le_countX p.view i.2
    have b := o_le_countO p.view i.2
    simp only [Pos.view, Pos.pip, i.2, dif_pos] at a b
    have e1 : p.view.countX ≤ N := by omega
    have e2 : p.view.countO ≤ N := by omega
    constructor
    · have := b.trans e2; simp at this; omega
    · have := a.trans e1; simp at this; omega
  refine ⟨Set.mem_univ _, ⟨fun i => (hc i).1, fun i => (hc i).2⟩, ?_, ?_⟩
  · show p.xOff ≤ N; omega
  · show p.oOff ≤ N; omega

theorem validFor_finite (v : Variant) : {q : VPos | VPos.ValidFor v q}.Finite := by
  have key : {q : VPos | VPos.ValidFor v q} ⊆
      (VPos.backgammon '' {p | Spec.Valid 15 p.view} ∪ VPos.nackgammon '' {p | Spec.Valid 15 p.view} ∪ VPos.longgammon '' {p | Spec.Valid 15 p.view}) ∪
      (VPos.hypergammon '' {p | Spec.Valid 3 p.view} ∪ VPos.hypergammon2 '' {p | Spec.Valid 2 p.view} ∪
        VPos.hypergammon4 '' {p | Spec.Valid 4 p.view} ∪ VPos.hypergammon5 '' {p | Spec.Valid 5 p.view}) := by
    rintro q ⟨rfl, h⟩
    cases q with
    | backgammon p => exact Or.inl (Or.inl (Or.inl ⟨p, h, rfl⟩))
    | nackgammon p => exact Or.inl (Or.inl (Or.inr ⟨p, h, rfl⟩))
    | longgammon p => exact Or.inl (Or.inr ⟨p, h, rfl⟩)
    | hypergammon p => exact Or.inr (Or.inl (Or.inl (Or.inl ⟨p, h, rfl⟩)))
    | hypergammon2 p => exact Or.inr (Or.inl (Or.inl (Or.inr ⟨p, h, rfl⟩)))
    | hypergammon4 p => exact Or.inr (Or.inl (Or.inr ⟨p, h, rfl⟩))
    | hypergammon5 p => exact Or.inr (Or.inr ⟨p, h, rfl⟩)
  refine Set.Finite.subset ?_ key
  have f := pos_valid_finite
  exact ((((f 15).image _).union ((f 15).image _)).union ((f 15).image _)).union
    (((((f 3).image _).union ((f 2).image _)).union ((f 4).image _)).union ((f 5).image _))

/-- Everything that can be reached from a recurring position of a fair sequence recurs. -/
theorem recurs_line {pos : Nat → VPos} (hf : Fair pos) {q r : VPos} {n : Nat} (h : Leads q n r) (hq : Recurs pos q) : Recurs pos r := by
  induction h with
  | nil => exact hq
  | cons hg hd hc _ ih =>
    refine ih fun n => ?_
    obtain ⟨m, hm, -, e⟩ := hf _ _ _ hg hd hc hq n
    exact ⟨m + 1, by omega, e⟩

/-- **C87** A fair sequence of plies ends the game, if one side has at most four checkers left and the other at most eleven, or both have at most
five. -/
theorem C87_fair_play_ends (v : Variant) (pos : Nat → VPos) (hrun : Run pos) (hfair : Fair pos) (hv : VPos.ValidFor v (pos 0))
    (hfew : FewLeft v (pos 0) ∨ v.checkers ≤ (pos 0).view.xOff + 11 ∧ v.checkers ≤ (pos 0).view.oOff + 4) : ∃ n res, (pos n).gameState = .gameOver res := by
  by_contra hc
  have hon : ∀ n, (pos n).gameState = .ongoing := fun n => by
    cases h : (pos n).gameState with
    | ongoing => rfl
    | gameOver res => exact absurd ⟨n, res, h⟩ hc
  have hall : ∀ n, VPos.ValidFor v (pos n) ∧
      (FewLeft v (pos n) ∨ v.checkers ≤ (pos n).view.xOff + 11 ∧ v.checkers ≤ (pos n).view.oOff + 4) := by
    intro n
    induction n with
    | zero => exact ⟨hv, hfew⟩
    | succ n ih =>
      obtain ⟨dice, hd, hm⟩ := hrun n (hon n)
      have := vpos_offs ih.1 hd hm
      exact ⟨classic_child ih.1 hd hm, by unfold FewLeft at *; omega⟩
  have : Finite {q : VPos | VPos.ValidFor v q} := validFor_finite v
  obtain ⟨⟨q, hq⟩, hinf⟩ := Finite.exists_infinite_fiber (fun n => (⟨pos n, (hall n).1⟩ : {q : VPos | VPos.ValidFor v q}))
  have hrec : Recurs pos q := by
    intro n
    by_contra hno
    push Not at hno
    refine hinf.not_finite ?_
    refine Set.Finite.to_subtype ((Set.finite_lt_nat n).subset fun m hm => ?_)
    by_contra hge
    exact hno m (by simpa using hge) (by simpa using congrArg Subtype.val hm)
  obtain ⟨m, -, rfl⟩ := hrec 0
  obtain ⟨n, r, hl, ⟨res, hr⟩⟩ : ∃ n r, Leads (pos m) n r ∧ ∃ res, r.gameState = .gameOver res := by
    rcases (hall m).2 with h | ⟨h1, h2⟩
    · obtain ⟨n, r, hl, hr, -⟩ := C87_can_finish v _ hq (hon m) h
      exact ⟨n, r, hl, hr⟩
    · obtain ⟨n, r, hl, hr, -⟩ := C87_can_finish_other v _ hq (hon m) h1 h2
      exact ⟨n, r, hl, hr⟩
  obtain ⟨k, -, e⟩ := recurs_line hfair hl hrec 0
  rw [← e, hon k] at hr
  cases hr

/-- **C87** In hypergammon with two, three, four or five checkers every fair game ends. -/
theorem C87_fair_games_end (v : Variant) (h5 : v.checkers ≤ 5) (pos : Nat → VPos) (h0 : pos 0 = v.startPosition) (hrun : Run pos)
    (hfair : Fair pos) : ∃ n res, (pos n).gameState = .gameOver res :=
  C87_fair_play_ends v pos hrun hfair (h0 ▸ (C41_start_position v).1) (Or.inl (Or.inr ⟨by omega, by omega⟩))

/-- Late backgammon position in contact: `x` has three checkers left, one of them on the bar, `o` eleven, five points of its home board made. -/
def Ex.late : Pos 15 := Ex.cells 15 [0, 0, 0, 0, 1, 0, 0, 1, 0, 0, 0, 0, 0, 0, 0, 0, 0, 0, 0, -2, -2, -2, -3, -2, 0, 1] 12 4

example : VPos.ValidFor .backgammon (.backgammon Ex.late) ∧ (VPos.backgammon Ex.late).gameState = .ongoing ∧
    FewLeft .backgammon (.backgammon Ex.late) :=
  ⟨⟨rfl, (by decide +kernel : Ex.late.Valid)⟩, by decide, Or.inl ⟨by decide, by decide⟩⟩
example : VPos.ValidFor .backgammon (.backgammon Ex.late.flip) ∧ (VPos.backgammon Ex.late.flip).gameState = .ongoing ∧
    Variant.backgammon.checkers ≤ (VPos.backgammon Ex.late.flip).view.xOff + 11 ∧
    Variant.backgammon.checkers ≤ (VPos.backgammon Ex.late.flip).view.oOff + 4 :=
  ⟨⟨rfl, (by decide +kernel : Ex.late.flip.Valid)⟩, by decide, by decide, by decide⟩

/-- A line of play that ends the game gives a fair sequence. -/
theorem run_of_line {q r : VPos} {n : Nat} (h : Leads q n r) (hr : r.gameState ≠ .ongoing) :
    ∃ pos : Nat → VPos, pos 0 = q ∧ Run pos ∧ Fair pos ∧ ∀ m, n ≤ m → pos m = r := by
  have key : ∃ pos : Nat → VPos, pos 0 = q ∧ Run pos ∧ ∀ m, n ≤ m → pos m = r := by
    induction h with
    | nil q => exact ⟨fun _ => q, rfl, fun _ hg => absurd hg hr, fun _ _ => rfl⟩
    | @cons q c r n dice hg hd hc _ ih =>
      obtain ⟨pos, h0, h1, h2⟩ := ih hr
      refine ⟨fun k => match k with | 0 => q | k + 1 => pos k, rfl, fun k => ?_, fun m hm => ?_⟩
      · cases k with
        | zero => exact fun _ => ⟨dice, hd, (show pos 0 ∈ classicRules q dice from h0 ▸ hc)⟩
        | succ k => exact h1 k
      · cases m with
        | zero => omega
        | succ m => exact h2 m (by omega)
  obtain ⟨pos, h0, h1, h2⟩ := key
  refine ⟨pos, h0, h1, fun q' c dice hg _ _ hrec => ?_, h2⟩
  obtain ⟨m, hm, e⟩ := hrec n
  rw [← e, h2 m hm] at hg
  exact absurd hg hr

/-- The hypotheses are met: from the start position of each of these variants there is a fair sequence of plies. -/
example (v : Variant) (h5 : v.checkers ≤ 5) : ∃ pos : Nat → VPos, pos 0 = v.startPosition ∧ Run pos ∧ Fair pos := by
  have hg : v.startPosition.gameState = .ongoing := by cases v <;> decide
  obtain ⟨n, r, hl, ⟨res, hr⟩, -⟩ := C87_small_variants v h5 v.startPosition (C41_start_position v).1 hg
  obtain ⟨pos, h0, h1, h2, -⟩ := run_of_line hl (by rw [hr]; exact nofun)
  exact ⟨pos, h0, h1, h2⟩

example : Variant.hypergammon.checkers ≤ 5 ∧ Variant.hypergammon2.checkers ≤ 5 ∧ Variant.hypergammon4.checkers ≤ 5 ∧
    Variant.hypergammon5.checkers ≤ 5 := by decide

end Bkgm
