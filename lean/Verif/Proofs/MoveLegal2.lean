import Verif.Proofs.MoveLegal
/-!
Helper lemmas for C36: where the text of an entry may come from.
-/

namespace Bkgm
open Pos
variable {N : Nat}

namespace MoveText

theorem Leaf.pip25 {o : List Nat} (ho : Dies o) {p q : Pos N} {l : List Step} (h : Leaf o p l q) (hb : p.BarsOK) :
    q.pip 25 = max (p.pip 25 - l.length) 0 := by
  induction h with
  | nil p => have := hb.2; simp; omega
  | @move p q f d rest l hc _ ih =>
    have hd := (ho d (by simp)).1
    rw [ih ho.tail (barsOK_mv hb hd hc)]
    have h2 := hb.2
    have hA := pip_mv p hc.hi hd 25
    by_cases hf : f = 25
    · subst hf
      have hown := hc.own
      have e : (p.mv 25 d).pip 25 = p.pip 25 - 1 := by rw [hA]; simp
      rw [e, List.length_cons]
      push_cast
      omega
    · have h25 := hc.bar hf
      have hle := hc.hi
      have : (p.mv f d).pip 25 = p.pip 25 := by
        rw [hA]
        have c1 : ¬ (25 = f) := fun e => hf e.symm
        have c2 : ¬ (25 = f - d) := by omega
        simp [c1, c2]
      rw [this, List.length_cons]
      push_cast
      omega
  | skip _ _ ih => exact ih ho.tail hb

/-- With two or more checkers on the bar the dice decide. -/
theorem leaf_bar {p q : Pos N} {x y : Nat} (hx : 1 ≤ x) (hy : 1 ≤ y) (hx6 : x ≤ 6) (hy6 : y ≤ 6) (hxy : x ≠ y) (h25 : 2 ≤ p.pip 25) {l : List Step}
    (h : Leaf [x, y] p l q) :
    (p.Can 25 x ∧ p.Can 25 y ∧ q = (p.mv 25 x).mv 25 y) ∨ (p.Can 25 x ∧ ¬ p.Can 25 y ∧ q = p.mv 25 x) ∨
    (¬ p.Can 25 x ∧ p.Can 25 y ∧ q = p.mv 25 y) ∨ (¬ p.Can 25 x ∧ ¬ p.Can 25 y ∧ q = p) := by
  have hA := fun j => pip_mv p (le_refl 25) hx j
  have e25 : (p.mv 25 x).pip 25 = p.pip 25 - 1 := by rw [hA]; simp
  have ey : (p.mv 25 x).pip (25 - y) = p.pip (25 - y) := by
    rw [hA]
    have c1 : ¬ (25 - y = 25) := by omega
    have c2 : ¬ (25 - y = 25 - x) := by omega
    have c3 : ¬ (25 - y = 0) := by omega
    simp [c1, c2, c3]
  have cross : (p.mv 25 x).Can 25 y ↔ p.Can 25 y := by
    constructor
    · rintro ⟨_, _, _, _, h5, _, _⟩
      exact ⟨by omega, by omega, by omega, by simp, fun h => by rw [← ey]; exact h5 h, by omega, by omega⟩
    · rintro ⟨_, _, _, _, h5, _, _⟩
      exact ⟨by omega, by omega, by omega, by simp, fun h => by rw [ey]; exact h5 h, by omega, by omega⟩
  cases h with
  | @move _ _ f _ _ l' hc h =>
    obtain rfl := hc.eq25 (by omega)
    cases h with
    | @move _ _ f' _ _ l'' hc' h =>
      cases h
      obtain rfl := hc'.eq25 (by omega)
      exact Or.inl ⟨hc, cross.1 hc', rfl⟩
    | skip hs h =>
      cases h
      exact Or.inr (Or.inl ⟨hc, fun hc' => hs _ (cross.2 hc'), rfl⟩)
  | skip hs h =>
    cases h with
    | @move _ _ f' _ _ l'' hc' h =>
      cases h
      obtain rfl := hc'.eq25 (by omega)
      exact Or.inr (Or.inr (Or.inl ⟨hs _, hc', rfl⟩))
    | skip hs' h =>
      cases h
      exact Or.inr (Or.inr (Or.inr ⟨hs _, hs' _, rfl⟩))

theorem bar_comm {p : Pos N} {x y : Nat} (hx : 1 ≤ x) (hy : 1 ≤ y) (hx6 : x ≤ 6) (hy6 : y ≤ 6) (hxy : x ≠ y) (h25 : 2 ≤ p.pip 25)
    (hcx : p.Can 25 x) (hcy : p.Can 25 y) : (p.mv 25 x).mv 25 y = (p.mv 25 y).mv 25 x := by
  have hA := fun j => pip_mv p (le_refl 25) hx j
  have e25 : (p.mv 25 x).pip 25 = p.pip 25 - 1 := by rw [hA]; simp
  have ey : (p.mv 25 x).pip (25 - y) = p.pip (25 - y) := by
    rw [hA]
    have c1 : ¬ (25 - y = 25) := by omega
    have c2 : ¬ (25 - y = 25 - x) := by omega
    have c3 : ¬ (25 - y = 0) := by omega
    simp [c1, c2, c3]
  refine (swap hx hy hy6 hcx ?_ (le_refl _)).2.2
  obtain ⟨_, _, _, _, h5, _, _⟩ := hcy
  exact ⟨by omega, by omega, by omega, by simp, fun h => by rw [ey]; exact h5 h, by omega, by omega⟩

theorem leaf_bar_unique {p q r : Pos N} {b s : Nat} (hs : 1 ≤ s) (hsb : s < b) (hb6 : b ≤ 6) (h25 : 2 ≤ p.pip 25) {o o' : List Nat}
    (ho : o ∈ orders (.mixed b s)) (ho' : o' ∈ orders (.mixed b s)) {l l' : List Step} (h : Leaf o p l q) (h' : Leaf o' p l' r) : q = r := by
  have key : ∀ {o : List Nat} {l : List Step} {q : Pos N}, o ∈ orders (.mixed b s) → Leaf o p l q →
      (p.Can 25 b ∧ p.Can 25 s ∧ q = (p.mv 25 b).mv 25 s) ∨ (p.Can 25 b ∧ ¬ p.Can 25 s ∧ q = p.mv 25 b) ∨
      (¬ p.Can 25 b ∧ p.Can 25 s ∧ q = p.mv 25 s) ∨ (¬ p.Can 25 b ∧ ¬ p.Can 25 s ∧ q = p) := by
    intro o l q ho h
    simp only [orders, List.mem_cons, List.not_mem_nil, or_false] at ho
    rcases ho with rfl | rfl
    · exact leaf_bar (by omega) hs hb6 (by omega) (by omega) h25 h
    · rcases leaf_bar hs (by omega) (by omega) hb6 (by omega) h25 h with ⟨h1, h2, rfl⟩ | ⟨h1, h2, rfl⟩ | ⟨h1, h2, rfl⟩ | ⟨h1, h2, rfl⟩
      · exact Or.inl ⟨h2, h1, bar_comm hs (by omega) (by omega) hb6 (by omega) h25 h1 h2⟩
      · exact Or.inr (Or.inr (Or.inl ⟨h2, h1, rfl⟩))
      · exact Or.inr (Or.inl ⟨h2, h1, rfl⟩)
      · exact Or.inr (Or.inr (Or.inr ⟨h2, h1, rfl⟩))
  have k1 := key ho h
  have k2 := key ho' h'
  rcases k1 with ⟨h1, h2, rfl⟩ | ⟨h1, h2, rfl⟩ | ⟨h1, h2, rfl⟩ | ⟨h1, h2, rfl⟩ <;>
    rcases k2 with ⟨h3, h4, rfl⟩ | ⟨h3, h4, rfl⟩ | ⟨h3, h4, rfl⟩ | ⟨h3, h4, rfl⟩ <;> first | rfl | contradiction

theorem leaf_nil_stuck {o : List Nat} : ∀ {p q : Pos N}, Leaf o p [] q → ∀ d ∈ o, Stuck d p := by
  induction o with
  | nil => simp
  | cons d o ih =>
    intro p q h
    cases h with
    | skip hs h =>
      intro e he
      rcases List.mem_cons.1 he with rfl | he
      · exact hs
      · exact ih h e he

theorem leaf_all_stuck {o : List Nat} {p q : Pos N} {l : List Step} (h : Leaf o p l q) (hs : ∀ d ∈ o, Stuck d p) : l = [] ∧ q = p := by
  induction h with
  | nil => exact ⟨rfl, rfl⟩
  | move hc _ _ => exact absurd hc (hs _ (by simp) _)
  | skip _ _ ih => exact ih fun d hd => hs d (List.mem_cons_of_mem _ hd)

theorem orders_same {dice : Dice} {o o' : List Nat} (ho : o ∈ orders dice) (ho' : o' ∈ orders dice) {d : Nat} (h : d ∈ o) : d ∈ o' := by
  cases dice with
  | double d => simp only [orders, List.mem_singleton] at ho ho'; rw [ho', ← ho]; exact h
  | mixed b s =>
    simp only [orders, List.mem_cons, List.not_mem_nil, or_false] at ho ho'
    rcases ho with rfl | rfl <;> rcases ho' with rfl | rfl <;> simp at h ⊢ <;> tauto

/-- Mixed rolls: two paths whose ends are mirror images of each other end at the same position. -/
theorem mixed_mirror {p q r : Pos N} (hb : p.BarsOK) {b s : Nat} (hv : (Dice.mixed b s).Valid) {o o' : List Nat}
    (ho : o ∈ orders (.mixed b s)) (ho' : o' ∈ orders (.mixed b s)) {l l' : List Step} (hq : Leaf o p l q) (hr : Leaf o' p l' r)
    (h : q.eqv r.flip = true) : q.eqv r = true := by
  have hod := orders_dies hv o ho
  have hod' := orders_dies hv o' ho'
  obtain ⟨h1, h2, h3⟩ : 1 ≤ s ∧ s < b ∧ b ≤ 6 := hv
  by_cases h25 : 2 ≤ p.pip 25
  · rw [leaf_bar_unique h1 h2 h3 h25 ho ho' hq hr]; exact eqv_refl _
  · have e1 := hq.pip25 hod hb
    have e2 := hr.pip25 hod' hb
    have fin : q.pip 25 = 0 → r.pip 25 = 0 → q.eqv r = true := by
      intro z1 z2
      obtain ⟨a1, a2, a3⟩ := hq.o hod hb
      obtain ⟨b1, b2, b3⟩ := hr.o hod' hb
      have hp : ∀ i, i < 26 → q.pip i = - r.pip (25 - i) := by
        intro i hi
        obtain ⟨h1, -, -⟩ := eqv_iff.1 h
        have : q.pip i = r.flip.pip i := by unfold pip; rw [h1]
        rw [this, pip_flip r hi]
      have c0 := hp 0 (by omega)
      have c25 := hp 25 (by omega)
      simp only [Nat.sub_zero, Nat.sub_self] at c0 c25
      have hb0 := hb.1
      refine mirror_eq (fun i => ?_) (by rw [a1, b1]) h
      rw [a3 (by omega), b3 (by omega)]
    have hb25 := hb.2
    by_cases hl : l = []
    · subst hl
      have hst := leaf_nil_stuck hq
      obtain ⟨-, rfl⟩ := leaf_all_stuck hq hst
      obtain ⟨-, rfl⟩ := leaf_all_stuck hr fun d hd => hst d (orders_same ho' ho hd)
      exact eqv_refl _
    · by_cases hl' : l' = []
      · subst hl'
        have hst := leaf_nil_stuck hr
        obtain ⟨h, _⟩ := leaf_all_stuck hq fun d hd => hst d (orders_same ho ho' hd)
        exact absurd h hl
      · have n1 : 1 ≤ l.length := List.length_pos_iff.2 hl
        have n2 : 1 ≤ l'.length := List.length_pos_iff.2 hl'
        exact fin (by omega) (by omega)

theorem Leaf.length_le {o : List Nat} {p q : Pos N} {l : List Step} (h : Leaf o p l q) : l.length ≤ o.length := by
  induction h with
  | nil => simp
  | move _ _ ih => simpa using ih
  | skip _ _ ih => rw [List.length_cons]; omega

/-! ## Pips -/

theorem Leaf.moves {o : List Nat} (ho : Dies o) {p q : Pos N} {l : List Step} (h : Leaf o p l q) (hb : p.BarsOK) :
    ∃ ms : List (Nat × Nat), Spec.Moves p.view ms q.view ∧ ms.length = l.length ∧ (∀ m ∈ ms, 1 ≤ m.2 ∧ 1 ≤ m.1) := by
  induction h with
  | nil p => exact ⟨[], .nil _, rfl, by simp⟩
  | @move p q f d rest l hc _ ih =>
    have hd := (ho d (by simp)).1
    obtain ⟨ms, h1, h2, h3⟩ := ih ho.tail (barsOK_mv hb hd hc)
    refine ⟨(f, d) :: ms, .cons (canStep_iff.2 hc) ?_, by simp [h2], ?_⟩
    · rw [after_view hb hd hc]; exact h1
    · intro m hm
      rcases List.mem_cons.1 hm with rfl | hm
      · exact ⟨hd, hc.lo⟩
      · exact h3 m hm
  | skip _ _ ih => exact ih ho.tail hb

/-- A path never adds to the mover's pips, takes some away unless it is empty, and never takes away from the opponent's. -/
theorem Leaf.pips {o : List Nat} (ho : Dies o) {p q : Pos N} {l : List Step} (h : Leaf o p l q) (hb : p.BarsOK) :
    q.view.pipsX + l.length ≤ p.view.pipsX ∧ p.view.pipsO ≤ q.view.pipsO := by
  obtain ⟨ms, h1, h2, h3⟩ := h.moves ho hb
  constructor
  · rw [h1.pipsX fun m hm => (h3 m hm).1, ← h2]
    apply Nat.add_le_add_left
    clear h1 h2
    induction ms with
    | nil => simp
    | cons m ms ih =>
      have := h3 m (by simp)
      have := ih fun m hm => h3 m (List.mem_cons_of_mem _ hm)
      simp only [List.map_cons, List.sum_cons, List.length_cons]
      omega
  · rw [h1.play.pipsO (by
      intro d hd
      obtain ⟨m, hm, rfl⟩ := List.mem_map.1 hd
      exact (h3 m hm).1)]
    omega

theorem pips_mirror (b : Spec.Board) : b.mirror.pipsX = b.pipsO ∧ b.mirror.pipsO = b.pipsX := by
  constructor
  · unfold Spec.Board.pipsX Spec.Board.pipsO
    rw [← Finset.sum_range_reflect]
    apply Finset.sum_congr rfl
    intro i hi
    have := Finset.mem_range.1 hi
    simp only [Spec.Board.mirror]
    rw [if_pos (by omega), show 25 - (26 - 1 - i) = i by omega, show 26 - 1 - i = 25 - i by omega]
  · unfold Spec.Board.pipsX Spec.Board.pipsO
    rw [← Finset.sum_range_reflect]
    apply Finset.sum_congr rfl
    intro i hi
    have := Finset.mem_range.1 hi
    simp only [Spec.Board.mirror]
    rw [if_pos (by omega), show 25 - (26 - 1 - i) = i by omega]

theorem eqv_view {p q : Pos N} (h : p.eqv q = true) : p.view = q.view := by
  obtain ⟨h1, h2, h3⟩ := eqv_iff.1 h
  unfold view pip
  rw [h1, h2, h3]

theorem barsOK_flip {p : Pos N} (hb : p.BarsOK) : p.flip.BarsOK := by
  obtain ⟨h1, h2⟩ := hb
  unfold BarsOK
  rw [pip_flip p (by omega), pip_flip p (by omega)]
  simp only [Nat.sub_zero, Nat.sub_self]
  omega

/-- The opponent's path and the player's path end on the same board only if neither moves. -/
theorem opponent_same {p q r : Pos N} (hb : p.BarsOK) {o o' : List Nat} (ho : Dies o) (ho' : Dies o') {l l' : List Step}
    (hq : Leaf o p.flip l q) (hr : Leaf o' p l' r) (h : q.eqv r.flip = true) : l = [] ∧ l' = [] := by
  obtain ⟨a1, a2⟩ := hq.pips ho (barsOK_flip hb)
  obtain ⟨b1, b2⟩ := hr.pips ho' hb
  rw [eqv_view h, view_flip, (pips_mirror _).1, view_flip, (pips_mirror _).1] at a1
  rw [eqv_view h, view_flip, (pips_mirror _).2, view_flip, (pips_mirror _).2] at a2
  exact ⟨List.length_eq_zero_iff.1 (by omega), List.length_eq_zero_iff.1 (by omega)⟩

/-! ## Changing the side to move -/

/-- The same position with `t` to move. -/
def _root_.Bkgm.Pos.withTurn (p : Pos N) (t : Bool) : Pos N := { p with turn := t }

theorem eqv_withTurn {p q : Pos N} (h : p.eqv q = true) : p = q.withTurn p.turn := by
  obtain ⟨h1, h2, h3⟩ := eqv_iff.1 h
  exact Pos.ext rfl h1 h2 h3

@[simp] theorem pip_withTurn (p : Pos N) (t : Bool) (i : Nat) : (p.withTurn t).pip i = p.pip i := rfl

theorem can_withTurn {p : Pos N} (t : Bool) {f d : Nat} : (p.withTurn t).Can f d ↔ p.Can f d := by
  constructor
  · rintro ⟨a, b, c, d, e, f, g⟩; exact ⟨a, b, c, d, e, f, g⟩
  · rintro ⟨a, b, c, d, e, f, g⟩; exact ⟨a, b, c, d, e, f, g⟩

theorem mv_withTurn (p : Pos N) (t : Bool) {f d : Nat} (hf : f ≤ 25) (hd : 1 ≤ d) : (p.withTurn t).mv f d = (p.mv f d).withTurn t := by
  apply ext_pip
  · simp [Pos.withTurn]
  · simp [Pos.withTurn, xOff_mv]
  · simp [Pos.withTurn]
  · intro j hj
    rw [pip_withTurn, pip_mv _ hf hd, pip_mv _ hf hd]
    simp only [pip_withTurn]
    split_ifs <;> grind

theorem leaf_withTurn {o : List Nat} (ho : Dies o) {p q : Pos N} {l : List Step} (h : Leaf o p l q) (t : Bool) : Leaf o (p.withTurn t) l (q.withTurn t) := by
  induction h with
  | nil p => exact .nil _
  | @move p q f d rest l hc _ ih =>
    refine .move ((can_withTurn t).2 hc) ?_
    rw [mv_withTurn p t hc.hi (ho d (by simp)).1]
    exact ih ho.tail
  | skip hs _ ih => exact .skip (fun f hc => hs f ((can_withTurn t).1 hc)) (ih ho.tail)

/-! ## Entries -/

theorem apply_good {p q c : Pos N} {dice : Dice} (hb : p.BarsOK) (hv : dice.Valid) (hc : c ∈ p.legalPositions dice) {o : List Nat} (ho : o ∈ orders dice)
    {l : List Step} (h : Leaf o p l q) (e : c.eqv q.flip = true) : applyFor p dice (formatSteps l) = some c := by
  have : c = q.flip := eqv_eq e (by rw [legal_turn hb hv hc, turn_flip, h.turn])
  subst this
  exact apply_leaf hb hv ho h hc

theorem paths_leaf {p q : Pos N} (hb : p.BarsOK) {dice : Dice} (hv : dice.Valid) {o : List Nat} (ho : o ∈ orders dice) {l : List Step}
    (h : (l, q) ∈ paths o p) : Leaf o p l q := (mem_paths hb (orders_dies hv o ho)).1 h

/-- Doubles: always right. -/
theorem entry_double {p c : Pos N} {d : Nat} (hb : p.BarsOK) (hv : (Dice.double d).Valid) {l : List Step} (h : (l, c) ∈ legalFor p (.double d)) :
    applyFor p (.double d) (formatSteps l) = some c := by
  obtain ⟨hc, x, hx⟩ := legalFor_entry hb hv h
  have hal : allLeaves p (.double d) = paths [d, d, d, d] p ++ paths [d, d, d, d] p.flip := by simp [allLeaves, orders]
  have ho4 : [d, d, d, d] ∈ orders (.double d) := by simp [orders]
  rw [hal, records_append, List.find?_append] at hx
  obtain ⟨o, ho, l0, hl0⟩ := legal_record hb hv hc
  obtain rfl : o = [d, d, d, d] := by simpa [orders] using ho
  have hs : ((records (paths [d, d, d, d] p)).find? fun r => c.eqv r.1).isSome = true := by
    rw [List.find?_isSome]
    exact ⟨_, hl0, eqv_refl _⟩
  obtain ⟨r, hr⟩ := Option.isSome_iff_exists.1 hs
  rw [hr, Option.some_or] at hx
  cases hx
  have he := List.find?_some hr
  obtain ⟨q, hq, hx⟩ := mem_records.1 (List.mem_of_find?_eq_some hr)
  have hl := paths_leaf hb hv ho4 hq
  have hd := orders_dies hv _ ho4
  simp only at he hx hl
  rcases hx with rfl | rfl
  · exact apply_good hb hv hc ho4 hl he
  · -- the end itself, not its mirror image, is the child
    obtain ⟨_, _, l1, hl1⟩ := legal_leaf (q := c.flip) hb hv (by rw [Pos.flip_flip]; exact hc)
    rename_i o1 ho1
    obtain rfl : o1 = [d, d, d, d] := by simpa [orders] using ho1
    obtain ⟨s1, t1⟩ := leaf_double (k := 4) hl
    obtain ⟨s2, t2⟩ := leaf_double (k := 4) hl1
    have hv' := hv
    obtain ⟨g1, g2⟩ : 1 ≤ d ∧ d ≤ 6 := hv
    have n1 : l.length ≤ 4 := hl.length_le
    have n2 : l1.length ≤ 4 := hl1.length_le
    have hn : l.length = l1.length := by
      rcases t1 with t1 | t1 <;> rcases t2 with t2 | t2
      · omega
      · obtain ⟨k, hk, _⟩ := descent g1 g2 s1 s2 t2; omega
      · obtain ⟨k, hk, _⟩ := descent g1 g2 s2 s1 t1; omega
      · obtain ⟨k, hk, _⟩ := descent g1 g2 s1 s2 t2
        obtain ⟨k', hk', _⟩ := descent g1 g2 s2 s1 t1
        omega
    rw [← hn] at s2
    have := double_mirror hb g1 g2 s1 s2 (hl.o hd hb) (hl1.o hd hb) (by rw [Pos.flip_flip]; exact eqv_symm he)
    refine apply_good hb hv' hc ho4 hl (eqv_symm ?_)
    have := eqv_flip this
    rwa [Pos.flip_flip] at this

/-- Mixed rolls: right unless the opponent's plays from the same position are involved. -/
theorem entry_mixed {p c : Pos N} {b s : Nat} (hb : p.BarsOK) (hv : (Dice.mixed b s).Valid) {l : List Step} (h : (l, c) ∈ legalFor p (.mixed b s)) :
    applyFor p (.mixed b s) (formatSteps l) = some c ∨
    ∃ o ∈ orders (.mixed b s), ∃ q, Leaf o p.flip l q ∧ q.eqv c.flip = true := by
  obtain ⟨hc, x, hx⟩ := legalFor_entry hb hv h
  have he := List.find?_some hx
  obtain ⟨q, hq, hx⟩ := mem_records.1 (List.mem_of_find?_eq_some hx)
  obtain ⟨o1, ho1, l1, hl1⟩ := legal_leaf (q := c.flip) hb hv (by rw [Pos.flip_flip]; exact hc)
  unfold allLeaves at hq
  obtain ⟨o, ho, hq⟩ := List.mem_flatMap.1 hq
  simp only at he hx hq
  have hd := orders_dies hv o ho
  have hd1 := orders_dies hv o1 ho1
  rcases List.mem_append.1 hq with hq | hq
  · left
    have hl := paths_leaf hb hv ho hq
    rcases hx with rfl | rfl
    · exact apply_good hb hv hc ho hl he
    · have := mixed_mirror hb hv ho ho1 hl hl1 (by rw [Pos.flip_flip]; exact eqv_symm he)
      refine apply_good hb hv hc ho hl (eqv_symm ?_)
      have := eqv_flip this
      rwa [Pos.flip_flip] at this
  · have hl := paths_leaf (barsOK_flip hb) hv ho hq
    rcases hx with rfl | rfl
    · right
      exact ⟨o, ho, q, hl, eqv_symm (by rw [← Pos.flip_flip q]; exact eqv_flip he)⟩
    · left
      obtain ⟨rfl, rfl⟩ := opponent_same hb hd hd1 hl hl1 (by rw [Pos.flip_flip]; exact eqv_symm he)
      exact apply_good hb hv hc ho1 hl1 (by rw [Pos.flip_flip]; exact eqv_refl _)

/-- Equal boards after plays of both sides without a hit: the position is its own mirror image. -/
theorem symmetric_of_no_hit {p q r : Pos N} (hb : p.BarsOK) {o o' : List Nat} (ho : Dies o) (ho' : Dies o') {l l' : List Step}
    (hq : Leaf o p.flip l q) (hr : Leaf o' p l' r) (h : q.eqv r = true) (hhit : r.pip 0 = p.pip 0) (hhit' : q.pip 0 = p.flip.pip 0) :
    p.eqv p.flip = true := by
  obtain ⟨a1, a2, a3⟩ := hq.o ho (barsOK_flip hb)
  obtain ⟨b1, b2, b3⟩ := hr.o ho' hb
  obtain ⟨e1, e2, e3⟩ := eqv_iff.1 h
  have hoff : p.xOff = p.oOff := by
    have : p.flip.oOff = p.xOff := rfl
    rw [← this, ← a1, e3, b1]
  have hcell : ∀ i, min (p.flip.pip i) 0 = min (p.pip i) 0 := by
    intro i
    rw [← a3 hhit', ← b3 hhit]
    unfold pip; rw [e1]
  refine eqv_iff.2 ⟨?_, hoff, hoff.symm⟩
  funext i
  have e : ∀ s : Pos N, s.pips i = s.pip i.val := fun s => by simp [pip, i.isLt]
  rw [e, e]
  have c1 := hcell i.val
  have c2 := hcell (25 - i.val)
  rw [pip_flip p i.isLt] at c1 ⊢
  rw [pip_flip p (by omega), show 25 - (25 - i.val) = i.val by omega] at c2
  omega

/-- If the position is its own mirror image, the opponent's plays are the player's. -/
theorem entry_symmetric {p q c : Pos N} {dice : Dice} (hb : p.BarsOK) (hv : dice.Valid) (hc : c ∈ p.legalPositions dice) {o : List Nat}
    (ho : o ∈ orders dice) {l : List Step} (hq : Leaf o p.flip l q) (h : q.eqv c.flip = true) (hs : p.eqv p.flip = true) :
    applyFor p dice (formatSteps l) = some c := by
  have hl := leaf_withTurn (orders_dies hv o ho) hq p.turn
  rw [← eqv_withTurn hs] at hl
  refine apply_good hb hv hc ho hl ?_
  have : (q.withTurn p.turn).eqv c.flip = true := h
  have := eqv_flip this
  rw [Pos.flip_flip] at this
  exact eqv_symm this

theorem pips_mv {p : Pos N} (hb : p.BarsOK) {f d : Nat} (hd : 1 ≤ d) (hc : p.Can f d) :
    p.view.pipsX = (p.mv f d).view.pipsX + min f d ∧
    (p.mv f d).view.pipsO = p.view.pipsO + (if d < f ∧ p.pip (f - d) = -1 then f - d else 0) := by
  refine ⟨pipsX_mv hb hd hc, ?_⟩
  have hw := Spec.wsum_after_o (fun i => 25 - i) (canStep_iff.2 hc)
  rw [after_view hb hd hc] at hw
  have e : (p.view.o (f - d) = 1) ↔ p.pip (f - d) = -1 := by simp only [view]; omega
  have p1 : p.view.pipsO = ∑ j ∈ Finset.range 26, (25 - j) * p.view.o j := rfl
  have p2 : (p.mv f d).view.pipsO = ∑ j ∈ Finset.range 26, (25 - j) * (p.mv f d).view.o j := rfl
  try simp only at hw
  rw [← p1, ← p2] at hw
  clear p1 p2
  simp only [e] at hw
  have := hc.hi
  split_ifs at hw ⊢ <;> omega

set_option maxHeartbeats 1000000 in
/-- The two-move play of the opponent's that hits, and a play of the player's that does not, never end on the same board. -/
theorem no_cross_hit {p c q : Pos N} {b s : Nat} (hb : p.BarsOK) (hv : (Dice.mixed b s).Valid) (hc : c ∈ p.legalPositions (.mixed b s))
    (hhit : c.flip.pip 0 = p.pip 0) {o : List Nat} (ho : o ∈ orders (.mixed b s)) {l : List Step} (hq : Leaf o p.flip l q)
    (h : q.eqv c.flip = true) : q.pip 0 = p.flip.pip 0 := by
  by_contra hne
  have hbf := barsOK_flip hb
  have hod := orders_dies hv o ho
  obtain ⟨o1, ho1, l1, hl1⟩ := legal_leaf (q := c.flip) hb hv (by rw [Pos.flip_flip]; exact hc)
  have hod1 := orders_dies hv o1 ho1
  -- `g`: the board after the play
  have hgl : p.MixedLegal b s c.flip := by
    have := hc
    unfold legalPositions playedPositions at this
    rw [mem_map_flip] at this
    obtain ⟨h1, h2, h3⟩ : 1 ≤ s ∧ s < b ∧ b ≤ 6 := hv
    exact (mem_mixedMoves hb h1 h2 h3).1 this
  generalize c.flip = g at *
  obtain ⟨a1, a2, a3⟩ := hq.o hod hbf
  obtain ⟨b1, b2, b3⟩ := hl1.o hod1 hb
  obtain ⟨e1, e2, e3⟩ := eqv_iff.1 h
  have hgq : ∀ i, g.pip i = q.pip i := fun i => by unfold pip; rw [e1]
  have hmin : ∀ i, min (q.pip i) 0 = min (p.pip i) 0 := fun i => by rw [← hgq, b3 hhit]
  have hpf : ∀ i, i < 26 → p.flip.pip i = - p.pip (25 - i) := fun i hi => pip_flip p hi
  have hf0 := hpf 0 (by omega)
  have hf25 := hpf 25 (by omega)
  simp only [Nat.sub_zero, Nat.sub_self] at hf0 hf25
  have hb0 := hb.1
  have hb25 := hb.2
  have hq0 : q.pip 0 = p.pip 0 := by rw [← hgq, hhit]
  have h25 : 1 ≤ p.flip.pip 25 := by omega
  -- pips
  have pv := eqv_view h
  have gO : g.view.pipsO = p.view.pipsO := by
    obtain ⟨ms, m1, -, m3⟩ := hl1.moves hod1 hb
    have mpos : ∀ d ∈ ms.map Prod.snd, 1 ≤ d := by
      intro d hd
      obtain ⟨m, hm, rfl⟩ := List.mem_map.1 hd
      exact (m3 m hm).1
    rw [m1.play.pipsO mpos]
    have hh := m1.play.hits mpos
    have : g.view.o 0 = p.view.o 0 := by simp only [view]; rw [hhit]
    have : Spec.hitPoints p.view g.view = ∅ := Finset.card_eq_zero.1 (by omega)
    rw [this]; simp
  have gX : g.view.pipsX ≤ p.view.pipsX := by have := (hl1.pips hod1 hb).1; omega
  have fX : p.flip.view.pipsX = p.view.pipsO := by rw [view_flip, (pips_mirror _).1]
  have fO : p.flip.view.pipsO = p.view.pipsX := by rw [view_flip, (pips_mirror _).2]
  rw [← pv] at gO gX
  -- one move only cannot hit
  have one : ∀ d, 1 ≤ d → d ≤ 6 → p.flip.Can 25 d → q = p.flip.mv 25 d → False := by
    intro d h1 h6 hcd e
    obtain ⟨u1, u2⟩ := pips_mv hbf h1 hcd
    rw [← e] at u1 u2
    have : ¬ p.flip.pip (25 - d) = -1 := by
      intro hm
      rw [if_pos ⟨by omega, hm⟩] at u2
      omega
    apply hne
    rw [e, pip_mv _ (le_refl 25) h1]
    have c1 : ¬ (0 = 25 - d) := by omega
    simp [this, c1]
  obtain ⟨v1, v2, v3⟩ : 1 ≤ s ∧ s < b ∧ b ≤ 6 := hv
  have two : ∀ x y, 1 ≤ x → x ≤ 6 → 1 ≤ y → y ≤ 6 → x ≠ y → x + y ≤ 11 →
      (∀ r, p.MixedLegal b s r → p.Two x y r ∨ p.Two y x r ∨ ((∀ r, ¬ (p.Two x y r ∨ p.Two y x r)) ∧ (p.One x r ∨ p.One y r ∨ (r = p ∧ Stuck x p ∧ Stuck y p)))) →
      ∀ f, p.flip.Can 25 x → (p.flip.mv 25 x).Can f y → q = (p.flip.mv 25 x).mv f y → False := by
    intro x y hx hx6 hy hy6 hxy h11 hml f hcx hcf e
    have hbx := barsOK_mv hbf hx hcx
    obtain ⟨u1, u2⟩ := pips_mv hbf hx hcx
    obtain ⟨w1, w2⟩ := pips_mv hbx hy hcf
    rw [← e] at w1 w2
    have hA := fun j => pip_mv p.flip (le_refl 25) hx j
    have hf1 := hcf.lo
    have hf2 := hcf.hi
    have hB := fun j => pip_mv (p.flip.mv 25 x) hf2 hy j
    rw [← e] at hB
    have nox : ¬ p.flip.pip (25 - x) = -1 := by
      intro hm
      rw [if_pos ⟨by omega, hm⟩] at u2
      split_ifs at w2 <;> omega
    have hA0 : (p.flip.mv 25 x).pip 0 = p.flip.pip 0 := by
      rw [hA]; have c1 : ¬ (0 = 25 - x) := by omega
      simp [nox, c1]
    have hyf : y < f ∧ (p.flip.mv 25 x).pip (f - y) = -1 := by
      by_contra hcon
      apply hne
      rw [hB, hA0]
      by_cases hyf : y < f
      · have c0 : ¬ (p.flip.mv 25 x).pip (f - y) = -1 := fun hh => hcon ⟨hyf, hh⟩
        have c1 : ¬ (0 = f) := by omega
        have c2 : ¬ (0 = f - y) := by omega
        simp [c0, c1, c2]
      · have c1 : ¬ (0 = f) := by omega
        simp [hyf, c1]
    obtain ⟨hyf, hhity⟩ := hyf
    rw [if_pos ⟨hyf, hhity⟩] at w2
    rw [if_neg (fun hh => nox hh.2)] at u2
    have htle : f - y ≤ 11 := by omega
    have hf17 : f ≤ 17 := by omega
    have hA25 : (p.flip.mv 25 x).pip 25 = p.flip.pip 25 - 1 := by rw [hA]; simp
    have hm1 : p.flip.pip 25 = 1 := by
      have := hcf.bar (by omega)
      omega
    -- the cells of the flipped board before, and of `q`
    have ht' : p.flip.pip (f - y) = -1 := by
      rw [← hhity, hA]
      have c1 : ¬ (f - y = 25) := by omega
      have c2 : ¬ (f - y = 25 - x) := by omega
      have c3 : ¬ (f - y = 0) := by omega
      simp [c1, c2, c3]
    have hpt : p.pip (25 - (f - y)) = 1 := by have := hpf (f - y) (by omega); omega
    have hff : p.flip.pip f = (p.flip.mv 25 x).pip f := by
      rw [hA]
      have c1 : ¬ (f = 25) := by omega
      have c2 : ¬ (f = 25 - x) := by omega
      have c3 : ¬ (f = 0) := by omega
      simp [c1, c2, c3]
    have hfown : 1 ≤ p.flip.pip f := by rw [hff]; exact hcf.own
    have qf : q.pip f = p.flip.pip f - 1 := by rw [hB]; simp [hyf, hff]
    have qt : q.pip (f - y) = 1 := by
      rw [hB]
      have c1 : ¬ (f - y = f) := by omega
      simp [hyf, c1, hhity]
    have qx : 1 ≤ q.pip (25 - x) := by
      rw [hB]
      have c1 : ¬ (25 - x = f) := by omega
      have c2 : ¬ (25 - x = f - y) := by omega
      have c3 : ¬ (25 - x = 0) := by omega
      have c4 : ¬ (25 - x = 25) := by omega
      simp only [hyf, c1, c2, c3, if_true, if_false, false_and]
      rw [hA]
      simp only [c4, c3, nox, if_true, if_false, false_and]
      have := hcx.free (by omega)
      split_ifs <;> omega
    have qo : ∀ i, i ≠ 0 → i < 25 → i ≠ f → i ≠ f - y → i ≠ 25 - x → q.pip i = p.flip.pip i := by
      intro i i1 i2 i3 i4 i5
      rw [hB]
      have i6 : ¬ (i = 25) := by omega
      simp only [hyf, i1, i3, i4, if_true, if_false, false_and]
      rw [hA]
      simp only [i6, i5, i1, if_true, if_false, false_and]
      split_ifs <;> rfl
    have hpt0 : 0 ≤ p.pip (f - y) := by have := hmin (f - y); rw [qt] at this; omega
    have hk0 : p.pip 25 = 0 := by
      have q0 : q.pip 0 = p.flip.pip 0 - 1 := by
        rw [hB]
        have c1 : ¬ (0 = f) := by omega
        have c2 : ¬ (0 = f - y) := by omega
        simp [hyf, hhity, c1, c2, hA0]
      omega
    have hpf25 := hpf f (by omega)
    have hneg : p.pip (25 - f) ≤ -1 := by omega
    have hqneg := hmin (25 - f)
    have hsym : q.pip (25 - f) = p.flip.pip (25 - f) := by
      refine qo _ (by omega) (by omega) (by omega) ?_ ?_
      · intro e; rw [e] at hneg; omega
      · intro e; rw [e] at hqneg hneg; omega
    have hpp : p.flip.pip (25 - f) = - p.pip f := by
      rw [hpf _ (by omega), show 25 - (25 - f) = f by omega]
    have hpfown : 1 ≤ p.pip f := by omega
    have hfeq : p.pip f = p.flip.pip f := by omega
    have hcany : p.Can f y := by
      refine ⟨hf1, hf2, hpfown, fun _ => by omega, fun _ => by omega, by omega, by omega⟩
    -- no checker was borne off
    have offg : g.xOff = p.xOff := by
      have x1 : q.xOff = p.flip.xOff := by
        rw [e, xOff_mv, xOff_mv, if_pos hyf, if_pos (by omega)]
      have x2 : p.flip.xOff = p.oOff := rfl
      have x3 : p.flip.oOff = p.xOff := rfl
      omega
    have notwo : ∀ z w, 1 ≤ z → 1 ≤ w → z + w = x + y → ¬ p.Two z w g := by
      rintro z w hz hw hzw ⟨f1, f2, c1, c2, rfl⟩
      have z1 := (pips_mv hb hz c1).1
      have z2 := (pips_mv (barsOK_mv hb hz c1) hw c2).1
      rw [xOff_mv, xOff_mv] at offg
      rw [pv] at w1
      have y1 : z < f1 := by by_contra hh; rw [if_neg hh] at offg; split_ifs at offg <;> omega
      have y2 : w < f2 := by by_contra hh; rw [if_neg hh] at offg; split_ifs at offg <;> omega
      omega
    rcases hml g hgl with hh | hh | ⟨hno, hh⟩
    · exact notwo x y hx hy rfl hh
    · exact notwo y x hy hx (by omega) hh
    · rcases hh with ⟨u, hu, rfl⟩ | ⟨u, hu, rfl⟩ | ⟨rfl, -, hst⟩
      · -- the player used `x`: then the opponent hit on `y`
        have z1 := (pips_mv hb hx hu).1
        rw [xOff_mv] at offg
        have y1 : x < u := by by_contra hh; rw [if_neg hh] at offg; omega
        rw [pv] at w1
        have hty : f - y = y := by omega
        have hC := fun j => pip_mv p hu.hi hx j
        have k1 : q.pip (25 - y) = p.flip.pip (25 - y) := qo _ (by omega) (by omega) (by omega) (by omega) (by omega)
        have k2 : p.flip.pip (25 - y) = - p.pip y := by rw [hpf _ (by omega), show 25 - (25 - y) = y by omega]
        rw [hty] at hpt hpt0
        have k3 : (p.mv u x).pip (25 - y) ≤ 0 := by rw [hgq]; omega
        have hu25 : u = 25 - y := by
          by_contra hne2
          rw [hC] at k3
          have n1 : ¬ (25 - y = u) := fun e => hne2 e.symm
          have n2 : ¬ (25 - y = 0) := by omega
          simp only [y1, n1, n2, if_true, if_false, false_and] at k3
          split_ifs at k3 with k4 k5
          · omega
          · rw [← k4] at k3; omega
          · omega
        have k5 : (p.mv u x).pip f = p.pip f := by
          rw [hC]
          have n1 : ¬ (f = u) := by omega
          have n2 : ¬ (f = 0) := by omega
          have n3 : ¬ (f = u - x) := by omega
          simp [n1, n2, n3]
        have := hgq f
        omega
      · -- the player used `y`: then the opponent hit on `x`
        have z1 := (pips_mv hb hy hu).1
        rw [xOff_mv] at offg
        have y1 : y < u := by by_contra hh; rw [if_neg hh] at offg; omega
        rw [pv] at w1
        have htx : f - y = x := by omega
        rw [htx] at hpt hpt0 qt ht' hhity
        -- after `f` by `y` the other die can still be played
        have hC := fun j => pip_mv p hf2 hy j
        have d25 : (p.mv f y).pip 25 = 0 := by
          rw [hC, htx]
          have n1 : ¬ (25 = f) := by omega
          have n2 : ¬ (25 = x) := by omega
          simp [n1, n2, hk0]
        have dx : 1 ≤ (p.mv f y).pip x := by
          rw [hC, htx]
          have n1 : ¬ (x = f) := by omega
          have n2 : ¬ (p.pip x = -1) := by omega
          simp only [hyf, n1, n2, if_true, if_false]
          omega
        have dsrc : (p.mv f y).pip (25 - x) = 1 := by
          rw [hC, htx]
          have n1 : ¬ (25 - x = f) := by omega
          have n2 : ¬ (25 - x = x) := by omega
          have n3 : ¬ (25 - x = 0) := by omega
          simp [n1, n2, n3, hpt]
        by_cases hbl : -1 ≤ (p.mv f y).pip (25 - x - x)
        · refine hno ((p.mv f y).mv (25 - x) x) (Or.inr ⟨f, 25 - x, hcany, ?_, rfl⟩)
          exact ⟨by omega, by omega, by omega, fun _ => by omega, fun _ => hbl, by omega, by omega⟩
        · have n0 : ¬ (25 - x - x = 0) := by omega
          have nf : ¬ (25 - x - x = f) := by
            intro e; rw [e, hC, htx] at hbl; simp only [hyf, if_true] at hbl; omega
          have nx : ¬ (25 - x - x = x) := by omega
          have hb2 : p.pip (25 - x - x) ≤ -2 := by
            rw [hC, htx] at hbl
            simp only [hyf, n0, nf, nx, if_true, if_false, false_and] at hbl
            omega
          have m2 := hmin (25 - x - x)
          have q2 : q.pip (25 - x - x) = p.flip.pip (25 - x - x) := qo _ n0 (by omega) nf (by omega) (by omega)
          have p2 : p.flip.pip (25 - x - x) = - p.pip (x + x) := by
            rw [hpf _ (by omega), show 25 - (25 - x - x) = x + x by omega]
          have own2 : 1 ≤ (p.mv f y).pip (x + x) := by
            rw [hC, htx]
            have n2 : ¬ (x + x = x) := by omega
            have n3 : ¬ (x + x = 0) := by omega
            simp only [hyf, n2, n3, if_true, if_false, false_and]
            split_ifs with e
            · rw [← e]; omega
            · omega
          refine hno ((p.mv f y).mv (x + x) x) (Or.inr ⟨f, x + x, hcany, ?_, rfl⟩)
          refine ⟨by omega, by omega, own2, fun _ => by omega, fun _ => ?_, by omega, by omega⟩
          rw [show x + x - x = x by omega]; omega
      · exact hst f hcany
  have mlsym : ∀ r, p.MixedLegal b s r → p.Two b s r ∨ p.Two s b r ∨ ((∀ r, ¬ (p.Two b s r ∨ p.Two s b r)) ∧ (p.One b r ∨ p.One s r ∨ (r = p ∧ Stuck b p ∧ Stuck s p))) := by
    rintro r ((hh | hh) | ⟨hno, hh | ⟨hb', hh | ⟨hs', rfl⟩⟩⟩)
    · exact Or.inl hh
    · exact Or.inr (Or.inl hh)
    · exact Or.inr (Or.inr ⟨hno, Or.inl hh⟩)
    · exact Or.inr (Or.inr ⟨hno, Or.inr (Or.inl hh)⟩)
    · exact Or.inr (Or.inr ⟨hno, Or.inr (Or.inr ⟨rfl, fun f hf => hb' _ ⟨f, hf, rfl⟩, fun f hf => hs' _ ⟨f, hf, rfl⟩⟩)⟩)
  have mlsym' : ∀ r, p.MixedLegal b s r → p.Two s b r ∨ p.Two b s r ∨ ((∀ r, ¬ (p.Two s b r ∨ p.Two b s r)) ∧ (p.One s r ∨ p.One b r ∨ (r = p ∧ Stuck s p ∧ Stuck b p))) := by
    intro r hr
    rcases mlsym r hr with hh | hh | ⟨hno, hh⟩
    · exact Or.inr (Or.inl hh)
    · exact Or.inl hh
    · exact Or.inr (Or.inr ⟨fun r hh => hno r hh.symm, hh.elim (fun h => Or.inr (Or.inl h)) fun h => h.elim Or.inl fun ⟨e, h1, h2⟩ => Or.inr (Or.inr ⟨e, h2, h1⟩)⟩)
  simp only [orders, List.mem_cons, List.not_mem_nil, or_false] at ho
  have go : ∀ x y, 1 ≤ x → x ≤ 6 → 1 ≤ y → y ≤ 6 → (∀ f, p.flip.Can 25 x → (p.flip.mv 25 x).Can f y → q = (p.flip.mv 25 x).mv f y → False) →
      Leaf [x, y] p.flip l q → False := by
    intro x y hx hx6 hy hy6 h2 hl
    cases hl with
    | @move _ _ f _ _ l' hc1 hl =>
      obtain rfl := hc1.eq25 h25
      cases hl with
      | @move _ _ f' _ _ l'' hc2 hl => cases hl; exact h2 f' hc1 hc2 rfl
      | skip _ hl => cases hl; exact one x hx hx6 hc1 rfl
    | skip _ hl =>
      cases hl with
      | @move _ _ f' _ _ l'' hc2 hl =>
        cases hl
        obtain rfl := hc2.eq25 h25
        exact one y hy hy6 hc2 rfl
      | skip _ hl => cases hl; exact hne rfl
  rcases ho with rfl | rfl
  · exact go b s (by omega) v3 v1 (by omega) (two b s (by omega) v3 v1 (by omega) (by omega) (by omega) mlsym) hq
  · exact go s b v1 (by omega) (by omega) v3 (two s b v1 (by omega) (by omega) v3 (by omega) (by omega) mlsym') hq

end MoveText
end Bkgm
