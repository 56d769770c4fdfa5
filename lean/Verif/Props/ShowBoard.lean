import Verif.Props.Debug
import Mathlib.Algebra.Order.BigOperators.Group.Finset
/-!
# C59: the printed board
-/

namespace Spec
open Bkgm (Str showNat)

/-- The five cells of a pile of `n` checkers drawn with `symbol`, from the edge of the board towards the middle: one cell per
checker; the fifth cell of a pile of more than five shows the number instead. -/
def pile (symbol : Char) (n row : Nat) : Str :=
  if row = 4 ∧ 5 < n then (if n ≤ 9 then [' '] ++ showNat n ++ [' '] else showNat n ++ [' '])
  else if row < n then [' ', symbol, ' '] else [' ', ' ', ' ']

/-- The pile standing on a point. -/
def pointPile (b : Board) (i row : Nat) : Str := if 0 < b.x i then pile 'X' (b.x i) row else pile 'O' (b.o i) row

/-- The printed board: the upper half (points 13 to 24, `o`'s bar and `o`'s borne-off checkers) from the edge to the middle,
then the lower half (points 12 to 1, `x`'s bar and `x`'s borne-off checkers) from the middle to the edge. -/
def diagram (b : Board) : List Str :=
  ["┌13─14─15─16─17─18─┬───┬19─20─21─22─23─24─┬───┐".toList] ++
  [0, 1, 2, 3, 4].map (fun row =>
    ['│'] ++ [13, 14, 15, 16, 17, 18].flatMap (fun i => pointPile b i row) ++
    ['│'] ++ pile 'O' (b.o 0) row ++ ['│'] ++ [19, 20, 21, 22, 23, 24].flatMap (fun i => pointPile b i row) ++
    ['│'] ++ pile 'O' b.oOff row ++ ['│']) ++
  ["│                  │BAR│                  │OFF│".toList] ++
  [4, 3, 2, 1, 0].map (fun row =>
    ['│'] ++ [12, 11, 10, 9, 8, 7].flatMap (fun i => pointPile b i row) ++
    ['│'] ++ pile 'X' (b.x 25) row ++ ['│'] ++ [6, 5, 4, 3, 2, 1].flatMap (fun i => pointPile b i row) ++
    ['│'] ++ pile 'X' b.xOff row ++ ['│']) ++
  ["└12─11─10──9──8──7─┴───┴─6──5──4──3──2──1─┴───┘".toList]

end Spec

namespace Bkgm
open Pos
variable {N : Nat}

namespace Show

theorem len3 : ∀ i : Nat, i < 199 → ∀ row : Nat, row < 5 → (printPoint ((i : Int) - 99) row).length = 3 := by decide +kernel

theorem length_printPoint {v : Int} (h : v.natAbs ≤ 99) {row : Nat} (hr : row < 5) : (printPoint v row).length = 3 := by
  have := len3 (v + 99).toNat (by omega) row hr
  rwa [show (((v + 99).toNat : Int) - 99) = v by omega] at this

theorem columns_nodup : ((List.range 199).map fun i : Nat => (List.range 5).map fun row : Nat => printPoint ((i : Int) - 99) row).Nodup := by
  decide +kernel

theorem column_inj {v w : Int} (hv : v.natAbs ≤ 99) (hw : w.natAbs ≤ 99) (h : ∀ row : Nat, row < 5 → printPoint v row = printPoint w row) :
    v = w := by
  have := List.inj_on_of_nodup_map columns_nodup (x := (v + 99).toNat) (y := (w + 99).toNat)
    (List.mem_range.2 (by omega)) (List.mem_range.2 (by omega)) (by
      refine List.map_congr_left fun row hr => ?_
      rw [show (((v + 99).toNat : Int) - 99) = v by omega, show (((w + 99).toNat : Int) - 99) = w by omega]
      exact h row (List.mem_range.1 hr))
  omega

theorem flatMap_blocks {β : Type} (l : List Nat) (f g : Nat → List β) (hl : ∀ a ∈ l, (f a).length = (g a).length)
    (h : l.flatMap f = l.flatMap g) : ∀ a ∈ l, f a = g a := by
  induction l with
  | nil => intro a ha; simp at ha
  | cons x l ih =>
    rw [List.flatMap_cons, List.flatMap_cons] at h
    obtain ⟨h1, h2⟩ := List.append_inj h (hl x (by simp))
    intro a ha
    rcases List.mem_cons.1 ha with rfl | ha
    · exact h1
    · exact ih (fun a ha => hl a (by simp [ha])) h2 a ha


theorem print_x (n row : Nat) (hr : row ≤ 4) : printPoint (n : Int) row = Spec.pile 'X' n row := by
  unfold printPoint Spec.pile
  have e1 : (" ".toList : Str) = [' '] := rfl
  have e2 : (" X ".toList : Str) = [' ', 'X', ' '] := rfl
  have e3 : ("   ".toList : Str) = [' ', ' ', ' '] := rfl
  rw [e1, e2, e3, Int.natAbs_natCast]
  split_ifs <;> first | omega | rfl

theorem print_o (n row : Nat) (hr : row ≤ 4) : printPoint (-(n : Int)) row = Spec.pile 'O' n row := by
  unfold printPoint Spec.pile
  have e1 : (" ".toList : Str) = [' '] := rfl
  have e2 : (" O ".toList : Str) = [' ', 'O', ' '] := rfl
  have e3 : ("   ".toList : Str) = [' ', ' ', ' '] := rfl
  rw [e1, e2, e3, Int.natAbs_neg, Int.natAbs_natCast]
  split_ifs <;> first | omega | rfl

theorem print_point (p : Pos N) (i row : Nat) (hr : row ≤ 4) : printPoint (p.pip i) row = Spec.pointPile p.view i row := by
  unfold Spec.pointPile
  change _ = if 0 < (p.pip i).toNat then Spec.pile 'X' (p.pip i).toNat row else Spec.pile 'O' (-p.pip i).toNat row
  by_cases h : 0 < p.pip i
  · rw [if_pos (by omega), ← print_x _ _ hr]; congr 1; omega
  · rw [if_neg (by omega), ← print_o _ _ hr]; congr 1; omega

end Show
open Show

/-- **C59** `show` prints the diagram of the board, for every position. -/
theorem C59_show_diagram (p : Pos N) : p.showBoard = Spec.diagram p.view := by
  have e1 : ("│".toList : Str) = ['│'] := rfl
  have r5 : List.range 5 = [0, 1, 2, 3, 4] := rfl
  have r6 : (List.range 5).reverse = [4, 3, 2, 1, 0] := rfl
  have q1 : rng 13 25 = [13, 14, 15, 16, 17, 18, 19, 20, 21, 22, 23, 24] := rfl
  have q2 : (rng 1 13).reverse = [12, 11, 10, 9, 8, 7, 6, 5, 4, 3, 2, 1] := rfl
  unfold showBoard Spec.diagram
  rw [r6, r5, q1, q2, e1]
  refine congrArg₂ _ (congrArg₂ _ (congrArg₂ _ (congrArg₂ _ rfl ?_) rfl) ?_) rfl
  · refine List.map_congr_left fun row hr => ?_
    have hr : row ≤ 4 := by simp at hr; omega
    have hb := print_o p.oBar row hr
    have ho := print_o p.oOff row hr
    simp only [print_point p _ row hr, hb, ho, List.flatMap_cons, List.flatMap_nil, Nat.reduceEqDiff, if_true, if_false,
      List.append_nil, List.append_assoc]
    rfl
  · refine List.map_congr_left fun row hr => ?_
    have hr : row ≤ 4 := by simp at hr; omega
    have hb := print_x p.xBar row hr
    have ho := print_x p.xOff row hr
    simp only [print_point p _ row hr, hb, ho, List.flatMap_cons, List.flatMap_nil, Nat.reduceEqDiff, if_true, if_false,
      List.append_nil, List.append_assoc, List.nil_append]
    rfl

namespace Show

theorem pip_le {p : Pos N} (h : p.Valid) (i : Nat) : (p.pip i).natAbs ≤ N := by
  by_cases hi : i < 26
  · have h0 := h.sumX
    have h1 : p.view.x i ≤ p.view.countX := Finset.single_le_sum (f := p.view.x) (fun _ _ => Nat.zero_le _) (Finset.mem_range.2 hi)
    have h2 : p.view.o i ≤ p.view.countO := Finset.single_le_sum (f := p.view.o) (fun _ _ => Nat.zero_le _) (Finset.mem_range.2 hi)
    have h3 := h.sumO
    have e1 : p.view.x i = (p.pip i).toNat := rfl
    have e2 : p.view.o i = (-p.pip i).toNat := rfl
    omega
  · simp [pip, hi]

/-- A row of the upper half, as the code prints it. -/
def upper (p : Pos N) (row : Nat) : Str :=
  "│".toList ++ ((rng 13 25).flatMap fun point => printPoint (p.pip point) row ++
    (if point = 18 then "│".toList ++ printPoint (-(p.oBar : Int)) row ++ "│".toList else [])) ++
    "│".toList ++ printPoint (-(p.oOff : Int)) row ++ "│".toList
/-- A row of the lower half. -/
def lowerRow (p : Pos N) (row : Nat) : Str :=
  "│".toList ++ ((rng 1 13).reverse.flatMap fun point =>
    (if point = 6 then "│".toList ++ printPoint (p.xBar : Int) row ++ "│".toList else []) ++ printPoint (p.pip point) row) ++
    "│".toList ++ printPoint (p.xOff : Int) row ++ "│".toList

theorem showBoard_eq (p : Pos N) : p.showBoard =
    ["┌13─14─15─16─17─18─┬───┬19─20─21─22─23─24─┬───┐".toList] ++ (List.range 5).map (upper p) ++
    ["│                  │BAR│                  │OFF│".toList] ++ (List.range 5).reverse.map (lowerRow p) ++
    ["└12─11─10──9──8──7─┴───┴─6──5──4──3──2──1─┴───┘".toList] := rfl

theorem off_le {p : Pos N} (h : p.Valid) : p.xOff ≤ N ∧ p.oOff ≤ N := by
  have h1 := h.sumX; have h2 := h.sumO
  simp only [view] at h1 h2
  omega

/-- All shown numbers have at most two digits. -/
structure Small (p : Pos N) : Prop where
  pip : ∀ i, (p.pip i).natAbs ≤ 99
  xOff : p.xOff ≤ 99
  oOff : p.oOff ≤ 99

theorem small {p : Pos N} (h : p.Valid) (hN : N ≤ 99) : Small p :=
  ⟨fun i => le_trans (pip_le h i) hN, le_trans (off_le h).1 hN, le_trans (off_le h).2 hN⟩

theorem Small.xBar {p : Pos N} (h : Small p) : p.xBar ≤ 99 := by have := h.pip 25; unfold Pos.xBar; omega
theorem Small.oBar {p : Pos N} (h : Small p) : p.oBar ≤ 99 := by have := h.pip 0; unfold Pos.oBar; omega

theorem upper_inj {p q : Pos N} (hp : Small p) (hq : Small q) {row : Nat} (hr : row < 5) (h : upper p row = upper q row) :
    (∀ i, 13 ≤ i → i ≤ 24 → printPoint (p.pip i) row = printPoint (q.pip i) row) ∧
    printPoint (-(p.oBar : Int)) row = printPoint (-(q.oBar : Int)) row ∧
    printPoint (-(p.oOff : Int)) row = printPoint (-(q.oOff : Int)) row := by
  have b1 := hp.oBar
  have b2 := hq.oBar
  have hb1 : (printPoint (-(p.oBar : Int)) row).length = 3 := length_printPoint (by omega) hr
  have hb2 : (printPoint (-(q.oBar : Int)) row).length = 3 := length_printPoint (by omega) hr
  unfold upper at h
  simp only [List.append_assoc] at h
  have h := List.append_cancel_left h
  have hl : ∀ a ∈ rng 13 25, (printPoint (p.pip a) row ++ if a = 18 then "│".toList ++ (printPoint (-(p.oBar : Int)) row ++ "│".toList) else []).length =
      (printPoint (q.pip a) row ++ if a = 18 then "│".toList ++ (printPoint (-(q.oBar : Int)) row ++ "│".toList) else []).length := by
    intro a _
    have h1 := length_printPoint (hp.pip a) hr
    have h2 := length_printPoint (hq.pip a) hr
    split_ifs <;> simp only [List.length_append, h1, h2, hb1, hb2]
  obtain ⟨h1, h2⟩ := List.append_inj h (by
    rw [List.length_flatMap, List.length_flatMap]; exact congrArg List.sum (List.map_congr_left hl))
  have hbl := flatMap_blocks _ _ _ hl h1
  have hcell : ∀ i, 13 ≤ i → i ≤ 24 → printPoint (p.pip i) row = printPoint (q.pip i) row := fun i hi1 hi2 => by
    have := hbl i (by simp only [rng, List.mem_range'_1]; omega)
    exact (List.append_inj this (by rw [length_printPoint (hp.pip i) hr, length_printPoint (hq.pip i) hr])).1
  refine ⟨hcell, ?_, ?_⟩
  · have := hbl 18 (by simp [rng])
    rw [hcell 18 (by omega) (by omega)] at this
    have := List.append_cancel_left this
    simp only [if_true] at this
    exact List.append_cancel_right (List.append_cancel_left this)
  · exact List.append_cancel_right (List.append_cancel_left h2)

theorem lower_inj {p q : Pos N} (hp : Small p) (hq : Small q) {row : Nat} (hr : row < 5) (h : lowerRow p row = lowerRow q row) :
    (∀ i, 1 ≤ i → i ≤ 12 → printPoint (p.pip i) row = printPoint (q.pip i) row) ∧
    printPoint (p.xBar : Int) row = printPoint (q.xBar : Int) row ∧
    printPoint (p.xOff : Int) row = printPoint (q.xOff : Int) row := by
  have b1 := hp.xBar
  have b2 := hq.xBar
  have hb1 : (printPoint (p.xBar : Int) row).length = 3 := length_printPoint (by omega) hr
  have hb2 : (printPoint (q.xBar : Int) row).length = 3 := length_printPoint (by omega) hr
  unfold lowerRow at h
  simp only [List.append_assoc] at h
  have h := List.append_cancel_left h
  have hl : ∀ a ∈ (rng 1 13).reverse, ((if a = 6 then "│".toList ++ (printPoint (p.xBar : Int) row ++ "│".toList) else []) ++ printPoint (p.pip a) row).length =
      ((if a = 6 then "│".toList ++ (printPoint (q.xBar : Int) row ++ "│".toList) else []) ++ printPoint (q.pip a) row).length := by
    intro a _
    have h1 := length_printPoint (hp.pip a) hr
    have h2 := length_printPoint (hq.pip a) hr
    split_ifs <;> simp only [List.length_append, h1, h2, hb1, hb2]
  obtain ⟨h1, h2⟩ := List.append_inj h (by
    rw [List.length_flatMap, List.length_flatMap]; exact congrArg List.sum (List.map_congr_left hl))
  have hbl := flatMap_blocks _ _ _ hl h1
  have hcell : ∀ i, 1 ≤ i → i ≤ 12 → printPoint (p.pip i) row = printPoint (q.pip i) row := fun i hi1 hi2 => by
    have := hbl i (by simp only [rng, List.mem_reverse, List.mem_range'_1]; omega)
    exact (List.append_inj' this (by rw [length_printPoint (hp.pip i) hr, length_printPoint (hq.pip i) hr])).2
  refine ⟨hcell, ?_, ?_⟩
  · have := hbl 6 (by simp [rng])
    rw [hcell 6 (by omega) (by omega)] at this
    have := List.append_cancel_right this
    simp only [if_true] at this
    exact List.append_cancel_right (List.append_cancel_left this)
  · exact List.append_cancel_right (List.append_cancel_left h2)

end Show

/-- **C59** The printed board of a valid position with at most 99 checkers per side: 13 lines of 47 characters. -/
theorem C59_show_shape (p : Pos N) (hp : p.Valid) (hN : N ≤ 99) :
    p.showBoard.length = 13 ∧ ∀ l ∈ p.showBoard, l.length = 47 := by
  have hs := small hp hN
  refine ⟨by rw [showBoard_eq]; simp, fun l hl => ?_⟩
  rw [showBoard_eq] at hl
  simp only [List.mem_append, List.mem_singleton, List.mem_map, List.mem_range, List.mem_reverse] at hl
  have hpp : ∀ i row, row < 5 → (printPoint (p.pip i) (row : Nat)).length = 3 := fun i row hr => length_printPoint (hs.pip i) hr
  have e1 : ("│".toList : Str).length = 1 := rfl
  rcases hl with (((rfl | ⟨row, hr, rfl⟩) | rfl) | ⟨row, hr, rfl⟩) | rfl
  · decide +kernel
  · have b := hs.oBar
    have c := hs.oOff
    have hb : (printPoint (-(p.oBar : Int)) row).length = 3 := length_printPoint (by omega) hr
    have ho : (printPoint (-(p.oOff : Int)) row).length = 3 := length_printPoint (by omega) hr
    have q1 : rng 13 25 = [13, 14, 15, 16, 17, 18, 19, 20, 21, 22, 23, 24] := rfl
    unfold upper
    rw [q1]
    simp only [List.length_append, List.flatMap_cons, List.flatMap_nil, hpp _ row hr, hb, ho, e1, Nat.reduceEqDiff, if_true, if_false,
      List.length_nil]
  · decide +kernel
  · have b := hs.xBar
    have c := hs.xOff
    have hb : (printPoint (p.xBar : Int) row).length = 3 := length_printPoint (by omega) hr
    have ho : (printPoint (p.xOff : Int) row).length = 3 := length_printPoint (by omega) hr
    have q2 : (rng 1 13).reverse = [12, 11, 10, 9, 8, 7, 6, 5, 4, 3, 2, 1] := rfl
    unfold lowerRow
    rw [q2]
    simp only [List.length_append, List.flatMap_cons, List.flatMap_nil, hpp _ row hr, hb, ho, e1, Nat.reduceEqDiff, if_true, if_false,
      List.length_nil]
  · decide +kernel

example := C59_show_shape Ex.start (by decide) (by omega)

/-- **C59** Two valid positions with at most 99 checkers per side print the same board exactly when they are equal (`==`). -/
theorem C59_show_injective (p q : Pos N) (hp : p.Valid) (hq : q.Valid) (hN : N ≤ 99) : p.showBoard = q.showBoard ↔ p.eqv q = true := by
  have sp := small hp hN
  have sq := small hq hN
  constructor
  · intro h
    rw [showBoard_eq, showBoard_eq] at h
    have h := List.append_cancel_right h
    obtain ⟨h1, h2⟩ := List.append_inj h (by simp)
    have h1 := List.append_cancel_left (List.append_cancel_right h1)
    have hu : ∀ row, row < 5 → upper p row = upper q row := fun row hr => List.map_inj_left.1 h1 row (List.mem_range.2 hr)
    have hlw : ∀ row, row < 5 → lowerRow p row = lowerRow q row := fun row hr =>
      List.map_inj_left.1 h2 row (List.mem_reverse.2 (List.mem_range.2 hr))
    have b1 := hp.barsOK
    have b2 := hq.barsOK
    have c1 := sp.xBar; have c2 := sp.oBar; have c3 := sq.xBar; have c4 := sq.oBar
    have d1 := sp.xOff; have d2 := sp.oOff; have d3 := sq.xOff; have d4 := sq.oOff
    have ho : (-(p.oBar : Int)) = -(q.oBar : Int) := column_inj (by omega) (by omega) fun row hr => (upper_inj sp sq hr (hu row hr)).2.1
    have hx : (p.xBar : Int) = (q.xBar : Int) := column_inj (by omega) (by omega) fun row hr => (lower_inj sp sq hr (hlw row hr)).2.1
    have hoo : (-(p.oOff : Int)) = -(q.oOff : Int) := column_inj (by omega) (by omega) fun row hr => (upper_inj sp sq hr (hu row hr)).2.2
    have hxo : (p.xOff : Int) = (q.xOff : Int) := column_inj (by omega) (by omega) fun row hr => (lower_inj sp sq hr (hlw row hr)).2.2
    have hpip : p.pips = q.pips := by
      funext i
      have ep : p.pip i.val = p.pips i := by simp [pip]
      have eq : q.pip i.val = q.pips i := by simp [pip]
      rw [← ep, ← eq]
      rcases Nat.lt_or_ge i.val 13 with hlt | hge
      · rcases Nat.eq_zero_or_pos i.val with h0 | h0
        · rw [h0]; have := b1.1; have := b2.1; unfold oBar at ho; omega
        · exact column_inj (sp.pip _) (sq.pip _) fun row hr => (lower_inj sp sq hr (hlw row hr)).1 i.val h0 (by omega)
      · rcases Nat.lt_or_ge i.val 25 with h0 | h0
        · exact column_inj (sp.pip _) (sq.pip _) fun row hr => (upper_inj sp sq hr (hu row hr)).1 i.val hge (by omega)
        · rw [show i.val = 25 by omega]; have := b1.2; have := b2.2; unfold xBar at hx; omega
    simp only [eqv, hpip, Bool.and_eq_true, decide_eq_true_eq]
    exact ⟨⟨trivial, by omega⟩, by omega⟩
  · intro h
    simp only [eqv, Bool.and_eq_true, decide_eq_true_eq] at h
    have hv : p.view = q.view := by simp [view, pip, h.1.1, h.1.2, h.2]
    rw [C59_show_diagram p, C59_show_diagram q, hv]

example : Ex.start.Valid ∧ 15 ≤ 99 ∧ Ex.start.showBoard[8]? = some "│ O                │   │ X                │   │".toList := by
  decide +kernel

end Bkgm
