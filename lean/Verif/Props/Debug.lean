import Verif.Model.Debug
import Verif.Proofs.Str
import Verif.Spec.Examples
import Verif.Props.Position
/-!
# C56: the Debug text of a position; C59: the printed board
-/

namespace Spec
open Bkgm (Str showNat join)

/-- The occupied places of `x`, as the Debug text lists them: bar, points 24 to 1, borne off; with the number of checkers. -/
def entriesX (b : Board) : List (Str × Nat) :=
  (("bar".toList, b.x 25) :: (List.range' 1 24).reverse.map (fun i => (showNat i, b.x i)) ++ [("off".toList, b.xOff)]).filter
    fun e => decide (0 < e.2)

/-- The occupied places of `o`: borne off, points 24 to 1 (numbered from `x`'s side), bar. -/
def entriesO (b : Board) : List (Str × Nat) :=
  (("off".toList, b.oOff) :: (List.range' 1 24).reverse.map (fun i => (showNat i, b.o i)) ++ [("bar".toList, b.o 0)]).filter
    fun e => decide (0 < e.2)

/-- `place:count, place:count, …` -/
def entriesText (l : List (Str × Nat)) : Str := join ", ".toList (l.map fun e => e.1 ++ ":".toList ++ showNat e.2)

end Spec

namespace Bkgm
open Pos
variable {N : Nat}

namespace Dbg

/-- One item of a line, as the code writes it. -/
def item (e : Str × Nat) : Str := e.1 ++ ":".toList ++ showNat e.2

theorem foldl_items (l : List Nat) (c : Nat → Prop) [DecidablePred c] (g : Nat → Str) : ∀ s : Str,
    l.foldl (fun s i => if c i then s ++ g i else s) s = s ++ (l.filter fun i => decide (c i)).flatMap g := by
  induction l with
  | nil => intro s; simp
  | cons x l ih =>
    intro s
    rw [List.foldl_cons, ih]
    by_cases h : c x <;> simp [h]

theorem flatMap_filter_map {β : Type} (l : List Nat) (f : Nat → β) (pr : β → Bool) (g : β → Str) :
    ((l.map f).filter pr).flatMap g = (l.filter fun i => pr (f i)).flatMap fun i => g (f i) := by
  rw [List.filter_map, List.flatMap_map]; rfl

theorem showInt_pos {z : Int} (h : 0 < z) : showInt z = showNat z.toNat := by
  unfold showInt; rw [if_neg (by omega)]

theorem debugX_eq (p : Pos N) : p.debugX = "x: {".toList ++ (Spec.entriesX p.view).flatMap fun e => item e ++ ", ".toList := by
  unfold debugX Spec.entriesX
  simp only [List.filter_append, List.filter_cons, List.flatMap_append, List.cons_append]
  rw [foldl_items]
  have e : ((rng 1 25).reverse.filter fun i => decide (p.pip i > 0)).flatMap
        (fun i => showNat i ++ ":".toList ++ showInt (p.pip i) ++ ", ".toList) =
      (((List.range' 1 24).reverse.map fun i => (showNat i, p.view.x i)).filter fun e => decide (0 < e.2)).flatMap
        fun e => item e ++ ", ".toList := by
    rw [flatMap_filter_map]
    have : ((rng 1 25).reverse.filter fun i => decide (p.pip i > 0)) =
        ((List.range' 1 24).reverse.filter fun i => decide (0 < p.view.x i)) := by
      refine List.filter_congr fun i _ => decide_eq_decide.2 ?_
      change _ ↔ 0 < (p.pip i).toNat; omega
    rw [this]
    refine List.flatMap_congr fun i hi => ?_
    have hi : 0 < (p.pip i).toNat := of_decide_eq_true (List.mem_filter.1 hi).2
    rw [showInt_pos (by omega)]; rfl
  rw [e]
  have hb : ("bar:".toList : Str) = "bar".toList ++ ":".toList := rfl
  have hx : p.pip 25 > 0 ↔ 0 < p.view.x 25 := by simp only [view]; omega
  by_cases h1 : p.pip 25 > 0
  · have h1' := hx.1 h1
    have hs : showInt (p.pip 25) = showNat (p.view.x 25) := showInt_pos h1
    by_cases h2 : p.xOff > 0
    · have h2' : 0 < p.view.xOff := h2
      simp only [h1, h2, h1', h2', if_true, hs, decide_true, List.flatMap_cons, List.append_assoc, List.flatMap_append,
        List.filter_nil, List.flatMap_nil, List.append_nil, item]
      rfl
    · have h2' : ¬ 0 < p.view.xOff := h2
      simp only [h1, h2, h1', h2', if_true, if_false, hs, decide_true, decide_false, List.flatMap_cons, List.append_assoc,
        List.flatMap_append, List.filter_nil, List.flatMap_nil, List.append_nil, item, hb, Bool.false_eq_true]
  · have h1' : ¬ 0 < p.view.x 25 := fun h => h1 (hx.2 h)
    by_cases h2 : p.xOff > 0
    · have h2' : 0 < p.view.xOff := h2
      simp only [h1, h2, h1', h2', if_true, if_false, decide_true, decide_false, List.flatMap_cons, List.append_assoc,
        List.flatMap_append, List.filter_nil, List.flatMap_nil, List.append_nil, item, Bool.false_eq_true]
      rfl
    · have h2' : ¬ 0 < p.view.xOff := h2
      simp only [h1, h2, h1', h2', if_false, decide_false, List.append_assoc,
        List.flatMap_append, List.filter_nil, List.flatMap_nil, List.append_nil, Bool.false_eq_true]

theorem debugO_eq (p : Pos N) : p.debugO = "o: {".toList ++ (Spec.entriesO p.view).flatMap fun e => item e ++ ", ".toList := by
  unfold debugO Spec.entriesO
  simp only [List.filter_append, List.filter_cons, List.flatMap_append, List.cons_append]
  rw [foldl_items]
  have e : ((rng 1 25).reverse.filter fun i => decide (p.pip i < 0)).flatMap
        (fun i => showNat i ++ ":".toList ++ showInt (-p.pip i) ++ ", ".toList) =
      (((List.range' 1 24).reverse.map fun i => (showNat i, p.view.o i)).filter fun e => decide (0 < e.2)).flatMap
        fun e => item e ++ ", ".toList := by
    rw [flatMap_filter_map]
    have : ((rng 1 25).reverse.filter fun i => decide (p.pip i < 0)) =
        ((List.range' 1 24).reverse.filter fun i => decide (0 < p.view.o i)) := by
      refine List.filter_congr fun i _ => decide_eq_decide.2 ?_
      change _ ↔ 0 < (-p.pip i).toNat; omega
    rw [this]
    refine List.flatMap_congr fun i hi => ?_
    have hi : 0 < (-p.pip i).toNat := of_decide_eq_true (List.mem_filter.1 hi).2
    rw [showInt_pos (by omega)]; rfl
  rw [e]
  have hb : ("bar:".toList : Str) = "bar".toList ++ ":".toList := rfl
  have hx : p.pip 0 < 0 ↔ 0 < p.view.o 0 := by simp only [view]; omega
  by_cases h1 : p.pip 0 < 0
  · have h1' := hx.1 h1
    have hs : showInt (-p.pip 0) = showNat (p.view.o 0) := showInt_pos (by omega)
    by_cases h2 : p.oOff > 0
    · have h2' : 0 < p.view.oOff := h2
      simp only [h1, h2, h1', h2', if_true, hs, decide_true, List.flatMap_cons, List.append_assoc, List.flatMap_append,
        List.filter_nil, List.flatMap_nil, List.append_nil, item]
      rfl
    · have h2' : ¬ 0 < p.view.oOff := h2
      simp only [h1, h2, h1', h2', if_true, if_false, hs, decide_true, decide_false, List.flatMap_cons, List.append_assoc,
        List.flatMap_append, List.filter_nil, List.flatMap_nil, List.append_nil, item, hb, Bool.false_eq_true]
  · have h1' : ¬ 0 < p.view.o 0 := fun h => h1 (hx.2 h)
    by_cases h2 : p.oOff > 0
    · have h2' : 0 < p.view.oOff := h2
      simp only [h1, h2, h1', h2', if_true, if_false, decide_true, decide_false, List.flatMap_cons, List.append_assoc,
        List.flatMap_append, List.filter_nil, List.flatMap_nil, List.append_nil, item, Bool.false_eq_true]
      rfl
    · have h2' : ¬ 0 < p.view.oOff := h2
      simp only [h1, h2, h1', h2', if_false, decide_false, List.append_assoc,
        List.flatMap_append, List.filter_nil, List.flatMap_nil, List.append_nil, Bool.false_eq_true]

theorem flatMap_join : ∀ {l : List (Str × Nat)}, l ≠ [] →
    (l.flatMap fun e => item e ++ ", ".toList) = Spec.entriesText l ++ ", ".toList
  | [e], _ => by simp [Spec.entriesText, join, item]
  | e :: e' :: l, _ => by
    have ih := flatMap_join (l := e' :: l) (by simp)
    rw [List.flatMap_cons, ih]
    unfold Spec.entriesText
    rw [List.map_cons (l := e' :: l), join_cons (l := (e' :: l).map _) (by simp)]
    simp only [item, List.append_assoc]

theorem pops {s t : Str} : (s ++ (t ++ ", ".toList)).dropLast.dropLast = s ++ t := by
  have e : ", ".toList = [',', ' '] := rfl
  rw [e, show s ++ (t ++ [',', ' ']) = ((s ++ t) ++ [',']) ++ [' '] by simp, List.dropLast_concat, List.dropLast_concat]

theorem entriesX_ne_nil {p : Pos N} (h : p.Valid) (hN : 1 ≤ N) : Spec.entriesX p.view ≠ [] := by
  intro e
  have hz : ∀ a ∈ (("bar".toList, p.view.x 25) :: (List.range' 1 24).reverse.map (fun i => (showNat i, p.view.x i)) ++
      [("off".toList, p.view.xOff)]), a.2 = 0 := by
    intro a ha
    have := List.filter_eq_nil_iff.1 e a ha
    simpa using this
  have h25 : p.view.x 25 = 0 := hz ("bar".toList, p.view.x 25) (by simp)
  have hoff : p.view.xOff = 0 := hz ("off".toList, p.view.xOff) (by simp)
  have hi : ∀ i, 1 ≤ i → i ≤ 24 → p.view.x i = 0 := fun i h1 h2 => hz (showNat i, p.view.x i) (by
    simp only [List.cons_append, List.mem_cons, List.mem_append, List.mem_map]
    exact Or.inr (Or.inl ⟨i, by simp only [List.mem_reverse, List.mem_range'_1]; omega, rfl⟩))
  have hs : p.view.countX = 0 := Finset.sum_eq_zero fun i hi' => by
    have := Finset.mem_range.1 hi'
    rcases Nat.eq_zero_or_pos i with rfl | h0
    · exact h.xBar
    · rcases Nat.lt_or_ge i 25 with h1 | h1
      · exact hi i h0 (by omega)
      · rw [show i = 25 by omega]; exact h25
  have := h.sumX
  omega

theorem entriesO_ne_nil {p : Pos N} (h : p.Valid) (hN : 1 ≤ N) : Spec.entriesO p.view ≠ [] := by
  intro e
  have hz : ∀ a ∈ (("off".toList, p.view.oOff) :: (List.range' 1 24).reverse.map (fun i => (showNat i, p.view.o i)) ++
      [("bar".toList, p.view.o 0)]), a.2 = 0 := by
    intro a ha
    have := List.filter_eq_nil_iff.1 e a ha
    simpa using this
  have h25 : p.view.o 0 = 0 := hz ("bar".toList, p.view.o 0) (by simp)
  have hoff : p.view.oOff = 0 := hz ("off".toList, p.view.oOff) (by simp)
  have hi : ∀ i, 1 ≤ i → i ≤ 24 → p.view.o i = 0 := fun i h1 h2 => hz (showNat i, p.view.o i) (by
    simp only [List.cons_append, List.mem_cons, List.mem_append, List.mem_map]
    exact Or.inr (Or.inl ⟨i, by simp only [List.mem_reverse, List.mem_range'_1]; omega, rfl⟩))
  have hs : p.view.countO = 0 := Finset.sum_eq_zero fun i hi' => by
    have := Finset.mem_range.1 hi'
    rcases Nat.eq_zero_or_pos i with rfl | h0
    · exact h25
    · rcases Nat.lt_or_ge i 25 with h1 | h1
      · exact hi i h0 (by omega)
      · rw [show i = 25 by omega]; exact h.oBar
  have := h.sumO
  omega

end Dbg
open Dbg

/-- **C56** The Debug text of a valid position (with at least one checker per side) lists exactly the occupied places of both
sides, with their numbers of checkers, in a fixed order. -/
theorem C56_debug_lists (p : Pos N) (hp : p.Valid) (hN : 1 ≤ N) :
    p.debugText = "Position:\n".toList ++ "x: {".toList ++ Spec.entriesText (Spec.entriesX p.view) ++ "}\n".toList ++
      "o: {".toList ++ Spec.entriesText (Spec.entriesO p.view) ++ "}".toList := by
  unfold debugText
  rw [debugX_eq, debugO_eq, flatMap_join (entriesX_ne_nil hp hN), flatMap_join (entriesO_ne_nil hp hN), pops, pops]
  simp only [List.append_assoc]

namespace Dbg

theorem showNat_inj {a b : Nat} (h : showNat a = showNat b) : a = b := by
  have := digitsVal_showNat a
  rw [h, digitsVal_showNat] at this
  exact (Option.some.inj this).symm

theorem split_unique {c : Char} {a a' b b' : Str} (h : a ++ c :: b = a' ++ c :: b') (ha : c ∉ a) (ha' : c ∉ a') : a = a' ∧ b = b' := by
  have h1 := splitOnce_append (b := b) ha
  rw [h, splitOnce_append ha'] at h1
  simp only [Option.some.injEq, Prod.mk.injEq] at h1
  exact ⟨h1.1.symm, h1.2.symm⟩

/-- Labels: no punctuation. -/
def Plain (s : Str) : Prop := ':' ∉ s ∧ ',' ∉ s ∧ '}' ∉ s

theorem plain_showNat (n : Nat) : Plain (showNat n) := by
  have h : ∀ d : Char, (d.toNat < 48 ∨ 57 < d.toNat) → d ∉ showNat n := fun d hd hm => digit_ne (showNat_digit n d hm) hd rfl
  exact ⟨h ':' (by decide), h ',' (by decide), h '}' (by decide)⟩

theorem item_inj {e e' : Str × Nat} (h1 : Plain e.1) (h2 : Plain e'.1) (h : item e = item e') : e = e' := by
  unfold item at h
  have e1 : (":".toList : Str) = [':'] := rfl
  rw [e1] at h
  simp only [List.append_assoc, List.cons_append, List.nil_append] at h
  obtain ⟨a, b⟩ := split_unique h h1.1 h2.1
  exact Prod.ext a (showNat_inj b)

theorem item_no {e : Str × Nat} (h : Plain e.1) : ',' ∉ item e ∧ '}' ∉ item e := by
  have e1 : (":".toList : Str) = [':'] := rfl
  unfold item
  rw [e1]
  have := plain_showNat e.2
  simp [h.2.1, h.2.2, this.2.1, this.2.2]

theorem text_cons (e : Str × Nat) {l : List (Str × Nat)} (h : l ≠ []) :
    Spec.entriesText (e :: l) = item e ++ ',' :: ' ' :: Spec.entriesText l := by
  have e1 : (", ".toList : Str) = [',', ' '] := rfl
  unfold Spec.entriesText
  rw [List.map_cons, join_cons (by simpa using h), e1]
  simp [item]

theorem text_single (e : Str × Nat) : Spec.entriesText [e] = item e := by simp [Spec.entriesText, join, item]

theorem text_inj : ∀ {l l' : List (Str × Nat)}, l ≠ [] → l' ≠ [] → (∀ e ∈ l, Plain e.1) → (∀ e ∈ l', Plain e.1) →
    Spec.entriesText l = Spec.entriesText l' → l = l'
  | [e], [e'], _, _, h1, h2, h => by
    rw [text_single, text_single] at h
    rw [item_inj (h1 e (by simp)) (h2 e' (by simp)) h]
  | [e], e' :: a' :: l', _, _, h1, h2, h => by
    rw [text_single, text_cons _ (by simp)] at h
    exact absurd (h ▸ List.mem_append_right _ (List.mem_cons_self ..)) (item_no (h1 e (by simp))).1
  | e :: a :: l, [e'], _, _, h1, h2, h => by
    rw [text_single, text_cons _ (by simp)] at h
    exact absurd (h ▸ List.mem_append_right _ (List.mem_cons_self ..)) (item_no (h2 e' (by simp))).1
  | e :: a :: l, e' :: a' :: l', _, _, h1, h2, h => by
    rw [text_cons e (l := a :: l) (by simp), text_cons e' (l := a' :: l') (by simp)] at h
    obtain ⟨x, y⟩ := split_unique h (item_no (h1 e (by simp))).1 (item_no (h2 e' (by simp))).1
    rw [item_inj (h1 e (by simp)) (h2 e' (by simp)) x,
      text_inj (by simp) (by simp) (fun e he => h1 e (List.mem_cons_of_mem _ he)) (fun e he => h2 e (List.mem_cons_of_mem _ he))
        (List.cons.inj y).2]

theorem text_no : ∀ {l : List (Str × Nat)}, (∀ e ∈ l, Plain e.1) → '}' ∉ Spec.entriesText l
  | [], _ => by simp [Spec.entriesText, join]
  | [e], h => by rw [text_single]; exact (item_no (h e (by simp))).2
  | e :: a :: l, h => by
    rw [text_cons e (l := a :: l) (by simp)]
    have h1 := (item_no (h e (by simp))).2
    have h2 := text_no (l := a :: l) fun e he => h e (List.mem_cons_of_mem _ he)
    simp [h1, h2]

theorem plain_bar : Plain "bar".toList := ⟨by decide, by decide, by decide⟩
theorem plain_off : Plain "off".toList := ⟨by decide, by decide, by decide⟩

theorem plainX (b : Spec.Board) : ∀ e ∈ Spec.entriesX b, Plain e.1 := by
  intro e he
  have he := (List.mem_filter.1 he).1
  simp only [List.cons_append, List.mem_cons, List.mem_append, List.mem_map, List.not_mem_nil, or_false] at he
  rcases he with rfl | ⟨i, _, rfl⟩ | rfl
  · exact plain_bar
  · exact plain_showNat i
  · exact plain_off

theorem plainO (b : Spec.Board) : ∀ e ∈ Spec.entriesO b, Plain e.1 := by
  intro e he
  have he := (List.mem_filter.1 he).1
  simp only [List.cons_append, List.mem_cons, List.mem_append, List.mem_map, List.not_mem_nil, or_false] at he
  rcases he with rfl | ⟨i, _, rfl⟩ | rfl
  · exact plain_off
  · exact plain_showNat i
  · exact plain_bar

/-- The place with number `k` on the `x` line. -/
def labelX (k : Nat) : Str := if k = 25 then "bar".toList else if k = 0 then "off".toList else showNat k
/-- The place with number `k` on the `o` line. -/
def labelO (k : Nat) : Str := if k = 25 then "off".toList else if k = 0 then "bar".toList else showNat k

theorem labelX_inj : ((List.range 26).map labelX).Nodup := by decide +kernel
theorem labelO_inj : ((List.range 26).map labelO).Nodup := by decide +kernel

theorem entriesX_eq (b : Spec.Board) : Spec.entriesX b =
    ((List.range 26).reverse.map fun k => (labelX k, if k = 0 then b.xOff else b.x k)).filter fun e => decide (0 < e.2) := by
  unfold Spec.entriesX
  congr 1

theorem entriesO_eq (b : Spec.Board) : Spec.entriesO b =
    ((List.range 26).reverse.map fun k => (labelO k, if k = 25 then b.oOff else b.o k)).filter fun e => decide (0 < e.2) := by
  unfold Spec.entriesO
  congr 1

theorem values_of_entries {L : Nat → Str} (hL : ((List.range 26).map L).Nodup) {f g : Nat → Nat}
    (h : ((List.range 26).reverse.map fun k => (L k, f k)).filter (fun e => decide (0 < e.2)) =
      ((List.range 26).reverse.map fun k => (L k, g k)).filter (fun e => decide (0 < e.2))) (k : Nat) (hk : k < 26) : f k = g k := by
  have key : ∀ (f : Nat → Nat) k, k < 26 → ∀ v, (L k, v) ∈ ((List.range 26).reverse.map fun k => (L k, f k)).filter
      (fun e => decide (0 < e.2)) ↔ f k = v ∧ 0 < v := by
    intro f k hk v
    simp only [List.mem_filter, List.mem_map, List.mem_reverse, List.mem_range, decide_eq_true_eq, Prod.mk.injEq]
    constructor
    · rintro ⟨⟨j, hj, e, rfl⟩, h0⟩
      rw [List.inj_on_of_nodup_map hL (List.mem_range.2 hj) (List.mem_range.2 hk) e] at *
      exact ⟨rfl, h0⟩
    · rintro ⟨rfl, h0⟩; exact ⟨⟨k, hk, rfl, rfl⟩, h0⟩
  rcases Nat.eq_zero_or_pos (f k) with h0 | h0
  · by_contra hne
    have := (key g k hk (g k)).2 ⟨rfl, by omega⟩
    rw [← h] at this
    have := (key f k hk (g k)).1 this
    omega
  · have := (key f k hk (f k)).2 ⟨rfl, h0⟩
    rw [h] at this
    exact ((key g k hk (f k)).1 this).1.symm

end Dbg

/-- **C56** Two valid positions (at least one checker per side) have the same Debug text exactly when they are equal (`==`,
which ignores whose turn it is). -/
theorem C56_debug_injective (p q : Pos N) (hp : p.Valid) (hq : q.Valid) (hN : 1 ≤ N) :
    p.debugText = q.debugText ↔ p.eqv q = true := by
  constructor
  · intro h
    rw [C56_debug_lists p hp hN, C56_debug_lists q hq hN] at h
    have e1 : ("}\n".toList : Str) = ['}', '\n'] := rfl
    have e2 : ("}".toList : Str) = ['}'] := rfl
    rw [e1, e2] at h
    simp only [List.append_assoc] at h
    have h := List.append_cancel_left (List.append_cancel_left h)
    simp only [List.cons_append, List.nil_append] at h
    obtain ⟨hx, h⟩ := split_unique h (text_no (plainX _)) (text_no (plainX _))
    have h := List.append_cancel_left (List.cons.inj h).2
    obtain ⟨ho, _⟩ := split_unique h (text_no (plainO _)) (text_no (plainO _))
    have hx := text_inj (entriesX_ne_nil hp hN) (entriesX_ne_nil hq hN) (plainX _) (plainX _) hx
    have ho := text_inj (entriesO_ne_nil hp hN) (entriesO_ne_nil hq hN) (plainO _) (plainO _) ho
    rw [entriesX_eq, entriesX_eq] at hx
    rw [entriesO_eq, entriesO_eq] at ho
    have vx := values_of_entries labelX_inj hx
    have vo := values_of_entries labelO_inj ho
    have hxo : p.xOff = q.xOff := vx 0 (by omega)
    have hoo : p.oOff = q.oOff := vo 25 (by omega)
    have hpip : p.pips = q.pips := by
      funext i
      have ep : p.pip i.val = p.pips i := by simp [pip]
      have eq : q.pip i.val = q.pips i := by simp [pip]
      rw [← ep, ← eq]
      have b1 := hp.barsOK
      have b2 := hq.barsOK
      have a := vx i.val i.isLt
      have b := vo i.val i.isLt
      by_cases h0 : i.val = 0
      · rw [h0] at b ⊢
        simp only [view] at b
        have := b1.1; have := b2.1
        norm_num at b
        omega
      · by_cases h25 : i.val = 25
        · rw [h25] at a ⊢
          simp only [view] at a
          have := b1.2; have := b2.2
          norm_num at a
          omega
        · rw [if_neg h0, if_neg h0] at a
          rw [if_neg h25, if_neg h25] at b
          simp only [view] at a b
          omega
    simp [eqv, hpip, hxo, hoo]
  · intro h
    simp only [eqv, Bool.and_eq_true, decide_eq_true_eq] at h
    have hv : p.view = q.view := by simp [view, pip, h.1.1, h.1.2, h.2]
    rw [C56_debug_lists p hp hN, C56_debug_lists q hq hN, hv]

example : Ex.barPos.Valid ∧ 1 ≤ 3 ∧
    Ex.barPos.debugText = "Position:\nx: {bar:1, 6:2}\no: {22:2, 20:1}".toList := by decide +kernel

/-- With no checkers at all (`N = 0`) the two `pop`s eat the opening brace; this is why `C56_debug_lists` asks for `1 ≤ N`. -/
theorem C56_no_checkers_counterexample :
    (⟨true, fun _ => 0, 0, 0⟩ : Pos 0).Valid ∧ (⟨true, fun _ => 0, 0, 0⟩ : Pos 0).debugText = "Position:\nx:}\no:}".toList := by
  decide +kernel

end Bkgm
