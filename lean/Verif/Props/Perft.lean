import Verif.Model.Perft
import Verif.Props.Dice
import Verif.Props.MoveGen
import Verif.Spec.Examples
import Mathlib.Data.Set.Card
import Mathlib.Data.List.Basic
import Mathlib.Tactic.Ring
/-!
# C54: perft counts plays
-/

namespace Bkgm
variable {N : Nat}

/-- A line of play from `p`: at each ply a roll and the index of a position in the list of legal positions for that roll. -/
inductive Line : Pos N → List (Dice × Nat) → Prop
  | nil (p : Pos N) : Line p []
  | cons {p c : Pos N} {dice : Dice} {i : Nat} {l : List (Dice × Nat)} :
      dice.Valid → (p.legalPositions dice)[i]? = some c → Line c l → Line p ((dice, i) :: l)

/-- The same with two distinguishable dice: at each ply the numbers on the first and on the second die and an index. -/
inductive OrderedLine : Pos N → List ((Nat × Nat) × Nat) → Prop
  | nil (p : Pos N) : OrderedLine p []
  | cons {p c : Pos N} {a b i : Nat} {l : List ((Nat × Nat) × Nat)} :
      1 ≤ a → a ≤ 6 → 1 ≤ b → b ≤ 6 → (p.legalPositions (Dice.new a b))[i]? = some c → OrderedLine c l →
      OrderedLine p (((a, b), i) :: l)

namespace Perft

section Generic
variable {α γ : Type} (next : α → List (γ × α))

/-- All sequences of `d` choices. -/
def paths : Nat → α → List (List γ)
  | 0, _ => [[]]
  | d + 1, a => (next a).flatMap fun x => (paths d x.2).map (x.1 :: ·)

def cnt : Nat → α → Nat
  | 0, _ => 1
  | d + 1, a => ((next a).map fun x => cnt d x.2).sum

theorem length_paths (d : Nat) : ∀ a, (paths next d a).length = cnt next d a := by
  induction d with
  | zero => intro a; rfl
  | succ d ih => intro a; simp [paths, cnt, List.length_flatMap, ih]

inductive IsPath : α → List γ → Prop
  | nil (a : α) : IsPath a []
  | cons {a b : α} {c : γ} {l : List γ} : (c, b) ∈ next a → IsPath b l → IsPath a (c :: l)

theorem mem_paths (d : Nat) : ∀ a l, l ∈ paths next d a ↔ IsPath next a l ∧ l.length = d := by
  induction d with
  | zero =>
    intro a l
    simp only [paths, List.mem_singleton]
    constructor
    · rintro rfl; exact ⟨.nil a, rfl⟩
    · rintro ⟨_, h⟩; exact List.length_eq_zero_iff.1 h
  | succ d ih =>
    intro a l
    simp only [paths, List.mem_flatMap, List.mem_map, ih]
    constructor
    · rintro ⟨x, hx, l', ⟨h1, h2⟩, rfl⟩
      exact ⟨.cons hx h1, by simp [h2]⟩
    · rintro ⟨h1, h2⟩
      cases h1 with
      | nil => simp at h2
      | cons hm hp => exact ⟨_, hm, _, ⟨hp, by simpa using h2⟩, rfl⟩

theorem nodup_paths (hn : ∀ a, ((next a).map Prod.fst).Nodup) (d : Nat) : ∀ a, (paths next d a).Nodup := by
  induction d with
  | zero => intro a; simp [paths]
  | succ d ih =>
    intro a
    rw [paths, List.nodup_flatMap]
    refine ⟨fun x _ => (List.nodup_map_iff fun b c h => by simpa using h).2 (ih x.2), ?_⟩
    have h := List.pairwise_map.1 (hn a)
    refine h.imp fun {x y} hxy => ?_
    intro l hl hl'
    obtain ⟨u, _, rfl⟩ := List.mem_map.1 hl
    obtain ⟨v, _, e⟩ := List.mem_map.1 hl'
    exact hxy (by simpa using (List.cons.inj e).1.symm)

theorem ncard_paths (hn : ∀ a, ((next a).map Prod.fst).Nodup) (d : Nat) (a : α) :
    {l | IsPath next a l ∧ l.length = d}.ncard = cnt next d a ∧ {l | IsPath next a l ∧ l.length = d}.Finite := by
  classical
  have e : {l | IsPath next a l ∧ l.length = d} = ((paths next d a).toFinset : Set (List γ)) := by
    ext l; simp [mem_paths]
  rw [e, Set.ncard_coe_finset, List.toFinset_card_of_nodup (nodup_paths next hn d a), length_paths]
  exact ⟨rfl, Finset.finite_toSet _⟩

end Generic

/-- Children with their index. -/
def indexed {γ : Type} (key : γ) (l : List (Pos N)) : List ((γ × Nat) × Pos N) := l.zipIdx.map fun x => ((key, x.2), x.1)

theorem mem_indexed {γ : Type} {key : γ} {l : List (Pos N)} {k : γ} {i : Nat} {c : Pos N} :
    ((k, i), c) ∈ indexed key l ↔ k = key ∧ l[i]? = some c := by
  simp only [indexed, List.mem_map, Prod.mk.injEq, Prod.exists, List.mem_zipIdx_iff_getElem?]
  constructor
  · rintro ⟨a, b, h, ⟨rfl, rfl⟩, rfl⟩; exact ⟨rfl, h⟩
  · rintro ⟨rfl, h⟩; exact ⟨c, i, h, ⟨rfl, rfl⟩, rfl⟩

theorem fst_indexed {γ : Type} (key : γ) (l : List (Pos N)) :
    (indexed key l).map Prod.fst = (List.range l.length).map fun i => (key, i) := by
  rw [indexed, List.map_map]
  have : l.zipIdx.map Prod.snd = List.range l.length := by
    rw [List.zipIdx_map_snd, List.range_eq_range']
  rw [← this, List.map_map]
  rfl

theorem snd_indexed {γ : Type} (key : γ) (l : List (Pos N)) (f : Pos N → Nat) :
    ((indexed key l).map fun x => f x.2) = l.map f := by
  rw [indexed, List.map_map]
  have : l.zipIdx.map Prod.fst = l := List.zipIdx_map_fst 0 l
  conv_rhs => rw [← this]
  rw [List.map_map]
  rfl

theorem nodup_keys {γ : Type} (keys : List γ) (hk : keys.Nodup) (f : γ → List (Pos N)) :
    ((keys.flatMap fun k => indexed k (f k)).map Prod.fst).Nodup := by
  rw [List.map_flatMap, List.nodup_flatMap]
  refine ⟨fun k _ => ?_, hk.imp fun {a b} hab => ?_⟩
  · rw [fst_indexed, List.nodup_map_iff fun b c h => by simpa using h]
    exact List.nodup_range
  · intro x hx hy
    simp only [fst_indexed] at hx hy
    obtain ⟨u, _, rfl⟩ := List.mem_map.1 hx
    obtain ⟨v, _, e⟩ := List.mem_map.1 hy
    exact hab (by simpa using (congrArg Prod.fst e).symm)

/-- Choices with a roll. -/
def next21 (p : Pos N) : List ((Dice × Nat) × Pos N) :=
  (all21.map Prod.fst).flatMap fun d => indexed d (p.legalPositions d)

/-- The 36 pairs of dice. -/
def pairs36 : List (Nat × Nat) := (List.range' 1 6).flatMap fun a => (List.range' 1 6).map fun b => (a, b)

/-- Choices with a pair of dice. -/
def next36 (p : Pos N) : List (((Nat × Nat) × Nat) × Pos N) :=
  pairs36.flatMap fun ab => indexed ab (p.legalPositions (Dice.new ab.1 ab.2))

theorem foldl_mod (m mult : Nat) (f : Pos N → Nat) (l : List (Pos N)) : ∀ t, t % m = t →
    l.foldl (fun t x => (t + mult * f x) % m) t = (t + mult * (l.map f).sum) % m := by
  induction l with
  | nil => intro t ht; simp [ht]
  | cons x l ih =>
    intro t _
    rw [List.foldl_cons, ih _ (Nat.mod_mod _ _)]
    simp only [List.map_cons, List.sum_cons]
    rw [Nat.add_mod, Nat.mod_mod, ← Nat.add_mod]
    congr 1
    ring

theorem foldl_mod2 (m : Nat) (w : Bool) (g : Dice → List (Pos N)) (f : Pos N → Nat) (L : List (Dice × Nat)) : ∀ t, t % m = t →
    L.foldl (fun t dc => (g dc.1).foldl (fun t x => (t + (if w then dc.2 else 1) * f x) % m) t) t =
      (t + (L.map fun dc => (if w then dc.2 else 1) * ((g dc.1).map f).sum).sum) % m := by
  induction L with
  | nil => intro t ht; simp [ht]
  | cons x L ih =>
    intro t ht
    rw [List.foldl_cons, foldl_mod m _ f _ t ht, ih _ (Nat.mod_mod _ _)]
    simp only [List.map_cons, List.sum_cons]
    rw [Nat.add_mod, Nat.mod_mod, ← Nat.add_mod]
    congr 1
    ring

theorem sum_mod_congr {β : Type} (m : Nat) (l : List β) (f g : β → Nat) (h : ∀ x, f x % m = g x % m) :
    (l.map f).sum % m = (l.map g).sum % m := by
  induction l with
  | nil => rfl
  | cons x l ih => simp only [List.map_cons, List.sum_cons]; rw [Nat.add_mod, h, ih, ← Nat.add_mod]

theorem perft_succ (w : Bool) (d : Nat) (p : Pos N) : perft w (d + 1) p =
    (all21.map fun dc => (if w then dc.2 else 1) * ((p.legalPositions dc.1).map (perft w d)).sum).sum % 2 ^ 128 := by
  rw [perft, foldl_mod2 (2 ^ 128) w p.legalPositions (perft w d) all21 0 rfl, Nat.zero_add]

theorem sum_flatMap {β δ : Type} (l : List β) (f : β → List δ) (g : δ → Nat) :
    ((l.flatMap f).map g).sum = (l.map fun b => ((f b).map g).sum).sum := by
  induction l with
  | nil => rfl
  | cons x l ih => simp [List.flatMap_cons, ih]

theorem cnt21_succ (d : Nat) (p : Pos N) : cnt next21 (d + 1) p =
    (all21.map fun dc => ((p.legalPositions dc.1).map (cnt next21 d)).sum).sum := by
  rw [cnt, next21, sum_flatMap]
  simp only [snd_indexed, List.map_map]
  rfl

theorem pairs_weights (f : Dice → Nat) :
    (pairs36.map fun ab => f (Dice.new ab.1 ab.2)).sum = (all21.map fun dc => dc.2 * f dc.1).sum := by
  have e1 : all21 = [(.double 1, 1), (.mixed 2 1, 2), (.mixed 3 1, 2), (.mixed 4 1, 2), (.mixed 5 1, 2), (.mixed 6 1, 2),
      (.double 2, 1), (.mixed 3 2, 2), (.mixed 4 2, 2), (.mixed 5 2, 2), (.mixed 6 2, 2),
      (.double 3, 1), (.mixed 4 3, 2), (.mixed 5 3, 2), (.mixed 6 3, 2),
      (.double 4, 1), (.mixed 5 4, 2), (.mixed 6 4, 2), (.double 5, 1), (.mixed 6 5, 2), (.double 6, 1)] := by decide
  have e2 : pairs36.map (fun ab => Dice.new ab.1 ab.2) = [.double 1, .mixed 2 1, .mixed 3 1, .mixed 4 1, .mixed 5 1, .mixed 6 1,
      .mixed 2 1, .double 2, .mixed 3 2, .mixed 4 2, .mixed 5 2, .mixed 6 2,
      .mixed 3 1, .mixed 3 2, .double 3, .mixed 4 3, .mixed 5 3, .mixed 6 3,
      .mixed 4 1, .mixed 4 2, .mixed 4 3, .double 4, .mixed 5 4, .mixed 6 4,
      .mixed 5 1, .mixed 5 2, .mixed 5 3, .mixed 5 4, .double 5, .mixed 6 5,
      .mixed 6 1, .mixed 6 2, .mixed 6 3, .mixed 6 4, .mixed 6 5, .double 6] := by decide
  have e3 : (pairs36.map fun ab => f (Dice.new ab.1 ab.2)) = (pairs36.map fun ab => Dice.new ab.1 ab.2).map f := by
    rw [List.map_map]; rfl
  rw [e3, e2, e1]
  simp only [List.map_cons, List.map_nil, List.sum_cons, List.sum_nil]
  ring

theorem cnt36_succ (d : Nat) (p : Pos N) : cnt next36 (d + 1) p =
    (all21.map fun dc => dc.2 * ((p.legalPositions dc.1).map (cnt next36 d)).sum).sum := by
  rw [cnt, next36, sum_flatMap]
  simp only [snd_indexed]
  exact pairs_weights fun dc => ((p.legalPositions dc).map (cnt next36 d)).sum

theorem perft_cnt21 (d : Nat) : ∀ p : Pos N, perft false d p = cnt next21 d p % 2 ^ 128 := by
  induction d with
  | zero => intro p; rfl
  | succ d ih =>
    intro p
    rw [perft_succ, cnt21_succ]
    refine sum_mod_congr _ _ _ _ fun dc => ?_
    simp only [Bool.false_eq_true, if_false, Nat.one_mul]
    exact sum_mod_congr _ _ _ _ fun c => by rw [ih, Nat.mod_mod]

theorem perft_cnt36 (d : Nat) : ∀ p : Pos N, perft true d p = cnt next36 d p % 2 ^ 128 := by
  induction d with
  | zero => intro p; rfl
  | succ d ih =>
    intro p
    rw [perft_succ, cnt36_succ]
    refine sum_mod_congr _ _ _ _ fun dc => ?_
    simp only [if_true]
    rw [Nat.mul_mod, sum_mod_congr (2 ^ 128) (p.legalPositions dc.1) (perft true d) (cnt next36 d) fun c => by rw [ih, Nat.mod_mod],
      ← Nat.mul_mod]

theorem line_iff (p : Pos N) (l) : IsPath next21 p l ↔ Line p l := by
  constructor
  · intro h
    induction h with
    | nil => exact .nil _
    | @cons a b c l hm _ ih =>
      obtain ⟨dice, i⟩ := c
      obtain ⟨k, hk, hi⟩ := List.mem_flatMap.1 hm
      obtain ⟨rfl, hi⟩ := mem_indexed.1 hi
      exact .cons ((C42_all_21.2.2.1 _).2 hk) hi ih
  · intro h
    induction h with
    | nil => exact .nil _
    | cons hv hi _ ih => exact .cons (List.mem_flatMap.2 ⟨_, (C42_all_21.2.2.1 _).1 hv, mem_indexed.2 ⟨rfl, hi⟩⟩) ih

theorem mem_pairs36 (a b : Nat) : (a, b) ∈ pairs36 ↔ 1 ≤ a ∧ a ≤ 6 ∧ 1 ≤ b ∧ b ≤ 6 := by
  simp only [pairs36, List.mem_flatMap, List.mem_map, List.mem_range'_1, Prod.mk.injEq]
  constructor
  · rintro ⟨x, hx, y, hy, rfl, rfl⟩; omega
  · intro h; exact ⟨a, by omega, b, by omega, rfl, rfl⟩

theorem orderedLine_iff (p : Pos N) (l) : IsPath next36 p l ↔ OrderedLine p l := by
  constructor
  · intro h
    induction h with
    | nil => exact .nil _
    | @cons a b c l hm _ ih =>
      obtain ⟨⟨u, v⟩, i⟩ := c
      obtain ⟨k, hk, hi⟩ := List.mem_flatMap.1 hm
      obtain ⟨rfl, hi⟩ := mem_indexed.1 hi
      obtain ⟨h1, h2, h3, h4⟩ := (mem_pairs36 _ _).1 hk
      exact .cons h1 h2 h3 h4 hi ih
  · intro h
    induction h with
    | nil => exact .nil _
    | cons h1 h2 h3 h4 hi _ ih =>
      exact .cons (List.mem_flatMap.2 ⟨_, (mem_pairs36 _ _).2 ⟨h1, h2, h3, h4⟩, mem_indexed.2 ⟨rfl, hi⟩⟩) ih

end Perft

open Perft

/-- **C54** `perft` without weights is the number of lines of play with `depth` plies (modulo `2^128`, the range of the
counter; in particular it is that number whenever it fits). -/
theorem C54_perft_counts (p : Pos N) (depth : Nat) :
    {l | Line p l ∧ l.length = depth}.Finite ∧
    perft false depth p = {l | Line p l ∧ l.length = depth}.ncard % 2 ^ 128 := by
  have h := ncard_paths next21 (fun p => nodup_keys _ C42_all_21.2.1 p.legalPositions) depth p
  simp only [line_iff] at h
  exact ⟨h.2, by rw [h.1, perft_cnt21]⟩

/-- **C54** `perft` with weights is the number of lines of play when the two dice are distinguishable: every roll of
different numbers counts twice. -/
theorem C54_perft_counts_weighted (p : Pos N) (depth : Nat) :
    {l | OrderedLine p l ∧ l.length = depth}.Finite ∧
    perft true depth p = {l | OrderedLine p l ∧ l.length = depth}.ncard % 2 ^ 128 := by
  have h := ncard_paths next36
    (fun p : Pos N => nodup_keys pairs36 (by decide +kernel) fun ab => p.legalPositions (Dice.new ab.1 ab.2)) depth p
  simp only [orderedLine_iff] at h
  exact ⟨h.2, by rw [h.1, perft_cnt36]⟩

/-- **C54** Depth 0 counts one (empty) line, for every position. -/
theorem C54_perft_zero (w : Bool) (p : Pos N) : perft w 0 p = 1 := rfl

theorem Perft.cnt_pow {α γ : Type} (next : α → List (γ × α)) (P : α → Prop) (k : Nat)
    (hk : ∀ a, P a → k ≤ (next a).length ∧ ∀ x ∈ next a, P x.2) (d : Nat) : ∀ a, P a → k ^ d ≤ cnt next d a := by
  induction d with
  | zero => intro a _; simp [cnt]
  | succ d ih =>
    intro a ha
    obtain ⟨h1, h2⟩ := hk a ha
    have : ∀ l : List (γ × α), (∀ x ∈ l, P x.2) → l.length * k ^ d ≤ (l.map fun x => cnt next d x.2).sum := by
      intro l hl
      induction l with
      | nil => simp
      | cons x l ihl =>
        simp only [List.length_cons, List.map_cons, List.sum_cons]
        have e1 := ih x.2 (hl x (by simp))
        have e2 := ihl fun y hy => hl y (by simp [hy])
        rw [Nat.add_mul]; omega
    calc k ^ (d + 1) = k * k ^ d := by ring
      _ ≤ (next a).length * k ^ d := Nat.mul_le_mul_right _ h1
      _ ≤ _ := this _ h2

theorem Perft.length_flatMap_ge {α β : Type} (l : List α) (f : α → List β) (h : ∀ a ∈ l, f a ≠ []) : l.length ≤ (l.flatMap f).length := by
  induction l with
  | nil => simp
  | cons x l ih =>
    have := List.length_pos_iff.2 (h x (by simp))
    have := ih fun a ha => h a (by simp [ha])
    simp only [List.flatMap_cons, List.length_append, List.length_cons]; omega

theorem Perft.indexed_ne_nil {γ : Type} (k : γ) (l : List (Pos N)) (h : l ≠ []) : indexed k l ≠ [] := by
  intro e
  simp [indexed] at e
  exact h e

/-- **C54** From a valid position every roll can be answered at every ply, so there are at least `21^depth` lines of play
(`36^depth` with distinguishable dice). -/
theorem C54_perft_lower (p : Pos N) (hp : p.Valid) (depth : Nat) :
    21 ^ depth ≤ {l | Line p l ∧ l.length = depth}.ncard ∧ 36 ^ depth ≤ {l | OrderedLine p l ∧ l.length = depth}.ncard := by
  have h := ncard_paths next21 (fun p => nodup_keys _ C42_all_21.2.1 p.legalPositions) depth p
  have h' := ncard_paths next36
    (fun p : Pos N => nodup_keys pairs36 (by decide +kernel) fun ab => p.legalPositions (Dice.new ab.1 ab.2)) depth p
  simp only [line_iff, orderedLine_iff] at h h'
  rw [h.1, h'.1]
  constructor
  · refine cnt_pow next21 Pos.Valid 21 (fun a ha => ⟨?_, fun x hx => ?_⟩) depth p hp
    · refine length_flatMap_ge (all21.map Prod.fst) (fun d => indexed d (a.legalPositions d)) fun d hd => indexed_ne_nil _ _ ?_
      exact C02_never_empty a ha.barsOK d ((C42_all_21.2.2.1 d).2 hd)
    · obtain ⟨d, hd, hx⟩ := List.mem_flatMap.1 hx
      have := mem_indexed.1 hx
      exact C04_children_valid a x.2 ha d ((C42_all_21.2.2.1 d).2 hd) (List.mem_of_getElem? this.2)
  · have hv : ∀ ab ∈ pairs36, (Dice.new ab.1 ab.2).Valid := by decide
    refine cnt_pow next36 Pos.Valid 36 (fun a ha => ⟨?_, fun x hx => ?_⟩) depth p hp
    · refine length_flatMap_ge pairs36 (fun ab => indexed ab (a.legalPositions (Dice.new ab.1 ab.2))) fun ab hab => indexed_ne_nil _ _ ?_
      exact C02_never_empty a ha.barsOK _ (hv ab hab)
    · obtain ⟨ab, hab, hx⟩ := List.mem_flatMap.1 hx
      have := mem_indexed.1 hx
      exact C04_children_valid a x.2 ha _ (hv ab hab) (List.mem_of_getElem? this.2)

example : Ex.bearPos.Valid := by decide +kernel
example : Line Ex.bearPos [(.mixed 2 1, 0), (.double 5, 0)] :=
  .cons (c := (Ex.bearPos.legalPositions (.mixed 2 1))[0]'(by decide +kernel)) (by decide) (List.getElem?_eq_getElem _)
    (.cons (c := (((Ex.bearPos.legalPositions (.mixed 2 1))[0]'(by decide +kernel)).legalPositions (.double 5))[0]'(by decide +kernel))
      (by decide) (List.getElem?_eq_getElem _) (.nil _))
example : perft false 1 Ex.bearPos = 42 ∧ perft true 1 Ex.bearPos = 77 := by decide +kernel

end Bkgm
