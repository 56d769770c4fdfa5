import Verif.Props.SameText
import Verif.Props.MoveEncode
/-!
# C102: which of the possible texts `encode_move` returns
-/

namespace Spec

/-- Of the ways to play the dice in the order `o` from `b` to `b'`, `ms` has the least starting points (compared as words: the first ones, then the second ones, ...). -/
def Least (o : List Nat) (b : Board) (ms : List (Nat × Nat)) (b' : Board) : Prop :=
  Tried o b ms b' ∧ ∀ ms', Tried o b ms' b' → ms'.map Prod.fst = ms.map Prod.fst ∨ List.Lex (· < ·) (ms.map Prod.fst) (ms'.map Prod.fst)

/-- The larger die goes first if `b'` can be reached so, and the starting points are the least. -/
def Chosen (dice : Bkgm.Dice) (b : Board) (ms : List (Nat × Nat)) (b' : Board) : Prop :=
  match dice with
  | .double d => Least [d, d, d, d] b ms b'
  | .mixed big small => Least [big, small] b ms b' ∨ (¬ ∃ ms', Tried [big, small] b ms' b') ∧ Least [small, big] b ms b'

end Spec

namespace Bkgm
open Pos MoveText
variable {N : Nat}

namespace MoveText

/-- The starting points of steps. -/
def srcs (l : List Step) : List Nat := l.map Step.src

theorem srcs_stepsOf (ms : List (Nat × Nat)) : srcs (Spec.stepsOf ms) = ms.map Prod.fst := by
  simp [srcs, Spec.stepsOf, Function.comp_def]

theorem rng_sorted (a b : Nat) : (rng a b).Pairwise (· < ·) := by
  unfold rng
  exact List.pairwise_lt_range'

/-- The paths are listed by their starting points. -/
theorem paths_sorted : ∀ (o : List Nat) (p : Pos N), (paths o p).Pairwise fun e e' => List.Lex (· < ·) (srcs e.1) (srcs e'.1)
  | [], p => by simp [paths]
  | d :: rest, p => by
    unfold paths
    split_ifs with hany
    · rw [List.pairwise_flatMap]
      constructor
      · intro f _
        cases e : p.tryMove f d with
        | none => simp
        | some r =>
          simp only [List.pairwise_map]
          refine (paths_sorted rest r).imp fun h => ?_
          simp only [srcs, List.map_cons]
          exact .cons h
      · refine (rng_sorted 1 26).imp fun {f f'} hlt => ?_
        intro e he e' he'
        cases e1 : p.tryMove f d with
        | none => rw [e1] at he; simp at he
        | some r =>
          cases e2 : p.tryMove f' d with
          | none => rw [e2] at he'; simp at he'
          | some r' =>
            rw [e1] at he
            rw [e2] at he'
            simp only [List.mem_map] at he he'
            obtain ⟨⟨l, q⟩, -, rfl⟩ := he
            obtain ⟨⟨l', q'⟩, -, rfl⟩ := he'
            simp only [srcs, List.map_cons]
            exact .rel hlt
    · exact paths_sorted rest p

theorem lex_asymm : ∀ {a b : List Nat}, List.Lex (· < ·) a b → ¬ List.Lex (· < ·) b a
  | _, _, .nil, h => nomatch h
  | _, _, .rel h1, .rel h2 => Nat.lt_asymm h1 h2
  | _, _, .rel h1, .cons _ => Nat.lt_irrefl _ h1
  | _, _, .cons _, .rel h2 => Nat.lt_irrefl _ h2
  | _, _, .cons h1, .cons h2 => lex_asymm h1 h2

theorem lex_irrefl (a : List Nat) (h : List.Lex (· < ·) a a) : False := lex_asymm h h

/-- The first element with a property in a sorted list is the least. -/
theorem find_least {α : Type} {R : α → α → Prop} {P : α → Bool} : ∀ {l : List α} {a b : α}, l.Pairwise R → l.find? P = some a → b ∈ l → P b = true → b = a ∨ R a b
  | [], _, _, _, h, _, _ => by simp at h
  | x :: l, a, b, hp, h, hb, hP => by
    rw [List.pairwise_cons] at hp
    rw [List.find?_cons] at h
    cases hx : P x with
    | true =>
      rw [hx] at h
      cases h
      rcases List.mem_cons.1 hb with rfl | hb
      · exact Or.inl rfl
      · exact Or.inr (hp.1 _ hb)
    | false =>
      rw [hx] at h
      rcases List.mem_cons.1 hb with rfl | hb
      · rw [hP] at hx; cases hx
      · exact find_least hp.2 h hb hP

theorem findSteps_least {p c : Pos N} (hb : p.BarsOK) {o : List Nat} (ho : Dies o) (l : List Step) :
    findSteps c.flip o p = some l ↔ ∃ ms, l = Spec.stepsOf ms ∧ Spec.Least o p.view ms c.view.mirror := by
  have hview : ∀ q : Pos N, q.eqv c.flip = true ↔ q.view = c.view.mirror := fun q => by rw [Bkgm.eqv_view, view_flip]
  constructor
  · intro h
    rw [findSteps_paths, Option.map_eq_some_iff] at h
    obtain ⟨⟨l', q⟩, he, rfl⟩ := h
    have hq := List.find?_some he
    simp only at hq
    obtain ⟨ms, hl, ht⟩ := leaf_tried ho ((mem_paths hb ho).1 (List.mem_of_find?_eq_some he)) hb
    rw [(hview q).1 hq] at ht
    refine ⟨ms, hl, ht, fun ms' ht' => ?_⟩
    obtain ⟨q', hq', hv'⟩ := tried_leaf (p := p) ht' ho hb rfl
    rw [← srcs_stepsOf, ← srcs_stepsOf, ← hl]
    rcases find_least (paths_sorted o p) he ((mem_paths hb ho).2 hq') ((hview q').2 hv') with e | e
    · simp only [Prod.mk.injEq] at e
      exact Or.inl (by rw [e.1])
    · exact Or.inr e
  · rintro ⟨ms, rfl, ht, hmin⟩
    obtain ⟨q', hq', hv'⟩ := tried_leaf (p := p) ht ho hb rfl
    have hmem := (mem_paths hb ho).2 hq'
    rw [findSteps_paths]
    cases he : (paths o p).find? fun e => e.2.eqv c.flip with
    | none =>
      rw [List.find?_eq_none] at he
      exact absurd ((hview q').2 hv') (he _ hmem)
    | some e =>
      have hq := List.find?_some he
      obtain ⟨ms0, hl, ht0⟩ := leaf_tried ho ((mem_paths hb ho).1 (List.mem_of_find?_eq_some he)) hb
      rw [(hview _).1 hq] at ht0
      have hle := hmin ms0 ht0
      rw [← srcs_stepsOf, ← srcs_stepsOf, ← hl] at hle
      rcases find_least (paths_sorted o p) he hmem ((hview q').2 hv') with e1 | e1
      · rw [← e1]; rfl
      · exfalso
        rcases hle with hle | hle
        · rw [hle] at e1
          exact lex_irrefl _ e1
        · exact lex_asymm e1 hle

theorem findSteps_none {p c : Pos N} (hb : p.BarsOK) {o : List Nat} (ho : Dies o) :
    findSteps c.flip o p = none ↔ ¬ ∃ ms, Spec.Tried o p.view ms c.view.mirror := by
  constructor
  · rintro h ⟨ms, ht⟩
    obtain ⟨q', hq', hv'⟩ := tried_leaf (p := p) ht ho hb rfl
    have := findSteps_isSome hb ho hq' (t := c.flip) (by rw [Bkgm.eqv_view, view_flip, hv'])
    rw [h] at this
    cases this
  · intro h
    cases e : findSteps c.flip o p with
    | none => rfl
    | some l =>
      obtain ⟨ms, -, ht, -⟩ := (findSteps_least hb ho l).1 e
      exact absurd ⟨ms, ht⟩ h

end MoveText

/-- **C102** Exactly which steps `encode_move` returns: those of the play of the larger die first, if the child can be reached so, with the least starting points. -/
theorem C102_encode_chosen (p c : Pos N) (hb : p.BarsOK) (dice : Dice) (hv : dice.Valid) (l : List Step) :
    encodeFor p c dice = .ok l ↔ ∃ ms, l = Spec.stepsOf ms ∧ Spec.Chosen dice p.view ms c.view.mirror := by
  have hd := orders_dies hv
  have henc : encodeFor p c dice = .ok l ↔ ((orders dice).findSome? fun order => findSteps c.flip order p) = some l := by
    unfold encodeFor
    cases (orders dice).findSome? fun order => findSteps c.flip order p <;> simp
  rw [henc]
  cases dice with
  | double d =>
    have h := findSteps_least (c := c) hb (hd [d, d, d, d] (by simp [orders])) l
    simp only [Spec.Chosen]
    rw [← h]
    simp only [orders, List.findSome?_cons, List.findSome?_nil]
    cases findSteps c.flip [d, d, d, d] p <;> simp
  | mixed b s =>
    have h1 := findSteps_least (c := c) hb (hd [b, s] (by simp [orders])) l
    have h1n := findSteps_none (c := c) hb (hd [b, s] (by simp [orders]))
    have h2 := findSteps_least (c := c) hb (hd [s, b] (by simp [orders])) l
    have hex : (∃ ms, l = Spec.stepsOf ms ∧ Spec.Chosen (.mixed b s) p.view ms c.view.mirror) ↔
        findSteps c.flip [b, s] p = some l ∨ findSteps c.flip [b, s] p = none ∧ findSteps c.flip [s, b] p = some l := by
      rw [h1, h2, h1n]
      constructor
      · rintro ⟨ms, e, h | ⟨hn, h⟩⟩
        · exact Or.inl ⟨ms, e, h⟩
        · exact Or.inr ⟨hn, ms, e, h⟩
      · rintro (⟨ms, e, h⟩ | ⟨hn, ms, e, h⟩)
        · exact ⟨ms, e, Or.inl h⟩
        · exact ⟨ms, e, Or.inr ⟨hn, h⟩⟩
    rw [hex]
    simp only [orders, List.findSome?_cons, List.findSome?_nil]
    cases findSteps c.flip [b, s] p <;> cases findSteps c.flip [s, b] p <;> simp

/-- **C102** The same for `legal_moves`: the text listed with a child is right exactly if it is that of the chosen play. -/
theorem C102_listed_chosen (p c : Pos N) (hb : p.BarsOK) (dice : Dice) (hv : dice.Valid) (l : List Step) (h : (l, c) ∈ legalFor p dice) :
    applyFor p dice (formatSteps l) = some c ↔ ∃ ms, l = Spec.stepsOf ms ∧ Spec.Chosen dice p.view ms c.view.mirror := by
  rw [← C101_same_text p c hb dice hv l h, C102_encode_chosen p c hb dice hv l]

/-- **C102** For positions of every variant. -/
theorem C102_variant (q c : VPos) (hx : q.view.x 0 = 0) (ho : q.view.o 25 = 0) (dice : Dice) (hv : dice.Valid) (t : Str) :
    encodeV q c dice = .ok t ↔ q.variant = c.variant ∧ ∃ ms, t = formatSteps (Spec.stepsOf ms) ∧ Spec.Chosen dice q.view ms c.view.mirror := by
  have key : ∀ {N : Nat} (p d : Pos N), p.view.x 0 = 0 → p.view.o 25 = 0 →
      ((encodeFor p d dice).map formatSteps = .ok t ↔ ∃ ms, t = formatSteps (Spec.stepsOf ms) ∧ Spec.Chosen dice p.view ms d.view.mirror) := by
    intro N p d h1 h2
    have hb : p.BarsOK := ⟨by simp only [view] at h1; omega, by simp only [view] at h2; omega⟩
    constructor
    · intro h
      cases e : encodeFor p d dice with
      | error _ => rw [e] at h; cases h
      | ok l =>
        rw [e] at h
        obtain ⟨ms, rfl, hm⟩ := (C102_encode_chosen p d hb dice hv l).1 e
        have h : formatSteps (Spec.stepsOf ms) = t := by simpa [Except.map] using h
        exact ⟨ms, h.symm, hm⟩
    · rintro ⟨ms, rfl, hm⟩
      rw [(C102_encode_chosen p d hb dice hv _).2 ⟨ms, rfl, hm⟩]
      rfl
  cases q <;> cases c <;> simp only [encodeV, encodeStepsV, VPos.variant, reduceCtorEq, false_and, true_and] <;>
    first | exact key _ _ hx ho | simp [Except.map]

/-- The two ways to hit with 3-1 in C36's witness: the larger die cannot go first. -/
example : ∃ ms, [⟨15, 14⟩, ⟨14, 11⟩] = Spec.stepsOf ms ∧ Spec.Chosen (.mixed 3 1) Ex.doubleHit.view ms ((Ex.doubleHit.mv 15 1).mv 14 3).flip.view.mirror :=
  (C102_encode_chosen Ex.doubleHit _ (by decide) (.mixed 3 1) (by decide) _).1 C101_different.2

end Bkgm
