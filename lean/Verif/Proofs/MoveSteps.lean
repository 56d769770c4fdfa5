import Verif.Proofs.MoveText
import Verif.Proofs.Boards
/-!
Helper lemmas about the searches of `move_text.rs`: the traversal of all plays, the search for a target, and the application of steps.
-/

namespace Bkgm
open Pos
variable {N : Nat}

namespace MoveText

/-- A path of the traversals: each die is played, or skipped because it cannot be played. -/
inductive Leaf : List Nat → Pos N → List Step → Pos N → Prop
  | nil (p : Pos N) : Leaf [] p [] p
  | move {p q : Pos N} {f d : Nat} {rest : List Nat} {l : List Step} :
      p.Can f d → Leaf rest (p.mv f d) l q → Leaf (d :: rest) p (⟨f, f - d⟩ :: l) q
  | skip {p q : Pos N} {d : Nat} {rest : List Nat} {l : List Step} :
      Stuck d p → Leaf rest p l q → Leaf (d :: rest) p l q

/-- Usable dice. -/
def Dies (l : List Nat) : Prop := ∀ d ∈ l, 1 ≤ d ∧ d ≤ 6

theorem Dies.tail {d : Nat} {l : List Nat} (h : Dies (d :: l)) : Dies l := fun x hx => h x (List.mem_cons_of_mem _ hx)

theorem Leaf.turn {o : List Nat} {p q : Pos N} {l : List Step} (h : Leaf o p l q) : q.turn = p.turn := by
  induction h with
  | nil => rfl
  | move _ _ ih => rw [ih, turn_mv]
  | skip _ _ ih => exact ih

theorem Leaf.ok {o : List Nat} {p q : Pos N} {l : List Step} (ho : Dies o) (h : Leaf o p l q) : ∀ s ∈ l, s.Ok := by
  induction h with
  | nil => simp
  | @move p q f d rest l hc _ ih =>
    intro s hs
    rcases List.mem_cons.1 hs with rfl | hs
    · have h1 := hc.lo
      have h2 := hc.hi
      have h3 := ho d (by simp)
      exact ⟨h1, h2, by simp only; omega⟩
    · exact ih ho.tail s hs
  | skip _ _ ih => exact ih ho.tail

theorem tryMove_some {p r : Pos N} (hb : p.BarsOK) {f d : Nat} (h1 : 1 ≤ f) (h2 : f ≤ 25) (hd6 : d ≤ 6) :
    p.tryMove f d = some r ↔ p.Can f d ∧ r = p.mv f d := by
  unfold tryMove
  rw [← canMove_iff p hb h1 h2 hd6]
  split_ifs with h
  · constructor
    · intro e; cases e; exact ⟨h, rfl⟩
    · rintro ⟨_, rfl⟩; rfl
  · constructor
    · intro e; cases e
    · rintro ⟨h', _⟩; exact absurd h' h

theorem tryMove_none {p : Pos N} (hb : p.BarsOK) {f d : Nat} (h1 : 1 ≤ f) (h2 : f ≤ 25) (hd6 : d ≤ 6) :
    p.tryMove f d = none ↔ ¬ p.Can f d := by
  unfold tryMove
  rw [← canMove_iff p hb h1 h2 hd6]
  split_ifs with h <;> simp [h]

theorem tryMove_can {p : Pos N} (hb : p.BarsOK) {f d : Nat} (hd6 : d ≤ 6) (hc : p.Can f d) : p.tryMove f d = some (p.mv f d) :=
  (tryMove_some hb hc.lo hc.hi hd6).2 ⟨hc, rfl⟩

theorem any_false {p : Pos N} (hb : p.BarsOK) {d : Nat} (hd6 : d ≤ 6) :
    ((rng 1 26).any fun src => (p.tryMove src d).isSome) = false ↔ Stuck d p := by
  rw [List.any_eq_false]
  constructor
  · intro h f hc
    exact h f (mem_rng.2 ⟨hc.lo, by have := hc.hi; omega⟩) (by rw [tryMove_can hb hd6 hc]; rfl)
  · intro h f hf
    obtain ⟨h1, h2⟩ := mem_rng.1 hf
    rw [(tryMove_none hb h1 (by omega) hd6).2 (h f)]
    simp

theorem any_true {p : Pos N} (hb : p.BarsOK) {d : Nat} (hd6 : d ≤ 6) :
    ((rng 1 26).any fun src => (p.tryMove src d).isSome) = true ↔ ¬ Stuck d p := by
  rw [← any_false hb hd6, Bool.not_eq_false]

/-- The traversal visits exactly the paths. -/
theorem mem_paths : ∀ {o : List Nat} {p q : Pos N} {l : List Step}, p.BarsOK → Dies o →
    ((l, q) ∈ paths o p ↔ Leaf o p l q)
  | [], p, q, l, _, _ => by
    simp only [paths, List.mem_singleton, Prod.mk.injEq]
    constructor
    · rintro ⟨rfl, rfl⟩; exact .nil _
    · intro h; cases h; exact ⟨rfl, rfl⟩
  | d :: rest, p, q, l, hb, ho => by
    obtain ⟨hd1, hd6⟩ := ho d (by simp)
    unfold paths
    split_ifs with hany
    · have hns := (any_true hb hd6).1 hany
      rw [List.mem_flatMap]
      constructor
      · rintro ⟨f, hf, h⟩
        obtain ⟨h1, h2⟩ := mem_rng.1 hf
        cases e : p.tryMove f d with
        | none => rw [e] at h; simp at h
        | some r =>
          rw [e] at h
          obtain ⟨hc, rfl⟩ := (tryMove_some hb h1 (by omega) hd6).1 e
          simp only [List.mem_map, Prod.mk.injEq, Prod.exists] at h
          obtain ⟨l', q', hm, rfl, rfl⟩ := h
          exact .move hc ((mem_paths (barsOK_mv hb hd1 hc) ho.tail).1 hm)
      · intro h
        cases h with
        | @move _ _ f _ _ l' hc hl =>
          refine ⟨f, mem_rng.2 ⟨hc.lo, by have := hc.hi; omega⟩, ?_⟩
          rw [tryMove_can hb hd6 hc]
          simp only [List.mem_map, Prod.mk.injEq, Prod.exists]
          exact ⟨l', q, (mem_paths (barsOK_mv hb hd1 hc) ho.tail).2 hl, rfl, rfl⟩
        | skip hs _ => exact absurd hs hns
    · have hst := (any_false hb hd6).1 (by simpa using hany)
      rw [mem_paths hb ho.tail]
      constructor
      · exact .skip hst
      · intro h
        cases h with
        | move hc _ => exact absurd hc (hst _)
        | skip _ hl => exact hl

/-- What the search for a target returns is a path to it. -/
theorem findSteps_some {t : Pos N} : ∀ {o : List Nat} {p : Pos N} {l : List Step}, p.BarsOK → Dies o →
    findSteps t o p = some l → ∃ q, Leaf o p l q ∧ q.eqv t = true
  | [], p, l, _, _, h => by
    unfold findSteps at h
    split_ifs at h with h1
    cases h
    exact ⟨p, .nil _, h1⟩
  | d :: rest, p, l, hb, ho, h => by
    obtain ⟨hd1, hd6⟩ := ho d (by simp)
    unfold findSteps at h
    split at h
    · next l' e =>
      cases h
      obtain ⟨f, hf, h⟩ := List.exists_of_findSome?_eq_some e
      obtain ⟨h1, h2⟩ := mem_rng.1 hf
      cases e1 : p.tryMove f d with
      | none => rw [e1] at h; simp at h
      | some r =>
        rw [e1] at h
        obtain ⟨hc, rfl⟩ := (tryMove_some hb h1 (by omega) hd6).1 e1
        simp only [Option.bind_some, Option.map_eq_some_iff] at h
        obtain ⟨l', hl', rfl⟩ := h
        obtain ⟨q, hq, he⟩ := findSteps_some (barsOK_mv hb hd1 hc) ho.tail hl'
        exact ⟨q, .move hc hq, he⟩
    · next e =>
      split_ifs at h with hany
      have hst := (any_false hb hd6).1 (by simpa using hany)
      obtain ⟨q, hq, he⟩ := findSteps_some hb ho.tail h
      exact ⟨q, .skip hst hq, he⟩

/-- The search finds a path if there is one. -/
theorem findSteps_isSome {t : Pos N} : ∀ {o : List Nat} {p q : Pos N} {l : List Step}, p.BarsOK → Dies o →
    Leaf o p l q → q.eqv t = true → (findSteps t o p).isSome = true
  | [], p, q, l, _, _, h, he => by
    cases h
    unfold findSteps
    rw [if_pos he]; rfl
  | d :: rest, p, q, l, hb, ho, h, he => by
    obtain ⟨hd1, hd6⟩ := ho d (by simp)
    unfold findSteps
    split
    · rfl
    · next e =>
      cases h with
      | @move _ _ f _ _ l' hc hl =>
        exfalso
        rw [List.findSome?_eq_none_iff] at e
        have := e f (mem_rng.2 ⟨hc.lo, by have := hc.hi; omega⟩)
        rw [tryMove_can hb hd6 hc] at this
        have h2 := findSteps_isSome (barsOK_mv hb hd1 hc) ho.tail hl he
        simp only [Option.bind_some, Option.map_eq_none_iff] at this
        rw [this] at h2
        cases h2
      | skip hst hl =>
        have hany := (any_false hb hd6).2 hst
        rw [if_neg (by rw [hany]; simp)]
        exact findSteps_isSome hb ho.tail hl he

theorem eqv_iff {p q : Pos N} : p.eqv q = true ↔ p.pips = q.pips ∧ p.xOff = q.xOff ∧ p.oOff = q.oOff := by
  simp [eqv, and_assoc]

theorem eqv_eq {p q : Pos N} (h : p.eqv q = true) (ht : p.turn = q.turn) : p = q := by
  obtain ⟨h1, h2, h3⟩ := eqv_iff.1 h
  exact Pos.ext ht h1 h2 h3

theorem eqv_refl (p : Pos N) : p.eqv p = true := by simp [eqv]

theorem eqv_symm {p q : Pos N} (h : p.eqv q = true) : q.eqv p = true := by
  obtain ⟨h1, h2, h3⟩ := eqv_iff.1 h
  exact eqv_iff.2 ⟨h1.symm, h2.symm, h3.symm⟩

theorem eqv_trans {p q r : Pos N} (h : p.eqv q = true) (h' : q.eqv r = true) : p.eqv r = true := by
  obtain ⟨h1, h2, h3⟩ := eqv_iff.1 h
  obtain ⟨g1, g2, g3⟩ := eqv_iff.1 h'
  exact eqv_iff.2 ⟨h1.trans g1, h2.trans g2, h3.trans g3⟩

theorem eqv_flip {p q : Pos N} (h : p.eqv q = true) : p.flip.eqv q.flip = true := by
  obtain ⟨h1, h2, h3⟩ := eqv_iff.1 h
  refine eqv_iff.2 ⟨?_, h3, h2⟩
  unfold Pos.flip
  simp [h1]

theorem orders_dies {dice : Dice} (hv : dice.Valid) : ∀ o ∈ orders dice, Dies o := by
  cases dice with
  | double d =>
    obtain ⟨h1, h2⟩ : 1 ≤ d ∧ d ≤ 6 := hv
    simp [orders, Dies, h1, h2]
  | mixed b s =>
    obtain ⟨h1, h2, h3⟩ : 1 ≤ s ∧ s < b ∧ b ≤ 6 := hv
    simp [orders, Dies]
    omega

/-- Skipping the rest of equal dice. -/
theorem leaf_stuck {d : Nat} {p : Pos N} (h : Stuck d p) : ∀ k, Leaf (List.replicate k d) p [] p
  | 0 => .nil _
  | k + 1 => .skip h (leaf_stuck h k)

theorem leaf_steps {d n : Nat} {p q : Pos N} (h : Steps d n p q) : ∀ {k : Nat}, (k = 0 ∨ Stuck d q) →
    ∃ l, Leaf (List.replicate (n + k) d) p l q := by
  induction h with
  | zero p =>
    intro k hk
    refine ⟨[], ?_⟩
    rcases hk with rfl | hk
    · exact .nil _
    · rw [Nat.zero_add]; exact leaf_stuck hk k
  | @succ n f p q hc _ ih =>
    intro k hk
    obtain ⟨l, hl⟩ := ih hk
    refine ⟨⟨f, f - d⟩ :: l, ?_⟩
    have e : n + 1 + k = n + k + 1 := by omega
    rw [e, List.replicate_succ]
    exact .move hc hl

/-- Every legal play is a path. -/
theorem legal_leaf {p q : Pos N} {dice : Dice} (hb : p.BarsOK) (hv : dice.Valid) (hc : q.flip ∈ p.legalPositions dice) :
    ∃ o ∈ orders dice, ∃ l, Leaf o p l q := by
  unfold legalPositions playedPositions at hc
  rw [mem_map_flip, Pos.flip_flip] at hc
  cases dice with
  | mixed b s =>
    obtain ⟨h1, h2, h3⟩ : 1 ≤ s ∧ s < b ∧ b ≤ 6 := hv
    simp only at hc
    rw [mem_mixedMoves hb h1 h2 h3] at hc
    rcases hc with (⟨f, g, hf, hg, rfl⟩ | ⟨f, g, hf, hg, rfl⟩) | ⟨no2, hc⟩
    · exact ⟨[b, s], by simp [orders], _, .move hf (.move hg (.nil _))⟩
    · exact ⟨[s, b], by simp [orders], _, .move hf (.move hg (.nil _))⟩
    · rcases hc with ⟨f, hf, rfl⟩ | ⟨nob, hc⟩
      · refine ⟨[b, s], by simp [orders], _, .move hf (.skip ?_ (.nil _))⟩
        intro g hg
        exact no2 _ (Or.inl ⟨f, g, hf, hg, rfl⟩)
      · have stb : Stuck b p := fun f hf => nob _ ⟨f, hf, rfl⟩
        rcases hc with ⟨f, hf, rfl⟩ | ⟨nos, rfl⟩
        · exact ⟨[b, s], by simp [orders], _, .skip stb (.move hf (.nil _))⟩
        · exact ⟨[b, s], by simp [orders], _, .skip stb (.skip (fun f hf => nos _ ⟨f, hf, rfl⟩) (.nil _))⟩
  | double d =>
    obtain ⟨h1, h2⟩ : 1 ≤ d ∧ d ≤ 6 := hv
    simp only at hc
    rw [mem_doubleMoves hb h1 h2] at hc
    obtain ⟨n, hn, hs, hmax⟩ := hc
    have key : 4 - n = 0 ∨ Stuck d q := by
      by_cases h4 : n = 4
      · left; omega
      · right
        intro f hf
        have := hmax (n + 1) _ (by omega) (hs.trans (.succ hf (.zero _)))
        omega
    obtain ⟨l, hl⟩ := leaf_steps hs key
    refine ⟨[d, d, d, d], by simp [orders], l, ?_⟩
    have e : n + (4 - n) = 4 := by omega
    rw [e] at hl
    exact hl

/-! ## Applying steps -/

/-- The board after a step, whichever die makes it. -/
def stepMv (p : Pos N) (s : Step) : Pos N := p.mv s.src (s.src - s.dst)

theorem mv_stepMv {p : Pos N} {s : Step} {d : Nat} (h : stepMatches s d = true) : p.mv s.src d = stepMv p s := by
  unfold stepMatches at h
  unfold stepMv
  split_ifs at h with h0
  · have h1 : s.src ≤ d := by simpa using h
    rw [h0, Nat.sub_zero]
    unfold mv
    simp only [gt_iff_lt, lt_irrefl, if_false]
    rw [if_neg (by omega)]
  · have h1 : d < s.src ∧ s.src - d = s.dst := by simpa using h
    have : s.src - s.dst = d := by omega
    rw [this]

theorem stepMatches_of {f d : Nat} (hd : 1 ≤ d) : stepMatches ⟨f, f - d⟩ d = true := by
  unfold stepMatches
  simp only
  split_ifs with h
  · simp; omega
  · simp; omega

/-- The steps can be made with the dice whose numbers are `idxs`, in this order. -/
inductive Assign (dice : List Nat) : List Step → Pos N → List Nat → List Nat → Prop
  | nil (p : Pos N) (used : List Nat) : Assign dice [] p used used
  | cons {s : Step} {l : List Step} {p : Pos N} {used used' : List Nat} {i : Nat} : i < dice.length → i ∉ used →
      stepMatches s (dice.getD i 0) = true → p.Can s.src (dice.getD i 0) → Assign dice l (stepMv p s) (i :: used) used' →
      Assign dice (s :: l) p used used'

theorem getD_dies {dice : List Nat} (hd : Dies dice) {i : Nat} (hi : i < dice.length) : 1 ≤ dice.getD i 0 ∧ dice.getD i 0 ≤ 6 := by
  rw [List.getD_eq_getElem?_getD, List.getElem?_eq_getElem hi, Option.getD_some]
  exact hd _ (List.getElem_mem hi)

/-- The result of `applySteps` comes from an assignment, and the board depends on the steps only. -/
theorem applySteps_some {dice : List Nat} (hd : Dies dice) : ∀ {l : List Step} {p q : Pos N} {used used' : List Nat}, p.BarsOK → (∀ s ∈ l, s.Ok) →
    applySteps dice l p used = some (q, used') → Assign dice l p used used' ∧ q = l.foldl stepMv p
  | [], p, q, used, used', _, _, h => by
    simp [applySteps] at h
    obtain ⟨rfl, rfl⟩ := h
    exact ⟨.nil _ _, rfl⟩
  | s :: l, p, q, used, used', hb, hl, h => by
    unfold applySteps at h
    obtain ⟨i, hi, h⟩ := List.exists_of_findSome?_eq_some h
    rw [List.mem_range] at hi
    obtain ⟨h1, h6⟩ := getD_dies hd hi
    have hs := hl s (by simp)
    split_ifs at h with hu hm
    cases e : p.tryMove s.src (dice.getD i 0) with
    | none => rw [e] at h; simp at h
    | some r =>
      rw [e] at h
      obtain ⟨hc, rfl⟩ := (tryMove_some hb hs.1 hs.2.1 h6).1 e
      simp only [Option.bind_some] at h
      have hm' : stepMatches s (dice.getD i 0) = true := by simpa using hm
      have hb' := barsOK_mv hb h1 hc
      rw [mv_stepMv hm'] at h hb'
      obtain ⟨ha, hq⟩ := applySteps_some hd hb' (fun s hs => hl s (List.mem_cons_of_mem _ hs)) h
      exact ⟨.cons hi hu hm' hc ha, hq⟩

/-- `applySteps` finds an assignment if there is one. -/
theorem applySteps_isSome {dice : List Nat} (hd : Dies dice) {l : List Step} {p : Pos N} {used used' : List Nat} (hb : p.BarsOK)
    (h : Assign dice l p used used') : (applySteps dice l p used).isSome = true := by
  induction h with
  | nil => rfl
  | @cons s l p used used' i hi hu hm hc _ ih =>
    obtain ⟨h1, h6⟩ := getD_dies hd hi
    have hb' := barsOK_mv hb h1 hc
    rw [mv_stepMv hm] at hb'
    unfold applySteps
    rw [List.findSome?_isSome_iff]
    refine ⟨i, List.mem_range.2 hi, ?_⟩
    rw [if_neg hu, if_neg (by rw [hm]; simp), tryMove_can hb h6 hc, Option.bind_some, mv_stepMv hm]
    exact ih hb'

theorem Assign.length {dice : List Nat} {l : List Step} {p : Pos N} {used used' : List Nat} (h : Assign dice l p used used') :
    used'.length = used.length + l.length := by
  induction h with
  | nil => simp
  | cons _ _ _ _ _ ih => rw [ih]; simp; omega

theorem Assign.nodup {dice : List Nat} {l : List Step} {p : Pos N} {used used' : List Nat} (h : Assign dice l p used used')
    (hn : used.Nodup) (hlt : ∀ i ∈ used, i < dice.length) : used'.Nodup ∧ ∀ i ∈ used', i < dice.length := by
  induction h with
  | nil => exact ⟨hn, hlt⟩
  | cons hi hu _ _ _ ih =>
    apply ih
    · exact List.nodup_cons.2 ⟨hu, hn⟩
    · intro j hj
      rcases List.mem_cons.1 hj with rfl | hj
      · exact hi
      · exact hlt j hj

theorem leaf_foldl {o : List Nat} (ho : Dies o) {p q : Pos N} {l : List Step} (h : Leaf o p l q) : q = l.foldl stepMv p := by
  induction h with
  | nil => rfl
  | @move p q f d rest l _ _ ih =>
    rw [List.foldl_cons, ← mv_stepMv (d := d) (stepMatches_of (ho d (by simp)).1)]
    exact ih ho.tail
  | skip _ _ ih => exact ih ho.tail

theorem anyMove_false {p : Pos N} (hb : p.BarsOK) {d : Nat} (hd6 : d ≤ 6) : anyMove p d = false ↔ Stuck d p := any_false hb hd6

theorem unusedPlayable_false {dice used : List Nat} (hd : Dies dice) {p : Pos N} (hb : p.BarsOK) :
    unusedPlayable dice used p = false ↔ ∀ i, i < dice.length → i ∉ used → Stuck (dice.getD i 0) p := by
  unfold unusedPlayable
  rw [List.any_eq_false]
  constructor
  · intro h i hi hu
    have := h i (List.mem_range.2 hi)
    rw [decide_eq_false hu, Bool.not_false, Bool.true_and, Bool.not_eq_true, anyMove_false hb (getD_dies hd hi).2] at this
    exact this
  · intro h i hi
    rw [List.mem_range] at hi
    by_cases hu : i ∈ used
    · simp [hu]
    · rw [decide_eq_false hu, Bool.not_false, Bool.true_and, Bool.not_eq_true, anyMove_false hb (getD_dies hd hi).2]
      exact h i hi hu

theorem Leaf.barsOK {o : List Nat} (ho : Dies o) {p q : Pos N} {l : List Step} (h : Leaf o p l q) (hb : p.BarsOK) : q.BarsOK := by
  induction h with
  | nil => exact hb
  | move hc _ ih => exact ih ho.tail (barsOK_mv hb (ho _ (by simp)).1 hc)
  | skip _ _ ih => exact ih ho.tail hb

end MoveText
end Bkgm
