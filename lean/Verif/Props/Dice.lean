import Verif.Model.DiceGen
import Mathlib.Data.Finset.Card
import Mathlib.Data.Finset.Prod
import Mathlib.Data.Finset.Interval
import Mathlib.Order.Interval.Finset.Nat
import Mathlib.Tactic.IntervalCases
/-!
# C42-C45: dice tables and generators
-/

namespace Bkgm

/-- Number of ordered pairs of dice showing the roll `d`. -/
def orderedPairs (d : Dice) : Nat :=
  ((Finset.Icc 1 6 ×ˢ Finset.Icc 1 6).filter fun ab : Nat × Nat => Dice.new ab.1 ab.2 = d).card

theorem valid_cases {P : Dice → Prop} (h : ∀ a ∈ all21, P a.1) (d : Dice) (hv : d.Valid) : P d := by
  suffices hm : d ∈ all21.map Prod.fst by
    obtain ⟨a, ha, rfl⟩ := List.mem_map.1 hm
    exact h a ha
  cases d with
  | mixed b s =>
    obtain ⟨h1, h2, h3⟩ : 1 ≤ s ∧ s < b ∧ b ≤ 6 := hv
    interval_cases b <;> interval_cases s <;> decide
  | double d =>
    obtain ⟨h1, h2⟩ : 1 ≤ d ∧ d ≤ 6 := hv
    interval_cases d <;> decide

/-- **C42** `ALL_21` lists every roll exactly once, with the number of ordered pairs of dice that show it (1 for doubles,
2 otherwise); the weights add up to 36. -/
theorem C42_all_21 :
    all21.length = 21 ∧ (all21.map Prod.fst).Nodup ∧
    (∀ d : Dice, d.Valid ↔ d ∈ all21.map Prod.fst) ∧
    (∀ a ∈ all21, a.2 = orderedPairs a.1 ∧ a.2 = (match a.1 with | .double _ => 1 | .mixed _ _ => 2)) ∧
    (all21.map Prod.snd).sum = 36 := by
  refine ⟨by decide, by decide, fun d => ⟨valid_cases (by decide) d, ?_⟩, by decide +kernel, by decide⟩
  have : ∀ d ∈ all21.map Prod.fst, d.Valid := by decide
  exact this d

example : (Dice.new 3 5, 2) ∈ all21 := by decide

/-- **C42** `ALL_441` is the product table: exactly the pairs of rolls, each once, weight the product of the weights, and
the weights add up to 1296. -/
theorem C42_all_441 :
    all441.length = 441 ∧ (all441.map Prod.fst).Nodup ∧
    (∀ d e w, ((d, e), w) ∈ all441 ↔ d.Valid ∧ e.Valid ∧ w = orderedPairs d * orderedPairs e) ∧
    (all441.map Prod.snd).sum = 1296 := by
  have h21 := C42_all_21
  have hpair : ∀ d w, (d, w) ∈ all21 ↔ d.Valid ∧ w = orderedPairs d := by
    intro d w
    constructor
    · intro h
      exact ⟨(h21.2.2.1 d).2 (List.mem_map.2 ⟨_, h, rfl⟩), (h21.2.2.2.1 _ h).1⟩
    · rintro ⟨h, rfl⟩
      obtain ⟨a, ha, rfl⟩ := List.mem_map.1 ((h21.2.2.1 d).1 h)
      rw [← (h21.2.2.2.1 a ha).1]; exact ha
  refine ⟨by decide +kernel, ?_, fun d e w => ?_, by decide +kernel⟩
  · have e : all441.map Prod.fst = (all21.map Prod.fst).flatMap fun a => (all21.map Prod.fst).map fun b => (a, b) := by
      unfold all441
      rw [List.map_flatMap, List.flatMap_map]
      simp only [List.map_map]
      rfl
    rw [e, List.nodup_flatMap]
    refine ⟨fun a _ => (List.nodup_map_iff fun b c h => by simpa using h).2 h21.2.1, ?_⟩
    refine h21.2.1.imp fun {a b} hab => ?_
    intro x hx hy
    obtain ⟨c, _, rfl⟩ := List.mem_map.1 hx
    obtain ⟨c', _, h⟩ := List.mem_map.1 hy
    exact hab (by simpa using (congrArg Prod.fst h).symm)
  · unfold all441
    rw [List.mem_flatMap]
    constructor
    · rintro ⟨a, ha, hm⟩
      obtain ⟨b, hb, he⟩ := List.mem_map.1 hm
      simp only [Prod.mk.injEq] at he
      obtain ⟨⟨rfl, rfl⟩, rfl⟩ := he
      obtain ⟨a1, a2⟩ := (hpair a.1 a.2).1 ha
      obtain ⟨b1, b2⟩ := (hpair b.1 b.2).1 hb
      exact ⟨a1, b1, by rw [a2, b2]⟩
    · rintro ⟨hd, he, rfl⟩
      exact ⟨(d, orderedPairs d), (hpair _ _).2 ⟨hd, rfl⟩,
        List.mem_map.2 ⟨(e, orderedPairs e), (hpair _ _).2 ⟨he, rfl⟩, rfl⟩⟩

example : ((Dice.new 3 5, Dice.new 2 2), 2) ∈ all441 := by decide +kernel

/-- **C42** `ALL_SINGLES` (`all_15_mixed`) lists the mixed rolls once each, `all_6_double` the doubles. -/
theorem C42_singles_doubles :
    all15Mixed.length = 15 ∧ all15Mixed.Nodup ∧
    (∀ d, d ∈ all15Mixed ↔ d.Valid ∧ ∃ b s, d = .mixed b s) ∧
    all6Double.length = 6 ∧ all6Double.Nodup ∧
    (∀ d, d ∈ all6Double ↔ d.Valid ∧ ∃ e, d = .double e) := by
  refine ⟨by decide, by decide, fun d => ?_, by decide, by decide, fun d => ?_⟩
  · constructor
    · intro h
      have : ∀ d ∈ all15Mixed, d.Valid ∧ (match d with | .mixed _ _ => true | .double _ => false) = true := by decide
      obtain ⟨h1, h2⟩ := this d h
      cases d with
      | mixed b s => exact ⟨h1, b, s, rfl⟩
      | double e => simp at h2
    · rintro ⟨hv, b, s, rfl⟩
      obtain ⟨h1, h2, h3⟩ : 1 ≤ s ∧ s < b ∧ b ≤ 6 := hv
      interval_cases b <;> interval_cases s <;> decide
  · constructor
    · intro h
      have : ∀ d ∈ all6Double, d.Valid ∧ (match d with | .mixed _ _ => false | .double _ => true) = true := by decide
      obtain ⟨h1, h2⟩ := this d h
      cases d with
      | mixed b s => simp at h2
      | double e => exact ⟨h1, e, rfl⟩
    · rintro ⟨hv, e, rfl⟩
      obtain ⟨h1, h2⟩ : 1 ≤ e ∧ e ≤ 6 := hv
      interval_cases e <;> decide

/-- **C43** The two dice computed by `FastrandDice::roll` from the random number `r`. The map from the 36 source values to
ordered pairs of dice is a bijection; hence each roll comes from exactly as many source values as there are ordered
pairs showing it. -/
theorem C43_roll_unbiased :
    (∀ r, r < 36 → (rollOf r).Valid) ∧
    (∀ a b, 1 ≤ a → a ≤ 6 → 1 ≤ b → b ≤ 6 → ∃ r, (r < 36 ∧ rollOf r = Dice.new a b ∧ r / 6 + 1 = a ∧ r % 6 + 1 = b) ∧
      ∀ r', r' < 36 → r' / 6 + 1 = a → r' % 6 + 1 = b → r' = r) ∧
    (∀ d : Dice, d.Valid → ((Finset.range 36).filter fun r => rollOf r = d).card = orderedPairs d) := by
  refine ⟨by decide, fun a b h1 h2 h3 h4 => ⟨(a - 1) * 6 + (b - 1), ⟨by omega, ?_, by omega, by omega⟩,
    fun r' _ _ _ => by omega⟩, valid_cases (by decide +kernel)⟩
  unfold rollOf
  rw [show ((a - 1) * 6 + (b - 1)) / 6 + 1 = a by omega, show ((a - 1) * 6 + (b - 1)) % 6 + 1 = b by omega]

example : rollOf 17 = Dice.new 3 6 := by decide

/-- **C43** `FastrandDice::roll_mixed` on its 30 source values: never a double, and each mixed roll comes from exactly two
of them (a bijection to ordered pairs of different dice). -/
theorem C43_roll_mixed_unbiased :
    (∀ r, r < 30 → (rollMixedOf r).Valid ∧ ∃ b s, rollMixedOf r = .mixed b s) ∧
    (∀ a b, 1 ≤ a → a ≤ 6 → 1 ≤ b → b ≤ 6 → a ≠ b → ∃ r, r < 30 ∧ rollMixedOf r = Dice.new a b ∧
      (if r / 6 + 1 ≥ r % 6 + 1 then r / 6 + 2 else r / 6 + 1) = a ∧ r % 6 + 1 = b) ∧
    (∀ d : Dice, d.Valid → ((Finset.range 30).filter fun r => rollMixedOf r = d).card =
      (match d with | .double _ => 0 | .mixed _ _ => orderedPairs d)) := by
  refine ⟨fun r hr => ?_, fun a b h1 h2 h3 h4 hab => ?_, valid_cases (by decide +kernel)⟩
  · have h : ∀ r, r < 30 → (rollMixedOf r).Valid ∧
        (match rollMixedOf r with | .mixed _ _ => true | .double _ => false) = true := by decide
    obtain ⟨x, y⟩ := h r hr
    refine ⟨x, ?_⟩
    revert y
    cases rollMixedOf r with
    | mixed b s => exact fun _ => ⟨b, s, rfl⟩
    | double e => intro y; simp at y
  · refine ⟨(if a > b then a - 2 else a - 1) * 6 + (b - 1), by split_ifs <;> omega, ?_, ?_, by split_ifs <;> omega⟩
    · unfold rollMixedOf
      by_cases h : a > b
      · rw [if_pos h, show ((a - 2) * 6 + (b - 1)) / 6 + 1 = a - 1 by omega,
          show ((a - 2) * 6 + (b - 1)) % 6 + 1 = b by omega]
        simp only
        rw [if_pos (by omega), show a - 1 + 1 = a by omega]
      · rw [if_neg h, show ((a - 1) * 6 + (b - 1)) / 6 + 1 = a by omega,
          show ((a - 1) * 6 + (b - 1)) % 6 + 1 = b by omega]
        simp only
        rw [if_neg (by omega)]
    · split_ifs <;> omega

example : rollMixedOf 17 = Dice.new 3 6 := by decide

/-- **C43** For every random source that keeps its contract, `FastrandDice` always produces legal dice, and `roll_mixed`
never a double. -/
theorem C43_fastrand_legal {σ : Type} (rng : Rng σ) (hr : ∀ n s, 0 < n → (rng.below n s).1 < n) (s : σ) :
    (∃ d s', (fastrandDice rng).roll s = some (d, s') ∧ d.Valid) ∧
    (∃ b m s', (fastrandDice rng).rollMixed s = some (.mixed b m, s') ∧ (Dice.mixed b m).Valid) := by
  refine ⟨⟨_, _, rfl, C43_roll_unbiased.1 _ (hr 36 s (by omega))⟩, ?_⟩
  obtain ⟨hv, b, m, e⟩ := C43_roll_mixed_unbiased.1 _ (hr 30 s (by omega))
  exact ⟨b, m, (rng.below 30 s).2, by simp only [fastrandDice, e], e ▸ hv⟩

/-- A random source exists: a counter. -/
example : ∃ rng : Rng Nat, ∀ n s, 0 < n → (rng.below n s).1 < n :=
  ⟨⟨fun n s => (s % n, s + 1)⟩, fun _ s h => Nat.mod_lt s h⟩

/-- `Rolls roll s ds s'`: rolling repeatedly from state `s` gives the dice `ds`, in this order, and ends in `s'`. -/
inductive Rolls {σ : Type} (roll : σ → Option (Dice × σ)) : σ → List Dice → σ → Prop
  | nil (s : σ) : Rolls roll s [] s
  | cons {s s' s'' : σ} {d : Dice} {ds : List Dice} :
      roll s = some (d, s') → Rolls roll s' ds s'' → Rolls roll s (d :: ds) s''

/-- **C44** The default `roll_mixed` discards doubles and returns the first mixed roll, having consumed exactly the rolls
up to it. -/
theorem C44_default_roll_mixed {σ : Type} (roll : σ → Option (Dice × σ)) (s s' : σ) (d : Dice) :
    defaultRollMixed roll s = some (d, s') ↔
      ∃ ds, (∀ e ∈ ds, ∃ v, e = .double v) ∧ (∃ b m, d = .mixed b m) ∧ Rolls roll s (ds ++ [d]) s' := by
  constructor
  · revert s s' d
    have := defaultRollMixed.partial_correctness roll
      (motive := fun s r => ∃ ds, (∀ e ∈ ds, ∃ v, e = Dice.double v) ∧ (∃ b m, r.1 = .mixed b m) ∧
        Rolls roll s (ds ++ [r.1]) r.2) ?_
    · exact fun s s' d h => this s (d, s') h
    · intro f ih s r h
      simp only [Option.bind_eq_bind, Option.bind_eq_some_iff] at h
      obtain ⟨⟨d, s1⟩, h1, h2⟩ := h
      cases d with
      | mixed b m =>
        simp only [Option.some.injEq] at h2
        subst h2
        exact ⟨[], by simp, ⟨b, m, rfl⟩, .cons h1 (.nil _)⟩
      | double v =>
        obtain ⟨ds, a, b, c⟩ := ih s1 r h2
        exact ⟨.double v :: ds, by simpa using a, b, .cons h1 c⟩
  · rintro ⟨ds, h1, ⟨b, m, rfl⟩, h2⟩
    induction ds generalizing s with
    | nil =>
      cases h2 with
      | cons ha hb =>
        cases hb
        rw [defaultRollMixed.eq_1, ha]; rfl
    | cons e ds ih =>
      obtain ⟨v, rfl⟩ := h1 e (by simp)
      cases h2 with
      | cons ha hb =>
        rw [defaultRollMixed.eq_1, ha]
        exact ih _ (fun e he => h1 e (List.mem_cons_of_mem _ he)) hb

/-- **C44** The mock generator replays its list in order; after `n` calls the next roll is the `n`-th entry, and a roll past
the end does not return. -/
theorem C44_mock_replays (l : List Dice) (n : Nat) :
    (∀ h : n < l.length, diceGenMock.roll (l, n) = some (l[n], (l, n + 1))) ∧
    (l.length ≤ n → diceGenMock.roll (l, n) = none) ∧
    Rolls diceGenMock.roll (l, 0) l (l, l.length) := by
  have h1 : ∀ n, ∀ h : n < l.length, diceGenMock.roll (l, n) = some (l[n], (l, n + 1)) := by
    intro n h; simp [diceGenMock, h]
  refine ⟨h1 n, fun h => by simp [diceGenMock, h], ?_⟩
  have key : ∀ k, k ≤ l.length → Rolls diceGenMock.roll (l, l.length - k) (l.drop (l.length - k)) (l, l.length) := by
    intro k
    induction k with
    | zero => intro _; simpa using Rolls.nil (l, l.length)
    | succ k ih =>
      intro hk
      have ih := ih (by omega)
      have hlt : l.length - (k + 1) < l.length := by omega
      rw [List.drop_eq_getElem_cons hlt]
      refine .cons (h1 _ hlt) ?_
      rw [show l.length - (k + 1) + 1 = l.length - k by omega]
      exact ih
  simpa using key l.length le_rfl

/-- The mock with the list 1-1, 2-2, 5-3 rolls the mixed 5-3 third. -/
example : diceGenMock.rollMixed ([.double 1, .double 2, .mixed 5 3], 0) =
    some (.mixed 5 3, ([.double 1, .double 2, .mixed 5 3], 3)) :=
  (C44_default_roll_mixed _ _ _ _).2 ⟨[.double 1, .double 2], by simp, ⟨5, 3, rfl⟩, (C44_mock_replays _ 0).2.2⟩

/-- The sum of the first `k` chances, added up from the left as the code does. -/
def partialSum {F : Type} (zero : F) (add : F → F → F) (chances : List F) (k : Nat) : F := (chances.take k).foldl add zero

theorem chooseLoop_spec {F : Type} (add : F → F → F) (gt : F → F → Bool) (thr : F) :
    ∀ (l : List F) (sum : F) (k : Nat),
    match chooseLoop add gt thr l sum k with
    | some i => k ≤ i ∧ i < k + l.length ∧ gt ((l.take (i - k + 1)).foldl add sum) thr = true ∧
        ∀ j, j < i - k → gt ((l.take (j + 1)).foldl add sum) thr = false
    | none => ∀ j, j < l.length → gt ((l.take (j + 1)).foldl add sum) thr = false
  | [], sum, k => by simp [chooseLoop]
  | v :: l, sum, k => by
    have ih := chooseLoop_spec add gt thr l (add sum v) (k + 1)
    unfold chooseLoop
    by_cases h : gt (add sum v) thr = true
    · simp [h]
    · simp only [h, if_false, Bool.false_eq_true]
      have h' : gt (add sum v) thr = false := by simpa using h
      revert ih
      cases chooseLoop add gt thr l (add sum v) (k + 1) with
      | none =>
        intro ih j hj
        cases j with
        | zero => simpa using h'
        | succ j => simpa using ih j (by simpa using hj)
      | some i =>
        rintro ⟨a, b, c, d⟩
        refine ⟨by omega, by rw [List.length_cons]; omega, ?_, ?_⟩
        · rw [show i - k + 1 = (i - (k + 1) + 1) + 1 by omega]
          simpa using c
        · intro j hj
          cases j with
          | zero => simpa using h'
          | succ j => simpa using d j (by omega)

/-- **C45** `choose_index` on a non-empty slice returns an index inside it, whatever the floating-point values do: the first
index at which the running sum exceeds the threshold, or the last index if there is none. On an empty slice the code
underflows. -/
theorem C45_choose_index {F : Type} (zero : F) (add : F → F → F) (gt : F → F → Bool) (thr : F) (chances : List F) :
    (chances ≠ [] → ∃ i, chooseIndex zero add gt thr chances = some i ∧ i < chances.length ∧
      (∀ j, j < i → gt (partialSum zero add chances (j + 1)) thr = false) ∧
      (gt (partialSum zero add chances (i + 1)) thr = true ∨ i + 1 = chances.length)) ∧
    (chooseIndex zero add gt thr [] = none) := by
  refine ⟨fun hne => ?_, rfl⟩
  have hlen : 0 < chances.length := List.length_pos_iff.2 hne
  have h := chooseLoop_spec add gt thr chances zero 0
  unfold chooseIndex
  revert h
  cases chooseLoop add gt thr chances zero 0 with
  | some i =>
    rintro ⟨-, b, c, d⟩
    exact ⟨i, rfl, by omega, fun j hj => d j (by omega), Or.inl (by simpa [partialSum] using c)⟩
  | none =>
    intro h
    simp only [Nat.ne_of_gt hlen, if_false]
    exact ⟨_, rfl, by omega, fun j hj => h j (by omega), Or.inr (by omega)⟩

example : chooseIndex 0 (· + ·) (fun a b => decide (a > b)) 6 [2, 5, 3] = some 1 := by decide

end Bkgm
