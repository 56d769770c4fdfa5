import Verif.Model.DiceText
import Verif.Props.Dice
import Verif.Proofs.Str
import Verif.Spec.Rules
/-!
# C69: dice from outside, their text; C44: sequences of calls on the mock
-/

namespace Bkgm

/-- The two numbers shown by a roll, the smaller one first. -/
def Dice.pair : Dice → Nat × Nat
  | .mixed big small => (small, big)
  | .double die => (die, die)

theorem pair_new (a b : Nat) : (Dice.new a b).pair = (min a b, max a b) := by
  unfold Dice.new mixedNew
  split_ifs with h1 h2
  · subst h1; simp [Dice.pair]
  · simp only [Dice.pair, Prod.mk.injEq]; omega
  · simp only [Dice.pair, Prod.mk.injEq]; omega

/-- **C69** `Dice::try_from((a, b))` succeeds exactly when both numbers are between 1 and 6; the result shows these two numbers, is a legal roll,
and does not depend on their order. Every legal roll arises in this way. -/
theorem C69_try_from :
    (∀ a b, (∃ d, Dice.tryFrom a b = some d) ↔ (1 ≤ a ∧ a ≤ 6) ∧ (1 ≤ b ∧ b ≤ 6)) ∧
    (∀ a b d, Dice.tryFrom a b = some d → d.Valid ∧ d.pair = (min a b, max a b) ∧ (a = b ↔ d = .double a)) ∧
    (∀ a b, Dice.tryFrom a b = Dice.tryFrom b a) ∧
    (∀ d : Dice, d.Valid → Dice.tryFrom d.pair.1 d.pair.2 = some d) := by
  have h2 : ∀ a b d, Dice.tryFrom a b = some d → ((1 ≤ a ∧ a ≤ 6) ∧ (1 ≤ b ∧ b ≤ 6)) ∧ d = Dice.new a b := by
    intro a b d h
    unfold Dice.tryFrom at h
    split_ifs at h with hr
    cases h
    exact ⟨by omega, rfl⟩
  have h1 : ∀ a b, ((1 ≤ a ∧ a ≤ 6) ∧ (1 ≤ b ∧ b ≤ 6)) → Dice.tryFrom a b = some (Dice.new a b) := by
    intro a b h
    unfold Dice.tryFrom
    rw [if_neg (by omega)]
  have hsymm : ∀ a b, Dice.new a b = Dice.new b a := by
    intro a b
    unfold Dice.new mixedNew
    by_cases h : a = b
    · subst h; rfl
    · rw [if_neg h, if_neg (Ne.symm h)]
      split_ifs <;> first | rfl | omega
  refine ⟨fun a b => ⟨fun ⟨d, h⟩ => (h2 a b d h).1, fun h => ⟨_, h1 a b h⟩⟩, fun a b d h => ?_, fun a b => ?_, fun d hv => ?_⟩
  · obtain ⟨hr, rfl⟩ := h2 a b d h
    refine ⟨?_, pair_new a b, ?_⟩
    · unfold Dice.new mixedNew
      split_ifs <;> simp only [Dice.Valid] <;> omega
    · unfold Dice.new mixedNew
      split_ifs <;> simp <;> omega
  · unfold Dice.tryFrom
    rw [hsymm a b]
    split_ifs <;> first | rfl | omega
  · cases d with
    | mixed b s =>
      obtain ⟨k1, k2, k3⟩ : 1 ≤ s ∧ s < b ∧ b ≤ 6 := hv
      simp only [Dice.pair]
      rw [h1 s b (by omega)]
      unfold Dice.new mixedNew
      rw [if_neg (by omega), if_neg (by omega)]
    | double e =>
      obtain ⟨k1, k2⟩ : 1 ≤ e ∧ e ≤ 6 := hv
      simp only [Dice.pair]
      rw [h1 e e (by omega)]
      simp [Dice.new]

example : Dice.tryFrom 2 5 = some (.mixed 5 2) ∧ Dice.tryFrom 6 6 = some (.double 6) ∧ Dice.tryFrom 0 3 = none ∧ Dice.tryFrom 3 7 = none := by decide

/-- **C69** `Dice::new` panics exactly in a debug build and when a number is not between 1 and 6; in particular whatever
`try_from` accepts does not panic and is the same roll in both builds. -/
theorem C69_new_panics (dbg : Bool) (a b : Nat) :
    (Dice.newChecked dbg a b = none ↔ dbg = true ∧ ¬ ((1 ≤ a ∧ a ≤ 6) ∧ (1 ≤ b ∧ b ≤ 6))) ∧
    (∀ d, Dice.tryFrom a b = some d → Dice.newChecked dbg a b = some d) := by
  have h : (decide (a > 0) && decide (a < 7) && decide (b > 0) && decide (b < 7)) = decide ((1 ≤ a ∧ a ≤ 6) ∧ (1 ≤ b ∧ b ≤ 6)) := by
    rw [Bool.eq_iff_iff]
    simp only [Bool.and_eq_true, decide_eq_true_eq]
    omega
  constructor
  · unfold Dice.newChecked
    rw [h]
    cases dbg
    · simp
    · by_cases hr : (1 ≤ a ∧ a ≤ 6) ∧ (1 ≤ b ∧ b ≤ 6)
      · rw [decide_eq_true hr]; simp [hr]
      · rw [decide_eq_false hr]; simp only [Bool.not_false, Bool.and_self, if_true, true_and, iff_true_left]; exact hr
  · intro d hd
    unfold Dice.tryFrom at hd
    split_ifs at hd with hr
    unfold Dice.newChecked
    rw [h, decide_eq_true (by omega)]
    simpa using hd

example : Dice.newChecked true 0 3 = none ∧ Dice.newChecked false 0 3 = some (.mixed 3 0) ∧ Dice.newChecked true 6 1 = some (.mixed 6 1) := by decide

/-- **C69** The accessors of a mixed roll: `small() < big()`, and they are the two numbers it was made of. -/
theorem C69_accessors (a b : Nat) (h : a ≠ b) : (Dice.new a b).small = some (min a b) ∧ (Dice.new a b).big = some (max a b) := by
  unfold Dice.new mixedNew
  rw [if_neg h]
  split_ifs <;> simp only [Dice.small, Dice.big, Option.some.injEq] <;> omega

example : (Dice.new 2 5).small = some 2 ∧ (Dice.new 2 5).big = some 5 := by decide

theorem showNat_inj {m n : Nat} (h : showNat m = showNat n) : m = n := by
  have := digitsVal_showNat m
  rw [h, digitsVal_showNat n] at this
  simpa using this.symm

theorem comma_not_mem (n : Nat) : ',' ∉ showNat n := fun h => digit_ne (showNat_digit n _ h) (d := ',') (by decide) rfl

/-- **C69** A roll is displayed as its two numbers in decimal, the smaller one first, between parentheses and separated by a comma. -/
theorem C69_display (d : Dice) : d.display = "(".toList ++ showNat d.pair.1 ++ ",".toList ++ showNat d.pair.2 ++ ")".toList := by
  cases d <;> simp [Dice.display, Dice.pair]

/-- **C69** Different rolls are displayed differently. -/
theorem C69_display_injective (a b a' b' : Nat) : (Dice.new a b).display = (Dice.new a' b').display ↔ Dice.new a b = Dice.new a' b' := by
  refine ⟨fun h => ?_, fun h => by rw [h]⟩
  rw [C69_display, C69_display, pair_new, pair_new] at h
  have h : showNat (min a b) ++ ',' :: (showNat (max a b) ++ [')']) = showNat (min a' b') ++ ',' :: (showNat (max a' b') ++ [')']) := by
    simpa using h
  have e := congrArg (splitOnce ',') h
  rw [splitOnce_append (comma_not_mem _), splitOnce_append (comma_not_mem _)] at e
  simp only [Option.some.injEq, Prod.mk.injEq, List.append_left_inj] at e
  have e1 := showNat_inj e.1
  have e2 := showNat_inj e.2
  unfold Dice.new mixedNew
  split_ifs <;> first | omega | (simp; omega)

example : (Dice.new 5 2).display = "(2,5)".toList ∧ (Dice.new 4 4).display = "(4,4)".toList := by decide

/-! ## Sequences of calls on the mock -/

def Dice.isMixed : Dice → Bool
  | .mixed _ _ => true
  | .double _ => false

theorem mock_rolls {l : List Dice} {n : Nat} {ds : List Dice} {s : List Dice × Nat} (h : Rolls diceGenMock.roll (l, n) ds s) :
    ∃ k, s = (l, k) ∧ k = n + ds.length ∧ l.drop n = ds ++ l.drop k := by
  induction ds generalizing n with
  | nil => cases h; exact ⟨n, rfl, rfl, rfl⟩
  | cons d ds ih =>
    cases h with
    | cons h1 h2 =>
      by_cases hn : n < l.length
      · rw [(C44_mock_replays l n).1 hn] at h1
        cases h1
        obtain ⟨k, e1, e2, e3⟩ := ih h2
        refine ⟨k, e1, by simp; omega, ?_⟩
        rw [List.drop_eq_getElem_cons hn, e3, List.cons_append]
      · rw [(C44_mock_replays l n).2.1 (by omega)] at h1
        simp at h1

/-- **C44** Any sequence of `roll` and `roll_mixed` calls on the mock that returns gives dice in the order of the list, leaving out only doubles, and
nothing if `roll_mixed` is not used; and `assert_all_dice_were_used` then passes exactly if the whole list has been consumed. -/
theorem C44_mock_calls (l : List Dice) (calls : List Bool) (out : List Dice) (s : List Dice × Nat) (h : mockCalls calls (l, 0) = some (out, s)) :
    ∃ k, s = (l, k) ∧ k ≤ l.length ∧ out.length = calls.length ∧ out.Sublist (l.take k) ∧
      out.filter Dice.isMixed = (l.take k).filter Dice.isMixed ∧
      ((∀ c ∈ calls, c = true) → out = l.take calls.length ∧ k = calls.length) ∧
      (mockAllUsed s = some () ↔ k = l.length) := by
  have key : ∀ (calls : List Bool) (n : Nat) (out : List Dice) (s : List Dice × Nat), n ≤ l.length → mockCalls calls (l, n) = some (out, s) →
      ∃ k used, s = (l, k) ∧ k = n + used.length ∧ l.drop n = used ++ l.drop k ∧ k ≤ l.length ∧ out.length = calls.length ∧ out.Sublist used ∧
        out.filter Dice.isMixed = used.filter Dice.isMixed ∧ ((∀ c ∈ calls, c = true) → out = used) := by
    intro calls
    induction calls with
    | nil =>
      intro n out s hn h
      cases h
      exact ⟨n, [], rfl, rfl, rfl, hn, rfl, .slnil, rfl, fun _ => rfl⟩
    | cons c cs ih =>
      intro n out s hn h
      simp only [mockCalls, Option.bind_eq_some_iff, Option.map_eq_some_iff] at h
      obtain ⟨⟨d, s1⟩, h1, ⟨out', s'⟩, h2, e⟩ := h
      simp only [Prod.mk.injEq] at e
      obtain ⟨rfl, rfl⟩ := e
      have hstep : ∃ ds, Rolls diceGenMock.roll (l, n) (ds ++ [d]) s1 ∧ (∀ e ∈ ds, ∃ v, e = .double v) ∧ (c = true → ds = []) := by
        cases c with
        | true => exact ⟨[], .cons (by simpa using h1) (.nil _), by simp, fun _ => rfl⟩
        | false =>
          obtain ⟨ds, a, -, b⟩ := (C44_default_roll_mixed _ _ _ _).1 (show defaultRollMixed diceGenMock.roll (l, n) = some (d, s1) from h1)
          exact ⟨ds, b, a, by simp⟩
      obtain ⟨ds, hr, hd, hc⟩ := hstep
      obtain ⟨k1, rfl, e2, e3⟩ := mock_rolls hr
      have hk1 : k1 ≤ l.length := by
        have := congrArg List.length e3
        simp only [List.length_drop, List.length_append, List.length_cons, List.length_nil] at this
        simp only [List.length_append, List.length_cons, List.length_nil] at e2
        omega
      obtain ⟨k, used, f1, f2, f3, f4, f5, f6, f7, f8⟩ := ih k1 out' s' hk1 h2
      have hdf : ds.filter Dice.isMixed = [] := by
        rw [List.filter_eq_nil_iff]
        intro e he
        obtain ⟨v, rfl⟩ := hd e he
        simp [Dice.isMixed]
      refine ⟨k, ds ++ [d] ++ used, f1, by simp only [List.length_append] at *; omega, by rw [e3, f3]; simp, f4, by simp [f5], ?_, ?_, ?_⟩
      · rw [List.append_assoc]
        exact (List.Sublist.cons_cons d f6).trans (List.sublist_append_right _ _)
      · rw [List.append_assoc, List.filter_append, hdf, List.nil_append, List.singleton_append, List.filter_cons, List.filter_cons, f7]
      · intro hall
        rw [hc (hall c (by simp)), f8 fun c hc => hall c (List.mem_cons_of_mem _ hc)]
        rfl
  obtain ⟨k, used, e1, e2, e3, e4, e5, e6, e7, e8⟩ := key calls 0 out s (by omega) h
  rw [List.drop_zero] at e3
  have ht : l.take k = used := by
    conv_lhs => rw [e3]
    rw [List.take_append_of_le_length (by omega), List.take_of_length_le (by omega)]
  refine ⟨k, e1, e4, e5, by rw [ht]; exact e6, by rw [ht]; exact e7, fun hall => ?_, ?_⟩
  · have hu := e8 hall
    have hk : k = calls.length := by rw [← e5, hu]; omega
    exact ⟨by rw [← hk, ht, hu], hk⟩
  · subst e1
    unfold mockAllUsed
    simp only
    split_ifs with hh
    · simp [hh]
    · simp only [reduceCtorEq, false_iff]; omega

/-- `roll_mixed`, then two `roll`s, on 1-1, 5-3, 2-2, 6-4. -/
example : mockCalls [false, true, true] ([.double 1, .mixed 5 3, .double 2, .mixed 6 4], 0) =
    some ([.mixed 5 3, .double 2, .mixed 6 4], ([.double 1, .mixed 5 3, .double 2, .mixed 6 4], 4)) := by
  have h : diceGenMock.rollMixed ([.double 1, .mixed 5 3, .double 2, .mixed 6 4], 0) =
      some (.mixed 5 3, ([.double 1, .mixed 5 3, .double 2, .mixed 6 4], 2)) :=
    (C44_default_roll_mixed _ _ _ _).2 ⟨[.double 1], by simp, ⟨5, 3, rfl⟩, .cons rfl (.cons rfl (.nil _))⟩
  unfold mockCalls
  simp only [Bool.false_eq_true, if_false, h, Option.bind_some]
  rfl

end Bkgm
