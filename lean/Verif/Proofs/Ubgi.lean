import Verif.Spec.Ubgi
import Verif.Proofs.MoveText
import Mathlib.Tactic.IntervalCases
import Mathlib.Data.Nat.Digits.Lemmas
/-!
Helper lemmas for the UBGI properties (C48-C53).
-/

namespace Bkgm.Ubgi
open Spec

/-! ## Commands -/

theorem stripPrefix_none {p s : Str} (h : ∀ t, s ≠ p ++ t) : stripPrefix p s = none := by
  cases h' : stripPrefix p s with
  | none => rfl
  | some t => exact absurd (stripPrefix_some.mp h') (h t)

theorem parse_of_means {l : Str} {c : Command} (h : Means l c) : parseCommand l = c := by
  cases h with
  | ubgi => decide +kernel
  | isReady => decide +kernel
  | newGame => decide +kernel
  | keys => decide +kernel
  | get k => simp [parseCommand, stripPrefix]
  | set k v h => simp [parseCommand, stripPrefix, splitOnce_append h]
  | setNoValue k h => simp [parseCommand, stripPrefix, splitOnce_none.mpr h]
  | gnubgid id => simp [parseCommand, stripPrefix]
  | xgid => decide +kernel
  | xgidArg r => simp [parseCommand, stripPrefix]
  | position r h1 h2 h3 =>
    have e1 := stripPrefix_none h1
    have e3 := stripPrefix_none h3
    simp only [String.reduceToList] at e1 e3 h2
    simp [parseCommand, stripPrefix, e1, e3, h2]
  | dice r => simp [parseCommand, stripPrefix]
  | go => decide +kernel
  | goChequer => decide +kernel
  | goCube => decide +kernel
  | goTurn => decide +kernel
  | quit => decide +kernel
  | unknown _ h1 h2 =>
    simp only [List.mem_cons, List.not_mem_nil, or_false, not_or] at h1
    have e1 := stripPrefix_none (h2 "get ".toList (by simp))
    have e2 := stripPrefix_none (h2 "set ".toList (by simp))
    have e3 := stripPrefix_none (h2 "position ".toList (by simp))
    have e4 := stripPrefix_none (h2 "dice ".toList (by simp))
    have e5 : stripPrefix "position gnubgid ".toList l = none := stripPrefix_none fun t => by
      have := h2 "position ".toList (by simp) ("gnubgid ".toList ++ t); simpa using this
    have e6 : stripPrefix "position xgid ".toList l = none := stripPrefix_none fun t => by
      have := h2 "position ".toList (by simp) ("xgid ".toList ++ t); simpa using this
    have e7 : l ≠ "position xgid".toList := by
      have := h2 "position ".toList (by simp) "xgid".toList; simpa using this
    obtain ⟨a1, a2, a3, a4, a5, a6, a7, a8, a9⟩ := h1
    unfold parseCommand
    rw [if_neg a1, if_neg a2, if_neg a3, if_neg a4, e1, e2, e5, e6, e3, e4]
    simp only [e7, a5, a6, a7, a8, a9, Option.isSome_none, Bool.false_eq_true, if_false, or_self]

theorem means_parse (l : Str) : Means l (parseCommand l) := by
  unfold parseCommand
  by_cases h1 : l = "ubgi".toList
  · rw [if_pos h1, h1]; exact .ubgi
  rw [if_neg h1]
  by_cases h2 : l = "isready".toList
  · rw [if_pos h2, h2]; exact .isReady
  rw [if_neg h2]
  by_cases h3 : l = "newgame".toList
  · rw [if_pos h3, h3]; exact .newGame
  rw [if_neg h3]
  by_cases h4 : l = "keys".toList
  · rw [if_pos h4, h4]; exact .keys
  rw [if_neg h4]
  rcases g1 : stripPrefix "get ".toList l with _ | k
  swap
  · rw [stripPrefix_some.mp g1]; exact .get k
  rcases g2 : stripPrefix "set ".toList l with _ | r
  swap
  · rw [stripPrefix_some.mp g2]
    rcases g3 : splitOnce ' ' r with _ | ⟨k, v⟩
    · simp only [g3]
      exact .setNoValue r (splitOnce_none.mp g3)
    · obtain ⟨e, hk⟩ := splitOnce_some.mp g3
      simp only [g3]
      rw [e, ← List.append_assoc]; exact .set k v hk
  rcases g3 : stripPrefix "position gnubgid ".toList l with _ | id
  swap
  · rw [stripPrefix_some.mp g3]; exact .gnubgid id
  simp only
  by_cases h5 : l = "position xgid".toList ∨ (stripPrefix "position xgid ".toList l).isSome = true
  · rw [if_pos h5]
    rcases h5 with h5 | h5
    · rw [h5]; exact .xgid
    · obtain ⟨t, ht⟩ := Option.isSome_iff_exists.mp h5
      rw [stripPrefix_some.mp ht]; exact .xgidArg t
  rw [if_neg h5]
  by_cases h6 : (stripPrefix "position ".toList l).isSome = true
  · rw [if_pos h6]
    obtain ⟨t, ht⟩ := Option.isSome_iff_exists.mp h6
    have e := stripPrefix_some.mp ht
    push Not at h5
    have n1 : ∀ u, t ≠ "gnubgid ".toList ++ u := fun u hu => by
      have : stripPrefix "position gnubgid ".toList l = some u := stripPrefix_some.mpr (by rw [e, hu]; simp)
      rw [g3] at this; cases this
    have n2 : t ≠ "xgid".toList := fun hu => h5.1 (by rw [e, hu]; simp)
    have n3 : ∀ u, t ≠ "xgid ".toList ++ u := fun u hu => by
      have : stripPrefix "position xgid ".toList l = some u := stripPrefix_some.mpr (by rw [e, hu]; simp)
      exact h5.2 (by rw [this]; rfl)
    rw [e]
    exact .position t n1 n2 n3
  rw [if_neg h6]
  rcases g4 : stripPrefix "dice ".toList l with _ | r
  swap
  · rw [stripPrefix_some.mp g4]; exact .dice r
  simp only
  split_ifs with h7 h8 h9 h10
  · rcases h7 with h7 | h7
    · rw [h7]; exact .go
    · rw [h7]; exact .goChequer
  · rw [h8]; exact .goCube
  · rw [h9]; exact .goTurn
  · rw [h10]; exact .quit
  · push Not at h7
    refine .unknown l (by simp only [List.mem_cons, List.not_mem_nil, or_false, not_or]; exact ⟨h1, h2, h3, h4, h7.1, h7.2, h8, h9, h10⟩) ?_
    intro w hw t e
    simp only [List.mem_cons, List.not_mem_nil, or_false] at hw
    rcases hw with rfl | rfl | rfl | rfl
    · rw [stripPrefix_some.mpr e] at g1; cases g1
    · rw [stripPrefix_some.mpr e] at g2; cases g2
    · exact h6 (by rw [stripPrefix_some.mpr e]; rfl)
    · rw [stripPrefix_some.mpr e] at g4; cases g4

theorem means_iff {l : Str} {c : Command} : Means l c ↔ parseCommand l = c :=
  ⟨parse_of_means, fun h => h ▸ means_parse l⟩

/-! ## Numbers -/

theorem digitVal_some {c : Char} {d : Nat} : digitVal c = some d ↔ d < 10 ∧ c = Nat.digitChar d := by
  constructor
  · intro h
    unfold digitVal at h
    split_ifs at h with hc
    obtain ⟨h1, h2⟩ := digit_nat hc
    simp only [Option.some.injEq] at h
    have hd : d < 10 := by omega
    refine ⟨hd, Char.ext ?_⟩
    have e : c.toNat = 48 + d := by omega
    have : (Nat.digitChar d).toNat = 48 + d := by interval_cases d <;> rfl
    exact UInt32.toNat_inj.mp (by show c.toNat = (Nat.digitChar d).toNat; omega)
  · rintro ⟨h, rfl⟩
    exact digitVal_digitChar h

theorem ofDigits_snoc (l : List Nat) (d : Nat) (acc : Nat) :
    Nat.ofDigits 10 (d :: l) = 10 * Nat.ofDigits 10 l + d := by
  rw [Nat.ofDigits_cons]; push_cast; ring

theorem digitsVal_some {s : Str} : ∀ {acc n : Nat}, digitsVal s acc = some n ↔
    ∃ ds : List Nat, (∀ d ∈ ds, d < 10) ∧ s = ds.map Nat.digitChar ∧ n = acc * 10 ^ ds.length + Nat.ofDigits 10 ds.reverse := by
  induction s with
  | nil =>
    intro acc n
    simp only [digitsVal, Option.some.injEq]
    constructor
    · rintro rfl; exact ⟨[], by simp, rfl, by simp⟩
    · rintro ⟨ds, -, h, rfl⟩
      have : ds = [] := by simpa using h.symm
      subst this; simp
  | cons c s ih =>
    intro acc n
    simp only [digitsVal, Option.bind_eq_some_iff]
    constructor
    · rintro ⟨d, hd, h⟩
      obtain ⟨hd', rfl⟩ := digitVal_some.mp hd
      obtain ⟨ds, h1, rfl, rfl⟩ := ih.mp h
      refine ⟨d :: ds, ?_, rfl, ?_⟩
      · intro x hx
        rcases List.mem_cons.mp hx with rfl | hx
        · exact hd'
        · exact h1 x hx
      · rw [List.reverse_cons, Nat.ofDigits_append]
        simp only [List.length_cons, List.length_reverse, Nat.ofDigits_singleton]
        ring
    · rintro ⟨ds, h1, h2, rfl⟩
      cases ds with
      | nil => simp at h2
      | cons d ds =>
        simp only [List.map_cons, List.cons.injEq] at h2
        obtain ⟨rfl, rfl⟩ := h2
        refine ⟨d, digitVal_digitChar (h1 d (by simp)), ih.mpr ⟨ds, fun x hx => h1 x (by simp [hx]), rfl, ?_⟩⟩
        rw [List.reverse_cons, Nat.ofDigits_append]
        simp only [List.length_cons, List.length_reverse, Nat.ofDigits_singleton]
        ring

theorem digitChar_ne_sign {ds : List Nat} (h : ∀ d ∈ ds, d < 10) {s : Str} :
    ds.map Nat.digitChar ≠ '+' :: s ∧ ds.map Nat.digitChar ≠ '-' :: s := by
  cases ds with
  | nil => simp
  | cons d ds =>
    have hd := h d (by simp)
    simp only [List.map_cons, ne_eq, List.cons.injEq, not_and]
    constructor <;> intro e <;> exfalso <;> interval_cases d <;> revert e <;> decide

theorem stripPlus_cases (s : Str) : (∃ t, s = '+' :: t ∧ stripPlus s = t) ∨ ((∀ t, s ≠ '+' :: t) ∧ stripPlus s = s) := by
  unfold stripPlus
  split
  · exact .inl ⟨_, rfl, rfl⟩
  · rename_i h
    exact .inr ⟨fun t e => h t e, rfl⟩

theorem parseNat_some {max n : Nat} {s : Str} : parseNat max s = some n ↔ n ≤ max ∧ ∃ ds : List Nat, ds ≠ [] ∧ (∀ d ∈ ds, d < 10) ∧
    n = Nat.ofDigits 10 ds.reverse ∧ (s = ds.map Nat.digitChar ∨ s = '+' :: ds.map Nat.digitChar) := by
  unfold parseNat
  constructor
  · intro h
    split_ifs at h with he
    obtain ⟨m, hm, h⟩ := Option.bind_eq_some_iff.mp h
    split_ifs at h with hle
    obtain rfl : m = n := by simpa using h
    obtain ⟨ds, h1, h2, h3⟩ := digitsVal_some.mp hm
    refine ⟨hle, ds, ?_, h1, by simpa using h3, ?_⟩
    · rintro rfl; rw [h2] at he; simp at he
    · rcases stripPlus_cases s with ⟨t, e, e'⟩ | ⟨-, e'⟩
      · right; rw [e, ← h2, e']
      · left; rw [← h2, e']
  · rintro ⟨hle, ds, hne, h1, rfl, h2⟩
    have e : stripPlus s = ds.map Nat.digitChar := by
      rcases stripPlus_cases s with ⟨t, e, e'⟩ | ⟨hn, e'⟩
      · rcases h2 with h2 | h2
        · exact absurd (h2.symm.trans e) (digitChar_ne_sign h1).1
        · rw [e', ← List.cons_inj_right '+', ← e, h2]
      · rcases h2 with h2 | h2
        · rw [e', h2]
        · exact absurd h2 (hn _)
    rw [e, if_neg (by simpa using hne), digitsVal_some.mpr ⟨ds, h1, rfl, rfl⟩]
    simp [hle]

theorem parseInt_some {max : Nat} {z : Int} {s : Str} : parseInt max s = some z ↔ -(max + 1 : Int) ≤ z ∧ z ≤ max ∧ Decimal s z := by
  constructor
  · intro h
    have hr := parseInt_range h
    refine ⟨hr.1, hr.2, ?_⟩
    unfold parseInt at h
    split at h
    · rename_i t
      split_ifs at h with he
      obtain ⟨n, hn, h⟩ := Option.bind_eq_some_iff.mp h
      split_ifs at h with hle
      obtain rfl : -(n : Int) = z := by simpa using h
      obtain ⟨ds, h1, h2, h3⟩ := digitsVal_some.mp hn
      refine ⟨ds, ?_, h1, .inr (.inr ⟨by rw [h2], by simp [h3]⟩)⟩
      rintro rfl; rw [h2] at he; simp at he
    · obtain ⟨n, hn, h⟩ := Option.map_eq_some_iff.mp h
      obtain ⟨-, ds, hne, h1, h2, h3⟩ := parseNat_some.mp hn
      refine ⟨ds, hne, h1, ?_⟩
      rcases h3 with h3 | h3
      · exact .inl ⟨h3, by rw [← h, h2]; rfl⟩
      · exact .inr (.inl ⟨h3, by rw [← h, h2]; rfl⟩)
  · rintro ⟨h1, h2, ds, hne, hd, h3⟩
    rcases h3 with ⟨rfl, rfl⟩ | ⟨rfl, rfl⟩ | ⟨rfl, rfl⟩
    · unfold parseInt
      split
      · rename_i t ht
        exact absurd ht (digitChar_ne_sign hd).2
      · rw [parseNat_some.mpr ⟨by exact_mod_cast h2, ds, hne, hd, rfl, .inl rfl⟩]; rfl
    · show Option.map _ _ = _
      rw [parseNat_some.mpr ⟨by exact_mod_cast h2, ds, hne, hd, rfl, .inr rfl⟩]; rfl
    · unfold parseInt
      simp only
      rw [if_neg (by simpa using hne), digitsVal_some.mpr ⟨ds, hd, rfl, rfl⟩]
      simp only [Nat.zero_mul, Nat.zero_add, Option.bind_some]
      rw [if_pos (by omega)]

end Bkgm.Ubgi
