import Verif.Spec.XgidLine
import Verif.Props.StrSpec
import Verif.Props.Xgid
/-!
# XGID lines against their grammar (C26)
-/
namespace Bkgm
open Spec.Xgid Spec.Fibs

namespace XgidLine
open Xgid

theorem payload_iff {s p : Str} : (stripPrefix "XGID=".toList (trim s)).getD (trim s) = p ↔ Payload s p := by
  unfold Payload
  cases h : stripPrefix "XGID=".toList (trim s) with
  | some q =>
    have e := stripPrefix_some.1 h
    rw [Option.getD_some, e]
    constructor
    · rintro rfl; exact Or.inl rfl
    · rintro (h | ⟨rfl, h⟩)
      · exact List.append_cancel_left h
      · exact absurd ⟨q, rfl⟩ h
  | none =>
    have hn : ¬ ∃ q, trim s = "XGID=".toList ++ q := by
      rintro ⟨q, e⟩
      rw [stripPrefix_some.2 e] at h; cases h
    rw [Option.getD_none]
    constructor
    · rintro rfl; exact Or.inr ⟨rfl, hn⟩
    · rintro (h | ⟨h, -⟩)
      · exact absurd ⟨p, h⟩ hn
      · exact h

theorem pieces_iff {c : Char} {s : Str} {l : List Str} : splitChar c s = l ↔ Pieces c s l := by
  rw [Str_split, Pieces, eq_comm (a := join [c] l)]

/-- A field is read as its grammar says. -/
structure Reads {α : Type} (k : Nat) (r : Option Str → Except Error α) (is : Str → α → Prop) : Prop where
  none : r none = .error .invalidPayload
  ok : ∀ t a, r (some t) = .ok a ↔ is t a
  err : ∀ t e, r (some t) = .error e → e = errorOf k

theorem reads_nat {k max : Nat} (hk : errorOf k = .invalidPayload) : Reads k (fieldNat max) (Number max) := by
  refine ⟨rfl, fun t a => ?_, fun t e h => ?_⟩
  · rw [show Number max t a ↔ parseNat max t = some a from (Str_parse_unsigned max t a).symm]
    unfold fieldNat
    simp only
    cases parseNat max t <;> simp
  · unfold fieldNat at h
    simp only at h
    split at h
    · cases h
    · injection h with h; rw [hk, h]

theorem reads_board : Reads 0 (fun s => (part s).bind parseBoard) (fun t b => Board t ∧ b = t) := by
  refine ⟨rfl, fun t a => ?_, fun t e h => ?_⟩
  · show parseBoard t = .ok a ↔ _
    rw [parseBoard_ok]
    simp only [isUp, isLow, Bool.or_eq_true, decide_eq_true_eq, or_assoc, Board]
    constructor
    · rintro ⟨rfl, h⟩; exact ⟨h, rfl⟩
    · rintro ⟨h, rfl⟩; exact ⟨rfl, h⟩
  · have h : parseBoard t = .error e := h
    unfold parseBoard at h
    split_ifs at h <;> (injection h with h; exact h.symm)

theorem digit_iff {c : Char} {d : Nat} : digitVal c = some d ↔ d ≤ 9 ∧ c = Nat.digitChar d := by
  constructor
  · intro h
    have hd := digitVal_le h
    refine ⟨hd, ?_⟩
    unfold digitVal at h
    split_ifs at h with hc
    have hn := digit_nat hc
    injection h with h
    have key : ∀ n, n < 10 → Char.ofNat (n + 48) = Nat.digitChar n := by decide
    have e := key d (by omega)
    rw [← e, show d + 48 = c.toNat by omega, Char.ofNat_toNat]
  · rintro ⟨h, rfl⟩
    have key : ∀ n, n < 10 → digitVal (Nat.digitChar n) = some n := by decide
    exact key d (by omega)

theorem reads_dice : Reads 6 (fun s => (part s).bind parseDice) Spec.Xgid.Dice := by
  refine ⟨rfl, fun t a => ?_, fun t e h => ?_⟩
  · show parseDice t = .ok a ↔ _
    constructor
    · intro h
      unfold parseDice at h
      split_ifs at h with h0
      · injection h with h; subst h; exact h0
      · split at h
        · rename_i c d
          split at h
          · rename_i d1 d2 e1 e2
            split_ifs at h with h6
            injection h with h
            subst h
            exact ⟨by omega, by omega, by rw [(digit_iff.1 e1).2, (digit_iff.1 e2).2]⟩
          · cases h
        · cases h
    · cases a with
      | doubleOffered => intro h; rw [show t = ['D'] from h]; rfl
      | rolled a b =>
        rintro ⟨ha, hb, rfl⟩
        unfold parseDice
        rw [if_neg (by simp)]
        simp only [digit_iff.2 (⟨by omega, rfl⟩ : a ≤ 9 ∧ Nat.digitChar a = Nat.digitChar a), digit_iff.2 (⟨by omega, rfl⟩ : b ≤ 9 ∧ Nat.digitChar b = Nat.digitChar b)]
        rw [if_neg (by omega)]
  · have h : parseDice t = .error e := h
    unfold parseDice at h
    split_ifs at h
    split at h
    · split at h
      · split_ifs at h
        injection h with h; exact h.symm
      · injection h with h; exact h.symm
    · injection h with h; exact h.symm

theorem reads_flag : Reads 7 (fun s => (part s).bind parseFlag) (fun t b => t = if b then ['1'] else ['0']) := by
  refine ⟨rfl, fun t a => ?_, fun t e h => ?_⟩
  · show parseFlag t = .ok a ↔ _
    unfold parseFlag
    by_cases h1 : t = ['0']
    · subst h1; cases a <;> simp
    · by_cases h2 : t = ['1']
      · subst h2; cases a <;> simp
      · rw [if_neg h1, if_neg h2]; cases a <;> simp [h1, h2]
  · have h : parseFlag t = .error e := h
    unfold parseFlag at h
    split_ifs at h
    injection h with h; exact h.symm

theorem reads_owner : Reads 8 (fun s => (part s).bind parseOwner) Owner := by
  refine ⟨rfl, fun t a => ?_, fun t e h => ?_⟩
  · show parseOwner t = .ok a ↔ _
    unfold Owner
    constructor
    · intro h
      unfold parseOwner at h
      split at h
      · rename_i z hz
        split_ifs at h with hr
        injection h with h
        subst h
        exact ⟨hr.1, hr.2, ((Str_parse_signed _ _ _).1 hz).2.2⟩
      · cases h
    · rintro ⟨h1, h2, h3⟩
      unfold parseOwner
      rw [(Str_parse_signed 127 t a).2 ⟨by push_cast; omega, by push_cast; omega, h3⟩]
      simp only
      rw [if_pos ⟨h1, h2⟩]
  · have h : parseOwner t = .error e := h
    unfold parseOwner at h
    split at h
    · split_ifs at h
      injection h with h; exact h.symm
    · injection h with h; exact h.symm

/-- The parser as a sequence of fields. -/
theorem parse_eq (s : Str) : Xgid.parse s =
    let ps := splitChar ':' ((stripPrefix "XGID=".toList (trim s)).getD (trim s))
    ((part ps[0]?).bind parseBoard).bind fun board => (fieldNat 255 ps[1]?).bind fun maxCube => (fieldNat 65535 ps[2]?).bind fun matchLength =>
      (fieldNat 255 ps[3]?).bind fun rules => (fieldNat 65535 ps[4]?).bind fun scoreX => (fieldNat 65535 ps[5]?).bind fun scoreO =>
      ((part ps[6]?).bind parseDice).bind fun dice => ((part ps[7]?).bind parseFlag).bind fun moveFlag =>
      ((part ps[8]?).bind parseOwner).bind fun cubeOwner => (fieldNat 255 ps[9]?).bind fun cubePower =>
      if ps[10]?.isSome then .error .invalidPayload
      else .ok { board, maxCube, matchLength, rules, scoreX, scoreO, dice, moveFlag, cubeOwner, cubePower } := by
  have assoc : ∀ {α β γ : Type} (x : Except Error α) (f : α → Except Error β) (g : β → Except Error γ),
      (x.bind f).bind g = x.bind fun a => (f a).bind g := by intro α β γ x f g; cases x <;> rfl
  simp only [assoc]
  rfl

/-- The fields before `k` can be read. -/
def Upto (ts : List Str) (k : Nat) : Prop := ∀ i < k, ∃ t, ts[i]? = some t ∧ Readable t i

/-- Field `k` is the first that cannot be read. -/
def FailsAt (ts : List Str) (e : Error) (k : Nat) : Prop :=
  Upto ts k ∧ (k < 10 ∧ ts.length = k ∧ e = .invalidPayload ∨ ∃ t, ts[k]? = some t ∧ ¬ Readable t k ∧ e = errorOf k)

theorem Upto.length {ts : List Str} {k : Nat} (h : Upto ts k) : k ≤ ts.length := by
  by_contra hn
  obtain ⟨t, ht, -⟩ := h (k - 1) (by omega)
  obtain ⟨h, -⟩ := List.getElem?_eq_some_iff.1 ht
  omega

theorem FailsAt.unique {ts : List Str} {e e' : Error} {k k' : Nat} (h : FailsAt ts e k) (h' : FailsAt ts e' k') : e = e' := by
  have key : ∀ {e e' : Error} {k k' : Nat}, FailsAt ts e k → FailsAt ts e' k' → ¬ k < k' := by
    intro e e' k k' h h' hlt
    obtain ⟨t, ht, hr⟩ := h'.1 k hlt
    rcases h.2 with ⟨-, hl, -⟩ | ⟨t', ht', hn, -⟩
    · obtain ⟨h, -⟩ := List.getElem?_eq_some_iff.1 ht
      omega
    · rw [ht] at ht'; cases ht'; exact hn hr
  obtain rfl : k = k' := by have := key h h'; have := key h' h; omega
  rcases h.2 with ⟨-, hl, he⟩ | ⟨t, ht, hn, he⟩ <;> rcases h'.2 with ⟨-, hl', he'⟩ | ⟨t', ht', hn', he'⟩
  · rw [he, he']
  · obtain ⟨h, -⟩ := List.getElem?_eq_some_iff.1 ht'
    omega
  · obtain ⟨h, -⟩ := List.getElem?_eq_some_iff.1 ht
    omega
  · rw [he, he']

/-- One step of the parser. -/
theorem step {α β : Type} {ts : List Str} {k : Nat} {r : Option Str → Except Error α} {is : Str → α → Prop} (R : Reads k r is) (hk : k < 10)
    (hr : ∀ t, Readable t k ↔ ∃ a, is t a) (hu : Upto ts k) (f : α → Except Error β) :
    (∃ a t, ts[k]? = some t ∧ is t a ∧ (r ts[k]?).bind f = f a ∧ Upto ts (k + 1)) ∨
    (∃ e, (r ts[k]?).bind f = .error e ∧ FailsAt ts e k) := by
  cases h : ts[k]? with
  | none =>
    right
    refine ⟨.invalidPayload, by rw [R.none]; rfl, hu, Or.inl ⟨hk, ?_, rfl⟩⟩
    have := hu.length
    have := List.getElem?_eq_none_iff.1 h
    omega
  | some t =>
    cases hr' : r (some t) with
    | ok a =>
      left
      refine ⟨a, t, rfl, (R.ok t a).1 hr', rfl, fun i hi => ?_⟩
      by_cases he : i = k
      · subst he; exact ⟨t, h, (hr t).2 ⟨a, (R.ok t a).1 hr'⟩⟩
      · exact hu i (by omega)
    | error e =>
      right
      refine ⟨e, rfl, hu, Or.inr ⟨t, h, ?_, R.err t e hr'⟩⟩
      intro hrd
      obtain ⟨a, ha⟩ := (hr t).1 hrd
      rw [(R.ok t a).2 ha] at hr'
      cases hr'

/-- Some XGID. -/
def dummy : Xgid.Xgid := ⟨[], 0, 0, 0, 0, 0, .doubleOffered, false, 0, 0⟩

/-- The two outcomes. -/
theorem parse_cases (s : Str) : (∃ x, Xgid.parse s = .ok x ∧ Line s x) ∨ (∃ e p ts k, Xgid.parse s = .error e ∧ Payload s p ∧ Pieces ':' p ts ∧ FailsAt ts e k) := by
  rw [parse_eq]
  obtain ⟨p, hp⟩ : ∃ p, (stripPrefix "XGID=".toList (trim s)).getD (trim s) = p := ⟨_, rfl⟩
  obtain ⟨ts, hts⟩ : ∃ ts, splitChar ':' p = ts := ⟨_, rfl⟩
  simp only [hp, hts]
  replace hp := payload_iff.1 hp
  replace hts := pieces_iff.1 hts
  have fin : ∀ {k e}, FailsAt ts e k → ∀ {o : Except Error Xgid.Xgid}, o = .error e →
      (∃ x, o = .ok x ∧ Line s x) ∨ (∃ e p ts k, o = .error e ∧ Payload s p ∧ Pieces ':' p ts ∧ FailsAt ts e k) :=
    fun h o ho => Or.inr ⟨_, p, ts, _, ho, hp, hts, h⟩
  have u0 : Upto ts 0 := fun i hi => absurd hi (by omega)
  rcases step reads_board (by omega) (fun t => ⟨fun ⟨x, h⟩ => ⟨x.board, h⟩, fun ⟨a, h⟩ => ⟨{ dummy with board := a }, h⟩⟩) u0 _ with
    ⟨a0, t0, g0, i0, e0, u1⟩ | ⟨e, h, hf⟩
  swap; · exact fin hf h
  rw [e0]; clear e0
  rcases step (reads_nat rfl) (by omega) (fun t => ⟨fun ⟨x, h⟩ => ⟨x.maxCube, h⟩, fun ⟨a, h⟩ => ⟨{ dummy with maxCube := a }, h⟩⟩) u1 _ with
    ⟨a1, t1, g1, i1, e1, u2⟩ | ⟨e, h, hf⟩
  swap; · exact fin hf h
  rw [e1]; clear e1
  rcases step (reads_nat rfl) (by omega) (fun t => ⟨fun ⟨x, h⟩ => ⟨x.matchLength, h⟩, fun ⟨a, h⟩ => ⟨{ dummy with matchLength := a }, h⟩⟩) u2 _ with
    ⟨a2, t2, g2, i2, e2, u3⟩ | ⟨e, h, hf⟩
  swap; · exact fin hf h
  rw [e2]; clear e2
  rcases step (reads_nat rfl) (by omega) (fun t => ⟨fun ⟨x, h⟩ => ⟨x.rules, h⟩, fun ⟨a, h⟩ => ⟨{ dummy with rules := a }, h⟩⟩) u3 _ with
    ⟨a3, t3, g3, i3, e3, u4⟩ | ⟨e, h, hf⟩
  swap; · exact fin hf h
  rw [e3]; clear e3
  rcases step (reads_nat rfl) (by omega) (fun t => ⟨fun ⟨x, h⟩ => ⟨x.scoreX, h⟩, fun ⟨a, h⟩ => ⟨{ dummy with scoreX := a }, h⟩⟩) u4 _ with
    ⟨a4, t4, g4, i4, e4, u5⟩ | ⟨e, h, hf⟩
  swap; · exact fin hf h
  rw [e4]; clear e4
  rcases step (reads_nat rfl) (by omega) (fun t => ⟨fun ⟨x, h⟩ => ⟨x.scoreO, h⟩, fun ⟨a, h⟩ => ⟨{ dummy with scoreO := a }, h⟩⟩) u5 _ with
    ⟨a5, t5, g5, i5, e5, u6⟩ | ⟨e, h, hf⟩
  swap; · exact fin hf h
  rw [e5]; clear e5
  rcases step reads_dice (by omega) (fun t => ⟨fun ⟨x, h⟩ => ⟨x.dice, h⟩, fun ⟨a, h⟩ => ⟨{ dummy with dice := a }, h⟩⟩) u6 _ with
    ⟨a6, t6, g6, i6, e6, u7⟩ | ⟨e, h, hf⟩
  swap; · exact fin hf h
  rw [e6]; clear e6
  rcases step reads_flag (by omega) (fun t => ⟨fun ⟨x, h⟩ => ⟨x.moveFlag, h⟩, fun ⟨a, h⟩ => ⟨{ dummy with moveFlag := a }, h⟩⟩) u7 _ with
    ⟨a7, t7, g7, i7, e7, u8⟩ | ⟨e, h, hf⟩
  swap; · exact fin hf h
  rw [e7]; clear e7
  rcases step reads_owner (by omega) (fun t => ⟨fun ⟨x, h⟩ => ⟨x.cubeOwner, h⟩, fun ⟨a, h⟩ => ⟨{ dummy with cubeOwner := a }, h⟩⟩) u8 _ with
    ⟨a8, t8, g8, i8, e8, u9⟩ | ⟨e, h, hf⟩
  swap; · exact fin hf h
  rw [e8]; clear e8
  rcases step (reads_nat rfl) (by omega) (fun t => ⟨fun ⟨x, h⟩ => ⟨x.cubePower, h⟩, fun ⟨a, h⟩ => ⟨{ dummy with cubePower := a }, h⟩⟩) u9 _ with
    ⟨a9, t9, g9, i9, e9, u10⟩ | ⟨e, h, hf⟩
  swap; · exact fin hf h
  rw [e9]; clear e9
  cases h10 : ts[10]? with
  | some t =>
    refine fin (k := 10) ⟨u10, Or.inr ⟨t, h10, ?_, rfl⟩⟩ rfl
    rintro ⟨x, h⟩
    exact h
  | none =>
    have hl : ts.length = 10 := by
      have := u10.length
      have := List.getElem?_eq_none_iff.1 h10
      omega
    refine Or.inl ⟨_, rfl, p, ts, hp, hts, hl, fun i t hi => ?_⟩
    have hlt : i < 10 := by
      obtain ⟨h, -⟩ := List.getElem?_eq_some_iff.1 hi
      omega
    interval_cases i
    · rw [g0] at hi; cases hi; exact i0
    · rw [g1] at hi; cases hi; exact i1
    · rw [g2] at hi; cases hi; exact i2
    · rw [g3] at hi; cases hi; exact i3
    · rw [g4] at hi; cases hi; exact i4
    · rw [g5] at hi; cases hi; exact i5
    · rw [g6] at hi; cases hi; exact i6
    · rw [g7] at hi; cases hi; exact i7
    · rw [g8] at hi; cases hi; exact i8
    · rw [g9] at hi; cases hi; exact i9

theorem fieldIs_unique {x y : Xgid.Xgid} {ts : List Str} (hl : ts.length = 10) (hx : ∀ i t, ts[i]? = some t → FieldIs x t i)
    (hy : ∀ i t, ts[i]? = some t → FieldIs y t i) : x = y := by
  have get : ∀ i < 10, ∃ t, ts[i]? = some t := fun i hi => ⟨_, List.getElem?_eq_getElem (by omega)⟩
  have un : ∀ {max t a b}, Number max t a → Number max t b → a = b := by
    intro max t a b h1 h2
    have h1 := (Str_parse_unsigned max t a).2 h1
    have h2 := (Str_parse_unsigned max t b).2 h2
    rw [h1] at h2; injection h2
  have ud : ∀ {t a b}, Spec.Xgid.Dice t a → Spec.Xgid.Dice t b → a = b := by
    intro t a b h1 h2
    have h1 := (reads_dice.ok t a).2 h1
    have h2 := (reads_dice.ok t b).2 h2
    rw [h1] at h2; injection h2
  have uo : ∀ {t a b}, Owner t a → Owner t b → a = b := by
    intro t a b h1 h2
    have h1 := (reads_owner.ok t a).2 h1
    have h2 := (reads_owner.ok t b).2 h2
    rw [h1] at h2; injection h2
  have uf : ∀ {t} {a b : Bool}, (t = if a then ['1'] else ['0']) → (t = if b then ['1'] else ['0']) → a = b := by
    intro t a b h1 h2
    have h1 := (reads_flag.ok t a).2 h1
    have h2 := (reads_flag.ok t b).2 h2
    rw [h1] at h2; injection h2
  obtain ⟨t0, g0⟩ := get 0 (by omega)
  obtain ⟨t1, g1⟩ := get 1 (by omega)
  obtain ⟨t2, g2⟩ := get 2 (by omega)
  obtain ⟨t3, g3⟩ := get 3 (by omega)
  obtain ⟨t4, g4⟩ := get 4 (by omega)
  obtain ⟨t5, g5⟩ := get 5 (by omega)
  obtain ⟨t6, g6⟩ := get 6 (by omega)
  obtain ⟨t7, g7⟩ := get 7 (by omega)
  obtain ⟨t8, g8⟩ := get 8 (by omega)
  obtain ⟨t9, g9⟩ := get 9 (by omega)
  have b0 := (hx 0 t0 g0).2.trans (hy 0 t0 g0).2.symm
  have b1 := un (hx 1 t1 g1) (hy 1 t1 g1)
  have b2 := un (hx 2 t2 g2) (hy 2 t2 g2)
  have b3 := un (hx 3 t3 g3) (hy 3 t3 g3)
  have b4 := un (hx 4 t4 g4) (hy 4 t4 g4)
  have b5 := un (hx 5 t5 g5) (hy 5 t5 g5)
  have b6 := ud (hx 6 t6 g6) (hy 6 t6 g6)
  have b7 := uf (hx 7 t7 g7) (hy 7 t7 g7)
  have b8 := uo (hx 8 t8 g8) (hy 8 t8 g8)
  have b9 := un (hx 9 t9 g9) (hy 9 t9 g9)
  cases x
  cases y
  simp only [Xgid.Xgid.mk.injEq]
  exact ⟨b0, b1, b2, b3, b4, b5, b6, b7, b8, b9⟩

theorem pieces_unique {s p p' : Str} {ts ts' : List Str} (h1 : Payload s p) (h2 : Pieces ':' p ts) (h1' : Payload s p') (h2' : Pieces ':' p' ts') :
    ts = ts' := by
  rw [← payload_iff] at h1 h1'
  rw [← pieces_iff] at h2 h2'
  rw [← h2, ← h2', ← h1, ← h1']

end XgidLine

open XgidLine

/-- **C26** What `parse_xgid` accepts, and as what: exactly the lines of ten readable fields. -/
theorem C26_accept_iff (s : Str) (x : Xgid.Xgid) : Xgid.parse s = .ok x ↔ Line s x := by
  rcases parse_cases s with ⟨y, hy, p, ts, h1, h2, h3, h4⟩ | ⟨e, p, ts, k, he, h1, h2, h3⟩
  · rw [hy]
    constructor
    · intro h; injection h with h; subst h; exact ⟨p, ts, h1, h2, h3, h4⟩
    · rintro ⟨p', ts', h1', h2', h3', h4'⟩
      obtain rfl := pieces_unique h1 h2 h1' h2'
      rw [fieldIs_unique h3 h4 h4']
  · rw [he]
    refine ⟨fun h => (by cases h), ?_⟩
    rintro ⟨p', ts', h1', h2', h3', h4'⟩
    obtain rfl := pieces_unique h1 h2 h1' h2'
    exfalso
    rcases h3.2 with ⟨hk, hl, -⟩ | ⟨t, ht, hn, -⟩
    · omega
    · exact hn ⟨x, h4' k t ht⟩

example : Line "  XGID=-b----E-C---eE---c-e----B-:10:5:0:3:4:61:1:-1:2".toList
    ⟨"-b----E-C---eE---c-e----B-".toList, 10, 5, 0, 3, 4, .rolled 6 1, true, -1, 2⟩ := (C26_accept_iff _ _).1 (by rfl)

/-- **C26** The error: of the first field that is missing or cannot be read. -/
theorem C26_error_iff (s : Str) (e : Xgid.Error) : Xgid.parse s = .error e ↔ Fails s e := by
  rcases parse_cases s with ⟨y, hy, p, ts, h1, h2, h3, h4⟩ | ⟨e', p, ts, k, he, h1, h2, h3⟩
  · rw [hy]
    refine ⟨fun h => (by cases h), ?_⟩
    rintro ⟨p', ts', k, h1', h2', h3', h4'⟩
    obtain rfl := pieces_unique h1 h2 h1' h2'
    exfalso
    rcases h4' with ⟨hk, hl, -⟩ | ⟨t, ht, hn, -⟩
    · omega
    · exact hn ⟨y, h4 k t ht⟩
  · rw [he]
    constructor
    · intro h; injection h with h; subst h; exact ⟨p, ts, k, h1, h2, h3⟩
    · rintro ⟨p', ts', k', h1', h2', h3'⟩
      obtain rfl := pieces_unique h1 h2 h1' h2'
      rw [h3.unique (k' := k') h3']

example : Fails "-b----E-C---eE---c-e----B-:10:5:0:3:4:71:2".toList (.invalidField "dice") := (C26_error_iff _ _).1 (by rfl)

end Bkgm
