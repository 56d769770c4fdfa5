import Verif.Spec.Fibs
import Verif.Props.Fibs
import Verif.Proofs.Ubgi
/-!
# C29: which FIBS texts are accepted, and as what
-/
namespace Bkgm
open Fibs Spec.Fibs Pos
open Bkgm.Ubgi (parseNat_some parseInt_some)
open Bkgm.Ubgi.Spec (Decimal)
variable {N : Nat}

theorem pieces_iff {c : Char} {s : Str} {l : List Str} : Pieces c s l ↔ splitChar c s = l := by
  constructor
  · rintro ⟨h1, h2, rfl⟩
    exact splitChar_join h1 h2
  · rintro rfl
    exact ⟨splitChar_ne_nil c s, splitChar_not_mem c s, (join_splitChar c s).symm⟩

/-! ## Fields -/

/-- The last value of a key. -/
def lastValue (fs : List (Str × Str)) (k : Str) : Option Str :=
  (fs.reverse.find? fun f => decide (trim f.1 = k)).map fun f => trim f.2

theorem valueOf_iff {fs : List (Str × Str)} {k v : Str} : ValueOf fs k v ↔ lastValue fs k = some v := by
  unfold ValueOf lastValue
  rw [Option.map_eq_some_iff]
  constructor
  · rintro ⟨pre, f, post, rfl, h1, h2, h3⟩
    refine ⟨f, ?_, h2⟩
    rw [List.reverse_append, List.reverse_cons, List.append_assoc, List.find?_append]
    have : post.reverse.find? (fun f => decide (trim f.1 = k)) = none := by
      rw [List.find?_eq_none]
      intro g hg
      simpa using h3 g (List.mem_reverse.1 hg)
    rw [this]
    simp [h1]
  · rintro ⟨f, h, h2⟩
    obtain ⟨h1, as, bs, he, hn⟩ := List.find?_eq_some_iff_append.1 h
    refine ⟨bs.reverse, f, as.reverse, ?_, by simpa using h1, h2, ?_⟩
    · have := congrArg List.reverse he
      simpa using this
    · intro g hg
      simpa using hn g (List.mem_reverse.1 hg)

theorem lastValue_cons (f : Str × Str) (fs : List (Str × Str)) (k : Str) :
    lastValue (f :: fs) k = (lastValue fs k).or (if trim f.1 = k then some (trim f.2) else none) := by
  unfold lastValue
  rw [List.reverse_cons, List.find?_append, Option.map_or]
  congr 1
  by_cases h : trim f.1 = k <;> simp [h]

def FieldsOf (ps : List Str) (fs : List (Str × Str)) : Prop :=
  ps = (fs.map fun f => f.1 ++ '=' :: f.2) ∧ (∀ f ∈ fs, '=' ∉ f.1) ∧
  ∀ f ∈ fs, trim f.1 = "turn".toList ∨ trim f.1 = "bar".toList ∨ trim f.1 = "off".toList ∨ trim f.1 = "points".toList

theorem readFields_ok : ∀ {ps : List Str} {f0 f : Fibs.Fields}, readFields ps f0 = .ok f ↔ ∃ fs, FieldsOf ps fs ∧
    f = ⟨(lastValue fs "turn".toList).or f0.turn, (lastValue fs "bar".toList).or f0.bar, (lastValue fs "off".toList).or f0.off,
      (lastValue fs "points".toList).or f0.points⟩
  | [], f0, f => by
    unfold readFields
    constructor
    · intro h
      injection h with h
      exact ⟨[], ⟨rfl, by simp, by simp⟩, by rw [← h]; rfl⟩
    · rintro ⟨fs, ⟨h1, -, -⟩, h⟩
      obtain rfl : fs = [] := by simpa using h1.symm
      rw [h]
      rfl
  | p :: ps, f0, f => by
    have key : ∀ k v, p = k ++ '=' :: v → '=' ∉ k → ∀ f1 : Fibs.Fields,
        (trim k = "turn".toList ∨ trim k = "bar".toList ∨ trim k = "off".toList ∨ trim k = "points".toList) →
        (∀ fs, (⟨(lastValue ((k, v) :: fs) "turn".toList).or f0.turn, (lastValue ((k, v) :: fs) "bar".toList).or f0.bar,
            (lastValue ((k, v) :: fs) "off".toList).or f0.off, (lastValue ((k, v) :: fs) "points".toList).or f0.points⟩ : Fibs.Fields) =
          ⟨(lastValue fs "turn".toList).or f1.turn, (lastValue fs "bar".toList).or f1.bar, (lastValue fs "off".toList).or f1.off,
            (lastValue fs "points".toList).or f1.points⟩) →
        (readFields ps f1 = .ok f ↔ ∃ fs, FieldsOf (p :: ps) fs ∧
          f = ⟨(lastValue fs "turn".toList).or f0.turn, (lastValue fs "bar".toList).or f0.bar, (lastValue fs "off".toList).or f0.off,
            (lastValue fs "points".toList).or f0.points⟩) := by
      intro k v hp hk f1 hknown hf
      rw [readFields_ok]
      constructor
      · rintro ⟨fs, ⟨h1, h2, h3⟩, rfl⟩
        refine ⟨(k, v) :: fs, ⟨by rw [hp, h1]; rfl, ?_, ?_⟩, (hf fs).symm⟩
        · intro g hg
          rcases List.mem_cons.1 hg with rfl | hg
          · exact hk
          · exact h2 g hg
        · intro g hg
          rcases List.mem_cons.1 hg with rfl | hg
          · exact hknown
          · exact h3 g hg
      · rintro ⟨fs, ⟨h1, h2, h3⟩, rfl⟩
        cases fs with
        | nil => simp at h1
        | cons g fs =>
          rw [List.map_cons, List.cons.injEq] at h1
          have hg : g = (k, v) := by
            have e : splitOnce '=' p = some (g.1, g.2) := splitOnce_some.2 ⟨h1.1, h2 g (by simp)⟩
            rw [hp, splitOnce_append hk] at e
            injection e with e
            exact e.symm
          subst hg
          exact ⟨fs, ⟨h1.2, fun x hx => h2 x (by simp [hx]), fun x hx => h3 x (by simp [hx])⟩, hf fs⟩
    unfold readFields
    cases hs : splitOnce '=' p with
    | none =>
      simp only [reduceCtorEq, false_iff]
      rintro ⟨fs, ⟨h1, -, -⟩, -⟩
      cases fs with
      | nil => simp at h1
      | cons g fs =>
        rw [List.map_cons, List.cons.injEq] at h1
        exact splitOnce_none.1 hs (by rw [h1.1]; simp)
    | some kv =>
      obtain ⟨k, v⟩ := kv
      obtain ⟨hp, hk⟩ := splitOnce_some.1 hs
      simp only
      split_ifs with t1 t2 t3 t4
      · refine key k v hp hk _ (Or.inl t1) fun fs => ?_
        simp only [lastValue_cons, t1, Option.or_assoc]
        rfl
      · refine key k v hp hk _ (Or.inr (Or.inl t2)) fun fs => ?_
        simp only [lastValue_cons, t2, Option.or_assoc]
        rfl
      · refine key k v hp hk _ (Or.inr (Or.inr (Or.inl t3))) fun fs => ?_
        simp only [lastValue_cons, t3, Option.or_assoc]
        rfl
      · refine key k v hp hk _ (Or.inr (Or.inr (Or.inr t4))) fun fs => ?_
        simp only [lastValue_cons, t4, Option.or_assoc]
        rfl
      · simp only [reduceCtorEq, false_iff]
        rintro ⟨fs, ⟨h1, h2, h3⟩, -⟩
        cases fs with
        | nil => simp at h1
        | cons g fs =>
          rw [List.map_cons, List.cons.injEq] at h1
          have e : splitOnce '=' p = some (g.1, g.2) := splitOnce_some.2 ⟨h1.1, h2 g (by simp)⟩
          rw [hs] at e
          injection e with e
          have h := h3 g (by simp)
          have e1 : k = g.1 := congrArg Prod.fst e
          rw [← e1] at h
          rcases h with h | h | h | h
          · exact t1 h
          · exact t2 h
          · exact t3 h
          · exact t4 h

theorem readFields_error : ∀ {ps : List Str} {f0 : Fibs.Fields} {e : Fibs.Error}, readFields ps f0 = .error e → e = .invalidPayload
  | [], f0, e, h => by cases h
  | p :: ps, f0, e, h => by
    unfold readFields at h
    split at h
    · injection h with h; exact h.symm
    · split_ifs at h
      · exact readFields_error h
      · exact readFields_error h
      · exact readFields_error h
      · exact readFields_error h
      · injection h with h; exact h.symm

/-- The four fields. -/
theorem parts_iff {s turn bar off points : Str} :
    Parts s turn bar off points ↔ readFields (splitChar ';' s) {} = .ok ⟨some turn, some bar, some off, some points⟩ := by
  rw [readFields_ok]
  unfold Parts
  refine exists_congr fun fs => ?_
  simp only [valueOf_iff, Fibs.Fields.mk.injEq, Option.or_none]
  unfold Spec.Fibs.Fields FieldsOf
  rw [pieces_iff]
  constructor
  · rintro ⟨h, h1, h2, h3, h4⟩
    exact ⟨h, h1.symm, h2.symm, h3.symm, h4.symm⟩
  · rintro ⟨h, h1, h2, h3, h4⟩
    exact ⟨h, h1.symm, h2.symm, h3.symm, h4.symm⟩

theorem no_parts {s : Str} (h : ¬ ∃ t b o q, Parts s t b o q) : (∃ e, readFields (splitChar ';' s) {} = .error e) ∨
    ∃ f, readFields (splitChar ';' s) {} = .ok f ∧ (f.turn = none ∨ f.bar = none ∨ f.off = none ∨ f.points = none) := by
  cases hr : readFields (splitChar ';' s) {} with
  | error e => exact Or.inl ⟨e, rfl⟩
  | ok f =>
    refine Or.inr ⟨f, rfl, ?_⟩
    obtain ⟨a, b, c, d⟩ := f
    cases a with
    | none => exact Or.inl rfl
    | some a => cases b with
      | none => exact Or.inr (Or.inl rfl)
      | some b => cases c with
        | none => exact Or.inr (Or.inr (Or.inl rfl))
        | some c => cases d with
          | none => exact Or.inr (Or.inr (Or.inr rfl))
          | some d => exact absurd ⟨a, b, c, d, parts_iff.2 hr⟩ h

/-! ## Counts -/

theorem unsigned_iff {s : Str} {n : Nat} : parseNat 255 s = some n ↔ n ≤ 255 ∧ Unsigned s n := parseNat_some

/-- The last count of a side. -/
def lastCount (cs : List (Str × Char × Nat)) (side : Char) : Option Nat :=
  (cs.reverse.find? fun c => decide (c.2.1 = side)).map fun c => c.2.2

theorem lastCount_iff {cs : List (Str × Char × Nat)} {side : Char} {n : Nat} : LastCount cs side n ↔ lastCount cs side = some n := by
  unfold LastCount lastCount
  rw [Option.map_eq_some_iff]
  constructor
  · rintro ⟨pre, t, post, rfl, h3⟩
    refine ⟨(t, side, n), ?_, rfl⟩
    rw [List.reverse_append, List.reverse_cons, List.append_assoc, List.find?_append]
    have : post.reverse.find? (fun c => decide (c.2.1 = side)) = none := by
      rw [List.find?_eq_none]
      intro g hg
      simpa using h3 g (List.mem_reverse.1 hg)
    rw [this]
    simp
  · rintro ⟨⟨t, c, m⟩, h, rfl⟩
    obtain ⟨h1, as, bs, he, hn⟩ := List.find?_eq_some_iff_append.1 h
    obtain rfl : c = side := by simpa using h1
    refine ⟨bs.reverse, t, as.reverse, ?_, ?_⟩
    · have := congrArg List.reverse he
      simpa using this
    · intro g hg
      simpa using hn g (List.mem_reverse.1 hg)

theorem lastCount_cons (c : Str × Char × Nat) (cs : List (Str × Char × Nat)) (side : Char) :
    lastCount (c :: cs) side = (lastCount cs side).or (if c.2.1 = side then some c.2.2 else none) := by
  unfold lastCount
  rw [List.reverse_cons, List.find?_append, Option.map_or]
  congr 1
  by_cases h : c.2.1 = side <;> simp [h]

def CountOf (c : Str × Char × Nat) : Prop := (c.2.1 = 'x' ∨ c.2.1 = 'o') ∧ c.2.2 ≤ 255 ∧ ∃ r, trim c.1 = c.2.1 :: r ∧ Unsigned r c.2.2

theorem readCounts_ok : ∀ {ps : List Str} {x0 o0 x o : Option Nat}, readCounts ps x0 o0 = .ok (x, o) ↔
    ∃ cs : List (Str × Char × Nat), ps = cs.map Prod.fst ∧ (∀ c ∈ cs, CountOf c) ∧ x = (lastCount cs 'x').or x0 ∧ o = (lastCount cs 'o').or o0
  | [], x0, o0, x, o => by
    unfold readCounts
    constructor
    · intro h
      injection h with h
      injection h with h1 h2
      exact ⟨[], rfl, by simp, h1.symm, h2.symm⟩
    · rintro ⟨cs, h1, -, h2, h3⟩
      obtain rfl : cs = [] := by simpa using h1.symm
      rw [h2, h3]
      rfl
  | t :: ps, x0, o0, x, o => by
    have key : ∀ c : Str × Char × Nat, c.1 = t → CountOf c → (∀ c', c'.1 = t → CountOf c' → c' = c) → ∀ x1 o1,
        (∀ cs, (lastCount (c :: cs) 'x').or x0 = (lastCount cs 'x').or x1 ∧ (lastCount (c :: cs) 'o').or o0 = (lastCount cs 'o').or o1) →
        (readCounts ps x1 o1 = .ok (x, o) ↔ ∃ cs : List (Str × Char × Nat), t :: ps = cs.map Prod.fst ∧ (∀ c ∈ cs, CountOf c) ∧
          x = (lastCount cs 'x').or x0 ∧ o = (lastCount cs 'o').or o0) := by
      intro c hc1 hc hu x1 o1 hl
      rw [readCounts_ok]
      constructor
      · rintro ⟨cs, rfl, h2, rfl, rfl⟩
        refine ⟨c :: cs, by rw [List.map_cons, hc1], ?_, (hl cs).1.symm, (hl cs).2.symm⟩
        intro g hg
        rcases List.mem_cons.1 hg with rfl | hg
        · exact hc
        · exact h2 g hg
      · rintro ⟨cs, h1, h2, rfl, rfl⟩
        cases cs with
        | nil => simp at h1
        | cons g cs =>
          rw [List.map_cons, List.cons.injEq] at h1
          obtain rfl := hu g h1.1.symm (h2 g (by simp))
          exact ⟨cs, h1.2, fun x hx => h2 x (by simp [hx]), hl cs⟩
    have bad : (∀ c, c.1 = t → ¬ CountOf c) → ¬ ∃ cs : List (Str × Char × Nat), t :: ps = cs.map Prod.fst ∧ (∀ c ∈ cs, CountOf c) ∧
          x = (lastCount cs 'x').or x0 ∧ o = (lastCount cs 'o').or o0 := by
      rintro hn ⟨cs, h1, h2, -, -⟩
      cases cs with
      | nil => simp at h1
      | cons g cs =>
        rw [List.map_cons, List.cons.injEq] at h1
        exact hn g h1.1.symm (h2 g (by simp))
    have uniq : ∀ (a : Char) (r : Str), trim t = a :: r → ∀ c : Str × Char × Nat, c.1 = t → CountOf c →
        c.2.1 = a ∧ parseNat 255 r = some c.2.2 := by
      rintro a r ht c rfl ⟨-, h1, r', h2, h3⟩
      rw [ht] at h2
      injection h2 with h2 h4
      subst h4
      exact ⟨h2.symm, unsigned_iff.2 ⟨h1, h3⟩⟩
    unfold readCounts
    cases hx : stripPrefix ['x'] (trim t) with
    | some r =>
      have ht : trim t = 'x' :: r := stripPrefix_some.1 hx
      simp only
      cases hn : parseNat 255 r with
      | some n =>
        simp only
        obtain ⟨n1, n2⟩ := unsigned_iff.1 hn
        refine key (t, 'x', n) rfl ⟨Or.inl rfl, n1, r, ht, n2⟩ ?_ _ _ ?_
        · rintro ⟨t', a, m⟩ ht' hc
          obtain ⟨u1, u2⟩ := uniq 'x' r ht _ ht' hc
          simp only at u1 u2 ht'
          rw [hn] at u2
          injection u2 with u2
          rw [ht', u1, u2]
        · intro cs
          simp only [lastCount_cons, Option.or_assoc]
          exact ⟨rfl, rfl⟩
      | none =>
        simp only [reduceCtorEq, false_iff]
        refine bad fun c hc hcc => ?_
        have := (uniq 'x' r ht c hc hcc).2
        rw [hn] at this
        cases this
    | none =>
      simp only
      cases ho : stripPrefix ['o'] (trim t) with
      | some r =>
        have ht : trim t = 'o' :: r := stripPrefix_some.1 ho
        simp only
        cases hn : parseNat 255 r with
        | some n =>
          simp only
          obtain ⟨n1, n2⟩ := unsigned_iff.1 hn
          refine key (t, 'o', n) rfl ⟨Or.inr rfl, n1, r, ht, n2⟩ ?_ _ _ ?_
          · rintro ⟨t', a, m⟩ ht' hc
            obtain ⟨u1, u2⟩ := uniq 'o' r ht _ ht' hc
            simp only at u1 u2 ht'
            rw [hn] at u2
            injection u2 with u2
            rw [ht', u1, u2]
          · intro cs
            simp only [lastCount_cons, Option.or_assoc]
            exact ⟨rfl, rfl⟩
        | none =>
          simp only [reduceCtorEq, false_iff]
          refine bad fun c hc hcc => ?_
          have := (uniq 'o' r ht c hc hcc).2
          rw [hn] at this
          cases this
      | none =>
        simp only [reduceCtorEq, false_iff]
        refine bad fun c hc hcc => ?_
        obtain ⟨h1, -, r, h2, -⟩ := hcc
        rw [hc] at h2
        rcases h1 with h1 | h1
        · rw [h1] at h2
          rw [stripPrefix_some.2 (show trim t = ['x'] ++ r from h2)] at hx
          cases hx
        · rw [h1] at h2
          rw [stripPrefix_some.2 (show trim t = ['o'] ++ r from h2)] at ho
          cases ho

theorem readCounts_error : ∀ {ps : List Str} {x o : Option Nat} {e : Fibs.Error}, readCounts ps x o = .error e → e = .invalidField "count"
  | [], x, o, e, h => by cases h
  | p :: ps, x, o, e, h => by
    unfold readCounts at h
    split at h
    · split at h
      · exact readCounts_error h
      · injection h with h; exact h.symm
    · split at h
      · split at h
        · exact readCounts_error h
        · injection h with h; exact h.symm
      · injection h with h; exact h.symm

theorem counts_iff {raw : Str} {x o : Nat} : parseTwoCounts raw = .ok (x, o) ↔ Counts raw x o := by
  have e : parseTwoCounts raw = .ok (x, o) ↔ readCounts (splitChar ',' raw) none none = .ok (some x, some o) := by
    unfold parseTwoCounts
    split
    · rename_i e h; rw [h]; simp
    · rename_i a b h; rw [h]; simp
    · rename_i r hr h
      rw [h]
      simp only [reduceCtorEq, Except.ok.injEq, false_iff]
      rintro rfl
      exact hr x o rfl
  rw [e, readCounts_ok]
  unfold Counts
  refine exists_congr fun cs => ?_
  rw [pieces_iff, lastCount_iff, lastCount_iff, Option.or_none, Option.or_none]
  refine and_congr Iff.rfl (and_congr Iff.rfl (and_congr eq_comm eq_comm))

theorem counts_error {raw : Str} {e : Fibs.Error} (h : parseTwoCounts raw = .error e) : e = .invalidField "count" ∧ ¬ ∃ x o, Counts raw x o := by
  refine ⟨?_, ?_⟩
  · unfold parseTwoCounts at h
    split at h
    · rename_i h'
      injection h with h
      rw [← h]; exact readCounts_error h'
    · cases h
    · injection h with h; exact h.symm
  · rintro ⟨x, o, hc⟩
    rw [counts_iff.2 hc] at h
    cases h

theorem counts_le {raw : Str} {x o : Nat} (h : Counts raw x o) : x ≤ 255 ∧ o ≤ 255 := by
  obtain ⟨cs, -, h, ⟨p, t, q, rfl, -⟩, ⟨p', t', q', e, -⟩⟩ := h
  refine ⟨(h (t, 'x', x) (by simp)).2.1, (h (t', 'o', o) (by rw [e]; simp)).2.1⟩

/-! ## Points -/

theorem point_bound {t : Str} {z : Int} (h : Point t z) : -128 ≤ z ∧ z ≤ 128 := by
  rcases h with ⟨-, rfl⟩ | ⟨r, -, -, h1, h2⟩ | ⟨r, y, -, -, h1, h2, rfl⟩ <;> omega

theorem parsePoint_dash (dbg : Bool) : parsePoint dbg ['-'] = some (.ok 0) := rfl

theorem parsePoint_x (dbg : Bool) (r : Str) : parsePoint dbg ('x' :: r) =
    match parseInt 127 r with | some z => some (.ok z) | none => some (.error (.invalidField "points")) := by
  unfold parsePoint
  rw [if_neg (by simp), stripPrefix_some.2 (show 'x' :: r = ['x'] ++ r from rfl)]
  rfl

theorem parsePoint_o (dbg : Bool) (r : Str) : parsePoint dbg ('o' :: r) =
    match parseInt 127 r with | some z => (i8 dbg (-z)).map .ok | none => some (.error (.invalidField "points")) := by
  unfold parsePoint
  rw [if_neg (by simp), Ubgi.stripPrefix_none (by simp), stripPrefix_some.2 (show 'o' :: r = ['o'] ++ r from rfl)]
  rfl

/-- What a token that shows a number reads as. -/
theorem parsePoint_of_point {dbg : Bool} {t : Str} {z : Int} (h : Point t z) : parsePoint dbg t = (i8 dbg z).map .ok := by
  rcases h with ⟨rfl, rfl⟩ | ⟨r, rfl, h, h1, h2⟩ | ⟨r, y, rfl, h, h1, h2, rfl⟩
  · rfl
  · rw [parsePoint_x, parseInt_some.2 ⟨by omega, by omega, h⟩]
    unfold i8
    rw [if_pos ⟨h1, h2⟩]; rfl
  · rw [parsePoint_o, parseInt_some.2 ⟨by omega, by omega, h⟩]

/-- A token that shows no number is refused. -/
theorem parsePoint_not {dbg : Bool} {t : Str} (h : ¬ ∃ z, Point t z) : parsePoint dbg t = some (.error (.invalidField "points")) := by
  unfold parsePoint
  rw [if_neg (fun e => h ⟨0, Or.inl ⟨e, rfl⟩⟩)]
  cases hx : stripPrefix ['x'] t with
  | some r =>
    simp only
    cases hn : parseInt 127 r with
    | none => rfl
    | some z =>
      obtain ⟨a, b, c⟩ := parseInt_some.1 hn
      exact absurd ⟨z, Or.inr (Or.inl ⟨r, stripPrefix_some.1 hx, c, by omega, by omega⟩)⟩ h
  | none =>
    simp only
    cases ho : stripPrefix ['o'] t with
    | none => rfl
    | some r =>
      simp only
      cases hn : parseInt 127 r with
      | none => rfl
      | some z =>
        obtain ⟨a, b, c⟩ := parseInt_some.1 hn
        exact absurd ⟨-z, Or.inr (Or.inr ⟨r, z, stripPrefix_some.1 ho, c, by omega, by omega, rfl⟩)⟩ h

/-- A token shows at most one number. -/
theorem point_unique {t : Str} {z z' : Int} (h : Point t z) (h' : Point t z') : z = z' := by
  have a := parsePoint_of_point (dbg := false) h
  have b := parsePoint_of_point (dbg := false) h'
  have b1 := point_bound h
  have b2 := point_bound h'
  rw [a] at b
  -- `-128` and `128` wrap to the same value: look at the letters
  by_cases e : -127 ≤ z ∧ z ≤ 127 ∨ -127 ≤ z' ∧ z' ≤ 127
  · have v : ∀ y : Int, -128 ≤ y → y ≤ 128 → i8 false y = some (if y = 128 then -128 else y) := by
      intro y h1 h2
      unfold i8 wrap8
      by_cases hy : y = 128
      · subst hy; rfl
      · rw [if_pos (by omega), if_neg hy]
    rw [v z b1.1 b1.2, v z' b2.1 b2.2] at b
    simp only [Option.map_some, Option.some.injEq, Except.ok.injEq] at b
    split_ifs at b <;> omega
  · rcases h with ⟨rfl, rfl⟩ | ⟨r, rfl, h, h1, h2⟩ | ⟨r, y, rfl, h, h1, h2, rfl⟩ <;>
      rcases h' with ⟨h3, rfl⟩ | ⟨r', h3, h', h1', h2'⟩ | ⟨r', y', h3, h', h1', h2', rfl⟩ <;> simp at h3 <;> first | omega | rfl

/-- What the tokens read as. -/
theorem readPoints_eq (dbg : Bool) : ∀ (n : Nat) (ts : List Str) (zs : List Int), List.Forall₂ (fun t z => Point (trim t) z) ts zs → ts.length = n →
    (dbg = true → (128 : Int) ∉ zs) → readPoints dbg n ts = some (.ok (zs.map fun z => if z = 128 then -128 else z))
  | 0, [], [], _, _, _ => rfl
  | 0, _ :: _, _, _, h, _ => by cases h
  | n + 1, [], _, _, h, _ => by cases h
  | n + 1, t :: ts, zs, h, hl, hd => by
    cases h with
    | @cons _ z _ zs h1 h2 =>
      have hz := point_bound h1
      have e : i8 dbg z = some (if z = 128 then -128 else z) := by
        unfold i8 wrap8
        by_cases hy : z = 128
        · subst hy
          cases dbg with
          | false => rfl
          | true => exact absurd (by simp) (hd rfl)
        · rw [if_pos (by omega), if_neg hy]
      unfold readPoints
      rw [parsePoint_of_point h1, e]
      simp only [Option.map_some, Option.bind_some]
      rw [readPoints_eq dbg n ts zs h2 (by simpa using hl) (fun d hm => hd d (by simp [hm]))]
      rfl

/-- What happens when some token is wrong, or their number is. -/
theorem readPoints_cases (dbg : Bool) : ∀ (n : Nat) (ts : List Str),
    (∃ zs, List.Forall₂ (fun t z => Point (trim t) z) ts zs ∧ ts.length = n ∧ (dbg = true → (128 : Int) ∉ zs)) ∨
    (readPoints dbg n ts = some (.error .invalidPayload) ∧ ts.length ≠ n) ∨
    (readPoints dbg n ts = some (.error (.invalidField "points")) ∧ ∃ t ∈ ts.take n, ¬ ∃ z, Point (trim t) z) ∨
    (readPoints dbg n ts = none ∧ dbg = true ∧ ∃ pre t post, ts = pre ++ t :: post ∧ pre.length < n ∧
      (∀ u ∈ pre, ∃ z, Point (trim u) z ∧ z ≠ 128) ∧ Point (trim t) 128)
  | 0, [] => Or.inl ⟨[], .nil, rfl, by simp⟩
  | 0, _ :: _ => Or.inr (Or.inl ⟨rfl, by simp⟩)
  | n + 1, [] => Or.inr (Or.inl ⟨rfl, by simp⟩)
  | n + 1, t :: ts => by
    by_cases h : ∃ z, Point (trim t) z
    · obtain ⟨z, hz⟩ := h
      by_cases hb : dbg = true ∧ z = 128
      · obtain ⟨rfl, rfl⟩ := hb
        refine Or.inr (Or.inr (Or.inr ⟨?_, rfl, [], t, ts, rfl, by simp, by simp, hz⟩))
        unfold readPoints
        rw [parsePoint_of_point hz]
        rfl
      · have hz' := point_bound hz
        obtain ⟨w, hw⟩ : ∃ w, i8 dbg z = some w := by
          unfold i8
          split_ifs with a b
          · exact ⟨_, rfl⟩
          · exact absurd ⟨b, by omega⟩ hb
          · exact ⟨_, rfl⟩
        have e : readPoints dbg (n + 1) (t :: ts) = (readPoints dbg n ts).map fun
            | .error e => .error e
            | .ok l => .ok (w :: l) := by
          rw [readPoints, parsePoint_of_point hz, hw]; rfl
        rcases readPoints_cases dbg n ts with ⟨zs, h1, h2, h3⟩ | ⟨h1, h2⟩ | ⟨h1, u, hu, h2⟩ | ⟨h1, h2, pre, u, post, h3, h4, h5, h6⟩
        · refine Or.inl ⟨z :: zs, .cons hz h1, by simp [h2], fun hd hm => ?_⟩
          rcases List.mem_cons.1 hm with hm | hm
          · exact hb ⟨hd, hm.symm⟩
          · exact h3 hd hm
        · exact Or.inr (Or.inl ⟨by rw [e, h1]; rfl, by simpa using h2⟩)
        · exact Or.inr (Or.inr (Or.inl ⟨by rw [e, h1]; rfl, u, by simp [hu], h2⟩))
        · refine Or.inr (Or.inr (Or.inr ⟨by rw [e, h1]; rfl, h2, t :: pre, u, post, by rw [h3]; rfl, by simpa using h4, ?_, h6⟩))
          intro v hv
          rcases List.mem_cons.1 hv with rfl | hv
          · exact ⟨z, hz, fun e => hb ⟨h2, e⟩⟩
          · exact h5 v hv
    · refine Or.inr (Or.inr (Or.inl ⟨?_, t, by simp, h⟩))
      unfold readPoints
      rw [parsePoint_not h]
      rfl

/-- A text with a bad token that is reached panics. -/
theorem readPoints_panic : ∀ (n : Nat) (pre : List Str) (t : Str) (post : List Str), pre.length < n → (∀ u ∈ pre, ∃ z, Point (trim u) z ∧ z ≠ 128) →
    Point (trim t) 128 → readPoints true n (pre ++ t :: post) = none
  | 0, pre, t, post, h, _, _ => by omega
  | n + 1, [], t, post, _, _, h => by
    rw [List.nil_append, readPoints, parsePoint_of_point h]; rfl
  | n + 1, u :: pre, t, post, hl, h, ht => by
    obtain ⟨z, h1, h2⟩ := h u (by simp)
    have := point_bound h1
    have e : i8 true z = some z := by unfold i8; rw [if_pos (by omega)]
    rw [List.cons_append, readPoints, parsePoint_of_point h1, e, readPoints_panic n pre t post (by simpa using hl) (fun v hv => h v (by simp [hv])) ht]
    rfl

/-! ## The decoder -/

theorem decode_parts {dbg : Bool} {s turn bar off points : Str} (h : Parts s turn bar off points) :
    Fibs.decode dbg N s = match parseTwoCounts bar with
      | .error e => some (.error e)
      | .ok (xBar, oBar) =>
        match parseTwoCounts off with
        | .error e => some (.error e)
        | .ok (xOff, oOff) =>
          (i8 dbg (-(wrap8 oBar))).bind fun o =>
          (readPoints dbg 24 (splitChar ',' points)).bind fun
            | .error e => some (.error e)
            | .ok pts =>
              (tryFrom dbg N (cells (wrap8 xBar) o pts)).map fun
                | .error _ => .error .invalidPosition
                | .ok p => finish turn xOff oOff p := by
  unfold Fibs.decode
  rw [parts_iff.1 h]
  rfl

theorem decode_no_parts {dbg : Bool} {s : Str} (h : ¬ ∃ t b o q, Parts s t b o q) : Fibs.decode dbg N s = some (.error .invalidPayload) := by
  unfold Fibs.decode
  rcases no_parts h with ⟨e, he⟩ | ⟨f, hf, h⟩
  · rw [he, readFields_error he]
  · rw [hf]
    simp only
    split
    · rename_i h1 h2 h3 h4
      rw [h1, h2, h3, h4] at h
      simp at h
    · rfl

theorem decode_counts {dbg : Bool} {s turn bar off points : Str} {xb ob x o : Nat} (h : Parts s turn bar off points) (hb : Counts bar xb ob)
    (ho : Counts off x o) : Fibs.decode dbg N s =
      (i8 dbg (-(wrap8 ob))).bind fun o' =>
      (readPoints dbg 24 (splitChar ',' points)).bind fun
        | .error e => some (.error e)
        | .ok pts =>
          (tryFrom dbg N (cells (wrap8 xb) o' pts)).map fun
            | .error _ => .error .invalidPosition
            | .ok p => finish turn x o p := by
  rw [decode_parts h, counts_iff.2 hb, counts_iff.2 ho]

/-- The number of checkers of `o` on the bar, as the decoder stores it. -/
def storedO (ob : Nat) : Int := if ob ≤ 128 then -(ob : Int) else 256 - ob

theorem i8_stored {dbg : Bool} {ob : Nat} (h : ob ≤ 255) : i8 dbg (-(wrap8 ob)) = if ob = 128 ∧ dbg = true then none else some (storedO ob) := by
  unfold i8 wrap8 storedO
  by_cases h1 : ob = 128
  · subst h1
    cases dbg <;> rfl
  · rw [if_neg (fun h : ob = 128 ∧ dbg = true => h1 h.1), if_pos (by constructor <;> omega)]
    congr 1
    split_ifs <;> omega

/-- The number of checkers of `x` on the bar, as the decoder stores it. -/
theorem wrap8_stored {xb : Nat} (h : xb ≤ 255) : wrap8 xb = if xb ≤ 127 then (xb : Int) else (xb : Int) - 256 := by
  unfold wrap8
  split_ifs <;> omega

theorem decode_points {dbg : Bool} {s turn bar off points : Str} {xb ob x o : Nat} {ts : List Str} {zs : List Int} (h : Parts s turn bar off points)
    (hb : Counts bar xb ob) (ho : Counts off x o) (hp : Pieces ',' points ts) (hz : List.Forall₂ (fun t z => Point (trim t) z) ts zs)
    (hl : zs.length = 24) (hd : dbg = true → (128 : Int) ∉ zs ∧ ob ≠ 128) : Fibs.decode dbg N s =
      (tryFrom dbg N (cells (wrap8 xb) (storedO ob) (zs.map fun z => if z = 128 then -128 else z))).map fun
            | .error _ => .error .invalidPosition
            | .ok p => finish turn x o p := by
  rw [decode_counts h hb ho, i8_stored (counts_le hb).2, if_neg (fun hc => (hd hc.2).2 hc.1), Option.bind_some, pieces_iff.1 hp,
    readPoints_eq dbg 24 ts zs hz (by rw [hz.length_eq, hl]) (fun d => (hd d).1)]
  rfl

/-- `s` gives these values, and they are written on the board in the orientation of the side to move. -/
def fits (s : Str) (p : Pos N) : Prop :=
  (p.turn = true ∧ ∃ xb ob zs, Says s ['x'] xb ob p.xOff p.oOff zs ∧ p.pip 25 = xb ∧ p.pip 0 = -(ob : Int) ∧ ∀ i < 24, p.pip (24 - i) = zs.getD i 0) ∨
  (p.turn = false ∧ ∃ xb ob zs, Says s ['o'] xb ob p.xOff p.oOff zs ∧ p.pip 0 = -(xb : Int) ∧ p.pip 25 = ob ∧ ∀ i < 24, p.pip (i + 1) = -zs.getD i 0)

theorem cells_pip {a b : Int} {l : List Int} {i : Nat} (h : i < 26) :
    (cells a b l) ⟨i, h⟩ = if i = 25 then a else if i = 0 then b else l.getD (24 - i) 0 := rfl

/-- Reading the text of a valid board in `x`'s orientation. -/
theorem decode_says {dbg : Bool} (hN : N ≤ 127) {s turn : Str} {xb ob x o : Nat} {zs : List Int} (h : Says s turn xb ob x o zs) (q : Pos N)
    (hq : q.Valid) (h25 : q.pip 25 = xb) (h0 : q.pip 0 = -(ob : Int)) (hz : ∀ i < 24, q.pip (24 - i) = zs.getD i 0) :
    Fibs.decode dbg N s = some (finish turn x o { q with turn := true }) := by
  obtain ⟨bar, off, points, ts, h1, h2, h3, h4, h5, h6⟩ := h
  have ha := fun i => abs_le_of_valid hq i
  have hzs : ∀ z ∈ zs, z ≠ 128 := by
    intro z hz' e
    obtain ⟨i, hi, rfl⟩ := List.mem_iff_getElem.1 hz'
    have := hz i (by omega)
    rw [List.getD_eq_getElem?_getD, List.getElem?_eq_getElem hi, Option.getD_some] at this
    have := ha (24 - i)
    omega
  have hob : ob ≤ 127 := by have := ha 0; omega
  have hxb : xb ≤ 127 := by have := ha 25; omega
  rw [decode_points h1 h2 h3 h4 h5 h6 (fun _ => ⟨fun hm => hzs _ hm rfl, by omega⟩)]
  have e : cells (wrap8 xb) (storedO ob) (zs.map fun z => if z = 128 then -128 else z) = q.pips := by
    have e1 : (zs.map fun z => if z = 128 then -128 else z) = zs := by
      conv_rhs => rw [← List.map_id zs]
      exact List.map_congr_left fun z hz' => if_neg (hzs z hz')
    rw [e1]
    funext i
    obtain ⟨i, hi⟩ := i
    have hpip : q.pip i = q.pips ⟨i, hi⟩ := by simp [Pos.pip, hi]
    rw [cells_pip, ← hpip]
    split_ifs with a b
    · rw [a, h25, wrap8_stored (by omega), if_pos hxb]
    · rw [b, h0, storedO, if_pos (by omega)]
    · have := hz (24 - i) (by omega)
      rw [← this]
      congr 1; omega
  rw [e, C15_valid_is_accepted dbg hN q hq]
  rfl

/-- Accepted positions that are valid are shown by the text. -/
theorem decode_fits {dbg : Bool} (hN : N ≤ 127) {s : Str} {p : Pos N} (h : Fibs.decode dbg N s = some (.ok p)) (hv : p.Valid) : fits s p := by
  by_cases hp : ∃ t b o q, Parts s t b o q
  swap
  · rw [decode_no_parts hp] at h; cases h
  obtain ⟨turn, bar, off, points, hp⟩ := hp
  rw [decode_parts hp] at h
  cases hb : parseTwoCounts bar with
  | error e => rw [hb] at h; cases h
  | ok xo =>
  obtain ⟨xb, ob⟩ := xo
  cases ho : parseTwoCounts off with
  | error e => rw [hb, ho] at h; cases h
  | ok xo =>
  obtain ⟨x, o⟩ := xo
  rw [counts_iff] at hb ho
  have hle := counts_le hb
  rw [← decode_parts hp, decode_counts hp hb ho, i8_stored hle.2] at h
  split_ifs at h with h128
  · cases h
  rw [Option.bind_some] at h
  rcases readPoints_cases dbg 24 (splitChar ',' points) with ⟨zs, h1, h2, h3⟩ | ⟨h1, -⟩ | ⟨h1, -⟩ | ⟨h1, -⟩
  rotate_left
  · rw [h1] at h; cases h
  · rw [h1] at h; cases h
  · rw [h1] at h; cases h
  rw [readPoints_eq dbg 24 _ zs h1 h2 h3, Option.bind_some] at h
  simp only at h
  obtain ⟨r, hr, h⟩ := Option.map_eq_some_iff.1 h
  cases r with
  | error e => cases h
  | ok q =>
  simp only at h
  obtain ⟨hq, hqt⟩ := tryFrom_pips hr
  -- the board read is valid
  have main : q.Valid → (xb : Int) = q.pip 25 ∧ -(ob : Int) = q.pip 0 ∧ ∀ i < 24, q.pip (24 - i) = zs.getD i 0 := by
    intro hqv
    have ha := fun i => abs_le_of_valid hqv i
    have hbars := Pos.Valid.barsOK hqv
    have hc : ∀ i (hi : i < 26), q.pip i = cells (wrap8 xb) (storedO ob) (zs.map fun z => if z = 128 then -128 else z) ⟨i, hi⟩ := by
      intro i hi
      rw [← hq]
      simp [Pos.pip, hi]
    have c25 := hc 25 (by omega)
    have c0 := hc 0 (by omega)
    rw [cells_pip, if_pos rfl, wrap8_stored hle.1] at c25
    rw [cells_pip, if_neg (by omega), if_pos rfl, storedO] at c0
    have a25 := ha 25
    have a0 := ha 0
    have b1 := hbars.1
    have b2 := hbars.2
    refine ⟨?_, ?_, fun i hi => ?_⟩
    · split_ifs at c25 <;> omega
    · split_ifs at c0 <;> omega
    · have ci := hc (24 - i) (by omega)
      rw [cells_pip, if_neg (by omega), if_neg (by omega), show 24 - (24 - i) = i by omega] at ci
      have hlen : i < zs.length := by rw [← h1.length_eq, h2]; exact hi
      rw [List.getD_eq_getElem?_getD, List.getElem?_map, List.getElem?_eq_getElem hlen] at ci
      rw [List.getD_eq_getElem?_getD, List.getElem?_eq_getElem hlen, ci]
      simp only [Option.map_some, Option.getD_some] at ci ⊢
      split_ifs at ci ⊢ with hz
      · have := ha (24 - i)
        omega
      · rfl
  have hsays : ∀ t, turn = t → Says s t xb ob x o zs := fun t ht => ⟨bar, off, points, _, ht ▸ hp, hb, ho, pieces_iff.2 rfl, h1, by rw [← h1.length_eq, h2]⟩
  unfold finish at h
  split_ifs at h with t1 n1 t2 n2
  · injection h with h
    subst h
    have hqv : q.Valid := by
      have := Pos.Valid.flip hv
      rwa [Pos.flip_flip] at this
    obtain ⟨m1, m2, m3⟩ := main hqv
    simp only [not_or, not_not] at n1
    refine Or.inr ⟨by simp [Pos.flip, hqt], xb, ob, zs, by rw [n1.1, n1.2]; exact hsays _ t1, ?_, ?_, fun i hi => ?_⟩
    · rw [pip_flip _ (by omega), m1]
    · rw [pip_flip _ (by omega), ← m2]; omega
    · rw [pip_flip _ (by omega), ← m3 i hi]
      congr 2
      omega
  · injection h with h
    subst h
    obtain ⟨m1, m2, m3⟩ := main hv
    simp only [not_not] at t2
    simp only [not_or, not_not] at n2
    exact Or.inl ⟨hqt, xb, ob, zs, by rw [n2.1, n2.2]; exact hsays _ t2, m1.symm, m2.symm, m3⟩

/-- **C29** Which texts are accepted, and as what, in both builds: a valid position is the result exactly when the text gives the side to move, the off
counts of the position, and its bars and points from 24 down to 1. With `x` to move they stand where they are written. With `o` to move the board is
turned round: what is written for `x` becomes `o`'s, except for the off counts. -/
theorem C29_accept_iff (dbg : Bool) (hN : N ≤ 127) (s : Str) (p : Pos N) : Fibs.decode dbg N s = some (.ok p) ∧ p.Valid ↔ p.Valid ∧
    ((p.turn = true ∧ ∃ xb ob zs, Says s ['x'] xb ob p.xOff p.oOff zs ∧ p.pip 25 = xb ∧ p.pip 0 = -(ob : Int) ∧
        ∀ i < 24, p.pip (24 - i) = zs.getD i 0) ∨
     (p.turn = false ∧ ∃ xb ob zs, Says s ['o'] xb ob p.xOff p.oOff zs ∧ p.pip 0 = -(xb : Int) ∧ p.pip 25 = ob ∧
        ∀ i < 24, p.pip (i + 1) = -zs.getD i 0)) := by
  constructor
  · rintro ⟨h, hv⟩
    exact ⟨hv, decode_fits hN h hv⟩
  · rintro ⟨hv, ⟨ht, xb, ob, zs, h1, h2, h3, h4⟩ | ⟨ht, xb, ob, zs, h1, h2, h3, h4⟩⟩
    · refine ⟨?_, hv⟩
      rw [decode_says hN h1 p hv h2 h3 h4]
      have : ({ p with turn := true } : Pos N) = p := by cases p; simp at ht; simp [ht]
      rw [this]
      unfold finish
      rw [if_neg (by decide), if_neg (by decide), if_neg (by simp)]
    · refine ⟨?_, hv⟩
      rw [decode_says hN h1 p.flip (Pos.Valid.flip hv) (by rw [pip_flip _ (by omega), h2]; omega) (by rw [pip_flip _ (by omega), h3]) ?_]
      · have : (Pos.flip ({ p.flip with turn := true } : Pos N)) = p := by
          have e := flip_flip p
          cases hp : p with
          | mk t b a c =>
            rw [hp] at e ht
            simp only at ht
            subst ht
            exact e
        unfold finish
        rw [if_pos rfl, this, if_neg (by simp)]
      · intro i hi
        rw [pip_flip _ (by omega), show 25 - (24 - i) = i + 1 by omega, h4 i hi, Int.neg_neg]

/-- The text of the example of `Props/Fibs`, in another order and with spaces, is accepted by both builds: the hypotheses can be met. -/
example (dbg : Bool) : Fibs.decode dbg 3 (Fibs.encode Ex.hitPos) = some (.ok Ex.hitPos) ∧ Ex.hitPos.Valid :=
  ⟨C28_round_trip_partial (by omega) Ex.hitPos (by decide) rfl dbg, by decide⟩

/-- **C29** In a build with overflow checks every accepted position is valid, so `C29_accept_iff` says exactly which texts it accepts. -/
theorem C29_debug_valid (hN : N ≤ 127) (s : Str) (p : Pos N) (h : Fibs.decode true N s = some (.ok p)) : p.Valid :=
  (C29_accepted_partial true hN s p h).2 (Or.inl rfl)

example := C29_debug_valid (by omega) (Fibs.encode Ex.hitPos) Ex.hitPos (C28_round_trip_partial (by omega) Ex.hitPos (by decide) rfl true)

/-- **C29** The two builds agree on valid positions. -/
theorem C29_builds_agree (hN : N ≤ 127) (s : Str) (p : Pos N) :
    Fibs.decode true N s = some (.ok p) ↔ Fibs.decode false N s = some (.ok p) ∧ p.Valid := by
  rw [C29_accept_iff false hN s p, ← C29_accept_iff true hN s p]
  exact ⟨fun h => ⟨h, C29_debug_valid hN s p h⟩, fun h => h.1⟩

/-! ## Panics -/

theorem sum_getD (g : Int → Nat) (l : List Int) : ∑ i ∈ Finset.range l.length, g (l.getD i 0) = (l.map g).sum := by
  induction l with
  | nil => rfl
  | cons a l ih =>
    rw [List.length_cons, Finset.sum_range_succ', List.map_cons, List.sum_cons, ← ih, Nat.add_comm]
    rfl

theorem sum_cells (g : Int → Nat) (a b : Int) {l : List Int} (hl : l.length = 24) :
    ∑ i, g (cells a b l i) = ((a :: b :: l).map g).sum := by
  have e : ∑ i, g (cells a b l i) = ∑ i ∈ Finset.range 26, g (if i = 25 then a else if i = 0 then b else l.getD (24 - i) 0) := by
    rw [Finset.sum_range]; rfl
  rw [e, Finset.sum_range_succ, Finset.sum_range_succ', if_pos rfl, if_neg (by omega), if_pos rfl]
  have e2 : ∑ i ∈ Finset.range 24, g (if i + 1 = 25 then a else if i + 1 = 0 then b else l.getD (24 - (i + 1)) 0) =
      ∑ i ∈ Finset.range 24, g (l.getD (24 - 1 - i) 0) := by
    refine Finset.sum_congr rfl fun i hi => ?_
    have := Finset.mem_range.1 hi
    rw [if_neg (by omega), if_neg (by omega), show 24 - (i + 1) = 24 - 1 - i by omega]
  have e3 := Finset.sum_range_reflect (fun i => g (l.getD i 0)) 24
  have e4 := sum_getD g l
  rw [hl] at e4
  rw [e2, List.map_cons, List.map_cons, List.sum_cons, List.sum_cons, ← e4, ← e3]
  omega

theorem not128_map {zs : List Int} (h : (128 : Int) ∉ zs) : (zs.map fun z => if z = 128 then -128 else z) = zs := by
  conv_rhs => rw [← List.map_id zs]
  exact List.map_congr_left fun z hz => if_neg (fun e : z = 128 => h (e ▸ hz))

/-- **C29** Exactly when a build with overflow checks panics: the four fields and the counts are fine, and 128 checkers of `o` are announced on the bar, or a
token that shows 128 checkers of `x` (only `o-128` does) is reached, or the 24 points and the bars (as signed bytes) together have more than 127 checkers of
`x` or 128 of `o`. -/
theorem C29_panic_iff (hN : N ≤ 127) (s : Str) : Fibs.decode true N s = none ↔
    ∃ turn bar off points xb ob x o ts, Parts s turn bar off points ∧ Counts bar xb ob ∧ Counts off x o ∧ Pieces ',' points ts ∧
      (ob = 128 ∨
       (∃ pre t post, ts = pre ++ t :: post ∧ pre.length < 24 ∧ (∀ u ∈ pre, ∃ z, Point (trim u) z ∧ z ≠ 128) ∧ Point (trim t) 128) ∨
       ∃ (zs : List Int) (bx bo : Int), List.Forall₂ (fun t z => Point (trim t) z) ts zs ∧ zs.length = 24 ∧ 128 ∉ zs ∧
         bx = (if xb ≤ 127 then (xb : Int) else xb - 256) ∧ bo = (if ob ≤ 127 then -(ob : Int) else 256 - ob) ∧
         (127 < ((bx :: bo :: zs).map Int.toNat).sum ∨ 128 < ((bx :: bo :: zs).map fun z => (-z).toNat).sum)) := by
  constructor
  · intro h
    by_cases hp : ∃ t b o q, Parts s t b o q
    swap
    · rw [decode_no_parts hp] at h; cases h
    obtain ⟨turn, bar, off, points, hp⟩ := hp
    rw [decode_parts hp] at h
    cases hb : parseTwoCounts bar with
    | error e => rw [hb] at h; cases h
    | ok xo =>
    obtain ⟨xb, ob⟩ := xo
    cases ho : parseTwoCounts off with
    | error e => rw [hb, ho] at h; cases h
    | ok xo =>
    obtain ⟨x, o⟩ := xo
    rw [counts_iff] at hb ho
    have hle := counts_le hb
    rw [← decode_parts hp] at h
    refine ⟨turn, bar, off, points, xb, ob, x, o, _, hp, hb, ho, pieces_iff.2 rfl, ?_⟩
    by_cases h128 : ob = 128
    · exact Or.inl h128
    refine Or.inr ?_
    rcases readPoints_cases true 24 (splitChar ',' points) with ⟨zs, h1, h2, h3⟩ | ⟨h1, -⟩ | ⟨h1, -⟩ | ⟨h1, -, h2⟩
    · refine Or.inr ⟨zs, _, _, h1, by rw [← h1.length_eq, h2], h3 rfl, rfl, rfl, ?_⟩
      rw [decode_points hp hb ho (pieces_iff.2 rfl) h1 (by rw [← h1.length_eq, h2]) (fun _ => ⟨h3 rfl, h128⟩), Option.map_eq_none_iff,
        C15_debug_panic_partial hN, not128_map (h3 rfl), wrap8_stored hle.1] at h
      unfold cellsX cellsO at h
      rw [sum_cells Int.toNat _ _ (by rw [← h1.length_eq, h2]), sum_cells (fun z => (-z).toNat) _ _ (by rw [← h1.length_eq, h2])] at h
      have e : storedO ob = if ob ≤ 127 then -(ob : Int) else 256 - ob := by
        unfold storedO
        split_ifs <;> omega
      rwa [e] at h
    · rw [decode_counts hp hb ho, i8_stored hle.2, if_neg (fun hc => h128 hc.1), h1] at h; cases h
    · rw [decode_counts hp hb ho, i8_stored hle.2, if_neg (fun hc => h128 hc.1), h1] at h; cases h
    · exact Or.inl h2
  · rintro ⟨turn, bar, off, points, xb, ob, x, o, ts, hp, hb, ho, hpc, h⟩
    have hle := counts_le hb
    by_cases h128 : ob = 128
    · rw [decode_counts hp hb ho, i8_stored hle.2, if_pos ⟨h128, rfl⟩]; rfl
    rcases h with h | ⟨pre, t, post, rfl, h2, h3, h4⟩ | ⟨zs, bx, bo, h1, h2, h3, rfl, rfl, h4⟩
    · exact absurd h h128
    · rw [decode_counts hp hb ho, i8_stored hle.2, if_neg (fun hc => h128 hc.1), pieces_iff.1 hpc, readPoints_panic 24 pre t post h2 h3 h4]
      rfl
    · rw [decode_points hp hb ho hpc h1 h2 (fun _ => ⟨h3, h128⟩), Option.map_eq_none_iff,
        C15_debug_panic_partial hN, not128_map h3, wrap8_stored hle.1]
      unfold cellsX cellsO
      rw [sum_cells Int.toNat _ _ h2, sum_cells (fun z => (-z).toNat) _ _ h2]
      have e : storedO ob = if ob ≤ 127 then -(ob : Int) else 256 - ob := by
        unfold storedO
        split_ifs <;> omega
      rwa [e]

/-- The release build has no panics. -/
theorem C29_release_no_panic (s : Str) : Fibs.decode false N s ≠ none := by
  intro h
  by_cases hp : ∃ t b o q, Parts s t b o q
  swap
  · rw [decode_no_parts hp] at h; cases h
  obtain ⟨turn, bar, off, points, hp⟩ := hp
  rw [decode_parts hp] at h
  cases hb : parseTwoCounts bar with
  | error e => rw [hb] at h; cases h
  | ok xo =>
  obtain ⟨xb, ob⟩ := xo
  cases ho : parseTwoCounts off with
  | error e => rw [hb, ho] at h; cases h
  | ok xo =>
  obtain ⟨x, o⟩ := xo
  rw [counts_iff] at hb ho
  rw [← decode_parts hp, decode_counts hp hb ho, i8_stored (counts_le hb).2, if_neg (by simp), Option.bind_some] at h
  rcases readPoints_cases false 24 (splitChar ',' points) with ⟨zs, h1, h2, h3⟩ | ⟨h1, -⟩ | ⟨h1, -⟩ | ⟨-, h2, -⟩
  · rw [readPoints_eq false 24 _ zs h1 h2 h3, Option.bind_some, Option.map_eq_none_iff] at h
    exact tryFrom_release _ h
  · rw [h1] at h; cases h
  · rw [h1] at h; cases h
  · cases h2

/-! ## Errors -/

/-- **C29** The error given for a refused text names what is wrong with it. -/
theorem C29_errors (dbg : Bool) (s : Str) (e : Fibs.Error) (h : Fibs.decode dbg N s = some (.error e)) :
    (e = .invalidPayload ∧ ¬ ∃ turn bar off points, Parts s turn bar off points) ∨
    ∃ turn bar off points, Parts s turn bar off points ∧
      ((e = .invalidField "count" ∧ ((¬ ∃ x o, Counts bar x o) ∨ ¬ ∃ x o, Counts off x o)) ∨
       ∃ xb ob x o ts, Counts bar xb ob ∧ Counts off x o ∧ Pieces ',' points ts ∧
        ((e = .invalidPayload ∧ ts.length ≠ 24) ∨
         (e = .invalidField "points" ∧ ∃ t ∈ ts.take 24, ¬ ∃ z, Point (trim t) z) ∨
         ∃ zs, List.Forall₂ (fun t z => Point (trim t) z) ts zs ∧ zs.length = 24 ∧
          (e = .invalidPosition ∨ (e = .invalidField "turn" ∧ turn ≠ ['x'] ∧ turn ≠ ['o'])))) := by
  by_cases hp : ∃ t b o q, Parts s t b o q
  swap
  · rw [decode_no_parts hp] at h
    refine Or.inl ⟨?_, hp⟩
    injection h with h
    injection h with h
    exact h.symm
  obtain ⟨turn, bar, off, points, hp⟩ := hp
  refine Or.inr ⟨turn, bar, off, points, hp, ?_⟩
  rw [decode_parts hp] at h
  cases hb : parseTwoCounts bar with
  | error e' =>
    rw [hb] at h
    injection h with h
    injection h with h
    exact Or.inl ⟨h ▸ (counts_error hb).1, Or.inl (counts_error hb).2⟩
  | ok xo =>
  obtain ⟨xb, ob⟩ := xo
  cases ho : parseTwoCounts off with
  | error e' =>
    rw [hb, ho] at h
    injection h with h
    injection h with h
    exact Or.inl ⟨h ▸ (counts_error ho).1, Or.inr (counts_error ho).2⟩
  | ok xo =>
  obtain ⟨x, o⟩ := xo
  rw [counts_iff] at hb ho
  refine Or.inr ⟨xb, ob, x, o, _, hb, ho, pieces_iff.2 rfl, ?_⟩
  rw [← decode_parts hp, decode_counts hp hb ho, i8_stored (counts_le hb).2] at h
  split_ifs at h
  · cases h
  rw [Option.bind_some] at h
  rcases readPoints_cases dbg 24 (splitChar ',' points) with ⟨zs, h1, h2, h3⟩ | ⟨h1, h2⟩ | ⟨h1, h2⟩ | ⟨h1, -⟩
  · refine Or.inr (Or.inr ⟨zs, h1, by rw [← h1.length_eq, h2], ?_⟩)
    rw [readPoints_eq dbg 24 _ zs h1 h2 h3, Option.bind_some, Option.map_eq_some_iff] at h
    obtain ⟨r, -, h⟩ := h
    cases r with
    | error _ => injection h with h; exact Or.inl h.symm
    | ok q =>
      simp only at h
      unfold finish at h
      split_ifs at h with t1 n1 t2 n2
      · injection h with h; exact Or.inl h.symm
      · injection h with h; exact Or.inr ⟨h.symm, t2, t1⟩
      · injection h with h; exact Or.inl h.symm
  · rw [h1] at h
    injection h with h
    injection h with h
    exact Or.inl ⟨h.symm, h2⟩
  · rw [h1] at h
    injection h with h
    injection h with h
    exact Or.inr (Or.inl ⟨h.symm, h2⟩)
  · rw [h1] at h; cases h

example : (match Fibs.decode true 15 "turn=z;bar=x0,o0;off=x15,o15;points=-,-,-,-,-,-,-,-,-,-,-,-,-,-,-,-,-,-,-,-,-,-,-,-".toList with
    | some (.error e) => decide (e = .invalidField "turn")
    | _ => false) = true := by decide +kernel

/-- **C29** What becomes of a well-formed text, as long as it shows at most 127 checkers of each side: with too many checkers, or off counts that do not make up
the number of checkers, it is an invalid position; a side to move other than `x` and `o` is an invalid field; and everything else is accepted. With `o` to move
the off counts are those of the turned board. Both builds agree. -/
theorem C29_verdict (dbg : Bool) (hN : N ≤ 127) (s turn : Str) (xb ob x o : Nat) (zs : List Int) (h : Says s turn xb ob x o zs) (X O : Nat)
    (hX : X = xb + (zs.map Int.toNat).sum) (hO : O = ob + (zs.map fun z => (-z).toNat).sum) (hX' : X ≤ 127) (hO' : O ≤ 127) :
    ∃ r, Fibs.decode dbg N s = some r ∧
      (r = .error .invalidPosition ↔ N < X ∨ N < O ∨ (turn = ['x'] ∧ (X + x ≠ N ∨ O + o ≠ N)) ∨ (turn = ['o'] ∧ (O + x ≠ N ∨ X + o ≠ N))) ∧
      (r = .error (.invalidField "turn") ↔ X ≤ N ∧ O ≤ N ∧ turn ≠ ['x'] ∧ turn ≠ ['o']) ∧
      ((∃ p, r = .ok p) ↔ X ≤ N ∧ O ≤ N ∧ ((turn = ['x'] ∧ X + x = N ∧ O + o = N) ∨ (turn = ['o'] ∧ O + x = N ∧ X + o = N))) := by
  obtain ⟨bar, off, points, ts, hp, hb, ho, hpc, h1, h2⟩ := h
  have hm : (128 : Int) ∉ zs := by
    intro hm
    have := List.single_le_sum (l := zs.map Int.toNat) (by simp) (Int.toNat 128) (List.mem_map.2 ⟨_, hm, rfl⟩)
    have e : Int.toNat 128 = 128 := rfl
    omega
  rw [decode_points hp hb ho hpc h1 h2 (fun _ => ⟨hm, by omega⟩), not128_map hm, wrap8_stored (counts_le hb).1, if_pos (by omega)]
  have es : storedO ob = -(ob : Int) := if_pos (by omega)
  rw [es]
  have cx : cellsX (cells xb (-(ob : Int)) zs) = X := by
    unfold cellsX
    rw [sum_cells Int.toNat _ _ h2, List.map_cons, List.map_cons, List.sum_cons, List.sum_cons]
    omega
  have co : cellsO (cells xb (-(ob : Int)) zs) = O := by
    unfold cellsO
    rw [sum_cells (fun z => (-z).toNat) _ _ h2, List.map_cons, List.map_cons, List.sum_cons, List.sum_cons]
    omega
  obtain ⟨r, hr, hok, hval⟩ := C15_try_from_partial dbg hN (cells xb (-(ob : Int)) zs) (by omega) (by omega)
  rw [hr, Option.map_some]
  refine ⟨_, rfl, ?_⟩
  have b25 : cells xb (-(ob : Int)) zs 25 = xb := rfl
  have b0 : cells xb (-(ob : Int)) zs 0 = -(ob : Int) := rfl
  rw [cx, co, b25, b0] at hok
  rw [cx, co] at hval
  cases r with
  | error e =>
    have : ¬ (X ≤ N ∧ O ≤ N) := fun hc => by
      obtain ⟨p, hp⟩ := hok.2 ⟨hc.1, hc.2, by omega, by omega⟩
      cases hp
    refine ⟨⟨fun _ => by omega, fun _ => rfl⟩, ⟨fun hc => (by cases hc), fun hc => absurd ⟨hc.1, hc.2.1⟩ this⟩, ⟨fun ⟨p, hc⟩ => (by cases hc), fun hc => absurd ⟨hc.1, hc.2.1⟩ this⟩⟩
  | ok q =>
    obtain ⟨n1, n2, -⟩ := hok.1 ⟨q, rfl⟩
    obtain ⟨-, -, v1, v2⟩ := hval q rfl
    have f1 : q.flip.xOff = q.oOff := rfl
    have f2 : q.flip.oOff = q.xOff := rfl
    simp only
    unfold finish
    by_cases t1 : turn = ['o']
    · have t2 : turn ≠ ['x'] := by rw [t1]; decide
      rw [if_pos t1, f1, f2]
      split_ifs with hc
      · simp only [reduceCtorEq, t1, t2, exists_false, ne_eq, not_true_eq_false, and_false, false_iff, true_iff, Except.error.injEq, true_and, false_and, false_or]
        simp
        omega
      · simp [t1]
        omega
    · rw [if_neg t1]
      by_cases t2 : turn = ['x']
      · rw [if_neg (by simpa using t2)]
        split_ifs with hc
        · simp [t2]
          omega
        · simp [t2]
          omega
      · rw [if_pos t2]
        simp [t1, t2]
        omega

/-- The texts of valid positions meet the hypotheses. -/
example (dbg : Bool) : ∃ turn xb ob x o zs, Says (Fibs.encode Ex.hitPos) turn xb ob x o zs ∧ xb + (zs.map Int.toNat).sum ≤ 127 ∧
    ob + (zs.map fun z => (-z).toNat).sum ≤ 127 ∧ ∃ p : Pos 3, Fibs.decode dbg 3 (Fibs.encode Ex.hitPos) = some (.ok p) := by
  have ha := C28_round_trip_partial (N := 3) (by omega) Ex.hitPos (by decide) rfl dbg
  obtain ⟨-, ⟨-, xb, ob, zs, h1, h2, h3, h4⟩ | ⟨h, -⟩⟩ := (C29_accept_iff dbg (by omega) _ _).1 ⟨ha, by decide⟩
  · have e : zs = (List.range 24).map fun i => Ex.hitPos.pip (24 - i) := by
      obtain ⟨_, _, _, _, _, _, _, _, _, hl⟩ := h1
      refine List.ext_getElem (by simp [hl]) fun i hi _ => ?_
      have := h4 i (by omega)
      rw [List.getD_eq_getElem?_getD, List.getElem?_eq_getElem hi, Option.getD_some] at this
      simp [this]
    refine ⟨_, xb, ob, _, _, zs, h1, ?_, ?_, _, ha⟩
    · have : (xb : Int) = 0 := by rw [← h2]; decide
      rw [e, show xb = 0 by omega]; decide
    · have : -(ob : Int) = 0 := by rw [← h3]; decide
      rw [e, show ob = 0 by omega]; decide
  · exact absurd h (by decide)

end Bkgm
