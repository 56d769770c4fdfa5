import Verif.Spec.FibsErrors
import Verif.Props.Release
import Verif.Props.FromMaps
/-!
# C106: which error a FIBS or XGID board gives, exactly
-/
namespace Bkgm
variable {N : Nat}
open Fibs Spec.Fibs

namespace FibsErrors

theorem pe_nil (n : Nat) (e : Fibs.Error) : PointsError (n + 1) [] e ↔ e = .invalidPayload := by
  simp [PointsError]

theorem pe_zero_nil (e : Fibs.Error) : ¬ PointsError 0 [] e := by simp [PointsError]

theorem pe_zero (t : Str) (ts : List Str) (e : Fibs.Error) : PointsError 0 (t :: ts) e ↔ e = .invalidPayload := by
  simp [PointsError]

theorem pe_bad {n : Nat} {t : Str} {ts : List Str} {e : Fibs.Error} (h : ¬ IsPoint t) : PointsError (n + 1) (t :: ts) e ↔ e = .invalidField "points" := by
  constructor
  · rintro (⟨pre, u, post, h1, h2, h3, h4, h5⟩ | ⟨h1, -⟩ | ⟨h1, -⟩)
    · exact h5
    · exact absurd (h1 t (by simp)) h
    · exact absurd (h1 t (by simp)) h
  · rintro rfl
    exact Or.inl ⟨[], t, ts, rfl, by simp, by simp, h, rfl⟩

theorem pe_good {n : Nat} {t : Str} {ts : List Str} {e : Fibs.Error} (h : IsPoint t) : PointsError (n + 1) (t :: ts) e ↔ PointsError n ts e := by
  unfold PointsError
  refine or_congr ?_ (or_congr ?_ ?_)
  · constructor
    · rintro ⟨pre, u, post, h1, h2, h3, h4, h5⟩
      cases pre with
      | nil => simp only [List.nil_append, List.cons.injEq] at h1; exact absurd (h1.1 ▸ h) h4
      | cons a pre =>
        simp only [List.cons_append, List.cons.injEq] at h1
        exact ⟨pre, u, post, h1.2, by simpa using h2, fun v hv => h3 v (by simp [hv]), h4, h5⟩
    · rintro ⟨pre, u, post, h1, h2, h3, h4, h5⟩
      refine ⟨t :: pre, u, post, by rw [h1]; rfl, by simpa using h2, ?_, h4, h5⟩
      intro v hv
      rcases List.mem_cons.1 hv with rfl | hv
      · exact h
      · exact h3 v hv
  · simp [h]
  · simp [h]

theorem readPoints_error : ∀ (n : Nat) (ts : List Str) (e : Fibs.Error), readPoints false n ts = some (.error e) ↔ PointsError n ts e
  | 0, [], e => by simp [readPoints, pe_zero_nil]
  | 0, t :: ts, e => by rw [pe_zero]; simp [readPoints, eq_comm]
  | n + 1, [], e => by rw [pe_nil]; simp [readPoints, eq_comm]
  | n + 1, t :: ts, e => by
    by_cases h : IsPoint t
    · rw [pe_good h, ← readPoints_error n ts e]
      obtain ⟨z, hz⟩ := h
      obtain ⟨w, hw⟩ : ∃ w, i8 false z = some w := by
        unfold i8
        split_ifs with a b
        · exact ⟨_, rfl⟩
        · cases b
        · exact ⟨_, rfl⟩
      rw [readPoints, parsePoint_of_point hz, hw]
      simp only [Option.map_some, Option.bind_some]
      cases readPoints false n ts with
      | none => simp
      | some r => cases r <;> simp
    · rw [pe_bad h, readPoints, parsePoint_not h]
      simp [eq_comm]

theorem not_pe {n : Nat} {ts : List Str} {zs : List Int} (h : List.Forall₂ (fun t z => Point (trim t) z) ts zs) (hl : ts.length = n) (e : Fibs.Error) :
    ¬ PointsError n ts e := by
  rw [← readPoints_error, readPoints_eq false n ts zs h hl (by simp)]
  simp

theorem parts_unique {s t b o q t' b' o' q' : Str} (h : Parts s t b o q) (h' : Parts s t' b' o' q') : t = t' ∧ b = b' ∧ o = o' ∧ q = q' := by
  rw [parts_iff] at h h'
  rw [h] at h'
  simpa using h'

end FibsErrors
open FibsErrors

/-- A text that is not well formed gives the error of the first thing that is wrong with it; and only such a text gives these errors. (Release build:
see `C106_builds` for the other.) -/
theorem fibs_form_error (s : Str) (e : Fibs.Error) :
    (Fibs.decode false N s = some (.error e) ∧ (e = .invalidPayload ∨ e = .invalidField "count" ∨ e = .invalidField "points")) ↔ FormError s e := by
  by_cases hp : ∃ t b o q, Parts s t b o q
  swap
  · rw [decode_no_parts hp]
    constructor
    · rintro ⟨h, -⟩
      injection h with h
      injection h with h
      exact Or.inl ⟨h.symm, hp⟩
    · rintro (⟨rfl, -⟩ | ⟨t, b, o, q, h, -⟩)
      · exact ⟨rfl, Or.inl rfl⟩
      · exact absurd ⟨t, b, o, q, h⟩ hp
  obtain ⟨turn, bar, off, points, hp⟩ := hp
  have hform : FormError s e ↔ ((e = .invalidField "count" ∧ ¬ ((∃ x o, Counts bar x o) ∧ ∃ x o, Counts off x o)) ∨
     ((∃ x o, Counts bar x o) ∧ (∃ x o, Counts off x o) ∧ PointsError 24 (splitChar ',' points) e)) := by
    constructor
    · rintro (⟨-, h⟩ | ⟨t, b, o, q, h, h'⟩)
      · exact absurd ⟨_, _, _, _, hp⟩ h
      · obtain ⟨rfl, rfl, rfl, rfl⟩ := parts_unique hp h
        refine h'.imp id ?_
        rintro ⟨h1, h2, ts, h3, h4⟩
        exact ⟨h1, h2, by rw [pieces_iff.1 h3]; exact h4⟩
    · intro h
      refine Or.inr ⟨turn, bar, off, points, hp, h.imp id ?_⟩
      rintro ⟨h1, h2, h3⟩
      exact ⟨h1, h2, _, pieces_iff.2 rfl, h3⟩
  rw [hform]
  by_cases hc : (∃ x o, Counts bar x o) ∧ ∃ x o, Counts off x o
  swap
  · have hd : Fibs.decode false N s = some (.error (.invalidField "count")) := by
      rw [decode_parts hp]
      cases hb : parseTwoCounts bar with
      | error e' => rw [(counts_error hb).1]
      | ok xo =>
        cases ho : parseTwoCounts off with
        | error e' => simp only; rw [(counts_error ho).1]
        | ok xo' => exact absurd ⟨⟨xo.1, xo.2, counts_iff.1 hb⟩, ⟨xo'.1, xo'.2, counts_iff.1 ho⟩⟩ hc
    rw [hd]
    constructor
    · rintro ⟨h, -⟩
      injection h with h
      injection h with h
      exact Or.inl ⟨h.symm, hc⟩
    · rintro (⟨rfl, -⟩ | ⟨h1, h2, -⟩)
      · exact ⟨rfl, Or.inr (Or.inl rfl)⟩
      · exact absurd ⟨h1, h2⟩ hc
  obtain ⟨⟨xb, ob, hb⟩, x, o, ho⟩ := hc
  have hr : ((e = .invalidField "count" ∧ ¬ ((∃ x o, Counts bar x o) ∧ ∃ x o, Counts off x o)) ∨
     ((∃ x o, Counts bar x o) ∧ (∃ x o, Counts off x o) ∧ PointsError 24 (splitChar ',' points) e)) ↔ PointsError 24 (splitChar ',' points) e := by
    constructor
    · rintro (⟨-, h⟩ | ⟨-, -, h⟩)
      · exact absurd ⟨⟨_, _, hb⟩, ⟨_, _, ho⟩⟩ h
      · exact h
    · intro h; exact Or.inr ⟨⟨_, _, hb⟩, ⟨_, _, ho⟩, h⟩
  rw [hr, ← readPoints_error]
  rcases readPoints_cases false 24 (splitChar ',' points) with ⟨zs, h1, h2, h3⟩ | ⟨h1, -⟩ | ⟨h1, -⟩ | ⟨-, h2, -⟩
  · rw [readPoints_error, iff_false_right (not_pe h1 h2 e), decode_points hp hb ho (pieces_iff.2 rfl) h1 (by rw [← h1.length_eq, h2]) (by simp)]
    rintro ⟨h, he⟩
    obtain ⟨r, -, h⟩ := Option.map_eq_some_iff.1 h
    cases r with
    | error m => injection h with h; subst h; simp at he
    | ok q =>
      simp only at h
      unfold finish at h
      split_ifs at h <;> (injection h with h; subst h; simp at he)
  · rw [decode_counts hp hb ho, i8_stored (counts_le hb).2, if_neg (by simp), Option.bind_some, h1]
    simp only [Option.bind_some, Option.some.injEq, Except.error.injEq]
    constructor
    · exact fun h => h.1
    · rintro rfl; simp
  · rw [decode_counts hp hb ho, i8_stored (counts_le hb).2, if_neg (by simp), Option.bind_some, h1]
    simp only [Option.bind_some, Option.some.injEq, Except.error.injEq]
    constructor
    · exact fun h => h.1
    · rintro rfl; simp
  · cases h2

/-- A board that has the cells shown, as a release build stores them: bytes of the bars above 127 count for the other side, and 128 checkers of `x` on a point
as 128 of `o`; its checkers add up to `N` modulo 256. -/
def Shown (xb ob : Nat) (zs : List Int) (q : Pos N) : Prop :=
  q.turn = true ∧ q.Wraps ∧ q.pip 25 = (if xb ≤ 127 then (xb : Int) else xb - 256) ∧ q.pip 0 = (if ob ≤ 128 then -(ob : Int) else 256 - ob) ∧
    ∀ i < 24, q.pip (24 - i) = if zs.getD i 0 = 128 then -128 else zs.getD i 0

namespace FibsErrors

theorem shown_cells {xb ob : Nat} {zs : List Int} (hxb : xb ≤ 255) (q : Pos N) (hN : N ≤ 127) :
    tryFrom false N (cells (wrap8 xb) (storedO ob) (zs.map fun z => if z = 128 then -128 else z)) = some (.ok q) ↔ Shown xb ob zs q := by
  have getm : ∀ (zs : List Int) i, (zs.map fun z => if z = 128 then -128 else z).getD i 0 = if zs.getD i 0 = 128 then -128 else zs.getD i 0 := by
    intro zs i
    rw [List.getD_eq_getElem?_getD, List.getD_eq_getElem?_getD, List.getElem?_map]
    cases zs[i]? <;> simp
  rw [C15_release_iff hN]
  constructor
  · rintro ⟨q1, q2, q3⟩
    have hpip : ∀ i, (hi : i < 26) → q.pip i = _ := fun i hi => by
      rw [show q.pip i = q.pips ⟨i, hi⟩ by simp [Pos.pip, hi], q2, cells_pip]
    refine ⟨q1, q3, ?_, ?_, ?_⟩
    · rw [hpip 25 (by omega), if_pos rfl, wrap8_stored hxb]
    · rw [hpip 0 (by omega), if_neg (by omega), if_pos rfl]; rfl
    · intro i hi
      rw [hpip (24 - i) (by omega), if_neg (by omega), if_neg (by omega), getm, show 24 - (24 - i) = i by omega]
  · rintro ⟨q1, q3, a25, a0, az⟩
    refine ⟨q1, ?_, q3⟩
    funext ⟨i, hi⟩
    rw [cells_pip, show q.pips ⟨i, hi⟩ = q.pip i by simp [Pos.pip, hi]]
    split_ifs with a b
    · rw [a, a25, wrap8_stored hxb]
    · rw [b, a0]; rfl
    · rw [getm, ← az (24 - i) (by omega)]
      congr 1; omega

theorem says_of_error {s : Str} {e : Fibs.Error} (h : Fibs.decode false N s = some (.error e)) (he : ¬ FormError s e) :
    ∃ turn xb ob x o zs, Says s turn xb ob x o zs := by
  have hf := fibs_form_error (N := N) s e
  rcases C29_errors false s e h with ⟨rfl, h'⟩ | ⟨turn, bar, off, points, hp, ⟨rfl, -⟩ | ⟨xb, ob, x, o, ts, hb, ho, hpc, ⟨rfl, -⟩ | ⟨rfl, -⟩ | ⟨zs, h1, h2, -⟩⟩⟩
  · exact absurd (hf.1 ⟨h, by simp⟩) he
  · exact absurd (hf.1 ⟨h, by simp⟩) he
  · exact absurd (hf.1 ⟨h, by simp⟩) he
  · exact absurd (hf.1 ⟨h, by simp⟩) he
  · exact ⟨turn, xb, ob, x, o, zs, bar, off, points, ts, hp, hb, ho, hpc, h1, h2⟩

theorem decode_said {s turn : Str} {xb ob x o : Nat} {zs : List Int} (h : Says s turn xb ob x o zs) (hN : N ≤ 127) :
    ((¬ ∃ q : Pos N, Shown xb ob zs q) ∧ Fibs.decode false N s = some (.error .invalidPosition)) ∨
    ∃ q : Pos N, Shown xb ob zs q ∧ (∀ q' : Pos N, Shown xb ob zs q' → q' = q) ∧ Fibs.decode false N s = some (finish turn x o q) := by
  obtain ⟨bar, off, points, ts, h1, h2, h3, h4, h5, h6⟩ := h
  rw [decode_points h1 h2 h3 h4 h5 h6 (fun h => by cases h)]
  have key := fun q => shown_cells (N := N) (ob := ob) (zs := zs) (counts_le h2).1 q hN
  cases hr : tryFrom false N (cells (wrap8 xb) (storedO ob) (zs.map fun z => if z = 128 then -128 else z)) with
  | none => exact absurd hr (tryFrom_release _)
  | some r =>
    cases r with
    | error m =>
      refine Or.inl ⟨?_, rfl⟩
      rintro ⟨q, hq⟩
      rw [← key, hr] at hq
      cases hq
    | ok q =>
      refine Or.inr ⟨q, (key q).1 hr, ?_, rfl⟩
      intro q' hq'
      rw [← key, hr] at hq'
      injection hq' with hq'
      injection hq' with hq'
      exact hq'.symm

end FibsErrors

/-- The side to move is complained about exactly when it is neither `x` nor `o` in a well-formed text whose board is a possible one. -/
theorem fibs_turn_error (hN : N ≤ 127) (s : Str) : Fibs.decode false N s = some (.error (.invalidField "turn")) ↔
    ∃ turn xb ob x o zs, Says s turn xb ob x o zs ∧ turn ≠ ['x'] ∧ turn ≠ ['o'] ∧ ∃ q : Pos N, Shown xb ob zs q := by
  constructor
  · intro h
    have hf : ¬ FormError s (.invalidField "turn") := fun hc => by
      have := (fibs_form_error (N := N) s _).2 hc
      simp at this
    obtain ⟨turn, xb, ob, x, o, zs, hs⟩ := says_of_error h hf
    refine ⟨turn, xb, ob, x, o, zs, hs, ?_⟩
    rcases decode_said (N := N) hs hN with ⟨-, h2⟩ | ⟨q, h1, -, h2⟩
    · rw [h2] at h; simp at h
    · rw [h2] at h
      unfold finish at h
      split_ifs at h with a b c d
      all_goals first | exact ⟨c, a, q, h1⟩ | simp at h
  · rintro ⟨turn, xb, ob, x, o, zs, hs, t1, t2, q, hq⟩
    rcases decode_said (N := N) hs hN with ⟨h1, -⟩ | ⟨q', h1, -, h2⟩
    · exact absurd ⟨q, hq⟩ h1
    · rw [h2]
      unfold finish
      rw [if_neg t2, if_pos t1]

/-- An invalid position is reported exactly for the well-formed texts that show no possible board, or whose off counts are not those of the board shown
(of the board turned round, if `o` is to move). -/
theorem fibs_position_error (hN : N ≤ 127) (s : Str) : Fibs.decode false N s = some (.error .invalidPosition) ↔
    ∃ turn xb ob x o zs, Says s turn xb ob x o zs ∧ ((¬ ∃ q : Pos N, Shown xb ob zs q) ∨
      ∃ q : Pos N, Shown xb ob zs q ∧ (turn = ['x'] ∧ (x ≠ q.xOff ∨ o ≠ q.oOff) ∨ turn = ['o'] ∧ (x ≠ q.oOff ∨ o ≠ q.xOff))) := by
  constructor
  · intro h
    have hf : ¬ FormError s .invalidPosition := fun hc => by
      have := (fibs_form_error (N := N) s _).2 hc
      simp at this
    obtain ⟨turn, xb, ob, x, o, zs, hs⟩ := says_of_error h hf
    refine ⟨turn, xb, ob, x, o, zs, hs, ?_⟩
    rcases decode_said (N := N) hs hN with ⟨h1, -⟩ | ⟨q, h1, -, h2⟩
    · exact Or.inl h1
    · refine Or.inr ⟨q, h1, ?_⟩
      rw [h2] at h
      unfold finish at h
      have f1 : q.flip.xOff = q.oOff := rfl
      have f2 : q.flip.oOff = q.xOff := rfl
      rw [f1, f2] at h
      split_ifs at h with a b c d
      all_goals first
        | exact Or.inr ⟨a, b.imp Ne.symm Ne.symm⟩
        | exact Or.inl ⟨by simpa using c, d.imp Ne.symm Ne.symm⟩
        | simp at h
  · rintro ⟨turn, xb, ob, x, o, zs, hs, h⟩
    rcases decode_said (N := N) hs hN with ⟨-, h2⟩ | ⟨q', h1, hu, h2⟩
    · exact h2
    · rcases h with h | ⟨q, hq, h⟩
      · exact absurd ⟨q', h1⟩ h
      · obtain rfl := hu q hq
        rw [h2]
        unfold finish
        have f1 : q.flip.xOff = q.oOff := rfl
        have f2 : q.flip.oOff = q.xOff := rfl
        rw [f1, f2]
        rcases h with ⟨rfl, h⟩ | ⟨rfl, h⟩
        · rw [if_neg (by decide), if_neg (by decide), if_pos (h.imp Ne.symm Ne.symm)]
        · rw [if_pos rfl, if_pos (h.imp Ne.symm Ne.symm)]

/-- An XGID board that is not the text of a board is a wrong field; a text of a board is an invalid position exactly when it is the board of no possible
position. -/
theorem xgid_errors (hN : N ≤ 127) (s : Str) :
    (∀ dbg, Xgid.decode dbg N s = some (.error (.invalidField "board")) ↔ ¬ BoardText s) ∧
    (Xgid.decode false N s = some (.error .invalidPosition) ↔ BoardText s ∧
      ¬ ∃ p : Pos N, p.turn = true ∧ (∀ i < 26, (p.pip i).natAbs ≤ 16) ∧ s = Spec.Xgid.board p.view ∧ p.Wraps) := by
  refine ⟨fun dbg => ⟨fun h => ?_, fun h => decode_not_text h⟩, fun h => ⟨?_, ?_⟩, ?_⟩
  · rcases C27_errors dbg s _ h with ⟨-, h⟩ | ⟨h, -⟩
    · exact h
    · cases h
  · rcases C27_errors false s _ h with ⟨h, -⟩ | ⟨-, h⟩
    · cases h
    · exact h
  · rintro ⟨p, hp⟩
    rw [(C27_release_iff hN s p).2 hp] at h
    cases h
  · rintro ⟨hb, hn⟩
    cases hd : Xgid.decode false N s with
    | none => exact absurd hd (C27_release_no_panic s)
    | some r =>
      cases r with
      | ok p => exact absurd ⟨p, (C27_release_iff hN s p).1 hd⟩ hn
      | error e =>
        rcases C27_errors false s e hd with ⟨-, h⟩ | ⟨rfl, -⟩
        · exact absurd hb h
        · rfl

namespace FibsErrors

theorem parsePoint_mono {t : Str} {r} (h : parsePoint true t = some r) : parsePoint false t = some r := by
  by_cases hz : ∃ z, Point t z
  · obtain ⟨z, hz⟩ := hz
    rw [parsePoint_of_point hz] at *
    obtain ⟨w, hw, h⟩ := Option.map_eq_some_iff.1 h
    rw [FromMaps.i8_mono hw, ← h]; rfl
  · rw [parsePoint_not hz] at *; exact h

theorem readPoints_mono : ∀ (n : Nat) (ts : List Str) {r}, readPoints true n ts = some r → readPoints false n ts = some r
  | 0, [], _, h => h
  | 0, _ :: _, _, h => h
  | _ + 1, [], _, h => h
  | n + 1, t :: ts, r, h => by
    rw [readPoints] at *
    obtain ⟨a, ha, h⟩ := Option.bind_eq_some_iff.1 h
    rw [parsePoint_mono ha, Option.bind_some]
    cases a with
    | error e => exact h
    | ok z =>
      simp only at *
      obtain ⟨b, hb, h⟩ := Option.map_eq_some_iff.1 h
      rw [readPoints_mono n ts hb, ← h]; rfl

theorem fibs_mono {s : Str} {r} (h : Fibs.decode true N s = some r) : Fibs.decode false N s = some r := by
  by_cases hp : ∃ t b o q, Parts s t b o q
  swap
  · rw [decode_no_parts hp] at *; exact h
  obtain ⟨turn, bar, off, points, hp⟩ := hp
  rw [decode_parts hp] at *
  cases hb : parseTwoCounts bar with
  | error e => rw [hb] at h; exact h
  | ok xo =>
  cases ho : parseTwoCounts off with
  | error e => rw [hb, ho] at h; exact h
  | ok xo' =>
    rw [hb, ho] at h
    simp only at *
    obtain ⟨a, ha, h⟩ := Option.bind_eq_some_iff.1 h
    obtain ⟨b, hb', h⟩ := Option.bind_eq_some_iff.1 h
    rw [FromMaps.i8_mono ha, Option.bind_some, readPoints_mono _ _ hb', Option.bind_some]
    cases b with
    | error e => exact h
    | ok l =>
      simp only at *
      obtain ⟨c, hc, h⟩ := Option.map_eq_some_iff.1 h
      rw [FromMaps.tryFrom_mono hc, ← h]; rfl

theorem xgid_mono {s : Str} {r} (h : Xgid.decode true N s = some r) : Xgid.decode false N s = some r := by
  by_cases hb : BoardText s
  · rw [decode_text hb] at *
    obtain ⟨c, hc, h⟩ := Option.map_eq_some_iff.1 h
    rw [FromMaps.tryFrom_mono hc, ← h]; rfl
  · rw [decode_not_text hb] at *; exact h

theorem sub8_mono {a b c : Nat} (h : GnuId.sub8 true a b = some c) : GnuId.sub8 false a b = some c := by
  unfold GnuId.sub8 at *
  split_ifs at * <;> simp_all

theorem gnuid_mono {s : Str} {r} (h : GnuId.decode true N s = some r) : GnuId.decode false N s = some r := by
  unfold GnuId.decode at *
  split at h
  · exact h
  · rename_i key hk
    split_ifs at * with hl
    · exact h
    · obtain ⟨c, hc, h⟩ := Option.map_eq_some_iff.1 h
      have : GnuId.decodeKey false N key = some c := by
        unfold GnuId.decodeKey at *
        obtain ⟨o, h1, hc⟩ := Option.bind_eq_some_iff.1 hc
        obtain ⟨x, h2, hc⟩ := Option.bind_eq_some_iff.1 hc
        obtain ⟨a, h3, hc⟩ := Option.bind_eq_some_iff.1 hc
        obtain ⟨b, h4, hc⟩ := Option.bind_eq_some_iff.1 hc
        rw [h1, Option.bind_some, h2, Option.bind_some, sub8_mono h3, Option.bind_some, sub8_mono h4, Option.bind_some, hc]
      rw [this, ← h]; rfl

theorem decodeWith_mono {ε : Type} {f g : ∀ N : Nat, Str → Option (Except ε (Pos N))} (h : ∀ N s r, f N s = some r → g N s = some r) (v : Variant) (s : Str) :
    v.decodeWith f s = none ∨ v.decodeWith f s = v.decodeWith g s := by
  have aux : ∀ (N : Nat) (k : Pos N → VPos), (f N s).map (·.map k) = none ∨ (f N s).map (·.map k) = (g N s).map (·.map k) := by
    intro N k
    cases hf : f N s with
    | none => exact Or.inl rfl
    | some r => rw [h N s r hf]; exact Or.inr rfl
  cases v <;> exact aux _ _

theorem decodeWith_error {ε : Type} (f : ∀ N : Nat, Str → Option (Except ε (Pos N))) (v : Variant) (s : Str) (e : ε) :
    v.decodeWith f s = some (.error e) ↔ f v.checkers s = some (.error e) := by
  have aux : ∀ (N : Nat) (k : Pos N → VPos), (f N s).map (·.map k) = some (.error e) ↔ f N s = some (.error e) := by
    intro N k
    rcases f N s with _ | _ | _ <;> simp [Except.map]
  cases v <;> exact aux _ _

theorem checkers_le (v : Variant) : v.checkers ≤ 127 := by cases v <;> decide

end FibsErrors

/-- **C106** A text that is not well formed gives the error of the first thing that is wrong with it, and only such a text gives these errors. The side to move is
complained about exactly when it is neither `x` nor `o` in a well-formed text whose board is a possible one. An invalid position is reported exactly for the
well-formed texts that show no possible board, or whose off counts are not those of the board shown (of the board turned round, if `o` is to move). (Release
build; see `C106_builds` for the other.) -/
theorem C106_fibs (v : Variant) (s : Str) :
    (∀ e, (Fibs.decodeV false v s = some (.error e) ∧ (e = .invalidPayload ∨ e = .invalidField "count" ∨ e = .invalidField "points")) ↔ FormError s e) ∧
    (Fibs.decodeV false v s = some (.error (.invalidField "turn")) ↔
      ∃ turn xb ob x o zs, Says s turn xb ob x o zs ∧ turn ≠ ['x'] ∧ turn ≠ ['o'] ∧ ∃ q : Pos v.checkers, Shown xb ob zs q) ∧
    (Fibs.decodeV false v s = some (.error .invalidPosition) ↔
      ∃ turn xb ob x o zs, Says s turn xb ob x o zs ∧ ((¬ ∃ q : Pos v.checkers, Shown xb ob zs q) ∨
        ∃ q : Pos v.checkers, Shown xb ob zs q ∧ (turn = ['x'] ∧ (x ≠ q.xOff ∨ o ≠ q.oOff) ∨ turn = ['o'] ∧ (x ≠ q.oOff ∨ o ≠ q.xOff)))) ∧
    ∀ e, Fibs.decodeV false v s = some (.error e) →
      e ∈ [.invalidPayload, .invalidField "count", .invalidField "points", .invalidField "turn", .invalidPosition] := by
  unfold Fibs.decodeV
  simp only [decodeWith_error]
  refine ⟨fibs_form_error s, fibs_turn_error (checkers_le v) s, fibs_position_error (checkers_le v) s, fun e h => ?_⟩
  rcases C29_errors false s e h with ⟨rfl, -⟩ | ⟨_, _, _, _, -, ⟨rfl, -⟩ | ⟨_, _, _, _, _, -, -, -, ⟨rfl, -⟩ | ⟨rfl, -⟩ | ⟨_, -, -, rfl | ⟨rfl, -⟩⟩⟩⟩ <;> simp

/-- **C106** An XGID board that is not the text of a board is a wrong field; a text of a board is an invalid position exactly when it is the board of no possible
position. -/
theorem C106_xgid (v : Variant) (s : Str) :
    (∀ dbg, Xgid.decodeV dbg v s = some (.error (.invalidField "board")) ↔ ¬ BoardText s) ∧
    (Xgid.decodeV false v s = some (.error .invalidPosition) ↔ BoardText s ∧
      ¬ ∃ p : Pos v.checkers, p.turn = true ∧ (∀ i < 26, (p.pip i).natAbs ≤ 16) ∧ s = Spec.Xgid.board p.view ∧ p.Wraps) ∧
    ∀ dbg e, Xgid.decodeV dbg v s = some (.error e) → e = .invalidField "board" ∨ e = .invalidPosition := by
  unfold Xgid.decodeV
  simp only [decodeWith_error]
  refine ⟨(xgid_errors (checkers_le v) s).1, (xgid_errors (checkers_le v) s).2, fun dbg e h => ?_⟩
  exact (C27_errors dbg s e h).imp And.left And.left

/-- **C106** A debug build either panics or gives the answer of a release build, position or error, for every text and every decoder. -/
theorem C106_builds (v : Variant) (s : Str) :
    (Fibs.decodeV true v s = none ∨ Fibs.decodeV true v s = Fibs.decodeV false v s) ∧
    (Xgid.decodeV true v s = none ∨ Xgid.decodeV true v s = Xgid.decodeV false v s) ∧
    (GnuId.decodeV true v s = none ∨ GnuId.decodeV true v s = GnuId.decodeV false v s) :=
  ⟨decodeWith_mono (fun _ _ _ => fibs_mono) v s, decodeWith_mono (fun _ _ _ => xgid_mono) v s, decodeWith_mono (fun _ _ _ => gnuid_mono) v s⟩

/-- All five errors occur; a text with two things wrong gives the error of the first: here a bad token before a missing one, and a bad count before a bad turn. -/
example : ([("turn=x;bar=x0,o0;off=x15,o15", Fibs.Error.invalidPayload),
    ("turn=x;bar=x0,o0;off=x15,o15;points=-,-", .invalidPayload),
    ("turn=x;bar=x0,o0;off=x15,o15;points=-,y", .invalidField "points"),
    ("turn=z;bar=x0;off=x15,o15;points=-,y", .invalidField "count"),
    ("turn=z;bar=x0,o0;off=x15,o15;points=-,-,-,-,-,-,-,-,-,-,-,-,-,-,-,-,-,-,-,-,-,-,-,-", .invalidField "turn"),
    ("turn=o;bar=x1,o0;off=x14,o15;points=-,-,-,-,-,-,-,-,-,-,-,-,-,-,-,-,-,-,-,-,-,-,-,-", .invalidPosition)].all fun c =>
      match Fibs.decodeV false .nackgammon c.1.toList with
      | some (.error e) => decide (e = c.2)
      | _ => false) = true := by decide +kernel

/-- The builds differ only by panics, and those occur. -/
example : Fibs.decodeV true .backgammon (fibsText "128" "-,-") = none ∧ (Fibs.decodeV false .backgammon (fibsText "128" "-,-")).isSome := by
  have h1 : (Fibs.decodeV true .backgammon (fibsText "128" "-,-")).isNone = true := by decide +kernel
  exact ⟨Option.isNone_iff_eq_none.1 h1, by decide +kernel⟩

end Bkgm
