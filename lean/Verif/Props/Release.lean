import Verif.Props.FibsText
import Verif.Props.CodecText
/-!
# What release builds accept beyond the valid positions (C15, C27, C29)

Without overflow checks the checkers of a board are counted modulo 256. These theorems give the exact set of accepted inputs, including the impossible boards.
-/
namespace Bkgm
variable {N : Nat}

/-- The checkers on the board and off add up to `N` for both sides if counted modulo 256, and the bars have the right sign. -/
structure Pos.Wraps (p : Pos N) : Prop where
  bars : p.BarsOK
  xOff : p.xOff ≤ 127
  oOff : p.oOff ≤ 127
  sumX : (p.view.countX + p.xOff) % 256 = N
  sumO : (p.view.countO + p.oOff) % 256 = N

namespace Release

theorem i8_false (z : Int) : i8 false z = some (wrap8 z) := by
  unfold i8 wrap8
  split_ifs with h
  · congr 1; omega
  · contradiction
  · rfl

theorem sumI8_false : ∀ (l : List Int) (acc : Int), ∃ r, sumI8 false l acc = some r ∧ wrap8 r = wrap8 (acc + l.sum)
  | [], acc => ⟨acc, rfl, by simp⟩
  | v :: l, acc => by
    obtain ⟨r, h1, h2⟩ := sumI8_false l (wrap8 (acc + v))
    refine ⟨r, by rw [sumI8, i8_false, Option.bind_some, h1], ?_⟩
    rw [h2, List.sum_cons]
    unfold wrap8
    omega

theorem counts_pips (p : Pos N) : p.view.countX = cellsX p.pips ∧ p.view.countO = cellsO p.pips := by
  unfold Spec.Board.countX cellsX Spec.Board.countO cellsO
  rw [Finset.sum_range, Finset.sum_range]
  exact ⟨Finset.sum_congr rfl fun i _ => by simp [Pos.view, Pos.pip], Finset.sum_congr rfl fun i _ => by simp [Pos.view, Pos.pip]⟩

end Release
open Release

/-- **C15** What a release build accepts, for all arrays: exactly those that count to at most `N` modulo 256, with correctly signed bars. -/
theorem C15_release_iff (hN : N ≤ 127) (pips : Fin 26 → Int) (p : Pos N) :
    tryFrom false N pips = some (.ok p) ↔ p.turn = true ∧ p.pips = pips ∧ p.Wraps := by
  obtain ⟨sx, a1, a2⟩ := sumI8_false ((List.ofFn pips).filter fun v => decide (v > 0)) 0
  obtain ⟨so, b1, b2⟩ := sumI8_false ((List.ofFn pips).filter fun v => decide (v < 0)) 0
  rw [sum_filter_pos, ← cellsX_eq, zero_add] at a2
  rw [sum_filter_neg, ← cellsO_eq, zero_add] at b2
  unfold tryFrom
  rw [a1, Option.bind_some, i8_false, Option.bind_some, b1, Option.bind_some, i8_false, Option.bind_some, Option.some.injEq]
  have ex : wrap8 (N - sx) = wrap8 (N - cellsX pips) := by unfold wrap8 at *; omega
  have eo : wrap8 (N + so) = wrap8 (N - cellsO pips) := by unfold wrap8 at *; omega
  rw [ex, eo]
  constructor
  · intro h
    split_ifs at h with h1 h2 h3 h4
    injection h with h
    obtain ⟨c1, c2⟩ := counts_pips p
    have hp : p.pips = pips := by rw [← h]
    have hxo : p.xOff = (wrap8 (N - cellsX pips)).toNat := by rw [← h]
    have hoo : p.oOff = (wrap8 (N - cellsO pips)).toNat := by rw [← h]
    rw [hp] at c1 c2
    refine ⟨by rw [← h], hp, ⟨⟨?_, ?_⟩, ?_, ?_, ?_, ?_⟩⟩
    · have : p.pip 0 = pips 0 := by simp [Pos.pip, hp]
      omega
    · have : p.pip 25 = pips 25 := by simp [Pos.pip, hp]
      omega
    all_goals (unfold wrap8 at *; omega)
  · rintro ⟨ht, rfl, ⟨b0, b25⟩, h1, h2, h3, h4⟩
    obtain ⟨c1, c2⟩ := counts_pips p
    rw [c1] at h3
    rw [c2] at h4
    have p0 : p.pip 0 = p.pips 0 := by simp [Pos.pip]
    have p25 : p.pip 25 = p.pips 25 := by simp [Pos.pip]
    have e1 : wrap8 (N - cellsX p.pips) = p.xOff := by unfold wrap8; omega
    have e2 : wrap8 (N - cellsO p.pips) = p.oOff := by unfold wrap8; omega
    rw [e1, e2, if_neg (by omega), if_neg (by omega), if_neg (by omega), if_neg (by omega)]
    rw [Int.toNat_natCast, Int.toNat_natCast, ← ht]

/-- Valid positions qualify, and so does an impossible one: 256 checkers of `x` on the board and 15 off. -/
example : (∀ p : Pos 15, p.Valid → p.Wraps) ∧ ∃ p : Pos 15, p.Wraps ∧ ¬ p.Valid := by
  refine ⟨fun p hp => ⟨Pos.Valid.barsOK hp, ?_, ?_, ?_, ?_⟩, ?_⟩
  · have := hp.sumX; have e : p.view.xOff = p.xOff := rfl; omega
  · have := hp.sumO; have e : p.view.oOff = p.oOff := rfl; omega
  · have := hp.sumX; have e : p.view.xOff = p.xOff := rfl; omega
  · have := hp.sumO; have e : p.view.oOff = p.oOff := rfl; omega
  · obtain ⟨pips, -, -, -, p, h, -, -, hn⟩ := C15_try_from_counterexample
    exact ⟨p, ((C15_release_iff (by omega) pips p).1 h).2.2, hn⟩

/-- **C15** What a debug build accepts, for all arrays: exactly the cells of valid positions. (When it panics: `C15_debug_panic_partial`; it refuses the rest.) -/
theorem C15_debug_iff (hN : N ≤ 127) (pips : Fin 26 → Int) (p : Pos N) :
    tryFrom true N pips = some (.ok p) ↔ p.turn = true ∧ p.pips = pips ∧ p.Valid := by
  constructor
  · intro h
    have hn : ¬ (127 < cellsX pips ∨ 128 < cellsO pips) := fun hc => by
      rw [(C15_debug_panic_partial (N := N) hN pips).2 hc] at h; cases h
    obtain ⟨h1, h2⟩ := tryFrom_pips h
    exact ⟨h2, h1, C15_accepted_is_valid_partial true hN pips (by omega) (by omega) p h⟩
  · rintro ⟨h1, rfl, h2⟩
    rw [C15_valid_is_accepted true hN p h2, ← h1]

example := (C15_debug_iff (by omega) Ex.start.pips Ex.start).2 ⟨rfl, rfl, by decide⟩

namespace Release
open Xgid

theorem charCell_abs {c : Char} (h : (c = '-' || isLow c || isUp c) = true) : (charCell c).natAbs ≤ 16 := by
  unfold charCell
  by_cases h1 : isLow c = true
  · rw [if_pos h1]
    simp only [isLow, decide_eq_true_eq] at h1
    have a : 97 ≤ c.toNat := h1.1
    have b : c.toNat ≤ 112 := h1.2
    omega
  · rw [if_neg h1]
    by_cases h2 : isUp c = true
    · rw [if_pos h2]
      simp only [isUp, decide_eq_true_eq] at h2
      have a : 65 ≤ c.toNat := h2.1
      have b : c.toNat ≤ 80 := h2.2
      omega
    · rw [if_neg h2]; decide

theorem board_text {p : Pos N} (hb : p.BarsOK) (h16 : ∀ i < 26, (p.pip i).natAbs ≤ 16) : Xgid.encode p = Spec.Xgid.board p.view := by
  rw [Bkgm.encode_eq p hb]
  unfold Spec.Xgid.board
  refine List.map_congr_left fun j _ => xgid_letter ?_
  exact h16 _ (by omega)

theorem decode_board (dbg : Bool) {p : Pos N} (hb : p.BarsOK) (h16 : ∀ i < 26, (p.pip i).natAbs ≤ 16) :
    Xgid.decode dbg N (Spec.Xgid.board p.view) = (tryFrom dbg N p.pips).map fun r =>
      match r with
      | .ok p => .ok p
      | .error _ => .error .invalidPosition := by
  have he := Bkgm.encode_eq p hb
  rw [← board_text hb h16]
  have hc : ∀ i < 26, _ := fun i hi => cellChar_spec (p.pip i) (h16 i hi)
  have hlen : (Xgid.encode p).length = 26 := by rw [he]; simp
  have hget : ∀ j, j < 26 → (Xgid.encode p).getD j '-' = cellChar (p.pip (25 - j)) := by
    intro j hj
    rw [he, List.getD_eq_getElem?_getD, List.getElem?_map, List.getElem?_range hj]
    rfl
  have hpb : parseBoard (Xgid.encode p) = .ok (Xgid.encode p) := by
    refine parseBoard_ok.2 ⟨rfl, hlen, fun c hcm => ?_⟩
    rw [he, List.mem_map] at hcm
    obtain ⟨j, -, rfl⟩ := hcm
    exact (hc _ (by omega)).2.1
  rw [Xgid.decode, hpb]
  simp only
  rw [hget 0 (by omega), hget 25 (by omega), (hc 25 (by omega)).2.2.1 hb.2, (hc 0 (by omega)).2.2.2 hb.1]
  simp only [Bool.or_self, Bool.false_eq_true, if_false]
  have hp' : (fun i : Fin 26 => charCell ((Xgid.encode p).getD (25 - i.val) '-')) = p.pips := by
    funext i
    have hi := i.isLt
    rw [hget _ (by omega), show 25 - (25 - i.val) = i.val by omega, (hc _ hi).1]
    simp [Pos.pip]
  rw [hp']
  rfl

end Release

/-- **C27** What a release build accepts, for all texts: the position has `x` to move, at most 16 checkers on a point, the text is its XGID board, and its checkers
add up to `N` modulo 256. -/
theorem C27_release_iff (hN : N ≤ 127) (s : Str) (p : Pos N) : Xgid.decode false N s = some (.ok p) ↔
    p.turn = true ∧ (∀ i < 26, (p.pip i).natAbs ≤ 16) ∧ s = Spec.Xgid.board p.view ∧ p.Wraps := by
  constructor
  · intro h
    obtain ⟨h1, h2, h3, h4, h5⟩ := Bkgm.decode_ok h
    obtain ⟨t1, t2, t3⟩ := (C15_release_iff hN _ p).1 h5
    have h16 : ∀ i < 26, (p.pip i).natAbs ≤ 16 := by
      intro i hi
      have e : p.pip i = Xgid.charCell (s.getD (25 - i) '-') := by simp [Pos.pip, hi, t2]
      rw [e]
      refine charCell_abs (h2 _ ?_)
      rw [List.getD_eq_getElem?_getD, List.getElem?_eq_getElem (by omega)]
      exact List.getElem_mem _
    exact ⟨t1, h16, by rw [← board_text t3.bars h16, C25_reencode false s p h], t3⟩
  · rintro ⟨ht, h16, rfl, hw⟩
    rw [decode_board false hw.bars h16, (C15_release_iff hN p.pips p).2 ⟨ht, rfl, hw⟩]
    rfl

example : ∃ p : Pos 15, p.Wraps ∧ ¬ p.Valid ∧ Xgid.decode false 15 (Spec.Xgid.board p.view) = some (.ok p) := by
  obtain ⟨-, p, h, hn⟩ := C27_overflow_counterexample
  obtain ⟨-, -, h3, h4⟩ := (C27_release_iff (by omega) _ p).1 h
  exact ⟨p, h4, hn, by rw [← h3]; exact h⟩

/-- **C27** What a debug build accepts, for all texts. -/
theorem C27_debug_iff (hN : N ≤ 127) (s : Str) (p : Pos N) : Xgid.decode true N s = some (.ok p) ↔
    p.turn = true ∧ (∀ i < 26, (p.pip i).natAbs ≤ 16) ∧ s = Spec.Xgid.board p.view ∧ p.Valid := by
  constructor
  · intro h
    obtain ⟨h1, h2, h3, h4, h5⟩ := Bkgm.decode_ok h
    obtain ⟨t1, t2, t3⟩ := (C15_debug_iff hN _ p).1 h5
    have h16 : ∀ i < 26, (p.pip i).natAbs ≤ 16 := by
      intro i hi
      have e : p.pip i = Xgid.charCell (s.getD (25 - i) '-') := by simp [Pos.pip, hi, t2]
      rw [e]
      refine charCell_abs (h2 _ ?_)
      rw [List.getD_eq_getElem?_getD, List.getElem?_eq_getElem (by omega)]
      exact List.getElem_mem _
    exact ⟨t1, h16, by rw [← board_text (Pos.Valid.barsOK t3) h16, C25_reencode true s p h], t3⟩
  · rintro ⟨ht, h16, rfl, hw⟩
    rw [decode_board true (Pos.Valid.barsOK hw) h16, (C15_debug_iff hN p.pips p).2 ⟨ht, rfl, hw⟩]
    rfl

example := (C27_debug_iff (by omega) (Spec.Xgid.board Ex.start.view) Ex.start).2 ⟨rfl, by decide, rfl, by decide⟩

open Fibs Spec.Fibs in
/-- **C29** What a release build accepts, for all texts: the counts for the bars are read as signed bytes, 128 checkers of `x` as 128 of `o`, and the checkers
add up to `N` modulo 256. -/
theorem C29_release_iff (hN : N ≤ 127) (s : Str) (p : Pos N) : Fibs.decode false N s = some (.ok p) ↔
    ∃ turn xb ob zs, ∃ q : Pos N, Says s turn xb ob p.xOff p.oOff zs ∧ q.turn = true ∧ q.Wraps ∧
      q.pip 25 = (if xb ≤ 127 then (xb : Int) else xb - 256) ∧ q.pip 0 = (if ob ≤ 128 then -(ob : Int) else 256 - ob) ∧
      (∀ i < 24, q.pip (24 - i) = if zs.getD i 0 = 128 then -128 else zs.getD i 0) ∧
      (turn = ['x'] ∧ p = q ∨ turn = ['o'] ∧ p = q.flip) := by
  have getm : ∀ (zs : List Int) i, (zs.map fun z => if z = 128 then -128 else z).getD i 0 = if zs.getD i 0 = 128 then -128 else zs.getD i 0 := by
    intro zs i
    rw [List.getD_eq_getElem?_getD, List.getD_eq_getElem?_getD, List.getElem?_map]
    cases zs[i]? <;> simp
  constructor
  · intro h
    by_cases hp : ∃ t b o q, Parts s t b o q
    swap
    · rw [decode_no_parts hp] at h; cases h
    obtain ⟨turn, bar, off, points, hp⟩ := hp
    rw [decode_parts hp] at h
    cases hb : parseTwoCounts bar with
    | error e => rw [hb] at h; cases h
    | ok xo =>
    obtain ⟨xb, ob⟩ := xo
    cases ho : parseTwoCounts off with
    | error e => rw [hb, ho] at h; cases h
    | ok xo =>
    obtain ⟨x, o⟩ := xo
    rw [counts_iff] at hb ho
    have hle := counts_le hb
    rw [← decode_parts hp] at h
    rcases readPoints_cases false 24 (splitChar ',' points) with ⟨zs, h1, h2, -⟩ | ⟨h1, -⟩ | ⟨h1, -⟩ | ⟨-, h2, -⟩
    · have hl : zs.length = 24 := by rw [← h1.length_eq, h2]
      rw [decode_points hp hb ho (pieces_iff.2 rfl) h1 hl (fun h => by cases h)] at h
      obtain ⟨r, hr, h⟩ := Option.map_eq_some_iff.1 h
      cases r with
      | error e => cases h
      | ok q =>
        obtain ⟨q1, q2, q3⟩ := (C15_release_iff hN _ q).1 hr
        have hpip : ∀ i, (hi : i < 26) → q.pip i = _ := fun i hi => by
          rw [show q.pip i = q.pips ⟨i, hi⟩ by simp [Pos.pip, hi], q2, cells_pip]
        have fin : turn = ['x'] ∧ p = q ∨ turn = ['o'] ∧ p = q.flip := by
          unfold finish at h
          simp only at h
          split_ifs at h with t1 t2 t3 t4
          · injection h with h; exact Or.inr ⟨t1, h.symm⟩
          · injection h with h; exact Or.inl ⟨by simpa using t3, h.symm⟩
        have offs : p.xOff = x ∧ p.oOff = o := by
          unfold finish at h
          simp only at h
          split_ifs at h with t1 t2 t3 t4
          · injection h with h; rw [← h]; simp only [not_or, not_not] at t2; exact t2
          · injection h with h; rw [← h]; simp only [not_or, not_not] at t4; exact t4
        refine ⟨turn, xb, ob, zs, q, ⟨bar, off, points, _, hp, hb, by rw [offs.1, offs.2]; exact ho, pieces_iff.2 rfl, h1, hl⟩, q1, q3, ?_, ?_, ?_, fin⟩
        · rw [hpip 25 (by omega), if_pos rfl, wrap8_stored hle.1]
        · rw [hpip 0 (by omega), if_neg (by omega), if_pos rfl]; rfl
        · intro i hi
          rw [hpip (24 - i) (by omega), if_neg (by omega), if_neg (by omega), getm, show 24 - (24 - i) = i by omega]
    · rw [decode_counts hp hb ho, i8_stored hle.2, if_neg (by simp), Option.bind_some, h1] at h; cases h
    · rw [decode_counts hp hb ho, i8_stored hle.2, if_neg (by simp), Option.bind_some, h1] at h; cases h
    · cases h2
  · rintro ⟨turn, xb, ob, zs, q, ⟨bar, off, points, ts, h1, h2, h3, h4, h5, h6⟩, q1, q3, a25, a0, az, fin⟩
    have hle := counts_le h2
    rw [decode_points h1 h2 h3 h4 h5 h6 (fun h => by cases h)]
    have e : cells (wrap8 xb) (storedO ob) (zs.map fun z => if z = 128 then -128 else z) = q.pips := by
      funext ⟨i, hi⟩
      rw [cells_pip, show q.pips ⟨i, hi⟩ = q.pip i by simp [Pos.pip, hi]]
      split_ifs with a b
      · rw [a, a25, wrap8_stored hle.1]
      · rw [b, a0]; rfl
      · rw [getm, ← az (24 - i) (by omega)]
        congr 1; omega
    rw [e, (C15_release_iff hN q.pips q).2 ⟨q1, rfl, q3⟩]
    simp only [Option.map_some, Option.some.injEq]
    rcases fin with ⟨rfl, rfl⟩ | ⟨rfl, rfl⟩
    · unfold finish
      rw [if_neg (by decide), if_neg (by decide), if_neg (by simp)]
    · unfold finish
      rw [if_pos rfl, if_neg (by simp)]

example : ∃ p : Pos 15, ¬ p.Valid ∧ p.turn = true ∧ p.Wraps := by
  obtain ⟨-, -, -, p, h, hn⟩ := C29_counterexample
  obtain ⟨turn, xb, ob, zs, q, -, h1, h2, -, -, -, h⟩ := (C29_release_iff (by omega) _ p).1 h
  rcases h with ⟨-, rfl⟩ | ⟨-, rfl⟩
  · exact ⟨p, hn, h1, h2⟩
  · exact ⟨q, fun hv => hn (Pos.Valid.flip hv), h1, h2⟩

end Bkgm
