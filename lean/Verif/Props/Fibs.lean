import Verif.Model.Fibs
import Verif.Proofs.Str
import Verif.Props.TryFrom
import Verif.Props.Xgid
/-!
# C28, C29: FIBS text
-/

namespace Bkgm
open Fibs
variable {N : Nat}

namespace Fibs

theorem splitChar_comma_counts (x o : Nat) : splitChar ',' (showCounts x o) = ['x' :: showNat x, 'o' :: showNat o] := by
  have h : ∀ n c, c ≠ ',' → ',' ∉ c :: showNat n := fun n c hc => by
    simp only [List.mem_cons, not_or]
    exact ⟨hc.symm, showNat_no (by decide) n⟩
  have := splitChar_join (c := ',') (l := ['x' :: showNat x, 'o' :: showNat o]) (by simp) (by
    intro s hs
    simp only [List.mem_cons, List.not_mem_nil, or_false] at hs
    rcases hs with rfl | rfl
    · exact h _ _ (by decide)
    · exact h _ _ (by decide))
  rw [← this, showCounts]
  simp [join]

theorem trimmed_letter_nat {c : Char} (hc : isWs c = false) (n : Nat) : Trimmed (c :: showNat n) :=
  trimmed_of_no_ws fun d hd => by
    rcases List.mem_cons.1 hd with rfl | hd
    · exact hc
    · exact digit_not_ws (showNat_digit n d hd)

theorem parseTwoCounts_show {x o : Nat} (hx : x ≤ 255) (ho : o ≤ 255) : parseTwoCounts (showCounts x o) = .ok (x, o) := by
  unfold parseTwoCounts
  rw [splitChar_comma_counts]
  simp only [readCounts]
  rw [trim_of_trimmed (trimmed_letter_nat (by decide) x), trim_of_trimmed (trimmed_letter_nat (by decide) o)]
  simp [stripPrefix, parseNat_showNat hx, parseNat_showNat ho]

theorem readCounts_le : ∀ (l : List Str) (x o : Option Nat) (x' o' : Option Nat), readCounts l x o = .ok (x', o') →
    (∀ n, x = some n → n ≤ 255) → (∀ n, o = some n → n ≤ 255) → (∀ n, x' = some n → n ≤ 255) ∧ (∀ n, o' = some n → n ≤ 255)
  | [], x, o, x', o', h, hx, ho => by
    simp only [readCounts, Except.ok.injEq, Prod.mk.injEq] at h
    exact h.1 ▸ h.2 ▸ ⟨hx, ho⟩
  | c :: l, x, o, x', o', h, hx, ho => by
    unfold readCounts at h
    split at h
    · split at h
      · rename_i n hn
        exact readCounts_le l _ _ _ _ h (fun m hm => by injection hm with hm; rw [← hm]; exact parseNat_le hn) ho
      · cases h
    · split at h
      · split at h
        · rename_i n hn
          exact readCounts_le l _ _ _ _ h hx (fun m hm => by injection hm with hm; rw [← hm]; exact parseNat_le hn)
        · cases h
      · cases h

theorem parseTwoCounts_le {s : Str} {x o : Nat} (h : parseTwoCounts s = .ok (x, o)) : o ≤ 255 := by
  unfold parseTwoCounts at h
  split at h
  · cases h
  · rename_i hr
    simp only [Except.ok.injEq, Prod.mk.injEq] at h
    rw [← h.2]
    exact (readCounts_le _ _ _ _ _ hr (by simp) (by simp)).2 _ rfl
  · cases h

theorem showInt_pos {z : Int} (h : 0 ≤ z) : showInt z = showNat z.toNat := by
  unfold showInt
  rw [if_neg (by omega)]

theorem parseInt_show {z : Int} (h0 : 0 ≤ z) (h : z ≤ 127) : parseInt 127 (showNat z.toNat) = some z := by
  rw [← showInt_pos h0]
  exact parseInt_showInt (by omega) (by omega)

theorem pointToken_shape (n : Int) : (∀ c ∈ pointToken n, isWs c = false ∧ c ≠ ',' ∧ c ≠ ';' ∧ c ≠ '=') ∧ pointToken n ≠ [] := by
  have hd : ∀ k : Nat, ∀ c ∈ showNat k, isWs c = false ∧ c ≠ ',' ∧ c ≠ ';' ∧ c ≠ '=' := fun k c hc =>
    have h := showNat_digit k c hc
    ⟨digit_not_ws h, digit_ne h (by decide), digit_ne h (by decide), digit_ne h (by decide)⟩
  unfold pointToken
  split
  · rw [showInt_pos (by omega)]
    refine ⟨fun c hc => ?_, by simp⟩
    rcases List.mem_cons.1 hc with rfl | hc
    · decide
    · exact hd _ c hc
  · split
    · rw [showInt_pos (by omega)]
      refine ⟨fun c hc => ?_, by simp⟩
      rcases List.mem_cons.1 hc with rfl | hc
      · decide
      · exact hd _ c hc
    · exact ⟨by decide, by simp⟩

theorem parsePoint_token (dbg : Bool) {n : Int} (h : n.natAbs ≤ 127) : parsePoint dbg (pointToken n) = some (.ok n) := by
  unfold pointToken
  split
  · rw [showInt_pos (by omega)]
    simp [parsePoint, stripPrefix, parseInt_show (z := n) (by omega) (by omega)]
  · split
    · rw [showInt_pos (by omega)]
      simp [parsePoint, stripPrefix, parseInt_show (z := -n) (by omega) (by omega), i8]
      omega
    · obtain rfl : n = 0 := by omega
      rfl

theorem readPoints_tokens (dbg : Bool) (l : List Int) (h : ∀ n ∈ l, n.natAbs ≤ 127) :
    readPoints dbg l.length (l.map pointToken) = some (.ok l) := by
  induction l with
  | nil => rfl
  | cons n l ih =>
    simp only [List.length_cons, List.map_cons, readPoints]
    rw [trim_of_trimmed (trimmed_of_no_ws fun c hc => ((pointToken_shape n).1 c hc).1), parsePoint_token dbg (h n (by simp))]
    simp only [Option.bind_some, ih (fun n hn => h n (by simp [hn])), Option.map_some]

theorem showCounts_no {x o : Nat} : ∀ c ∈ showCounts x o, isWs c = false ∧ c ≠ ';' ∧ c ≠ '=' := by
  have hd : ∀ k : Nat, ∀ c ∈ showNat k, isWs c = false ∧ c ≠ ';' ∧ c ≠ '=' := fun k c hc =>
    have h := showNat_digit k c hc
    ⟨digit_not_ws h, digit_ne h (by decide), digit_ne h (by decide)⟩
  intro c hc
  unfold showCounts at hc
  simp only [List.cons_append, List.mem_cons, List.mem_append] at hc
  rcases hc with rfl | hc | rfl | rfl | hc
  · decide
  · exact hd _ _ hc
  · decide
  · decide
  · exact hd _ _ hc

theorem mem_join {sep : Str} {c : Char} : ∀ {l : List Str}, c ∈ join sep l → c ∈ sep ∨ ∃ s ∈ l, c ∈ s
  | [], h => by simp [join] at h
  | [s], h => Or.inr ⟨s, by simp, h⟩
  | s :: t :: l, h => by
    simp only [join, List.append_assoc, List.mem_append] at h
    rcases h with h | h | h
    · exact Or.inr ⟨s, by simp, h⟩
    · exact Or.inl h
    · rcases mem_join h with h | ⟨u, hu, h⟩
      · exact Or.inl h
      · exact Or.inr ⟨u, by simp [hu], h⟩

/-- The four values of the text of a position. -/
theorem readFields_encode (p : Pos N) : readFields (splitChar ';' (Fibs.encode p)) {} = .ok
    ⟨some (if p.turn then ['x'] else ['o']), some (showCounts p.xBar p.oBar), some (showCounts p.xOff p.oOff),
      some (join [','] ((List.range' 1 24).reverse.map fun i => pointToken (p.pip i)))⟩ := by
  generalize ht : (if p.turn then ['x'] else ['o'] : Str) = t
  generalize hb : showCounts p.xBar p.oBar = b
  generalize ho : showCounts p.xOff p.oOff = o
  generalize hp : join [','] ((List.range' 1 24).reverse.map fun i => pointToken (p.pip i)) = q
  have nt : ∀ c ∈ t, isWs c = false ∧ c ≠ ';' ∧ c ≠ '=' := by
    rw [← ht]; cases p.turn <;> decide
  have nb : ∀ c ∈ b, isWs c = false ∧ c ≠ ';' ∧ c ≠ '=' := hb ▸ showCounts_no
  have no : ∀ c ∈ o, isWs c = false ∧ c ≠ ';' ∧ c ≠ '=' := ho ▸ showCounts_no
  have nq : ∀ c ∈ q, isWs c = false ∧ c ≠ ';' ∧ c ≠ '=' := by
    rw [← hp]
    intro c hc
    rcases mem_join hc with hc | ⟨s, hs, hc⟩
    · simp only [List.mem_singleton] at hc
      subst hc; decide
    · obtain ⟨i, -, rfl⟩ := List.mem_map.1 hs
      have := (pointToken_shape (p.pip i)).1 c hc
      exact ⟨this.1, this.2.2.1, this.2.2.2⟩
  have e : Fibs.encode p = join [';'] ["turn".toList ++ '=' :: t, "bar".toList ++ '=' :: b, "off".toList ++ '=' :: o,
      "points".toList ++ '=' :: q] := by
    unfold Fibs.encode
    rw [ht, hb, ho, hp]
    simp only [join, List.append_assoc]
    rfl
  have nk : ∀ (k v : Str), ';' ∉ k → (∀ c ∈ v, isWs c = false ∧ c ≠ ';' ∧ c ≠ '=') → ';' ∉ k ++ '=' :: v := by
    intro k v hk hv h
    simp only [List.mem_append, List.mem_cons] at h
    rcases h with h | h | h
    · exact hk h
    · exact absurd h (by decide)
    · exact (hv _ h).2.1 rfl
  have tr : ∀ v : Str, (∀ c ∈ v, isWs c = false ∧ c ≠ ';' ∧ c ≠ '=') → trim v = v := fun v hv =>
    trim_of_trimmed (trimmed_of_no_ws fun c hc => (hv c hc).1)
  rw [e, splitChar_join (by simp) (by
    intro s hs
    simp only [List.mem_cons, List.not_mem_nil, or_false] at hs
    rcases hs with rfl | rfl | rfl | rfl
    · exact nk _ _ (by decide) nt
    · exact nk _ _ (by decide) nb
    · exact nk _ _ (by decide) no
    · exact nk _ _ (by decide) nq)]
  have k1 : trim "turn".toList = "turn".toList := by decide
  have k2 : trim "bar".toList = "bar".toList := by decide
  have k3 : trim "off".toList = "off".toList := by decide
  have k4 : trim "points".toList = "points".toList := by decide
  simp only [readFields]
  rw [splitOnce_append (by decide), splitOnce_append (by decide), splitOnce_append (by decide), splitOnce_append (by decide)]
  simp only [k1, k2, k3, k4, tr t nt, tr b nb, tr o no, tr q nq]
  rfl

theorem cells_points (p : Pos N) : cells (p.pip 25) (p.pip 0) ((List.range' 1 24).reverse.map p.pip) = p.pips := by
  funext i
  have hi := i.isLt
  unfold cells
  have hpip : p.pip i.val = p.pips i := by simp [Pos.pip]
  split
  · rename_i h; rw [← hpip, h]
  · split
    · rename_i h; rw [← hpip, h]
    · rename_i h25 h0
      rw [← hpip]
      have : ((List.range' 1 24).reverse.map p.pip).getD (24 - i.val) 0 = p.pip i.val := by
        rw [List.getD_eq_getElem?_getD, List.getElem?_map, List.getElem?_reverse (by simp; omega)]
        simp only [List.length_range']
        rw [List.getElem?_range' (by omega)]
        simp only [Option.map_some, Option.getD_some]
        congr 1
        omega
      exact this

/-- What decoding the text of a valid position gives. -/
theorem decode_encode (hN : N ≤ 127) (p : Pos N) (hp : p.Valid) (dbg : Bool) :
    Fibs.decode dbg N (Fibs.encode p) =
      some (finish (if p.turn then ['x'] else ['o']) p.xOff p.oOff ({ p with turn := true } : Pos N)) := by
  have hb := Pos.Valid.barsOK hp
  have ha := fun i => abs_le_of_valid hp i
  have hx : p.xBar ≤ 127 := by have := ha 25; unfold Pos.xBar; omega
  have ho : p.oBar ≤ 127 := by have := ha 0; unfold Pos.oBar; omega
  have hxo : p.xOff ≤ 255 := by have := hp.sumX; have e : p.view.xOff = p.xOff := rfl; omega
  have hoo : p.oOff ≤ 255 := by have := hp.sumO; have e : p.view.oOff = p.oOff := rfl; omega
  have wx : wrap8 (p.xBar : Int) = p.pip 25 := by
    have := hb.2
    unfold wrap8 Pos.xBar at *; omega
  have wo : wrap8 (p.oBar : Int) = -p.pip 0 := by
    have := hb.1
    unfold wrap8 Pos.oBar at *; omega
  unfold Fibs.decode
  rw [readFields_encode]
  simp only
  rw [parseTwoCounts_show (by omega) (by omega), parseTwoCounts_show hxo hoo]
  simp only
  rw [wo, wx, Int.neg_neg]
  have h0 : i8 dbg (p.pip 0) = some (p.pip 0) := by
    unfold i8; rw [if_pos (by have := ha 0; omega)]
  rw [h0, Option.bind_some]
  have hs : splitChar ',' (join [','] ((List.range' 1 24).reverse.map fun i => pointToken (p.pip i))) =
      ((List.range' 1 24).reverse.map p.pip).map pointToken := by
    rw [splitChar_join]
    · rw [List.map_map]; rfl
    · simp
    · intro s hs hc
      obtain ⟨i, -, rfl⟩ := List.mem_map.1 hs
      exact ((pointToken_shape (p.pip i)).1 _ hc).2.1 rfl
  have hr := readPoints_tokens dbg ((List.range' 1 24).reverse.map p.pip) (by
    intro n hn
    obtain ⟨i, -, rfl⟩ := List.mem_map.1 hn
    have := ha i; omega)
  rw [hs]
  simp only [List.length_map, List.length_reverse, List.length_range'] at hr
  rw [hr]
  simp only [Option.bind_some, cells_points]
  rw [C15_valid_is_accepted dbg hN p hp]
  rfl

end Fibs

/-- **C28** for positions with `x` to move: decoding the text gives the position back. -/
theorem C28_round_trip_partial (hN : N ≤ 127) (p : Pos N) (hp : p.Valid) (ht : p.turn = true) (dbg : Bool) :
    Fibs.decode dbg N (Fibs.encode p) = some (.ok p) := by
  rw [Fibs.decode_encode hN p hp dbg, ht]
  have : ({ p with turn := true } : Pos N) = p := by cases p; simp at ht; simp [ht]
  rw [this]
  simp [finish]

example := C28_round_trip_partial (by omega) Ex.hitPos (by decide) rfl true

/-- **C28** with `o` to move: the decoder mirrors the board. It returns the mirrored position if the two sides have borne off equally many
checkers, and an error otherwise. -/
theorem C28_o_to_move_partial (hN : N ≤ 127) (p : Pos N) (hp : p.Valid) (ht : p.turn = false) (dbg : Bool) :
    Fibs.decode dbg N (Fibs.encode p) =
      some (if p.xOff = p.oOff then .ok { p.flip with turn := false } else .error .invalidPosition) := by
  rw [Fibs.decode_encode hN p hp dbg, ht]
  unfold finish
  simp only [Bool.false_eq_true, if_false, if_true]
  have e1 : (Pos.flip ({ p with turn := true } : Pos N)).xOff = p.oOff := rfl
  have e2 : (Pos.flip ({ p with turn := true } : Pos N)).oOff = p.xOff := rfl
  rw [e1, e2]
  by_cases h : p.xOff = p.oOff
  · rw [if_neg (by omega), if_pos h]; rfl
  · rw [if_pos (by omega), if_neg h]

example := C28_o_to_move_partial (by omega) Ex.hitPos.flip (by decide) rfl true

/-- A race position in which `x` has borne off one checker more than `o`, with `o` to move. -/
def fibsPos : Pos 3 := ⟨false, fun i => if i.val = 4 then 1 else if i.val = 20 then -3 else 0, 2, 0⟩

/-- A position with nobody borne off, with `o` to move. -/
def fibsPos2 : Pos 3 := ⟨false, fun i => if i.val = 4 then 3 else if i.val = 20 then -3 else 0, 0, 0⟩

/-- **C28** fails with `o` to move: a valid position whose text is rejected, and one whose text gives a different board. -/
theorem C28_counterexample :
    (fibsPos.Valid ∧ ∀ dbg, Fibs.decode dbg 3 (Fibs.encode fibsPos) = some (.error .invalidPosition)) ∧
    ∃ p q : Pos 3, p.Valid ∧ (∀ dbg, Fibs.decode dbg 3 (Fibs.encode p) = some (.ok q)) ∧ p.eqv q = false := by
  have hv : fibsPos.Valid := by decide +kernel
  have hv2 : fibsPos2.Valid := by decide +kernel
  refine ⟨⟨hv, fun dbg => ?_⟩, fibsPos2, { fibsPos2.flip with turn := false }, hv2, fun dbg => ?_, by decide +kernel⟩
  · rw [C28_o_to_move_partial (by decide) fibsPos hv rfl]; rfl
  · rw [C28_o_to_move_partial (by decide) _ hv2 rfl, if_pos (by rfl)]

/-- **C28** for the codec of all variants, `x` to move. -/
theorem C28_variant_round_trip_partial (v : Variant) (q : VPos) (hq : VPos.ValidFor v q) (ht : q = q.withTurnX) (dbg : Bool) :
    Fibs.decodeV dbg v (Fibs.encodeV q) = some (.ok q) := by
  obtain ⟨rfl, hq⟩ := hq
  cases q <;> rename_i p <;> simp only [VPos.withTurnX, VPos.backgammon.injEq, VPos.nackgammon.injEq, VPos.longgammon.injEq,
      VPos.hypergammon.injEq, VPos.hypergammon2.injEq, VPos.hypergammon4.injEq, VPos.hypergammon5.injEq] at ht <;>
    simp [Fibs.decodeV, Fibs.encodeV, VPos.encodeWith, VPos.variant, Variant.decodeWith, Except.map,
      C28_round_trip_partial (by omega) p hq (by rw [ht])]

example := C28_variant_round_trip_partial .hypergammon (.hypergammon Ex.barPos) ⟨rfl, by show Ex.barPos.Valid; decide⟩ rfl true

/-! ### C29 -/

theorem cellsX_flip (q : Pos N) : cellsX q.flip.pips = cellsO q.pips := by
  unfold cellsX cellsO
  rw [← Equiv.sum_comp Fin.revPerm]
  refine Finset.sum_congr rfl fun i _ => ?_
  have : (Fin.revPerm i : Fin 26) = ⟨25 - i.val, by omega⟩ := by
    apply Fin.ext; simp [Fin.revPerm, Fin.rev]
  rw [this]
  simp only [Pos.flip]
  congr 3
  apply Fin.ext
  simp only
  omega

theorem cellsO_flip (q : Pos N) : cellsO q.flip.pips = cellsX q.pips := by
  unfold cellsX cellsO
  rw [← Equiv.sum_comp Fin.revPerm]
  refine Finset.sum_congr rfl fun i _ => ?_
  have : (Fin.revPerm i : Fin 26) = ⟨25 - i.val, by omega⟩ := by
    apply Fin.ext; simp [Fin.revPerm, Fin.rev]
  rw [this]
  simp only [Pos.flip, Int.neg_neg]
  congr 2
  apply Fin.ext
  simp only
  omega

/-- An accepted text, taken apart. -/
theorem Fibs.decode_ok {dbg : Bool} {s : Str} {p : Pos N} (h : Fibs.decode dbg N s = some (.ok p)) :
    ∃ (f : Fields) (off turn : Str) (pips : Fin 26 → Int) (q : Pos N) (x o : Nat),
      readFields (splitChar ';' s) {} = .ok f ∧ f.turn = some turn ∧ f.off = some off ∧ parseTwoCounts off = .ok (x, o) ∧
      tryFrom dbg N pips = some (.ok q) ∧ finish turn x o q = .ok p := by
  unfold Fibs.decode at h
  split at h
  · cases h
  · rename_i f hf
    split at h
    · rename_i turn bar off points e1 e2 e3 e4
      split at h
      · cases h
      · split at h
        · cases h
        · rename_i xo x o hxo
          obtain ⟨ob, -, h⟩ := Option.bind_eq_some_iff.1 h
          obtain ⟨r, -, h⟩ := Option.bind_eq_some_iff.1 h
          split at h
          · cases h
          · obtain ⟨r', hr, h⟩ := Option.map_eq_some_iff.1 h
            split at h
            · cases h
            · exact ⟨f, off, turn, _, _, x, o, hf, e1, e3, hxo, hr, h⟩
    · cases h

/-- **C29** An accepted text gives a position with the announced off counts; in a debug build the position is valid, in a release build
it is valid unless it shows more than 127 checkers of one side. -/
theorem C29_accepted_partial (dbg : Bool) (hN : N ≤ 127) (s : Str) (p : Pos N) (h : Fibs.decode dbg N s = some (.ok p)) :
    (∃ f off, readFields (splitChar ';' s) {} = .ok f ∧ f.off = some off ∧ parseTwoCounts off = .ok (p.xOff, p.oOff)) ∧
    (dbg = true ∨ (cellsX p.pips ≤ 127 ∧ cellsO p.pips ≤ 127) → p.Valid) := by
  obtain ⟨f, off, turn, pips, q, x, o, h1, -, h3, h4, h5, h6⟩ := Fibs.decode_ok h
  obtain ⟨hq, -⟩ := tryFrom_pips h5
  have hbound : dbg = true → cellsX pips ≤ 127 ∧ cellsO pips ≤ 128 := by
    rintro rfl
    by_contra hc
    rw [(C15_debug_panic_partial hN pips).2 (by omega)] at h5
    cases h5
  have hval := fun a b => C15_accepted_is_valid_partial dbg hN pips a b q h5
  unfold finish at h6
  split at h6
  · split at h6
    · cases h6
    · rename_i hne
      injection h6 with h6
      subst h6
      refine ⟨⟨f, off, h1, h3, by rw [h4]; simp only [not_or, not_not] at hne; rw [hne.1, hne.2]⟩, fun hd => ?_⟩
      refine Pos.Valid.flip (hval ?_ ?_)
      · rcases hd with hd | hd
        · exact (hbound hd).1
        · rw [cellsO_flip, hq] at hd; exact hd.2
      · rcases hd with hd | hd
        · exact (hbound hd).2
        · rw [cellsX_flip, hq] at hd; omega
  · split at h6
    · cases h6
    · split at h6
      · cases h6
      · rename_i hne
        injection h6 with h6
        subst h6
        refine ⟨⟨f, off, h1, h3, by rw [h4]; simp only [not_or, not_not] at hne; rw [hne.1, hne.2]⟩, fun hd => ?_⟩
        refine hval ?_ ?_
        · rcases hd with hd | hd
          · exact (hbound hd).1
          · rw [hq] at hd; exact hd.1
        · rcases hd with hd | hd
          · exact (hbound hd).2
          · rw [hq] at hd; omega

example := C29_accepted_partial true (by omega) (Fibs.encode Ex.start) Ex.start (C28_round_trip_partial (by omega) _ (by decide) rfl _)

theorem opt_bind_none {α β : Type} {o : Option α} {f : α → Option β} (h : o.bind f = none) : o = none ∨ ∃ a, o = some a ∧ f a = none := by
  cases o with
  | none => exact Or.inl rfl
  | some a => exact Or.inr ⟨a, rfl, h⟩

theorem i8_release (z : Int) : i8 false z ≠ none := by
  unfold i8; split <;> simp

theorem sumI8_release (l : List Int) : ∀ acc, sumI8 false l acc ≠ none := by
  induction l with
  | nil => intro acc; simp [sumI8]
  | cons v l ih =>
    intro acc
    unfold sumI8
    cases h : i8 false (acc + v) with
    | none => exact absurd h (i8_release _)
    | some z => simpa using ih z

/-- In a release build `try_from` never panics. -/
theorem tryFrom_release (pips : Fin 26 → Int) : tryFrom false N pips ≠ none := by
  unfold tryFrom
  intro h
  rcases opt_bind_none h with h | ⟨a, -, h⟩
  · exact sumI8_release _ _ h
  rcases opt_bind_none h with h | ⟨b, -, h⟩
  · exact i8_release _ h
  rcases opt_bind_none h with h | ⟨c, -, h⟩
  · exact sumI8_release _ _ h
  rcases opt_bind_none h with h | ⟨d, -, h⟩
  · exact i8_release _ h
  cases h

theorem parsePoint_none {dbg : Bool} {t : Str} (h : parsePoint dbg t = none) :
    dbg = true ∧ ∃ r, t = 'o' :: r ∧ parseInt 127 r = some (-128) := by
  unfold parsePoint at h
  split at h
  · cases h
  · split at h
    · split at h <;> cases h
    · split at h
      · rename_i r hr
        split at h
        · rename_i z hz
          rw [Option.map_eq_none_iff] at h
          have hb := parseInt_range hz
          cases dbg with
          | false => exact absurd h (i8_release _)
          | true =>
            refine ⟨rfl, r, stripPrefix_some.1 hr, ?_⟩
            unfold i8 at h
            split_ifs at h with h1
            rw [hz]; congr 1; omega
        · cases h
      · cases h

theorem readPoints_none {dbg : Bool} : ∀ {n : Nat} {ts : List Str}, readPoints dbg n ts = none →
    dbg = true ∧ ∃ t ∈ ts, ∃ r, trim t = 'o' :: r ∧ parseInt 127 r = some (-128)
  | 0, [], h => by cases h
  | 0, _ :: _, h => by cases h
  | _ + 1, [], h => by cases h
  | n + 1, t :: ts, h => by
    unfold readPoints at h
    rcases opt_bind_none h with h | ⟨r, -, h⟩
    · obtain ⟨a, b⟩ := parsePoint_none h
      exact ⟨a, t, by simp, b⟩
    · split at h
      · cases h
      · rw [Option.map_eq_none_iff] at h
        obtain ⟨a, u, hu, b⟩ := readPoints_none h
        exact ⟨a, u, by simp [hu], b⟩

/-- **C29** `decode` never panics in a release build. In a debug build it panics only on texts with 128 checkers of `o` on the bar, with a
point written `o-128`, or with more than 127 checkers of `x` or 128 of `o`. -/
theorem C29_panic_partial (dbg : Bool) (hN : N ≤ 127) (s : Str) (h : Fibs.decode dbg N s = none) :
    dbg = true ∧ ∃ f bar points xBar oBar, readFields (splitChar ';' s) {} = .ok f ∧ f.bar = some bar ∧ f.points = some points ∧
      parseTwoCounts bar = .ok (xBar, oBar) ∧
      (oBar = 128 ∨ (∃ t ∈ splitChar ',' points, ∃ r, trim t = 'o' :: r ∧ parseInt 127 r = some (-128)) ∨
        ∃ pts, readPoints true 24 (splitChar ',' points) = some (.ok pts) ∧
          (127 < cellsX (cells (wrap8 xBar) (-(wrap8 oBar)) pts) ∨ 128 < cellsO (cells (wrap8 xBar) (-(wrap8 oBar)) pts))) := by
  unfold Fibs.decode at h
  split at h
  · cases h
  · rename_i f hf
    split at h
    · rename_i turn bar off points e1 e2 e3 e4
      split at h
      · cases h
      · rename_i xBar oBar hbar
        split at h
        · cases h
        · have hr : ∀ z : Int, i8 dbg (-(wrap8 oBar)) = some z → z = -(wrap8 oBar) ∨ (dbg = false) := by
            intro z hz
            unfold i8 at hz
            split_ifs at hz
            · exact Or.inl (Option.some.inj hz).symm
            · exact Or.inr (by simpa using ‹¬ dbg = true›)
          rcases opt_bind_none h with h | ⟨ob, hob, h⟩
          · cases dbg with
            | false => exact absurd h (i8_release _)
            | true =>
              refine ⟨rfl, f, bar, points, xBar, oBar, hf, e2, e4, hbar, Or.inl ?_⟩
              unfold i8 at h
              split_ifs at h with h1
              have : parseTwoCounts bar = .ok (xBar, oBar) → oBar ≤ 255 := by
                intro hp
                exact parseTwoCounts_le hp
              have := this hbar
              unfold wrap8 at h1
              omega
          · rcases opt_bind_none h with h | ⟨r, hrp, h⟩
            · obtain ⟨a, b⟩ := readPoints_none h
              exact ⟨a, f, bar, points, xBar, oBar, hf, e2, e4, hbar, Or.inr (Or.inl b)⟩
            · split at h
              · cases h
              · rename_i pts
                rw [Option.map_eq_none_iff] at h
                cases dbg with
                | false => exact absurd h (tryFrom_release _)
                | true =>
                  have := (C15_debug_panic_partial hN _).1 h
                  rcases hr ob hob with rfl | h'
                  · exact ⟨rfl, f, bar, points, xBar, oBar, hf, e2, e4, hbar, Or.inr (Or.inr ⟨pts, hrp, this⟩)⟩
                  · cases h'
    · cases h

/-- A count of 128 panics in a debug build. -/
example : ∃ t, t.length ≤ 128 ∧ Fibs.decode true 15 t = none := ⟨"bar=x0,o128;off=x0,o0;turn=x;points=-,-,-,-,-,-,-,-,-,-,-,-,-,-,-,-,-,-,-,-,-,-,-,-".toList, by decide +kernel⟩

/-- The text `turn=x;bar=x0,o<b>;off=x0,o0;points=<t>,-,...,-`. -/
def fibsText (b t : String) : Str :=
  "turn=x;bar=x0,o".toList ++ b.toList ++ ";off=x15,o15;points=".toList ++ t.toList ++ ",-,-,-,-,-,-,-,-,-,-,-,-,-,-,-,-,-,-,-,-,-,-".toList

/-- **C29** fails in general: three texts on which `decode` panics in a debug build, the last of which is accepted in a release build with
256 checkers on the board and the announced 15 off. -/
theorem C29_counterexample :
    Fibs.decode true 15 (fibsText "128" "-,-") = none ∧ Fibs.decode true 15 (fibsText "0" "o-128,-") = none ∧
    Fibs.decode true 15 ("turn=x;bar=x2,o0;off=x15,o15;points=x127,x127,-,-,-,-,-,-,-,-,-,-,-,-,-,-,-,-,-,-,-,-,-,-".toList) = none ∧
    ∃ p : Pos 15, Fibs.decode false 15 ("turn=x;bar=x2,o0;off=x15,o15;points=x127,x127,-,-,-,-,-,-,-,-,-,-,-,-,-,-,-,-,-,-,-,-,-,-".toList) =
      some (.ok p) ∧ ¬ p.Valid := by
  have h1 : (Fibs.decode true 15 (fibsText "128" "-,-")).isNone = true := by decide +kernel
  have h2 : (Fibs.decode true 15 (fibsText "0" "o-128,-")).isNone = true := by decide +kernel
  have h3 : (Fibs.decode true 15 ("turn=x;bar=x2,o0;off=x15,o15;points=x127,x127,-,-,-,-,-,-,-,-,-,-,-,-,-,-,-,-,-,-,-,-,-,-".toList)).isNone
    = true := by decide +kernel
  have h4 : (match Fibs.decode false 15
      ("turn=x;bar=x2,o0;off=x15,o15;points=x127,x127,-,-,-,-,-,-,-,-,-,-,-,-,-,-,-,-,-,-,-,-,-,-".toList) with
    | some (.ok p) => decide (¬ p.Valid)
    | _ => false) = true := by decide +kernel
  refine ⟨Option.isNone_iff_eq_none.1 h1, Option.isNone_iff_eq_none.1 h2, Option.isNone_iff_eq_none.1 h3, ?_⟩
  split at h4
  · rename_i p hp
    exact ⟨p, hp, of_decide_eq_true h4⟩
  · cases h4

/-- A text that is accepted (spaces around fields and signed counts included). -/
example : (match Fibs.decode true 3 ("off = x2, o0 ;turn=x;bar=x0,o1;points=-,-,-,o-0,o2,-,-,-,-,-,-,-,-,-,-,-,-,-,-,-,x1,-,-,-".toList) with
    | some (.ok p) => decide (p.Valid ∧ p.pip 4 = 1 ∧ p.pip 20 = -2 ∧ p.oBar = 1)
    | _ => false) = true := by decide +kernel

/-- **C27** In a release build the XGID decoder never panics. -/
theorem C27_release_no_panic (s : Str) : Xgid.decode false N s ≠ none := by
  by_cases hb : BoardText s
  · rw [decode_text hb, Ne, Option.map_eq_none_iff]
    exact tryFrom_release _
  · rw [decode_not_text hb]; simp

end Bkgm
