import Verif.Proofs.GnuId
import Verif.Props.DbHash
import Verif.Spec.Game
/-!
# C22-C24: the GNUBG position id
-/

namespace Bkgm
open GnuId
variable {N : Nat}

/-- What `decode` returns for a key of ten bytes. -/
theorem decodeKey_runs (dbg : Bool) (key : List Nat) {o x : List Nat} {r : List Bool} (ho : o.length = 25) (hx : x.length = 25)
    (h : keyBits key = o.flatMap runBits ++ (x.flatMap runBits ++ r)) :
    decodeKey dbg N key = (sub8 dbg N x.sum).bind fun xOff => (sub8 dbg N o.sum).bind fun oOff => some ⟨true, fun i =>
      (if i.val = 0 then 0 else (x.getD (i.val - 1) 0 : Int)) - (if i.val = 25 then 0 else (o.getD (24 - i.val) 0 : Int)),
      xOff, oOff⟩ := by
  have h1 := readRuns_flat o (x.flatMap runBits ++ r)
  have h2 := readRuns_flat x r
  rw [ho] at h1
  rw [hx] at h2
  rw [decodeKey, h, h1, Option.bind_some, h2, Option.bind_some]

theorem sub8_le (dbg : Bool) {a b : Nat} (h : b ≤ a) : sub8 dbg a b = some (a - b) := by simp [sub8, h]

/-- **C22** Decoding the id of a valid position (at most 15 checkers per side) gives back the position, with `x` to move; the id
always has 14 characters. Neither direction panics, in a debug or a release build. -/
theorem C22_round_trip (hN : N ≤ 15) (p : Pos N) (hp : p.Valid) :
    ∃ id, encode p = some id ∧ id.length = 14 ∧ ∀ dbg, decode dbg N id = some (.ok { p with turn := true }) := by
  have sx := xRuns_sum hp.xBar
  have so := oRuns_sum hp.oBar
  have hX := hp.sumX
  have hO := hp.sumO
  have c1 : p.view.xOff = p.xOff := rfl
  have c3 : p.view.oOff = p.oOff := rfl
  obtain ⟨key, hk, hl, hb, bits⟩ := encodeKey_bits p (by omega)
  obtain ⟨id, he, hlen, hd⟩ := encode_of_key hk hl hb
  refine ⟨id, he, hlen, fun dbg => ?_⟩
  rw [decode, hd]
  simp only [hl, ne_eq, not_true_eq_false, if_false]
  rw [decodeKey_runs dbg key (oRuns_length p) (xRuns_length p) bits, sub8_le dbg (by omega), sub8_le dbg (by omega)]
  simp only [Option.bind_some, Option.map_some, Option.some.injEq, Except.ok.injEq]
  have hb0 := hp.xBar
  have hb25 := hp.oBar
  simp only [Pos.view] at hb0 hb25
  refine Pos.ext rfl ?_ (by show N - (xRuns p).sum = p.xOff; omega) (by show N - (oRuns p).sum = p.oOff; omega)
  funext i
  have hi := i.isLt
  have hpip : p.pips i = p.pip i.val := by simp [Pos.pip, hi]
  show (if i.val = 0 then 0 else ((xRuns p).getD (i.val - 1) 0 : Int)) -
    (if i.val = 25 then 0 else ((oRuns p).getD (24 - i.val) 0 : Int)) = p.pips i
  rw [hpip]
  by_cases h0 : i.val = 0
  · rw [if_pos h0, if_neg (by omega), getD_oRuns p _ (by omega), h0]
    omega
  · rw [if_neg h0, getD_xRuns p _ (by omega) (by omega)]
    by_cases h25 : i.val = 25
    · rw [if_pos h25, h25]; omega
    · rw [if_neg h25, getD_oRuns p _ (by omega)]; omega

example := C22_round_trip (by omega) Ex.hitPos (by decide)

/-- **C22** Hence two valid positions have the same id iff they are equal (turn ignored). -/
theorem C22_injective (hN : N ≤ 15) (p q : Pos N) (hp : p.Valid) (hq : q.Valid) :
    encode p = encode q ↔ p.eqv q = true := by
  constructor
  · intro h
    obtain ⟨i, hi, -, di⟩ := C22_round_trip hN p hp
    obtain ⟨j, hj, -, dj⟩ := C22_round_trip hN q hq
    rw [hi, hj] at h
    injection h with h
    subst h
    have := (di true).symm.trans (dj true)
    simp only [Option.some.injEq, Except.ok.injEq, Pos.mk.injEq] at this
    obtain ⟨-, a, b, c⟩ := this
    simp [Pos.eqv, a, b, c]
  · intro h
    unfold Pos.eqv at h
    simp only [Bool.and_eq_true, decide_eq_true_eq] at h
    obtain ⟨⟨h1, -⟩, -⟩ := h
    unfold encode encodeKey Pos.oBar Pos.xBar Pos.pip
    rw [h1]

example : GnuId.encode Ex.hitPos ≠ GnuId.encode Ex.barPos := fun h => absurd ((C22_injective (by omega) Ex.hitPos Ex.barPos (by decide) (by decide)).1 h) (by decide)

/-- Positions of a variant with `x` to move. -/
def VPos.withTurnX : VPos → VPos
  | .backgammon p => .backgammon { p with turn := true }
  | .nackgammon p => .nackgammon { p with turn := true }
  | .longgammon p => .longgammon { p with turn := true }
  | .hypergammon p => .hypergammon { p with turn := true }
  | .hypergammon2 p => .hypergammon2 { p with turn := true }
  | .hypergammon4 p => .hypergammon4 { p with turn := true }
  | .hypergammon5 p => .hypergammon5 { p with turn := true }

/-- **C22** The same for the codec of all variants. -/
theorem C22_variant_round_trip (v : Variant) (q : VPos) (hq : VPos.ValidFor v q) :
    ∃ id, encodeV q = some id ∧ id.length = 14 ∧ ∀ dbg, decodeV dbg v id = some (.ok q.withTurnX) := by
  obtain ⟨rfl, hq⟩ := hq
  cases q with
  | backgammon p => obtain ⟨id, a, b, c⟩ := C22_round_trip (by omega) p hq; exact ⟨id, a, b, fun dbg => by simp [decodeV, VPos.variant, Variant.decodeWith, c dbg, VPos.withTurnX, Except.map]⟩
  | nackgammon p => obtain ⟨id, a, b, c⟩ := C22_round_trip (by omega) p hq; exact ⟨id, a, b, fun dbg => by simp [decodeV, VPos.variant, Variant.decodeWith, c dbg, VPos.withTurnX, Except.map]⟩
  | longgammon p => obtain ⟨id, a, b, c⟩ := C22_round_trip (by omega) p hq; exact ⟨id, a, b, fun dbg => by simp [decodeV, VPos.variant, Variant.decodeWith, c dbg, VPos.withTurnX, Except.map]⟩
  | hypergammon p => obtain ⟨id, a, b, c⟩ := C22_round_trip (by omega) p hq; exact ⟨id, a, b, fun dbg => by simp [decodeV, VPos.variant, Variant.decodeWith, c dbg, VPos.withTurnX, Except.map]⟩
  | hypergammon2 p => obtain ⟨id, a, b, c⟩ := C22_round_trip (by omega) p hq; exact ⟨id, a, b, fun dbg => by simp [decodeV, VPos.variant, Variant.decodeWith, c dbg, VPos.withTurnX, Except.map]⟩
  | hypergammon4 p => obtain ⟨id, a, b, c⟩ := C22_round_trip (by omega) p hq; exact ⟨id, a, b, fun dbg => by simp [decodeV, VPos.variant, Variant.decodeWith, c dbg, VPos.withTurnX, Except.map]⟩
  | hypergammon5 p => obtain ⟨id, a, b, c⟩ := C22_round_trip (by omega) p hq; exact ⟨id, a, b, fun dbg => by simp [decodeV, VPos.variant, Variant.decodeWith, c dbg, VPos.withTurnX, Except.map]⟩

/-- The id of the start position (the crate's own constant). -/
example : bgStart.Valid ∧ encode bgStart = some "4HPwATDgc/ABMA".toList := by decide +kernel

/-- Helper to evaluate: the text is decoded to a position that is not valid. -/
def decodesToInvalid (dbg : Bool) (N : Nat) (id : Str) : Bool :=
  match decode dbg N id with
  | some (.ok p) => decide (¬ p.Valid)
  | _ => false

theorem decodesToInvalid_spec {dbg : Bool} {id : Str} (h : decodesToInvalid dbg N id = true) :
    ∃ p : Pos N, decode dbg N id = some (.ok p) ∧ ¬ p.Valid := by
  unfold decodesToInvalid at h
  split at h
  · rename_i p hp
    exact ⟨p, hp, by simpa using h⟩
  · cases h

/-- **C23** fails: decoding the text `/////////////w` (all bits one) panics, in every build; decoding `HwAAAAAAAAAAAA` (five
checkers of `o`) as a hypergammon id panics in a debug build and gives an invalid position in a release build; and
decoding `AQAAAAAAAgAAAA` (both sides on point 24) gives an invalid position in every build. -/
theorem C23_panic_counterexample :
    (∀ dbg, decode dbg 15 "/////////////w".toList = none) ∧
    decode true 3 "HwAAAAAAAAAAAA".toList = none ∧
    (∃ p : Pos 3, decode false 3 "HwAAAAAAAAAAAA".toList = some (.ok p) ∧ ¬ p.Valid) ∧
    (∀ dbg, ∃ p : Pos 15, decode dbg 15 "AQAAAAAAAgAAAA".toList = some (.ok p) ∧ ¬ p.Valid) := by
  have key : ∀ {α : Type} (o : Option α), o.isNone = true → o = none := fun o h => by cases o; rfl; cases h
  refine ⟨fun dbg => key _ ?_, key _ (by decide +kernel), decodesToInvalid_spec (by decide +kernel),
    fun dbg => decodesToInvalid_spec ?_⟩ <;> cases dbg <;> decide +kernel

/-- The bits of a text that is a base64 payload of ten bytes. -/
def payloadBits (id : Str) : Option (List Bool) :=
  (b64Decode (id ++ ['=', '='])).bind fun key => if key.length = 10 then some (keyBits key) else none

theorem payloadBits_some {id : Str} {bits : List Bool} (h : payloadBits id = some bits) :
    ∃ key, b64Decode (id ++ ['=', '=']) = some key ∧ key.length = 10 ∧ keyBits key = bits ∧ bits.length = 80 := by
  unfold payloadBits at h
  obtain ⟨key, h1, h2⟩ := Option.bind_eq_some_iff.1 h
  split at h2
  · rename_i hl
    injection h2 with h2
    refine ⟨key, h1, hl, h2, ?_⟩
    rw [← h2, keyBits_eq]
    simp [hl]
  · cases h2

theorem payloadBits_none {id : Str} (h : payloadBits id = none) (dbg : Bool) : ∃ e, decode dbg N id = some (.error e) := by
  unfold payloadBits at h
  unfold decode
  cases hd : b64Decode (id ++ ['=', '=']) with
  | none => exact ⟨_, rfl⟩
  | some key =>
    rw [hd] at h
    by_cases hl : key.length = 10
    · simp [hl] at h
    · exact ⟨_, by simp only [if_pos hl]; rfl⟩

theorem decode_bits {id : Str} {bits : List Bool} (h : payloadBits id = some bits) (dbg : Bool) :
    ∃ key, b64Decode (id ++ ['=', '=']) = some key ∧ key.length = 10 ∧ keyBits key = bits ∧
      decode dbg N id = (decodeKey dbg N key).map .ok := by
  obtain ⟨key, h1, h2, h3, -⟩ := payloadBits_some h
  refine ⟨key, h1, h2, h3, ?_⟩
  rw [decode, h1]
  simp [h2]

/-- The bits as runs, if there are enough zeros. -/
theorem bits_runs (bits : List Bool) :
    (bits.count false < 50 ∧ ∀ dbg key, keyBits key = bits → decodeKey dbg N key = none) ∨
    (50 ≤ bits.count false ∧ ∃ (o x : List Nat) (r : List Bool), o.length = 25 ∧ x.length = 25 ∧ bits = o.flatMap runBits ++ (x.flatMap runBits ++ r) ∧
      onesBefore 25 bits = o.sum ∧ onesBefore 50 bits = o.sum + x.sum ∧ bits.count true = o.sum + x.sum + r.count true) := by
  cases h1 : readRuns 25 bits with
  | none =>
    left
    refine ⟨by have := readRuns_none h1; omega, fun dbg key hk => ?_⟩
    rw [decodeKey, hk, h1]; rfl
  | some t =>
    obtain ⟨o, s⟩ := t
    obtain ⟨ho, e1⟩ := readRuns_some h1
    cases h2 : readRuns 25 s with
    | none =>
      left
      refine ⟨?_, fun dbg key hk => ?_⟩
      · have := readRuns_none h2
        rw [e1, List.count_append, (count_flat o).1, ho]
        omega
      · rw [decodeKey, hk, h1, Option.bind_some, h2]; rfl
    | some t =>
      obtain ⟨x, r⟩ := t
      obtain ⟨hx, e2⟩ := readRuns_some h2
      right
      rw [e2] at e1
      have a := onesBefore_flat o 0 (x.flatMap runBits ++ r)
      have b := onesBefore_flat o 25 (x.flatMap runBits ++ r)
      have c := onesBefore_flat x 0 r
      rw [ho] at a b
      rw [hx] at c
      simp only [Nat.add_zero, onesBefore] at a c
      refine ⟨?_, o, x, r, ho, hx, e1, by rw [e1, a], by rw [e1, b, c], ?_⟩
      · rw [e1, List.count_append, List.count_append, (count_flat o).1, (count_flat x).1, ho, hx]; omega
      · rw [e1, List.count_append, List.count_append, (count_flat o).2, (count_flat x).2]; omega

/-- **C23**, exact panic condition in a debug build: decoding panics iff the text is the base64 form of ten bytes whose 80 bits contain
fewer than 50 zeros, or more than `N` ones before the 25th zero (checkers of `o`), or more than `N` between the 25th and
the 50th zero (checkers of `x`). A text that is not the base64 form of ten bytes gives an error. -/
theorem C23_panic_iff_partial (id : Str) :
    (decode true N id = none ↔ ∃ bits, payloadBits id = some bits ∧
      (bits.count false < 50 ∨ N < onesBefore 25 bits ∨ N < onesBefore 50 bits - onesBefore 25 bits)) ∧
    (payloadBits id = none → ∀ dbg, ∃ e, decode dbg N id = some (.error e)) := by
  refine ⟨?_, fun h dbg => payloadBits_none h dbg⟩
  cases hb : payloadBits id with
  | none =>
    obtain ⟨e, h⟩ := payloadBits_none (N := N) hb true
    simp [h]
  | some bits =>
    obtain ⟨key, -, -, hk, hd⟩ := decode_bits (N := N) hb true
    rw [hd, Option.map_eq_none_iff]
    simp only [Option.some.injEq, exists_eq_left']
    rcases bits_runs (N := N) bits with ⟨h1, h2⟩ | ⟨h1, o, x, r, ho, hx, e, a, b, -⟩
    · exact ⟨fun _ => Or.inl h1, fun _ => h2 true key hk⟩
    · rw [decodeKey_runs true key ho hx (hk.trans e), a, b, Nat.add_sub_cancel_left]
      unfold sub8
      constructor
      · intro h
        by_cases h2 : x.sum ≤ N
        · by_cases h3 : o.sum ≤ N
          · simp [h2, h3] at h
          · right; left; omega
        · right; right; omega
      · rintro (h | h | h)
        · omega
        · rw [if_neg (by omega : ¬ o.sum ≤ N)]
          by_cases h2 : x.sum ≤ N <;> simp [h2]
        · rw [if_neg (by omega : ¬ x.sum ≤ N)]
          simp

example : GnuId.decode true 3 "4HPwATDgc/ABMA".toList = none := by decide +kernel

/-- In a release build only the first of the three conditions panics. -/
theorem C23_release_panic_iff_partial (id : Str) :
    decode false N id = none ↔ ∃ bits, payloadBits id = some bits ∧ bits.count false < 50 := by
  cases hb : payloadBits id with
  | none =>
    obtain ⟨e, h⟩ := payloadBits_none (N := N) hb false
    simp [h]
  | some bits =>
    obtain ⟨key, -, -, hk, hd⟩ := decode_bits (N := N) hb false
    rw [hd, Option.map_eq_none_iff]
    simp only [Option.some.injEq, exists_eq_left']
    rcases bits_runs (N := N) bits with ⟨h1, h2⟩ | ⟨h1, o, x, r, ho, hx, e, a, b, -⟩
    · exact ⟨fun _ => h1, fun _ => h2 false key hk⟩
    · rw [decodeKey_runs false key ho hx (hk.trans e)]
      unfold sub8
      constructor
      · intro h
        by_cases h2 : x.sum ≤ N <;> by_cases h3 : o.sum ≤ N <;> simp [h2, h3] at h
      · intro h; omega

/-- The counts behind a decoded position. -/
theorem decoded_runs {id : Str} {p : Pos N} (h : decode true N id = some (.ok p)) :
    ∃ (bits : List Bool) (o x : List Nat) (r : List Bool), payloadBits id = some bits ∧ o.length = 25 ∧ x.length = 25 ∧
      bits = o.flatMap runBits ++ (x.flatMap runBits ++ r) ∧ p.turn = true ∧
      (∀ i : Fin 26, p.pips i = (if i.val = 0 then 0 else (x.getD (i.val - 1) 0 : Int)) -
        (if i.val = 25 then 0 else (o.getD (24 - i.val) 0 : Int))) ∧
      x.sum + p.xOff = N ∧ o.sum + p.oOff = N ∧ bits.count true = o.sum + x.sum + r.count true := by
  cases hb : payloadBits id with
  | none =>
    obtain ⟨e, h'⟩ := payloadBits_none (N := N) hb true
    rw [h'] at h
    simp at h
  | some bits =>
    obtain ⟨key, -, -, hk, hd⟩ := decode_bits (N := N) hb true
    rw [hd] at h
    simp only [Option.map_eq_some_iff, Except.ok.injEq, exists_eq_right] at h
    rcases bits_runs (N := N) bits with ⟨h1, h2⟩ | ⟨h1, o, x, r, ho, hx, e, a, b, c⟩
    · rw [h2 true key hk] at h; cases h
    · rw [decodeKey_runs true key ho hx (hk.trans e)] at h
      unfold sub8 at h
      by_cases h2 : x.sum ≤ N <;> by_cases h3 : o.sum ≤ N <;>
        simp only [h2, h3, if_true, if_false, Option.bind_some, Option.bind_none, Option.some.injEq, reduceCtorEq] at h
      refine ⟨bits, o, x, r, rfl, ho, hx, e, ?_, ?_, ?_, ?_, c⟩
      · rw [← h]
      · intro i; rw [← h]
      · rw [← h]; show x.sum + (N - x.sum) = N; omega
      · rw [← h]; show o.sum + (N - o.sum) = N; omega

theorem list_le {a b : List Nat} (hl : a.length = b.length) (h : ∀ j, a.getD j 0 ≤ b.getD j 0) :
    a.sum ≤ b.sum ∧ (a.sum = b.sum → a = b) := by
  induction a generalizing b with
  | nil => cases b with
    | nil => simp
    | cons _ _ => simp at hl
  | cons x a ih =>
    cases b with
    | nil => simp at hl
    | cons y b =>
      obtain ⟨h1, h2⟩ := ih (b := b) (by simpa using hl) (fun j => by simpa using h (j + 1))
      have h0 : x ≤ y := by simpa using h 0
      simp only [List.sum_cons]
      refine ⟨by omega, fun e => ?_⟩
      obtain rfl : x = y := by omega
      rw [h2 (by omega)]

/-- For a decoded valid position the counts are those of the position. -/
theorem runs_of_valid {o x : List Nat} {p : Pos N} (hp : p.Valid) (ho : o.length = 25) (hx : x.length = 25)
    (h : ∀ i : Fin 26, p.pips i = (if i.val = 0 then 0 else (x.getD (i.val - 1) 0 : Int)) -
        (if i.val = 25 then 0 else (o.getD (24 - i.val) 0 : Int)))
    (sx : x.sum + p.xOff = N) (so : o.sum + p.oOff = N) : xRuns p = x ∧ oRuns p = o := by
  have hX := hp.sumX
  have hO := hp.sumO
  have c1 : p.view.xOff = p.xOff := rfl
  have c3 : p.view.oOff = p.oOff := rfl
  have hpip : ∀ i, i < 26 → p.pip i = (if i = 0 then 0 else (x.getD (i - 1) 0 : Int)) -
        (if i = 25 then 0 else (o.getD (24 - i) 0 : Int)) := fun i hi => by
    have := h ⟨i, hi⟩
    simpa [Pos.pip, hi] using this
  constructor
  · refine (list_le (by rw [xRuns_length, hx]) fun j => ?_).2 (by rw [xRuns_sum hp.xBar]; omega)
    by_cases hj : j < 25
    · have e := getD_xRuns p (j + 1) (by omega) (by omega)
      rw [Nat.add_sub_cancel] at e
      have hp' := hpip (j + 1) (by omega)
      rw [if_neg (by omega), Nat.add_sub_cancel] at hp'
      rw [e]
      split at hp' <;> omega
    · rw [List.getD_eq_getElem?_getD, List.getElem?_eq_none (by rw [xRuns_length]; omega)]
      exact Nat.zero_le _
  · refine (list_le (by rw [oRuns_length, ho]) fun j => ?_).2 (by rw [oRuns_sum hp.oBar]; omega)
    by_cases hj : j < 25
    · have e := getD_oRuns p (24 - j) (by omega)
      rw [show 24 - (24 - j) = j by omega] at e
      have hp' := hpip (24 - j) (by omega)
      rw [if_neg (by omega : ¬ 24 - j = 25), show 24 - (24 - j) = j by omega] at hp'
      rw [e]
      split at hp' <;> omega
    · rw [List.getD_eq_getElem?_getD, List.getElem?_eq_none (by rw [oRuns_length]; omega)]
      exact Nat.zero_le _

/-- **C23** What an accepted text gives (debug build): `x` is to move, and the position is valid iff no point holds checkers of both
sides, i.e. iff the checkers on the board are exactly the ones before the 50th zero. -/
theorem C23_accepted_partial (id : Str) (p : Pos N) (h : decode true N id = some (.ok p)) :
    p.turn = true ∧ p.xOff ≤ N ∧ p.oOff ≤ N ∧ p.BarsOK ∧
    ∃ bits, payloadBits id = some bits ∧
      (p.Valid ↔ p.view.countX = onesBefore 50 bits - onesBefore 25 bits ∧ p.view.countO = onesBefore 25 bits) := by
  obtain ⟨bits, o, x, r, hb, ho, hx, e, ht, hpips, sx, so, -⟩ := decoded_runs h
  have a := onesBefore_flat o 0 (x.flatMap runBits ++ r)
  have b := onesBefore_flat o 25 (x.flatMap runBits ++ r)
  have c := onesBefore_flat x 0 r
  rw [ho] at a b
  rw [hx] at c
  simp only [Nat.add_zero, onesBefore] at a c
  have ea : onesBefore 25 bits = o.sum := by rw [e, a]
  have eb : onesBefore 50 bits = o.sum + x.sum := by rw [e, b, c]
  have p0 : p.pip 0 ≤ 0 := by
    have := hpips ⟨0, by omega⟩
    simp only [if_true] at this
    simp only [Pos.pip]
    rw [dif_pos (by omega), this]
    simp only [show ¬ (0 = 25) by omega, if_false]
    omega
  have p25 : 0 ≤ p.pip 25 := by
    have := hpips ⟨25, by omega⟩
    simp only [if_true] at this
    simp only [Pos.pip]
    rw [dif_pos (by omega), this]
    simp only [show ¬ (25 = 0) by omega, if_false]
    omega
  refine ⟨ht, by omega, by omega, ⟨p0, p25⟩, bits, hb, fun hp => ?_, fun ⟨h1, h2⟩ => ?_⟩
  · have hX := hp.sumX
    have hO := hp.sumO
    have c1 : p.view.xOff = p.xOff := rfl
    have c3 : p.view.oOff = p.oOff := rfl
    rw [ea, eb]; omega
  · rw [ea, eb, Nat.add_sub_cancel_left] at h1
    rw [ea] at h2
    refine ⟨?_, ?_, ?_, ?_, ?_⟩
    · simp only [Pos.view]; omega
    · simp only [Pos.view]; omega
    · intro i _; simp only [Pos.view]; omega
    · rw [h1]; exact sx
    · rw [h2]; exact so

example : ∃ bits, payloadBits "4HPwATDgc/ABMA".toList = some bits ∧
    (bgStart.Valid ↔ bgStart.view.countX = onesBefore 50 bits - onesBefore 25 bits ∧ bgStart.view.countO = onesBefore 25 bits) := by
  obtain ⟨id, h1, -, h3⟩ := C22_round_trip (by omega) bgStart (by decide)
  obtain rfl : id = "4HPwATDgc/ABMA".toList := Option.some.inj (h1.symm.trans (by decide +kernel))
  exact (C23_accepted_partial _ bgStart (h3 true)).2.2.2.2

/-- **C24**, for ids without stray bits: if a text decodes to a valid position and the only bits set are those of its checkers, then
encoding the position gives back the text. -/
theorem C24_reencode_partial (id : Str) (p : Pos N) (h : decode true N id = some (.ok p)) (hp : p.Valid)
    (bits : List Bool) (hbits : payloadBits id = some bits) (hc : bits.count true = p.view.countX + p.view.countO) :
    encode p = some id := by
  obtain ⟨bits', o, x, r, hb, ho, hx, e, ht, hpips, sx, so, hcount⟩ := decoded_runs h
  rw [hbits] at hb
  injection hb with hb
  subst hb
  obtain ⟨ex, eo⟩ := runs_of_valid hp ho hx hpips sx so
  obtain ⟨key, hk, hl, hkb, hlen⟩ := payloadBits_some hbits
  have hX := hp.sumX
  have hO := hp.sumO
  have c1 : p.view.xOff = p.xOff := rfl
  have c3 : p.view.oOff = p.oOff := rfl
  have hr0 : r.count true = 0 := by omega
  have hr : r = List.replicate r.length false := by
    apply List.eq_replicate_of_mem
    intro b hb
    cases b with
    | false => rfl
    | true => exact absurd hb (List.count_eq_zero.1 hr0)
  have hrl : r.length = 30 - (o.sum + x.sum) ∧ o.sum + x.sum ≤ 30 := by
    rw [e, List.length_append, List.length_append, flat_length, flat_length, ho, hx] at hlen
    omega
  obtain ⟨key', hk', hl', hb', bits'⟩ := encodeKey_bits p (by rw [ex, eo]; omega)
  have heq : keyBits key' = keyBits key := by
    rw [bits', hkb, e, ex, eo, hr, hrl.1]
  obtain ⟨hs, hbyte⟩ := b64Encode_decode _ _ hk
  have hkk := keyBits_inj hb' hbyte (by omega) heq
  have hid : id.length = 14 := by
    obtain ⟨t, ht, e⟩ := b64Encode_ten key hl
    rw [hs] at e
    have := congrArg List.length e
    simp only [List.length_append] at this
    omega
  rw [encode, hk', Option.map_some, hkk, hs, ← hid]
  simp

/-- **C24** fails without that condition: `AAAAAAAAAAAAgA` decodes to the (valid) empty board, whose id is `AAAAAAAAAAAAAA`. -/
theorem C24_stray_bit_counterexample :
    ∃ p : Pos 15, decode true 15 "AAAAAAAAAAAAgA".toList = some (.ok p) ∧ p.Valid ∧
      encode p = some "AAAAAAAAAAAAAA".toList := by
  have h : (match decode true 15 "AAAAAAAAAAAAgA".toList with
    | some (.ok p) => decide (p.Valid ∧ encode p = some "AAAAAAAAAAAAAA".toList)
    | _ => false) = true := by decide +kernel
  split at h
  · rename_i p hp
    exact ⟨p, hp, of_decide_eq_true h⟩
  · cases h

/-- The hypotheses of `C24_reencode_partial` are met by the ids of all valid positions with at most 15 checkers. -/
theorem C24_encoded_ids_qualify (hN : N ≤ 15) (p : Pos N) (hp : p.Valid) :
    ∃ id bits, encode p = some id ∧ payloadBits id = some bits ∧ bits.count true = p.view.countX + p.view.countO := by
  have sx := xRuns_sum hp.xBar
  have so := oRuns_sum hp.oBar
  have hX := hp.sumX
  have hO := hp.sumO
  obtain ⟨key, hk, hl, hb, bits⟩ := encodeKey_bits p (by omega)
  obtain ⟨id, he, hlen, hd⟩ := encode_of_key hk hl hb
  refine ⟨id, keyBits key, he, by simp [payloadBits, hd, hl], ?_⟩
  rw [bits, List.count_append, List.count_append, (count_flat _).2, (count_flat _).2, sx, so, List.count_replicate]
  simp only [show (false == true) = false from rfl, Bool.false_eq_true, if_false]
  omega

/-- **C24, the exact condition** for at most 15 checkers per side: an id that decodes to a valid position is the id of that position if and only if it has no
stray bits, that is, the only bits set are those of the position's checkers. -/
theorem C24_reencode_iff_partial (hN : N ≤ 15) (id : Str) (p : Pos N) (h : decode true N id = some (.ok p)) (hp : p.Valid)
    (bits : List Bool) (hbits : payloadBits id = some bits) :
    encode p = some id ↔ bits.count true = p.view.countX + p.view.countO := by
  refine ⟨fun he => ?_, C24_reencode_partial id p h hp bits hbits⟩
  obtain ⟨id', bits', h1, h2, h3⟩ := C24_encoded_ids_qualify hN p hp
  rw [he] at h1
  cases h1
  rw [hbits] at h2
  cases h2
  exact h3

/-- The id of a valid position satisfies all these hypotheses. -/
example : ∃ id bits, GnuId.decode true 3 id = some (.ok Ex.hitPos) ∧ payloadBits id = some bits ∧ GnuId.encode Ex.hitPos = some id := by
  obtain ⟨id, bits, h1, h2, h3⟩ := C24_encoded_ids_qualify (by omega) Ex.hitPos (by decide)
  obtain ⟨id', g1, -, g3⟩ := C22_round_trip (by omega) Ex.hitPos (by decide)
  obtain rfl : id = id' := Option.some.inj (h1.symm.trans g1)
  exact ⟨id, bits, g3 true, h2, (C24_reencode_iff_partial (by omega) id Ex.hitPos (g3 true) (by decide) bits h2).2 h3⟩

end Bkgm
