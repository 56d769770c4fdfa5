import Verif.Spec.Codecs
import Verif.Props.GnuId
import Verif.Props.Xgid
import Verif.Props.FibsText
/-!
# C75: the codecs write and read the published text forms
-/
namespace Bkgm
open Pos
variable {N : Nat}

/-! ## GNU Backgammon ids -/

namespace GnuId
open Spec.GnuId

/-- The ten bytes of a number. -/
def bytesOf (K : Nat) : List Nat := (List.range 10).map fun j => K / 256 ^ (9 - j) % 256

theorem letter_eq (n : Nat) : alphabet.getD n '=' = enc6 n := rfl

/-- The letters of ten bytes. -/
theorem b64_text {a b c d e f g h i j : Nat} (ha : a < 256) (hb : b < 256) (hc : c < 256) (hd : d < 256) (he : e < 256) (hf : f < 256) (hg : g < 256)
    (hh : h < 256) (hi : i < 256) (hj : j < 256) (K : Nat)
    (hK : K = ((((((((a * 256 + b) * 256 + c) * 256 + d) * 256 + e) * 256 + f) * 256 + g) * 256 + h) * 256 + i) * 256 + j) :
    b64Encode [a, b, c, d, e, f, g, h, i, j] = text K ++ ['=', '='] := by
  have e0 : K * 16 / 64 ^ 13 % 64 = a / 4 := by subst hK; omega
  have e1 : K * 16 / 64 ^ 12 % 64 = a % 4 * 16 + b / 16 := by subst hK; omega
  have e2 : K * 16 / 64 ^ 11 % 64 = b % 16 * 4 + c / 64 := by subst hK; omega
  have e3 : K * 16 / 64 ^ 10 % 64 = c % 64 := by subst hK; omega
  have e4 : K * 16 / 64 ^ 9 % 64 = d / 4 := by subst hK; omega
  have e5 : K * 16 / 64 ^ 8 % 64 = d % 4 * 16 + e / 16 := by subst hK; omega
  have e6 : K * 16 / 64 ^ 7 % 64 = e % 16 * 4 + f / 64 := by subst hK; omega
  have e7 : K * 16 / 64 ^ 6 % 64 = f % 64 := by subst hK; omega
  have e8 : K * 16 / 64 ^ 5 % 64 = g / 4 := by subst hK; omega
  have e9 : K * 16 / 64 ^ 4 % 64 = g % 4 * 16 + h / 16 := by subst hK; omega
  have e10 : K * 16 / 64 ^ 3 % 64 = h % 16 * 4 + i / 64 := by subst hK; omega
  have e11 : K * 16 / 64 ^ 2 % 64 = i % 64 := by subst hK; omega
  have e12 : K * 16 / 64 ^ 1 % 64 = j / 4 := by subst hK; omega
  have e13 : K * 16 / 64 ^ 0 % 64 = j % 4 * 16 := by subst hK; omega
  have : text K = [enc6 (K * 16 / 64 ^ 13 % 64), enc6 (K * 16 / 64 ^ 12 % 64), enc6 (K * 16 / 64 ^ 11 % 64), enc6 (K * 16 / 64 ^ 10 % 64),
    enc6 (K * 16 / 64 ^ 9 % 64), enc6 (K * 16 / 64 ^ 8 % 64), enc6 (K * 16 / 64 ^ 7 % 64), enc6 (K * 16 / 64 ^ 6 % 64), enc6 (K * 16 / 64 ^ 5 % 64),
    enc6 (K * 16 / 64 ^ 4 % 64), enc6 (K * 16 / 64 ^ 3 % 64), enc6 (K * 16 / 64 ^ 2 % 64), enc6 (K * 16 / 64 ^ 1 % 64), enc6 (K * 16 / 64 ^ 0 % 64)] := rfl
  rw [this, e0, e1, e2, e3, e4, e5, e6, e7, e8, e9, e10, e11, e12, e13]
  rfl

theorem digit_step (K n : Nat) : K / 256 ^ n = K / 256 ^ (n + 1) * 256 + K / 256 ^ n % 256 := by
  rw [Nat.pow_succ, ← Nat.div_div_eq_div_mul]
  omega

theorem b64_bytesOf {K : Nat} (hK : K < 2 ^ 80) : b64Encode (bytesOf K) = text K ++ ['=', '='] := by
  have s0 := digit_step K 0
  have s1 := digit_step K 1
  have s2 := digit_step K 2
  have s3 := digit_step K 3
  have s4 := digit_step K 4
  have s5 := digit_step K 5
  have s6 := digit_step K 6
  have s7 := digit_step K 7
  have s8 := digit_step K 8
  have s9 := digit_step K 9
  have s10 : K / 256 ^ 10 = 0 := Nat.div_eq_of_lt (by simpa using hK)
  have lt : ∀ n, K / 256 ^ n % 256 < 256 := fun n => Nat.mod_lt _ (by omega)
  rw [Nat.pow_zero, Nat.div_one] at s0
  have e : bytesOf K = [K / 256 ^ 9 % 256, K / 256 ^ 8 % 256, K / 256 ^ 7 % 256, K / 256 ^ 6 % 256, K / 256 ^ 5 % 256, K / 256 ^ 4 % 256, K / 256 ^ 3 % 256,
      K / 256 ^ 2 % 256, K / 256 ^ 1 % 256, K % 256] := by
    unfold bytesOf
    simp only [List.range, List.range.loop, List.map_cons, List.map_nil]
    simp
  rw [e]
  have lt0 : K % 256 < 256 := Nat.mod_lt _ (by omega)
  refine b64_text (lt 9) (lt 8) (lt 7) (lt 6) (lt 5) (lt 4) (lt 3) (lt 2) (lt 1) lt0 K ?_
  generalize K / 256 ^ 9 % 256 = a at *
  generalize K / 256 ^ 8 % 256 = b at *
  generalize K / 256 ^ 7 % 256 = c at *
  generalize K / 256 ^ 6 % 256 = d at *
  generalize K / 256 ^ 5 % 256 = e at *
  generalize K / 256 ^ 4 % 256 = f at *
  generalize K / 256 ^ 3 % 256 = g at *
  generalize K / 256 ^ 2 % 256 = h at *
  generalize K / 256 ^ 1 % 256 = i at *
  generalize K % 256 = j at *
  simp only [Nat.reduceAdd] at s0 s1 s2 s3 s4 s5 s6 s7 s8 s9
  rw [s10] at s9
  rw [s9] at s8
  rw [s8] at s7
  rw [s7] at s6
  rw [s6] at s5
  rw [s5] at s4
  rw [s4] at s3
  rw [s3] at s2
  rw [s2] at s1
  rw [s1] at s0
  rw [Nat.zero_mul, Nat.zero_add] at s0
  exact s0

theorem bytesOf_surj {key : List Nat} (hl : key.length = 10) (hb : ∀ b ∈ key, b < 256) : ∃ K, K < 2 ^ 80 ∧ key = bytesOf K := by
  match key, hl with
  | [a, b, c, d, e, f, g, h, i, j], _ =>
    simp only [List.mem_cons, List.not_mem_nil, or_false, forall_eq_or_imp, forall_eq] at hb
    obtain ⟨ha, hb, hc, hd, he, hf, hg, hh, hi, hj⟩ := hb
    refine ⟨((((((((a * 256 + b) * 256 + c) * 256 + d) * 256 + e) * 256 + f) * 256 + g) * 256 + h) * 256 + i) * 256 + j, by omega, ?_⟩
    unfold bytesOf
    simp only [List.range, List.range.loop, List.map_cons, List.map_nil, List.cons.injEq, and_true]
    refine ⟨?_, ?_, ?_, ?_, ?_, ?_, ?_, ?_, ?_, ?_⟩ <;> omega

theorem keyBits_bytesOf (K : Nat) : keyBits (bytesOf K) = bits K := by
  rw [keyBits_eq]
  have hl : (bytesOf K).length = 10 := by simp [bytesOf]
  rw [hl]
  unfold bits
  refine List.map_congr_left fun i hi => ?_
  have hi : i < 80 := by simpa using hi
  unfold GnuId.bit Spec.GnuId.bit
  have : (bytesOf K).getD (i / 8) 0 = K / 256 ^ (9 - i / 8) % 2 ^ 8 := by
    unfold bytesOf
    rw [List.getD_eq_getElem?_getD, List.getElem?_map, List.getElem?_range (by omega)]
    rfl
  rw [this, Nat.testBit_mod_two_pow]
  simp [Nat.mod_lt i (show 0 < 8 by omega)]

/-- The payload of a text. -/
theorem payload_iff {id : Str} {bs : List Bool} : payloadBits id = some bs ↔ ∃ K, K < 2 ^ 80 ∧ id = text K ∧ bs = bits K := by
  constructor
  · intro h
    obtain ⟨key, h1, h2, h3, -⟩ := payloadBits_some h
    obtain ⟨h4, h5⟩ := b64Encode_decode _ _ h1
    obtain ⟨K, hK, rfl⟩ := bytesOf_surj h2 h5
    rw [b64_bytesOf hK] at h4
    exact ⟨K, hK, (List.append_cancel_right h4).symm, by rw [← h3, keyBits_bytesOf]⟩
  · rintro ⟨K, hK, rfl, rfl⟩
    have hb : ∀ b ∈ bytesOf K, b < 256 := by
      intro b hb
      obtain ⟨j, -, rfl⟩ := List.mem_map.1 hb
      exact Nat.mod_lt _ (by omega)
    unfold payloadBits
    rw [← b64_bytesOf hK, b64Decode_encode _ hb, Option.bind_some, if_pos (by simp [bytesOf]), keyBits_bytesOf]

theorem unary_eq (ns : List Nat) : unary ns = ns.flatMap runBits := rfl

theorem counts_eq (p : Pos N) : counts p.view = oRuns p ++ xRuns p := by
  unfold counts oRuns xRuns
  have e1 : (List.range 24).map (fun j => p.view.o (24 - j)) = (List.range' 1 24).reverse.map (fun i => (-p.pip i).toNat) := by
    apply List.ext_getElem
    · simp
    · intro i h1 h2
      simp only [List.getElem_map, List.getElem_range, List.getElem_reverse, List.getElem_range', List.length_range', Pos.view]
      simp at h1
      congr 3
      omega
  have e2 : (List.range 24).map (fun j => p.view.x (j + 1)) = (List.range' 1 24).map (fun i => (p.pip i).toNat) := by
    apply List.ext_getElem
    · simp
    · intro i h1 h2
      simp only [List.getElem_map, List.getElem_range, List.getElem_range', Pos.view]
      congr 2
      omega
  rw [e1, e2, List.append_assoc]
  rfl

end GnuId

/-- **C75** The GNU id of a valid position is the published one: 14 letters for 80 bits, which are the 50 counts in unary, filled up with zeros. -/
theorem C75_gnuid_text (hN : N ≤ 15) (p : Pos N) (hp : p.Valid) : ∃ K z, K < 2 ^ 80 ∧ GnuId.encode p = some (Spec.GnuId.text K) ∧
    Spec.GnuId.bits K = Spec.GnuId.unary (Spec.GnuId.counts p.view) ++ List.replicate z false := by
  have sx := GnuId.xRuns_sum hp.xBar
  have so := GnuId.oRuns_sum hp.oBar
  have hX := hp.sumX
  have hO := hp.sumO
  obtain ⟨key, hk, hl, hb, hbits⟩ := GnuId.encodeKey_bits p (by omega)
  obtain ⟨K, hK, rfl⟩ := GnuId.bytesOf_surj hl hb
  rw [GnuId.keyBits_bytesOf] at hbits
  refine ⟨K, _, hK, ?_, by rw [hbits, GnuId.counts_eq, GnuId.unary_eq, List.flatMap_append, List.append_assoc]⟩
  rw [GnuId.encode, hk, Option.map_some, GnuId.b64_bytesOf hK]
  congr 1

example := C75_gnuid_text (by omega) Ex.start (by decide)

namespace GnuId

/-- The bits of a key as 50 counts, in one piece. -/
theorem split50 {bs : List Bool} : (∃ (o x : List Nat) (r : List Bool), o.length = 25 ∧ x.length = 25 ∧ bs = o.flatMap runBits ++ (x.flatMap runBits ++ r)) ↔
    ∃ ns z, ns.length = 50 ∧ bs = Spec.GnuId.unary ns ++ z := by
  constructor
  · rintro ⟨o, x, r, ho, hx, rfl⟩
    exact ⟨o ++ x, r, by simp [ho, hx], by rw [unary_eq, List.flatMap_append, List.append_assoc]⟩
  · rintro ⟨ns, z, hl, rfl⟩
    refine ⟨ns.take 25, ns.drop 25, z, by simp [hl], by simp [hl], ?_⟩
    rw [unary_eq, ← List.append_assoc, ← List.flatMap_append, List.take_append_drop]

theorem unary_unique {ns ns' : List Nat} {z z' : List Bool} (hl : ns.length = ns'.length) (h : Spec.GnuId.unary ns ++ z = Spec.GnuId.unary ns' ++ z') :
    ns = ns' := by
  have a := readRuns_flat ns z
  have b := readRuns_flat ns' z'
  rw [← unary_eq, h, hl, unary_eq, b] at a
  injection a with a
  injection a with a1 a2
  exact a1.symm

/-- What decoding does with a key. -/
theorem decode_of_counts (dbg : Bool) {K : Nat} (hK : K < 2 ^ 80) {ns : List Nat} {z : List Bool} (hl : ns.length = 50)
    (h : Spec.GnuId.bits K = Spec.GnuId.unary ns ++ z) : decode dbg N (Spec.GnuId.text K) =
      ((sub8 dbg N (ns.drop 25).sum).bind fun xOff => (sub8 dbg N (ns.take 25).sum).bind fun oOff => some ⟨true, fun i =>
        (if i.val = 0 then 0 else ((ns.drop 25).getD (i.val - 1) 0 : Int)) - (if i.val = 25 then 0 else ((ns.take 25).getD (24 - i.val) 0 : Int)),
        xOff, oOff⟩).map .ok := by
  obtain ⟨key, -, -, hk, hd⟩ := decode_bits (N := N) (payload_iff.2 ⟨K, hK, rfl, rfl⟩) dbg
  rw [hd, decodeKey_runs (o := ns.take 25) (x := ns.drop 25) (r := z) dbg key (by simp [hl]) (by simp [hl])]
  rw [hk, h, unary_eq, ← List.append_assoc, ← List.flatMap_append, List.take_append_drop]

theorem decode_of_no_counts (dbg : Bool) {K : Nat} (hK : K < 2 ^ 80) (h : ¬ ∃ ns z, ns.length = 50 ∧ Spec.GnuId.bits K = Spec.GnuId.unary ns ++ z) :
    decode dbg N (Spec.GnuId.text K) = none := by
  obtain ⟨key, -, -, hk, hd⟩ := decode_bits (N := N) (payload_iff.2 ⟨K, hK, rfl, rfl⟩) dbg
  rw [hd, Option.map_eq_none_iff]
  rcases bits_runs (N := N) (Spec.GnuId.bits K) with ⟨-, h2⟩ | ⟨-, o, x, r, ho, hx, e, -⟩
  · exact h2 dbg key hk
  · exact absurd (split50.1 ⟨o, x, r, ho, hx, e⟩) h

theorem b64Encode_length : ∀ l : List Nat, (b64Encode l).length = (l.length + 2) / 3 * 4
  | [] => rfl
  | [_] => by simp [b64Encode]
  | [_, _] => by simp [b64Encode]
  | _ :: _ :: _ :: l => by
    rw [b64Encode]
    simp only [List.length_cons]
    rw [b64Encode_length l]
    omega

theorem b64_pad_last : ∀ l : List Nat, (∀ b ∈ l, b < 256) → l.length % 3 ≠ 1 → ∀ t, b64Encode l ≠ t ++ ['=', '=']
  | [], _, _, t, h => by cases t <;> simp [b64Encode] at h
  | [_], _, hl, _, _ => by simp at hl
  | [a, b], hb, _, t, h => by
    have ha := hb a (by simp)
    have hb := hb b (by simp)
    rw [b64Encode] at h
    match t with
    | [] => simp at h
    | [_] => simp at h
    | [_, _] =>
      simp only [List.cons_append, List.nil_append, List.cons.injEq] at h
      exact enc6_ne_eq _ (by omega) h.2.2.1
    | [_, _, _] => simp at h
    | _ :: _ :: _ :: _ :: _ => simp at h
  | a :: b :: c :: l, hb, hl, t, h => by
    rw [b64Encode] at h
    have hc := hb c (by simp)
    match t with
    | [] => simp at h
    | [_] => simp at h
    | [_, _] =>
      simp only [List.cons_append, List.nil_append, List.cons.injEq] at h
      exact enc6_ne_eq _ (by omega) h.2.2.2.1
    | [_, _, _] =>
      simp only [List.cons_append, List.nil_append, List.cons.injEq] at h
      have := h.2.2.2.1
      exact enc6_ne_eq _ (by omega) this
    | _ :: _ :: _ :: _ :: t =>
      simp only [List.cons_append, List.cons.injEq] at h
      exact b64_pad_last l (fun b hb' => hb b (by simp [hb'])) (by simp only [List.length_cons] at hl; omega) t h.2.2.2.2

theorem b64_ten_of_length {key : List Nat} {id : Str} (h : b64Encode key = id ++ ['=', '=']) (hb : ∀ b ∈ key, b < 256) (hl : id.length = 14) :
    key.length = 10 := by
  have a := congrArg List.length h
  rw [b64Encode_length] at a
  simp only [List.length_append, List.length_cons, List.length_nil, hl] at a
  by_contra hn
  refine b64_pad_last key hb ?_ id h
  omega

theorem sum_bound {K : Nat} {ns : List Nat} {z : List Bool} (hl : ns.length = 50) (h : Spec.GnuId.bits K = Spec.GnuId.unary ns ++ z) :
    (ns.take 25).sum + (ns.drop 25).sum ≤ 30 := by
  have a := congrArg List.length h
  rw [unary_eq, List.length_append, flat_length] at a
  have b : (Spec.GnuId.bits K).length = 80 := by simp [Spec.GnuId.bits]
  have c := List.sum_take_add_sum_drop ns 25
  omega

end GnuId

open Spec.GnuId in
/-- **C23** What a text decodes to, in both builds: the text is that of an 80-bit key that begins with 50 counts in unary. The position has `x` to move, on every
point the checkers of `x` minus those of `o` counted there, and the checkers not counted off the board. If more than `N` are counted a release
build puts `256` more off the board. -/
theorem C23_ok_iff (dbg : Bool) (id : Str) (p : Pos N) : GnuId.decode dbg N id = some (.ok p) ↔
    ∃ K ns z, K < 2 ^ 80 ∧ id = text K ∧ ns.length = 50 ∧ bits K = unary ns ++ z ∧ p.turn = true ∧
      (∀ i < 26, p.pip i = (if i = 0 then 0 else (ns.getD (24 + i) 0 : Int)) - (if i = 25 then 0 else (ns.getD (24 - i) 0 : Int))) ∧
      ((ns.take 25).sum + p.oOff = N ∨ dbg = false ∧ N < (ns.take 25).sum ∧ (ns.take 25).sum + p.oOff = N + 256) ∧
      ((ns.drop 25).sum + p.xOff = N ∨ dbg = false ∧ N < (ns.drop 25).sum ∧ (ns.drop 25).sum + p.xOff = N + 256) := by
  have gx : ∀ (ns : List Nat) (i : Nat), i ≠ 0 → (ns.drop 25).getD (i - 1) 0 = ns.getD (24 + i) 0 := by
    intro ns i hi
    rw [List.getD_eq_getElem?_getD, List.getD_eq_getElem?_getD, List.getElem?_drop]
    congr 2; omega
  have go : ∀ (ns : List Nat) (i : Nat), i ≤ 24 → (ns.take 25).getD (24 - i) 0 = ns.getD (24 - i) 0 := by
    intro ns i hi
    rw [List.getD_eq_getElem?_getD, List.getD_eq_getElem?_getD, List.getElem?_take, if_pos (by omega)]
  have sub : ∀ a b, b ≤ 30 → ∀ c, GnuId.sub8 dbg a b = some c ↔ (b + c = a ∨ dbg = false ∧ a < b ∧ b + c = a + 256) := by
    intro a b hb c
    unfold GnuId.sub8
    by_cases h : b ≤ a
    · rw [if_pos h]; simp only [Option.some.injEq]; omega
    · rw [if_neg h]
      cases dbg with
      | true => simp; omega
      | false =>
        simp only [Bool.false_eq_true, if_false, Option.some.injEq]
        rw [Nat.mod_eq_of_lt (by omega), true_and]
        omega
  constructor
  · intro h
    cases hb : payloadBits id with
    | none =>
      obtain ⟨e, h'⟩ := payloadBits_none (N := N) hb dbg
      rw [h'] at h; cases h
    | some bs =>
      obtain ⟨K, hK, rfl, rfl⟩ := GnuId.payload_iff.1 hb
      by_cases hc : ∃ ns z, ns.length = 50 ∧ bits K = unary ns ++ z
      · obtain ⟨ns, z, hl, e⟩ := hc
        have hs := GnuId.sum_bound hl e
        rw [GnuId.decode_of_counts dbg hK hl e] at h
        simp only [Option.map_eq_some_iff, Option.bind_eq_some_iff, Except.ok.injEq, exists_eq_right, Option.some.injEq] at h
        obtain ⟨x, hx, o, ho, rfl⟩ := h
        refine ⟨K, ns, z, hK, rfl, hl, e, rfl, fun i hi => ?_, (sub _ _ (by omega) _).1 ho, (sub _ _ (by omega) _).1 hx⟩
        simp only [Pos.pip, hi, dif_pos]
        split_ifs with a b b
        · rfl
        · rw [go ns i (by omega)]
        · rw [gx ns i a]
        · rw [go ns i (by omega), gx ns i a]
      · rw [GnuId.decode_of_no_counts dbg hK hc] at h; cases h
  · rintro ⟨K, ns, z, hK, rfl, hl, e, ht, hp, ho, hx⟩
    have hs := GnuId.sum_bound hl e
    rw [GnuId.decode_of_counts dbg hK hl e, (sub _ _ (by omega) _).2 ho, (sub _ _ (by omega) _).2 hx]
    simp only [Option.bind_some, Option.map_some, Option.some.injEq, Except.ok.injEq]
    refine Pos.ext ht.symm ?_ rfl rfl
    funext ⟨i, hi⟩
    have := hp i hi
    simp only [Pos.pip, hi, dif_pos] at this
    rw [this]
    simp only
    split_ifs with a b b
    · rfl
    · rw [go ns i (by omega)]
    · rw [gx ns i a]
    · rw [go ns i (by omega), gx ns i a]

example : ∃ p : Pos 15, GnuId.decode true 15 "4HPwATDgc/ABMA".toList = some (.ok p) := by
  have h : (match GnuId.decode true 15 "4HPwATDgc/ABMA".toList with | some (.ok _) => true | _ => false) = true := by decide +kernel
  split at h
  · rename_i p hp; exact ⟨p, hp⟩
  · cases h

open Spec.GnuId in
/-- **C23** Exactly when decoding panics, in both builds: the text is that of a key which does not begin with 50 counts, or (in a build with overflow
checks) counts more than `N` checkers of a side. -/
theorem C23_panic_iff (dbg : Bool) (id : Str) : GnuId.decode dbg N id = none ↔ ∃ K, K < 2 ^ 80 ∧ id = text K ∧
    ((¬ ∃ ns z, ns.length = 50 ∧ bits K = unary ns ++ z) ∨
      dbg = true ∧ ∃ ns z, ns.length = 50 ∧ bits K = unary ns ++ z ∧ (N < (ns.take 25).sum ∨ N < (ns.drop 25).sum)) := by
  constructor
  · intro h
    cases hb : payloadBits id with
    | none =>
      obtain ⟨e, h'⟩ := payloadBits_none (N := N) hb dbg
      rw [h'] at h; cases h
    | some bs =>
      obtain ⟨K, hK, rfl, rfl⟩ := GnuId.payload_iff.1 hb
      refine ⟨K, hK, rfl, ?_⟩
      by_cases hc : ∃ ns z, ns.length = 50 ∧ bits K = unary ns ++ z
      · right
        obtain ⟨ns, z, hl, e⟩ := hc
        rw [GnuId.decode_of_counts dbg hK hl e] at h
        unfold GnuId.sub8 at h
        cases dbg with
        | false => split_ifs at h <;> first | contradiction | cases h
        | true =>
          refine ⟨rfl, ns, z, hl, e, ?_⟩
          by_contra hn
          rw [if_pos (by omega), if_pos (by omega)] at h
          cases h
      · exact Or.inl hc
  · rintro ⟨K, hK, rfl, h | ⟨rfl, ns, z, hl, e, h⟩⟩
    · exact GnuId.decode_of_no_counts dbg hK h
    · rw [GnuId.decode_of_counts true hK hl e]
      unfold GnuId.sub8
      rcases h with h | h
      · rw [if_neg (by omega : ¬ (ns.take 25).sum ≤ N)]
        by_cases h2 : (ns.drop 25).sum ≤ N <;> simp [h2]
      · rw [if_neg (by omega : ¬ (ns.drop 25).sum ≤ N)]
        simp

open Spec.GnuId in
/-- **C23** A text is refused exactly when it is not that of an 80-bit key; a refused text of 14 characters is called an invalid payload. -/
theorem C23_error_iff (dbg : Bool) (id : Str) : ((∃ e, GnuId.decode dbg N id = some (.error e)) ↔ ¬ ∃ K, K < 2 ^ 80 ∧ id = text K) ∧
    (GnuId.decode dbg N id = some (.error .keyLength) → id.length ≠ 14) := by
  refine ⟨?_, ?_⟩
  · cases hb : payloadBits id with
    | none =>
      refine ⟨fun _ => ?_, fun _ => payloadBits_none hb dbg⟩
      rintro ⟨K, hK, rfl⟩
      rw [GnuId.payload_iff.2 ⟨K, hK, rfl, rfl⟩] at hb
      cases hb
    | some bs =>
      obtain ⟨key, -, -, -, hd⟩ := decode_bits (N := N) hb dbg
      obtain ⟨K, hK, rfl, -⟩ := GnuId.payload_iff.1 hb
      refine ⟨?_, fun h => absurd ⟨K, hK, rfl⟩ h⟩
      rintro ⟨e, h⟩
      rw [hd] at h
      obtain ⟨q, -, h⟩ := Option.map_eq_some_iff.1 h
      cases h
  · intro h hl
    unfold GnuId.decode at h
    split at h
    · injection h with h; injection h with h; cases h
    · rename_i key hk
      split_ifs at h with h10
      · -- a decodable text of 16 characters ending in two pads has ten bytes
        obtain ⟨h1, h2⟩ := b64Encode_decode _ _ hk
        apply h10
        exact GnuId.b64_ten_of_length h1 h2 hl
      · obtain ⟨q, -, h⟩ := Option.map_eq_some_iff.1 h
        cases h

namespace GnuId
open Spec.GnuId

theorem getD_drop25 (ns : List Nat) (i : Nat) (hi : i ≠ 0) : (ns.drop 25).getD (i - 1) 0 = ns.getD (24 + i) 0 := by
  rw [List.getD_eq_getElem?_getD, List.getD_eq_getElem?_getD, List.getElem?_drop]
  congr 2; omega

theorem getD_take25 (ns : List Nat) (i : Nat) (hi : i ≤ 24) : (ns.take 25).getD (24 - i) 0 = ns.getD (24 - i) 0 := by
  rw [List.getD_eq_getElem?_getD, List.getD_eq_getElem?_getD, List.getElem?_take, if_pos (by omega)]

/-- A key is determined by its bits. -/
theorem bits_inj {K K' : Nat} (hK : K < 2 ^ 80) (hK' : K' < 2 ^ 80) (h : bits K = bits K') : text K = text K' := by
  have hb : ∀ K, ∀ b ∈ bytesOf K, b < 256 := by
    intro K b hb
    obtain ⟨j, -, rfl⟩ := List.mem_map.1 hb
    exact Nat.mod_lt _ (by omega)
  rw [← keyBits_bytesOf, ← keyBits_bytesOf] at h
  have e := keyBits_inj (hb K) (hb K') (by simp [bytesOf]) h
  have a := b64_bytesOf hK
  have b := b64_bytesOf hK'
  rw [e] at a
  exact List.append_cancel_right (a.symm.trans b)

end GnuId

open Spec.GnuId in
/-- **C24** All the texts that decode to a valid position with `x` to move, in both builds: those of the keys that begin with its counts, whatever bits follow. -/
theorem C24_decodes_iff (dbg : Bool) (p : Pos N) (hp : p.Valid) (ht : p.turn = true) (id : Str) : GnuId.decode dbg N id = some (.ok p) ↔
    ∃ K z, K < 2 ^ 80 ∧ id = text K ∧ bits K = unary (counts p.view) ++ z := by
  have sX := hp.sumX
  have sO := hp.sumO
  have c1 : p.view.xOff = p.xOff := rfl
  have c3 : p.view.oOff = p.oOff := rfl
  rw [C23_ok_iff]
  constructor
  · rintro ⟨K, ns, z, hK, rfl, hl, e, -, h, so, sx⟩
    refine ⟨K, z, hK, rfl, ?_⟩
    have hs := GnuId.sum_bound hl e
    obtain ⟨ex, eo⟩ := runs_of_valid (o := ns.take 25) (x := ns.drop 25) hp (by simp [hl]) (by simp [hl])
      (by
        rintro ⟨i, hi⟩
        have := h i hi
        simp only [Pos.pip, hi, dif_pos] at this
        rw [this]
        simp only
        clear hs sX sO so sx hK e
        split_ifs with a b b
        · rfl
        · rw [GnuId.getD_take25 ns i (by omega)]
        · rw [GnuId.getD_drop25 ns i a]
        · rw [GnuId.getD_take25 ns i (by omega), GnuId.getD_drop25 ns i a])
      (by omega) (by omega)
    rw [e, GnuId.counts_eq, ex, eo, List.take_append_drop]
  · rintro ⟨K, z, hK, rfl, e⟩
    have hl : (counts p.view).length = 50 := by simp [counts]
    refine ⟨K, _, z, hK, rfl, hl, e, ht, ?_, Or.inl ?_, Or.inl ?_⟩
    · intro i hi
      rw [GnuId.counts_eq]
      have x1 := hp.xBar
      have x2 := hp.oBar
      simp only [Pos.view] at x1 x2
      have gx : i ≠ 0 → (GnuId.oRuns p ++ GnuId.xRuns p).getD (24 + i) 0 = (p.pip i).toNat := by
        intro h0
        rw [List.getD_eq_getElem?_getD, List.getElem?_append_right (by rw [GnuId.oRuns_length]; omega), GnuId.oRuns_length,
          ← List.getD_eq_getElem?_getD, show 24 + i - 25 = i - 1 by omega,
          GnuId.getD_xRuns p i (by omega) (by omega)]
      have go : i ≠ 25 → (GnuId.oRuns p ++ GnuId.xRuns p).getD (24 - i) 0 = (-p.pip i).toNat := by
        intro h0
        rw [List.getD_eq_getElem?_getD, List.getElem?_append_left (by rw [GnuId.oRuns_length]; omega), ← List.getD_eq_getElem?_getD,
          GnuId.getD_oRuns p i (by omega)]
      split_ifs with a b b
      · omega
      · subst a; rw [go b]; omega
      · subst b; rw [gx a]; omega
      · rw [go b, gx a]; omega
    · rw [GnuId.counts_eq, List.take_left' (GnuId.oRuns_length p), GnuId.oRuns_sum hp.oBar]; omega
    · rw [GnuId.counts_eq, List.drop_left' (GnuId.oRuns_length p), GnuId.xRuns_sum hp.xBar]; omega

example := (C24_decodes_iff true bgStart (by decide) rfl "4HPwATDgc/ABMA".toList)

open Spec.GnuId in
/-- **C24, the exact condition** A text is the id of a valid position exactly when it is that of a key with the counts of the position and no bits set
behind them. With `C24_decodes_iff`: a text that decodes to the position re-encodes to itself exactly when no such bit is set. -/
theorem C24_encodes_iff (hN : N ≤ 15) (p : Pos N) (hp : p.Valid) (id : Str) : GnuId.encode p = some id ↔
    ∃ K z, K < 2 ^ 80 ∧ id = text K ∧ bits K = unary (counts p.view) ++ List.replicate z false := by
  obtain ⟨K, z, hK, h1, h2⟩ := C75_gnuid_text hN p hp
  rw [h1]
  constructor
  · intro h; cases h; exact ⟨K, z, hK, rfl, h2⟩
  · rintro ⟨K', z', hK', rfl, h'⟩
    rw [Option.some.injEq]
    refine GnuId.bits_inj hK hK' ?_
    have l1 := congrArg List.length h2
    have l2 := congrArg List.length h'
    have b1 : (bits K).length = 80 := by simp [bits]
    have b2 : (bits K').length = 80 := by simp [bits]
    rw [List.length_append, List.length_replicate] at l1 l2
    rw [h2, h', show z = z' by omega]

example := (C24_encodes_iff (by omega) bgStart (by decide) "4HPwATDgc/ABMA".toList)

/-! ## The board of an XGID -/

theorem xgid_letter {z : Int} (h : z.natAbs ≤ 16) : Xgid.cellChar z = Spec.Xgid.letter z.toNat (-z).toNat := by
  have hl : ∀ k, k ≤ 16 → 1 ≤ k → Xgid.lowLetter k = "-abcdefghijklmnop".toList.getD k '?' := by decide
  have hu : ∀ k, k ≤ 16 → 1 ≤ k → Xgid.upLetter k = "-ABCDEFGHIJKLMNOP".toList.getD k '?' := by decide
  unfold Xgid.cellChar Spec.Xgid.letter
  split_ifs <;> first | omega | rfl | (exact hl _ (by omega) (by omega)) | (exact hu _ (by omega) (by omega))

/-- **C75** The XGID board of a valid position is the published one: the bar of `x`, the points 24 to 1, the bar of `o`, with a letter for the number of
checkers, small for `x` and capital for `o`. -/
theorem C75_xgid_text (hN : N ≤ 16) (p : Pos N) (hp : p.Valid) : Xgid.encode p = Spec.Xgid.board p.view := by
  rw [Bkgm.encode_eq p (Pos.Valid.barsOK hp)]
  unfold Spec.Xgid.board
  refine List.map_congr_left fun j _ => ?_
  exact xgid_letter (Nat.le_trans (abs_le_of_valid hp _) hN)

example : Ex.start.Valid ∧ Spec.Xgid.board Ex.start.view = "-b----E-C---eE---c-e----B-".toList := by decide +kernel

/-- **C27** Which texts are accepted, and as what, in both builds: a valid position is the result exactly when it has `x` to move and the text is its XGID board. -/
theorem C27_accept_iff (dbg : Bool) (hN : N ≤ 16) (s : Str) (p : Pos N) :
    Xgid.decode dbg N s = some (.ok p) ∧ p.Valid ↔ p.Valid ∧ p.turn = true ∧ s = Spec.Xgid.board p.view := by
  constructor
  · rintro ⟨h, hv⟩
    obtain ⟨-, -, -, -, h5⟩ := Bkgm.decode_ok h
    exact ⟨hv, (tryFrom_pips h5).2, by rw [← C75_xgid_text hN p hv, C25_reencode dbg s p h]⟩
  · rintro ⟨hv, ht, rfl⟩
    refine ⟨?_, hv⟩
    rw [← C75_xgid_text hN p hv, (C25_round_trip hN p hv dbg).2]
    cases p
    simp only at ht
    subst ht
    rfl

example := (C27_accept_iff true (by omega) _ Ex.start).2 ⟨by decide, rfl, rfl⟩

/-- **C27** The two errors: the text is not a board text, or the board is impossible. -/
theorem C27_errors (dbg : Bool) (s : Str) (e : Xgid.Error) (h : Xgid.decode dbg N s = some (.error e)) :
    (e = .invalidField "board" ∧ ¬ BoardText s) ∨ (e = .invalidPosition ∧ BoardText s) := by
  by_cases hb : BoardText s
  · rw [decode_text hb] at h
    obtain ⟨r, -, h⟩ := Option.map_eq_some_iff.1 h
    cases r with
    | ok p => cases h
    | error m => injection h with h; exact Or.inr ⟨h.symm, hb⟩
  · rw [decode_not_text hb] at h
    injection h with h
    injection h with h
    exact Or.inl ⟨h.symm, hb⟩

example : (match Xgid.decode true 3 "-b----E-C---eE---c-e----B-".toList with | some (.error e) => decide (e = .invalidPosition) | _ => false) = true := by
  decide +kernel

/-! ## FIBS -/

open Spec.Fibs in
/-- **C75** What the FIBS text of a valid position says: the side to move, the bars and off counts and the points from 24 down to 1, as they are on the
board. -/
theorem C75_fibs_text (hN : N ≤ 127) (p : Pos N) (hp : p.Valid) :
    Says (Fibs.encode p) (if p.turn then ['x'] else ['o']) (p.view.x 25) (p.view.o 0) p.xOff p.oOff ((List.range 24).map fun j => p.pip (24 - j)) := by
  have ha := fun i => abs_le_of_valid hp i
  have hx : p.xBar ≤ 127 := by have := ha 25; unfold Pos.xBar; omega
  have ho : p.oBar ≤ 127 := by have := ha 0; unfold Pos.oBar; omega
  have hxo : p.xOff ≤ 255 := by have := hp.sumX; have e : p.view.xOff = p.xOff := rfl; omega
  have hoo : p.oOff ≤ 255 := by have := hp.sumO; have e : p.view.oOff = p.oOff := rfl; omega
  have el : (List.range 24).map (fun j => p.pip (24 - j)) = (List.range' 1 24).reverse.map p.pip := by
    apply List.ext_getElem
    · simp
    · intro i h1 h2
      simp only [List.getElem_map, List.getElem_range, List.getElem_reverse, List.getElem_range', List.length_range']
      simp at h1
      congr 1
      omega
  refine ⟨_, _, _, ((List.range' 1 24).reverse.map p.pip).map Fibs.pointToken, parts_iff.2 (Fibs.readFields_encode p),
    counts_iff.1 (Fibs.parseTwoCounts_show (by omega) (by omega)), counts_iff.1 (Fibs.parseTwoCounts_show hxo hoo), ?_, ?_, by simp⟩
  · refine ⟨by simp, ?_, by rw [List.map_map]; rfl⟩
    intro s hs hc
    obtain ⟨z, -, rfl⟩ := List.mem_map.1 hs
    exact ((Fibs.pointToken_shape z).1 _ hc).2.1 rfl
  · rw [el, List.forall₂_map_left_iff, List.forall₂_same]
    intro z hz
    obtain ⟨i, -, rfl⟩ := List.mem_map.1 hz
    rw [trim_of_trimmed (trimmed_of_no_ws fun c hc => ((Fibs.pointToken_shape _).1 c hc).1)]
    have h := Fibs.parsePoint_token true (n := p.pip i) (by have := ha i; omega)
    by_contra hn
    by_cases he : ∃ z, Point (Fibs.pointToken (p.pip i)) z
    · obtain ⟨z, hz⟩ := he
      rw [parsePoint_of_point hz] at h
      unfold i8 at h
      split_ifs at h with hr
      · simp only [Option.map_some, Option.some.injEq, Except.ok.injEq] at h
        rw [h] at hz
        exact hn hz
      · cases h
      all_goals (exfalso; simp_all)
    · rw [parsePoint_not he] at h
      cases h

example := C75_fibs_text (by omega) Ex.hitPos.flip (by decide)

end Bkgm
