import Verif.Spec.VariantCodecs
import Verif.Props.Release
/-!
# Decoding text as a position of a variant (C93)
-/
namespace Bkgm
open Spec.GnuId (IsKey Crashes)

/-- A position is what it shows, and whose turn it is. -/
theorem pos_of_view {N : Nat} {p q : Pos N} (ht : p.turn = q.turn) (hv : p.view = q.view) : p = q := by
  have hx : ∀ i, (p.pip i).toNat = (q.pip i).toNat := fun i => congrFun (congrArg Spec.Board.x hv) i
  have ho : ∀ i, (-p.pip i).toNat = (-q.pip i).toNat := fun i => congrFun (congrArg Spec.Board.o hv) i
  have hp : p.pips = q.pips := by
    funext i
    have h1 := hx i.val
    have h2 := ho i.val
    have e : p.pip i.val = q.pip i.val := by omega
    simpa [Pos.pip] using e
  have h3 : p.xOff = q.xOff := congrArg Spec.Board.xOff hv
  have h4 : p.oOff = q.oOff := congrArg Spec.Board.oOff hv
  cases p; cases q
  simp_all

theorem decodeWith_ok {ε : Type} (f : ∀ N : Nat, Str → Option (Except ε (Pos N))) (v : Variant) (s : Str) (q : VPos) :
    v.decodeWith f s = some (.ok q) ↔ q.variant = v ∧ ∃ p : Pos v.checkers, f v.checkers s = some (.ok p) ∧ q.turn = p.turn ∧ q.view = p.view := by
  constructor
  · intro h
    cases v <;>
    · obtain ⟨r, h1, h2⟩ := Option.map_eq_some_iff.1 h
      cases r with
      | error e => cases h2
      | ok p =>
        injection h2 with h2
        subst h2
        exact ⟨rfl, p, h1, rfl, rfl⟩
  · rintro ⟨rfl, p, h1, h2, h3⟩
    cases q <;>
    · have e := pos_of_view h2 h3
      subst e
      exact Option.map_eq_some_iff.2 ⟨_, h1, rfl⟩

theorem decodeWith_error {ε : Type} (f : ∀ N : Nat, Str → Option (Except ε (Pos N))) (v : Variant) (s : Str) (e : ε) :
    v.decodeWith f s = some (.error e) ↔ f v.checkers s = some (.error e) := by
  cases v <;>
  · constructor
    · intro h
      obtain ⟨r, h1, h2⟩ := Option.map_eq_some_iff.1 h
      cases r with
      | error e' => injection h2 with h2; subst h2; exact h1
      | ok p => cases h2
    · intro h
      exact Option.map_eq_some_iff.2 ⟨_, h, rfl⟩

theorem decodeWith_none {ε : Type} (f : ∀ N : Nat, Str → Option (Except ε (Pos N))) (v : Variant) (s : Str) :
    v.decodeWith f s = none ↔ f v.checkers s = none := by
  cases v <;> exact Option.map_eq_none_iff

theorem checkers_le (v : Variant) : v.checkers ≤ 15 := by cases v <;> decide

theorem view_sub {N : Nat} (p : Pos N) (i : Nat) : (p.view.x i : Int) - p.view.o i = p.pip i := by
  show (((p.pip i).toNat : Int) - ((-p.pip i).toNat : Int)) = _
  omega

/-- A position of the variant with a given board on the table. -/
theorem exists_pos (q : VPos) : ∃ p : Pos q.variant.checkers, q.turn = p.turn ∧ q.view = p.view := by
  cases q <;> exact ⟨_, rfl, rfl⟩

theorem validFor_pos {v : Variant} {q : VPos} (h : q.variant = v) {p : Pos v.checkers} (hp : q.view = p.view) : VPos.ValidFor v q ↔ p.Valid := by
  unfold VPos.ValidFor Pos.Valid
  rw [hp]
  exact ⟨fun h => h.2, fun h' => ⟨h, h'⟩⟩

/-! ## GNU ids -/

theorem dec6_mem {c : Char} : (∃ n, dec6 c = some n) ↔ c ∈ Spec.GnuId.alphabet := by
  unfold dec6
  constructor
  · rintro ⟨n, h⟩
    obtain ⟨h1, h2, -⟩ := List.findIdx?_eq_some_iff_getElem.1 h
    simp only [decide_eq_true_eq] at h2
    rw [← h2]
    exact List.getElem_mem h1
  · intro h
    cases hc : b64Alphabet.findIdx? (· = c) with
    | some n => exact ⟨n, rfl⟩
    | none =>
      have := List.findIdx?_eq_none_iff.1 hc c h
      simp at this

theorem dec6_last {c : Char} {n : Nat} (h : dec6 c = some n) : n % 16 = 0 ↔ c ∈ ['A', 'Q', 'g', 'w'] := by
  obtain ⟨h1, rfl⟩ := dec6_some h
  have : ∀ n < 64, n % 16 = 0 ↔ enc6 n ∈ ['A', 'Q', 'g', 'w'] := by decide +kernel
  exact this n h1

/-- Texts that are base64 when `==` is added, and the number of bytes they stand for. -/
theorem b64_padded : ∀ (s : Str) (n : Nat), (∃ key, b64Decode (s ++ ['=', '=']) = some key ∧ key.length = n) ↔
    s.length % 4 = 2 ∧ n = s.length / 4 * 3 + 1 ∧ (∀ c ∈ s, c ∈ Spec.GnuId.alphabet) ∧ ∃ c ∈ ['A', 'Q', 'g', 'w'], s.getLast? = some c
  | [], n => by simp [b64Decode]
  | [a], n => by simp [b64Decode]
  | [a, b], n => by
    simp only [List.cons_append, List.nil_append, b64Decode, and_self, if_true, List.length_cons, List.length_nil, List.mem_cons, List.not_mem_nil, or_false,
      forall_eq_or_imp, forall_eq]
    have e1 : ∀ c, dec6 c = none → ¬ c ∈ Spec.GnuId.alphabet := fun c h hc => by
      obtain ⟨n, h'⟩ := dec6_mem.2 hc
      rw [h] at h'; cases h'
    cases ha : dec6 a with
    | none => simp [e1 a ha]
    | some va =>
      cases hb : dec6 b with
      | none => simp [e1 b hb]
      | some vb =>
        have hb' := dec6_last hb
        have m1 := dec6_mem.1 ⟨_, ha⟩
        have m2 := dec6_mem.1 ⟨_, hb⟩
        simp only [Option.bind_some]
        by_cases h : vb % 16 = 0
        · have := hb'.1 h
          simp [h, m1, m2, eq_comm] at this ⊢
          intro _
          tauto
        · have := fun hc => h (hb'.2 hc)
          simp [h, m1, m2, eq_comm] at this ⊢
          tauto
  | [a, b, c], n => by
    have e : dec6 '=' = none := by decide +kernel
    simp [b64Decode, e]
  | a :: b :: c :: d :: rest, n => by
    have ih := b64_padded rest
    have e1 : ∀ c, dec6 c = none → ¬ c ∈ Spec.GnuId.alphabet := fun c h hc => by
      obtain ⟨n, h'⟩ := dec6_mem.2 hc
      rw [h] at h'; cases h'
    have hne : rest ++ ['=', '='] ≠ [] := by simp
    simp only [List.cons_append, b64Decode, hne, and_false, if_false, List.mem_cons, forall_eq_or_imp]
    cases ha : dec6 a with
    | none => simp [e1 a ha]
    | some va =>
    cases hb : dec6 b with
    | none => simp [e1 b hb]
    | some vb =>
    cases hc : dec6 c with
    | none => simp [e1 c hc]
    | some vc =>
    cases hd : dec6 d with
    | none => simp [e1 d hd]
    | some vd =>
    have m1 := dec6_mem.1 ⟨_, ha⟩
    have m2 := dec6_mem.1 ⟨_, hb⟩
    have m3 := dec6_mem.1 ⟨_, hc⟩
    have m4 := dec6_mem.1 ⟨_, hd⟩
    simp only [Option.bind_some, m1, m2, m3, m4, true_and, List.length_cons]
    have key : (∃ key, ((b64Decode (rest ++ ['=', '='])).bind fun l =>
        some ((va * 4 + vb / 16) :: (vb % 16 * 16 + vc / 4) :: (vc % 4 * 64 + vd) :: l)) = some key ∧ key.length = n) ↔
        ∃ m, n = m + 3 ∧ ∃ key, b64Decode (rest ++ ['=', '=']) = some key ∧ key.length = m := by
      constructor
      · rintro ⟨key, h1, h2⟩
        obtain ⟨l, h3, h4⟩ := Option.bind_eq_some_iff.1 h1
        injection h4 with h4
        subst h4
        exact ⟨l.length, by simpa using h2.symm, l, h3, rfl⟩
      · rintro ⟨m, rfl, l, h3, rfl⟩
        exact ⟨_, by rw [h3]; rfl, by simp⟩
    rw [key]
    constructor
    · rintro ⟨m, rfl, h⟩
      obtain ⟨i1, i2, i3, c', i4, i5⟩ := (ih m).1 h
      have hr : rest ≠ [] := by rintro rfl; simp at i1
      refine ⟨by omega, by omega, i3, c', by simpa using i4, ?_⟩
      rw [List.getLast?_cons_cons, List.getLast?_cons_cons, List.getLast?_cons_cons]
      cases rest with
      | nil => exact absurd rfl hr
      | cons r rs => rw [List.getLast?_cons_cons]; exact i5
    · rintro ⟨i1, i2, i3, c', i4, i5⟩
      have hr : rest ≠ [] := by rintro rfl; simp at i1
      refine ⟨rest.length / 4 * 3 + 1, by omega, (ih _).2 ⟨by omega, rfl, i3, c', by simpa using i4, ?_⟩⟩
      rw [List.getLast?_cons_cons, List.getLast?_cons_cons, List.getLast?_cons_cons] at i5
      cases rest with
      | nil => exact absurd rfl hr
      | cons r rs => rwa [List.getLast?_cons_cons] at i5

/-- **C93** What `gnuid::decode` does for a variant: exactly the ids that say a position of the variant are accepted, as that position; it panics exactly where
`Crashes` says; the error is `key_length` exactly for texts in base64 of other lengths, and `invalid payload` for everything else. -/
theorem C93_gnuid (dbg : Bool) (v : Variant) (id : Str) :
    (∀ q, GnuId.decodeV dbg v id = some (.ok q) ↔ Spec.GnuId.Says dbg v id q) ∧
    (GnuId.decodeV dbg v id = none ↔ Crashes dbg v id) ∧
    (GnuId.decodeV dbg v id = some (.error .keyLength) ↔ id.length % 4 = 2 ∧ id.length ≠ 14 ∧ (∀ c ∈ id, c ∈ Spec.GnuId.alphabet) ∧
      ∃ c ∈ ['A', 'Q', 'g', 'w'], id.getLast? = some c) ∧
    (IsKey id ↔ id.length = 14 ∧ (∀ c ∈ id, c ∈ Spec.GnuId.alphabet) ∧ ∃ c ∈ ['A', 'Q', 'g', 'w'], id.getLast? = some c) ∧
    ((∃ e, GnuId.decodeV dbg v id = some (.error e)) ↔ ¬ IsKey id) := by
  have herr := (C23_error_iff (N := v.checkers) dbg id).1
  refine ⟨fun q => ?_, ?_, ?_, ?_, ?_⟩
  · unfold GnuId.decodeV Spec.GnuId.Says
    rw [decodeWith_ok]
    constructor
    · rintro ⟨h1, p, h2, h3, h4⟩
      obtain ⟨K, ns, z, hK, hid, hl, hb, ht, hp, ho, hx⟩ := (C23_ok_iff dbg id p).1 h2
      refine ⟨h1, by rw [h3, ht], ns, ⟨K, z, hK, hid, hl, hb⟩, fun i hi => ?_, ?_, ?_⟩
      · rw [h4, view_sub]; exact hp i hi
      · rw [h4]; exact ho
      · rw [h4]; exact hx
    · rintro ⟨rfl, h2, ns, ⟨K, z, hK, hid, hl, hb⟩, hp, ho, hx⟩
      obtain ⟨p, h3, h4⟩ := exists_pos q
      refine ⟨rfl, p, (C23_ok_iff dbg id p).2 ⟨K, ns, z, hK, hid, hl, hb, by rw [← h3, h2], fun i hi => ?_, ?_, ?_⟩, h3, h4⟩
      · rw [← view_sub, ← h4]; exact hp i hi
      · rw [h4] at ho; exact ho
      · rw [h4] at hx; exact hx
  · unfold GnuId.decodeV Crashes Spec.GnuId.Reads IsKey
    rw [decodeWith_none, C23_panic_iff]
    have inj : ∀ {K K'}, K < 2 ^ 80 → K' < 2 ^ 80 → Spec.GnuId.text K = Spec.GnuId.text K' → Spec.GnuId.bits K = Spec.GnuId.bits K' := by
      intro K K' h h' e
      have a := GnuId.payload_iff.2 ⟨K, h, rfl, rfl⟩
      have b := GnuId.payload_iff.2 ⟨K', h', e, rfl⟩
      rw [a] at b
      injection b
    constructor
    · rintro ⟨K, hK, rfl, h | ⟨hd, ns, z, h1, h2, h3⟩⟩
      · refine ⟨⟨K, hK, rfl⟩, Or.inl ?_⟩
        rintro ⟨ns, K', z, hK', e, hl, hb⟩
        exact h ⟨ns, z, hl, by rw [inj hK hK' e, hb]⟩
      · exact ⟨⟨K, hK, rfl⟩, Or.inr ⟨hd, ns, ⟨K, z, hK, rfl, h1, h2⟩, h3⟩⟩
    · rintro ⟨⟨K, hK, rfl⟩, h | ⟨hd, ns, ⟨K', z, hK', e, hl, hb⟩, h3⟩⟩
      · refine ⟨K, hK, rfl, Or.inl ?_⟩
        rintro ⟨ns, z, hl, hb⟩
        exact h ⟨ns, K, z, hK, rfl, hl, hb⟩
      · exact ⟨K, hK, rfl, Or.inr ⟨hd, ns, z, hl, by rw [inj hK hK' e, hb], h3⟩⟩
  · unfold GnuId.decodeV
    rw [decodeWith_error]
    have hk : GnuId.decode dbg v.checkers id = some (.error .keyLength) ↔ ∃ n, n ≠ 10 ∧ ∃ key, b64Decode (id ++ ['=', '=']) = some key ∧ key.length = n := by
      unfold GnuId.decode
      cases hb : b64Decode (id ++ ['=', '=']) with
      | none => simp
      | some key =>
        by_cases h : key.length = 10
        · simp [h]
        · simp [h]
    rw [hk]
    constructor
    · rintro ⟨n, h1, h2⟩
      obtain ⟨i1, i2, i3, i4⟩ := (b64_padded id n).1 h2
      exact ⟨i1, by omega, i3, i4⟩
    · rintro ⟨i1, i2, i3, i4⟩
      exact ⟨id.length / 4 * 3 + 1, by omega, (b64_padded id _).2 ⟨i1, rfl, i3, i4⟩⟩
  · have hk : IsKey id ↔ ∃ key, b64Decode (id ++ ['=', '=']) = some key ∧ key.length = 10 := by
      have h1 : IsKey id ↔ ¬ ∃ e, GnuId.decode dbg v.checkers id = some (.error e) := by
        rw [herr, not_not]; rfl
      rw [h1]
      unfold GnuId.decode
      cases hb : b64Decode (id ++ ['=', '=']) with
      | none => simp
      | some key =>
        by_cases h : key.length = 10
        · simp [h]
        · simp [h]
    rw [hk, b64_padded]
    constructor
    · rintro ⟨i1, i2, i3, i4⟩
      exact ⟨by omega, i3, i4⟩
    · rintro ⟨i1, i3, i4⟩
      exact ⟨by omega, by omega, i3, i4⟩
  · unfold GnuId.decodeV
    simp only [decodeWith_error]
    exact herr

/-! ## XGID boards and FIBS texts -/

theorem wraps_view {N : Nat} (p : Pos N) : p.Wraps ↔ Spec.Wraps N p.view := by
  have a : p.view.x 0 = (p.pip 0).toNat := rfl
  have b : p.view.o 25 = (-p.pip 25).toNat := rfl
  constructor
  · rintro ⟨⟨h0, h25⟩, h2, h3, h4, h5⟩
    exact ⟨by omega, by omega, h2, h3, h4, h5⟩
  · rintro ⟨h0, h1, h2, h3, h4, h5⟩
    exact ⟨⟨by omega, by omega⟩, h2, h3, h4, h5⟩

/-- **C93** What `xgid::decode` does for a variant: a build with overflow checks accepts exactly the boards of the valid positions of the variant, and panics
exactly for boards with more than 127 checkers of `x` or 128 of `o`; a build without never panics and accepts the boards that count up to the number of checkers
modulo 256. -/
theorem C93_xgid (v : Variant) (s : Str) :
    (∀ q, Xgid.decodeV true v s = some (.ok q) ↔ VPos.ValidFor v q ∧ q.turn = true ∧ s = Spec.Xgid.board q.view) ∧
    (∀ q, Xgid.decodeV false v s = some (.ok q) ↔ q.variant = v ∧ q.turn = true ∧ (∀ i < 26, q.view.x i ≤ 16 ∧ q.view.o i ≤ 16) ∧
      s = Spec.Xgid.board q.view ∧ Spec.Wraps v.checkers q.view) ∧
    (Xgid.decodeV true v s = none ↔ BoardText s ∧ (127 < boardX s ∨ 128 < boardO s)) ∧
    Xgid.decodeV false v s ≠ none := by
  have hc := checkers_le v
  unfold Xgid.decodeV
  refine ⟨fun q => ?_, fun q => ?_, ?_, ?_⟩
  · rw [decodeWith_ok]
    constructor
    · rintro ⟨h1, p, h2, h3, h4⟩
      obtain ⟨t1, -, t3, t4⟩ := (C27_debug_iff (by omega) s p).1 h2
      exact ⟨(validFor_pos h1 h4).2 t4, by rw [h3, t1], by rw [h4, t3]⟩
    · rintro ⟨h1, h2, h3⟩
      obtain ⟨rfl, -⟩ := id h1
      obtain ⟨p, h4, h5⟩ := exists_pos q
      have hv := (validFor_pos rfl h5).1 h1
      exact ⟨rfl, p, (C27_debug_iff (by omega) s p).2 ⟨by rw [← h4, h2], fun i _ => Nat.le_trans (abs_le_of_valid hv i) (by omega), by rw [← h5, h3], hv⟩, h4, h5⟩
  · rw [decodeWith_ok]
    have le : ∀ (p : Pos v.checkers), q.view = p.view → ((∀ i < 26, q.view.x i ≤ 16 ∧ q.view.o i ≤ 16) ↔ ∀ i < 26, (p.pip i).natAbs ≤ 16) := by
      intro p h
      rw [h]
      refine forall₂_congr fun i _ => ?_
      show (p.pip i).toNat ≤ 16 ∧ (-p.pip i).toNat ≤ 16 ↔ _
      omega
    constructor
    · rintro ⟨h1, p, h2, h3, h4⟩
      obtain ⟨t1, t2, t3, t4⟩ := (C27_release_iff (by omega) s p).1 h2
      exact ⟨h1, by rw [h3, t1], (le p h4).2 t2, by rw [h4, t3], by rw [h4]; exact (wraps_view p).1 t4⟩
    · rintro ⟨rfl, h2, h3, h4, h5⟩
      obtain ⟨p, h6, h7⟩ := exists_pos q
      exact ⟨rfl, p, (C27_release_iff (by omega) s p).2 ⟨by rw [← h6, h2], (le p h7).1 h3, by rw [← h7, h4], (wraps_view p).2 (h7 ▸ h5)⟩, h6, h7⟩
  · rw [decodeWith_none]
    exact (C27_debug_partial (by omega) s).2
  · rw [Ne, decodeWith_none]
    exact C27_release_no_panic s

/-- The text says the position: bars, off counts and points, turned round when `o` is to move (see `C29_accept_iff`). -/
def FibsShows (s : Str) (turn : Bool) (b : Spec.Board) : Prop :=
  ∃ xb ob zs, if turn then
    Spec.Fibs.Says s ['x'] xb ob b.xOff b.oOff zs ∧ b.x 25 = xb ∧ b.o 0 = ob ∧ ∀ i < 24, (b.x (24 - i) : Int) - b.o (24 - i) = zs.getD i 0
  else
    Spec.Fibs.Says s ['o'] xb ob b.xOff b.oOff zs ∧ b.o 0 = xb ∧ b.x 25 = ob ∧ ∀ i < 24, (b.o (i + 1) : Int) - b.x (i + 1) = zs.getD i 0

/-- **C93** What `fibs::decode` does for a variant: a valid position of the variant is the result exactly if the text shows it; with overflow checks nothing else
is accepted, and without them nothing panics. -/
theorem C93_fibs (v : Variant) (s : Str) :
    (∀ dbg q, Fibs.decodeV dbg v s = some (.ok q) ∧ VPos.ValidFor v q ↔ VPos.ValidFor v q ∧ FibsShows s q.turn q.view) ∧
    (∀ q, Fibs.decodeV true v s = some (.ok q) → VPos.ValidFor v q) ∧
    (∀ dbg q, Fibs.decodeV dbg v s = some (.ok q) → q.variant = v) ∧
    Fibs.decodeV false v s ≠ none := by
  have hc := checkers_le v
  unfold Fibs.decodeV
  have shows : ∀ {N : Nat} (p : Pos N), p.Valid → (FibsShows s p.turn p.view ↔
      ((p.turn = true ∧ ∃ xb ob zs, Spec.Fibs.Says s ['x'] xb ob p.xOff p.oOff zs ∧ p.pip 25 = xb ∧ p.pip 0 = -(ob : Int) ∧
        ∀ i < 24, p.pip (24 - i) = zs.getD i 0) ∨
     (p.turn = false ∧ ∃ xb ob zs, Spec.Fibs.Says s ['o'] xb ob p.xOff p.oOff zs ∧ p.pip 0 = -(xb : Int) ∧ p.pip 25 = ob ∧
        ∀ i < 24, p.pip (i + 1) = -zs.getD i 0))) := by
    intro N p hp
    have hb := Pos.Valid.barsOK hp
    have b1 := hb.1
    have b2 := hb.2
    have a : ((p.view.x 25 : Nat) : Int) = p.pip 25 := by show (((p.pip 25).toNat : Nat) : Int) = _; omega
    have b : ((p.view.o 0 : Nat) : Int) = -p.pip 0 := by show (((-p.pip 0).toNat : Nat) : Int) = _; omega
    have c := view_sub p
    have d : ∀ i, (p.view.o i : Int) - p.view.x i = -p.pip i := fun i => by rw [← c i]; omega
    unfold FibsShows
    cases ht : p.turn with
    | true =>
      simp only [if_true, true_and, Bool.true_eq_false, false_and, or_false, c]
      refine exists_congr fun xb => exists_congr fun ob => exists_congr fun zs => and_congr_right fun _ => ?_
      refine and_congr (by omega) (and_congr (by omega) Iff.rfl)
    | false =>
      simp only [Bool.false_eq_true, if_false, false_and, true_and, false_or, d]
      refine exists_congr fun xb => exists_congr fun ob => exists_congr fun zs => and_congr_right fun _ => ?_
      refine and_congr (by omega) (and_congr (by omega) (forall₂_congr fun i _ => by omega))
  refine ⟨fun dbg q => ?_, fun q => ?_, fun dbg q h => ((decodeWith_ok _ _ _ _).1 h).1, ?_⟩
  · rw [decodeWith_ok]
    constructor
    · rintro ⟨⟨h1, p, h2, h3, h4⟩, hq⟩
      have hv := (validFor_pos h1 h4).1 hq
      obtain ⟨-, h5⟩ := (C29_accept_iff dbg (by omega) s p).1 ⟨h2, hv⟩
      exact ⟨hq, by rw [h3, h4]; exact (shows p hv).2 h5⟩
    · rintro ⟨hq, h⟩
      obtain ⟨rfl, -⟩ := id hq
      obtain ⟨p, h4, h5⟩ := exists_pos q
      have hv := (validFor_pos rfl h5).1 hq
      rw [h4, h5] at h
      obtain ⟨h6, -⟩ := (C29_accept_iff dbg (by omega) s p).2 ⟨hv, (shows p hv).1 h⟩
      exact ⟨⟨rfl, p, h6, h4, h5⟩, hq⟩
  · rw [decodeWith_ok]
    rintro ⟨h1, p, h2, h3, h4⟩
    exact (validFor_pos h1 h4).2 (C29_debug_valid (by omega) s p h2)
  · rw [Ne, decodeWith_none]
    exact C29_release_no_panic s

/-- **C93** What the three codecs write for the valid positions of a variant. -/
theorem C93_encode (v : Variant) (q : VPos) (hq : VPos.ValidFor v q) :
    Xgid.encodeV q = Spec.Xgid.board q.view ∧
    (∃ K z, K < 2 ^ 80 ∧ GnuId.encodeV q = some (Spec.GnuId.text K) ∧ Spec.GnuId.bits K = Spec.GnuId.unary (Spec.GnuId.counts q.view) ++ List.replicate z false) ∧
    Spec.Fibs.Says (Fibs.encodeV q) (if q.turn then ['x'] else ['o']) (q.view.x 25) (q.view.o 0) q.view.xOff q.view.oOff
      ((List.range 24).map fun j => (q.view.x (24 - j) : Int) - q.view.o (24 - j)) := by
  obtain ⟨rfl, hv⟩ := hq
  cases q <;>
  · rename_i p
    refine ⟨C75_xgid_text (by omega) p hv, C75_gnuid_text (by omega) p hv, ?_⟩
    have := C75_fibs_text (by omega) p hv
    simp only [← view_sub] at this
    exact this

/-- Concrete cases: the start position of hypergammon; a backgammon id in a hypergammon session; an id that is too short. -/
example : Spec.GnuId.Says true .hypergammon "AACgAgAAKgAAAA".toList Variant.hypergammon.startPosition :=
  ((C93_gnuid true .hypergammon _).1 _).1 <| by
    obtain ⟨id, h1, -, h2⟩ := C22_variant_round_trip .hypergammon Variant.hypergammon.startPosition ⟨rfl, show Pos.Valid (N := 3) _ by decide +kernel⟩
    have e : GnuId.encodeV Variant.hypergammon.startPosition = some "AACgAgAAKgAAAA".toList := by decide +kernel
    rw [e] at h1
    injection h1 with h1
    rw [h1]
    exact h2 true
example : Crashes true .hypergammon "4HPwATDgc/ABMA".toList ∧ ¬ Crashes false .hypergammon "4HPwATDgc/ABMA".toList :=
  ⟨(C93_gnuid true .hypergammon _).2.1.1 (by decide +kernel), fun h => absurd ((C93_gnuid false .hypergammon _).2.1.2 h) (by decide +kernel)⟩
example : GnuId.decodeV true .backgammon "4HPwATDgcw".toList = some (.error .keyLength) :=
  (C93_gnuid true .backgammon _).2.2.1.2 (by decide +kernel)
example : Xgid.decodeV true .hypergammon "-aaa------------------AAA-".toList = some (.ok Variant.hypergammon.startPosition) :=
  ((C93_xgid .hypergammon _).1 _).2 ⟨⟨rfl, show Pos.Valid (N := 3) _ by decide +kernel⟩, rfl, by decide +kernel⟩
example := C93_encode .hypergammon Variant.hypergammon.startPosition ⟨rfl, show Pos.Valid (N := 3) _ by decide +kernel⟩
example : ∃ s, FibsShows s true Variant.hypergammon.startPosition.view := by
  have hv : VPos.ValidFor .hypergammon Variant.hypergammon.startPosition := ⟨rfl, show Pos.Valid (N := 3) _ by decide +kernel⟩
  exact ⟨_, ((C93_fibs .hypergammon _).1 true _).1 ⟨C28_variant_round_trip_partial .hypergammon _ hv rfl true, hv⟩ |>.2⟩

end Bkgm
