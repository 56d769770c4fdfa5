import Verif.Props.Ubgi
import Verif.Props.GnuId
/-!
# C67: what can crash a UBGI session; engines that keep the trait's default methods
-/

namespace Bkgm.Ubgi
open Spec MoveText
variable {ε : Type} {dbg : Bool} {E : Engine ε} {e e' : ε} {s : Session} {lines : List Str} {T T₁ T₂ : Transcript} {l : Str} {out : List Str}

theorem exchange_none {e : ε} {s : Session} {l : Str} : exchange dbg E e s l = none ↔
    ∃ id, Means (trim l) (.positionGnubgid id) ∧ GnuId.decodeV dbg s.variant id = none := by
  constructor
  · intro h
    unfold exchange at h
    split_ifs at h with h0
    cases hc : parseCommand (trim l) <;> rw [hc] at h <;> simp only [handleCommand] at h <;> try cases h
    · split at h <;> cases h
    · rename_i id
      rw [Option.map_eq_none_iff] at h
      have hm := means_iff.mpr hc
      refine ⟨id, hm, ?_⟩
      have : trim id = id := by
        generalize hl : trim l = t at hm
        cases hm with
        | gnubgid id => exact trim_trim id
      rwa [this] at h
  · rintro ⟨id, hm, hd⟩
    rw [exchange_cmd hm (by simp)]
    have : trim id = id := by
      generalize hl : trim l = t at hm
      cases hm with
      | gnubgid id => exact trim_trim id
    simp only [handleCommand, this, hd, Option.map_none]

theorem loop_none : ∀ {lines : List Str} {e : ε} {s : Session}, loop dbg E lines e s = none ↔
    ∃ A l B, lines = A ++ l :: B ∧ (∀ a ∈ A, ¬ Means (trim a) .quit) ∧
      ∃ T e' s' id, loop dbg E A e s = some (T, e', s') ∧ Means (trim l) (.positionGnubgid id) ∧ GnuId.decodeV dbg s'.variant id = none := by
  intro lines
  induction lines with
  | nil =>
    intro e s
    simp [loop]
  | cons line rest ih =>
    intro e s
    cases hx : exchange dbg E e s line with
    | none =>
      have h1 : loop dbg E (line :: rest) e s = none := by
        cases h : loop dbg E (line :: rest) e s with
        | none => rfl
        | some r =>
          obtain ⟨out, e1, s1, h1, -⟩ := loop_cons.mp h
          rw [hx] at h1; cases h1
      obtain ⟨id, hm, hd⟩ := exchange_none.mp hx
      exact ⟨fun _ => ⟨[], line, rest, rfl, by simp, [], e, s, id, by simp [loop], hm, hd⟩, fun _ => h1⟩
    | some r =>
      obtain ⟨out, e1, s1⟩ := r
      by_cases hq : parseCommand (trim line) = .quit
      · have h1 : loop dbg E (line :: rest) e s = some ([(line, out)], e1, s1) := loop_cons.mpr ⟨out, e1, s1, hx, .inl ⟨hq, rfl⟩⟩
        rw [h1]
        simp only [reduceCtorEq, false_iff]
        rintro ⟨A, l, B, hl, hA, T, e', s', id, hr, hm, hd⟩
        cases A with
        | nil =>
          simp only [List.nil_append, List.cons.injEq] at hl
          rw [← hl.1] at hm
          rw [means_iff.mp hm] at hq
          cases hq
        | cons a A =>
          simp only [List.cons_append, List.cons.injEq] at hl
          exact hA a (by simp) (by rw [← hl.1]; exact means_iff.mpr hq)
      · have h1 : loop dbg E (line :: rest) e s = none ↔ loop dbg E rest e1 s1 = none := by
          constructor
          · intro h
            cases h2 : loop dbg E rest e1 s1 with
            | none => rfl
            | some r =>
              rw [loop_cons.mpr ⟨out, e1, s1, hx, .inr ⟨hq, r, h2, rfl⟩⟩] at h
              cases h
          · intro h
            cases h2 : loop dbg E (line :: rest) e s with
            | none => rfl
            | some r =>
              obtain ⟨out', e1', s1', h3, h4⟩ := loop_cons.mp h2
              rw [hx] at h3
              simp only [Option.some.injEq, Prod.mk.injEq] at h3
              obtain ⟨rfl, rfl, rfl⟩ := h3
              rcases h4 with ⟨h4, -⟩ | ⟨-, r', h4, -⟩
              · exact absurd h4 hq
              · rw [h] at h4; cases h4
        rw [h1, ih]
        constructor
        · rintro ⟨A, l, B, rfl, hA, T, e', s', id, hr, hm, hd⟩
          refine ⟨line :: A, l, B, rfl, ?_, (line, out) :: T, e', s', id, loop_cons.mpr ⟨out, e1, s1, hx, .inr ⟨hq, _, hr, rfl⟩⟩, hm, hd⟩
          intro a ha
          rcases List.mem_cons.mp ha with rfl | ha
          · exact fun h => hq (means_iff.mp h)
          · exact hA a ha
        · rintro ⟨A, l, B, hl, hA, T, e', s', id, hr, hm, hd⟩
          cases A with
          | nil =>
            simp only [loop, Option.some.injEq, Prod.mk.injEq] at hr
            obtain ⟨rfl, rfl, rfl⟩ := hr
            simp only [List.nil_append, List.cons.injEq] at hl
            have := exchange_none (E := E) (e := e).mpr ⟨id, hm, hd⟩
            rw [← hl.1, hx] at this
            cases this
          | cons a A =>
            simp only [List.cons_append, List.cons.injEq] at hl
            obtain ⟨rfl, rfl⟩ := hl
            obtain ⟨out', e2, s2, h3, h4⟩ := loop_cons.mp hr
            rw [hx] at h3
            simp only [Option.some.injEq, Prod.mk.injEq] at h3
            obtain ⟨rfl, rfl, rfl⟩ := h3
            rcases h4 with ⟨h4, -⟩ | ⟨-, ⟨T', e3, s3⟩, h4, h5⟩
            · exact absurd h4 hq
            · simp only [Prod.mk.injEq] at h5
              obtain ⟨-, rfl, rfl⟩ := h5
              exact ⟨A, l, B, rfl, fun a ha => hA a (by simp [ha]), T', e', s', id, h4, hm, hd⟩

/-- **C67** A session panics iff some line before any `quit` is a `position gnubgid` whose id makes the decoder panic for the variant the
session has at that moment. No other input does, in no build. -/
theorem C67_panic_iff : run dbg E e lines = none ↔
    ∃ A l B, lines = A ++ l :: B ∧ (∀ a ∈ A, ¬ Means (trim a) .quit) ∧
      ∃ T e' s id v q, run dbg E e A = some (T, e', s) ∧ Means (trim l) (.positionGnubgid id) ∧
        Along (Spec.GameStep dbg) startGame T (v, q) ∧ _root_.Spec.GnuId.Crashes dbg v id := by
  simp only [← (C93_gnuid dbg _ _).2.1]
  unfold run
  rw [loop_none]
  constructor
  · rintro ⟨A, l, B, h1, h2, T, e', s', id, hr, hm, hd⟩
    exact ⟨A, l, B, h1, h2, T, e', s', id, _, _, hr, hm, (C50_session (E := E) (e := e) hr).2.2.1, hd⟩
  · rintro ⟨A, l, B, h1, h2, T, e', s', id, v, q, hr, hm, ha, hd⟩
    refine ⟨A, l, B, h1, h2, T, e', s', id, hr, hm, ?_⟩
    have := (C50_determined (dbg := dbg) T).1 _ _ ha (C50_session (E := E) (e := e) hr).2.2.1
    simp only [Prod.mk.injEq] at this
    rw [← this.1]; exact hd

/-- **C67** So a session without `position gnubgid` lines never panics, whatever else is sent. -/
theorem C67_no_position_no_panic (h : ∀ l ∈ lines, ∀ id, ¬ Means (trim l) (.positionGnubgid id)) : ∃ r, run dbg E e lines = some r := by
  cases hr : run dbg E e lines with
  | some r => exact ⟨r, rfl⟩
  | none =>
    obtain ⟨A, l, B, rfl, -, T, e', s, id, v, q, -, hm, -⟩ := C67_panic_iff.mp hr
    exact absurd hm (h l (by simp) id)

example := C67_no_position_no_panic (dbg := true) (E := demo) (e := 0) (lines := ["set game.variant nackgammon".toList, "dice 6 1".toList]) (by
  intro l hl id hm
  have h := means_iff.1 hm
  simp only [List.mem_cons, List.not_mem_nil, or_false] at hl
  rcases hl with rfl | rfl
  · rw [show parseCommand _ = .set "game.variant".toList "nackgammon".toList by decide +kernel] at h; cases h
  · rw [show parseCommand _ = .dice "6 1".toList by decide +kernel] at h; cases h)

/-- The text is the GNU id of a valid position of some variant. -/
def IsGnuId (id : Str) : Prop := ∃ v q, VPos.ValidFor v q ∧ GnuId.encodeV q = some id

theorem decode_mono {N M : Nat} {id : Str} (h : GnuId.decode dbg N id ≠ none) (hNM : dbg = true → N ≤ M) : GnuId.decode dbg M id ≠ none := by
  cases dbg with
  | false =>
    rw [Ne, C23_release_panic_iff_partial] at h ⊢
    exact h
  | true =>
    have := hNM rfl
    rw [Ne, (C23_panic_iff_partial id).1] at h ⊢
    rintro ⟨bits, hb, hc⟩
    exact h ⟨bits, hb, by omega⟩

theorem decodeV_none {v : Variant} {id : Str} : GnuId.decodeV dbg v id = none ↔ GnuId.decode dbg v.checkers id = none := by
  cases v <;> simp [GnuId.decodeV, Variant.decodeWith, Variant.checkers]

theorem gnuId_safe {v : Variant} {id : Str} (h : IsGnuId id) (hv : dbg = true → v.checkers = 15) : GnuId.decodeV dbg v id ≠ none := by
  obtain ⟨w, q, hq, he⟩ := h
  obtain ⟨id', h1, -, h2⟩ := C22_variant_round_trip w q hq
  rw [he] at h1
  obtain rfl := Option.some.inj h1
  have h3 : GnuId.decode dbg w.checkers id ≠ none := by
    rw [Ne, ← decodeV_none, h2]; simp
  rw [Ne, decodeV_none]
  refine decode_mono h3 fun hd => ?_
  rw [hv hd]
  cases w <;> decide

/-- **C67** If every `position gnubgid` line carries the id of a valid position, of whatever variant, then a release build never panics,
whatever else is sent and however often the variant is changed; a debug build does not either as long as the variant is not changed. -/
theorem C67_valid_ids_no_panic (hid : ∀ l ∈ lines, ∀ id, Means (trim l) (.positionGnubgid id) → IsGnuId id)
    (hv : dbg = true → ∀ l ∈ lines, ∀ t, ¬ Means (trim l) (.set "game.variant".toList t)) : ∃ r, run dbg E e lines = some r := by
  cases hr : run dbg E e lines with
  | some r => exact ⟨r, rfl⟩
  | none =>
    exfalso
    obtain ⟨A, l, B, rfl, hA, T, e', s, id, v, q, hT, hm, ha, hd⟩ := C67_panic_iff.mp hr
    refine gnuId_safe (hid l (by simp) id hm) (fun hdbg => ?_) ((C93_gnuid dbg _ _).2.1.2 hd)
    have hlines := C53_every_line_read hT hA
    have keep : ∀ (T : Transcript) (a b : Variant × VPos), (∀ x ∈ T, ∀ t, ¬ Means (trim x.1) (.set "game.variant".toList t)) →
        Along (Spec.GameStep dbg) a T b → b.1 = a.1 := by
      intro T
      induction T with
      | nil => rintro a b - rfl; rfl
      | cons x T ih =>
        rintro a b hx ⟨c, h1, h2⟩
        rw [ih c b (fun y hy => hx y (by simp [hy])) h2]
        rcases h1 with ⟨-, rfl⟩ | ⟨t, v, hs, -⟩ | ⟨-, -, -, -, -, rfl⟩ | ⟨-, -, -, rfl⟩
        · rfl
        · exact absurd hs (hx x (by simp) t)
        · rfl
        · rfl
    have := keep T startGame (v, q) (fun x hx => hv hdbg x.1 (by
      have : x.1 ∈ A := by rw [← hlines]; exact List.mem_map.mpr ⟨x, hx, rfl⟩
      simp [this])) ha
    simp only [startGame] at this
    rw [this]
    rfl

/-- **C67** Both conditions are needed: one line crashes every build; and changing the variant crashes a debug build on the id of the
backgammon start position. -/
theorem C67_panic_counterexample :
    (∀ dbg, run dbg demo 0 ["position gnubgid /////////////w".toList] = none) ∧
    run true demo 0 ["set game.variant hypergammon".toList, "position gnubgid 4HPwATDgc/ABMA".toList] = none ∧
    IsGnuId "4HPwATDgc/ABMA".toList := by
  have key : ∀ {α : Type} (o : Option α), o.isNone = true → o = none := fun o h => by cases o; rfl; cases h
  refine ⟨fun dbg => key _ ?_, key _ (by decide +kernel), .backgammon, .backgammon BACKGAMMON, ⟨rfl, ?_⟩, ?_⟩
  · cases dbg <;> decide +kernel
  · show BACKGAMMON.Valid
    decide +kernel
  · decide +kernel

example := C67_valid_ids_no_panic (dbg := true) (E := demo) (e := 0) (lines := ["position gnubgid 4HPwATDgc/ABMA".toList]) (by
  intro l hl id hm
  have h := means_iff.1 hm
  rw [List.mem_singleton] at hl
  subst hl
  rw [show parseCommand _ = .positionGnubgid "4HPwATDgc/ABMA".toList by decide +kernel] at h
  cases h
  exact C67_panic_counterexample.2.2) (by
  intro _ l hl t hm
  have h := means_iff.1 hm
  rw [List.mem_singleton] at hl
  subst hl
  rw [show parseCommand _ = .positionGnubgid "4HPwATDgc/ABMA".toList by decide +kernel] at h
  cases h)

/-- The hypotheses of `C67_valid_ids_no_panic` are met by a session that loads the start position. -/
example : (∃ id, Means (trim "position gnubgid 4HPwATDgc/ABMA".toList) (.positionGnubgid id) ∧ IsGnuId id) ∧
    ∀ dbg, ((run dbg demo 0 ["position gnubgid 4HPwATDgc/ABMA".toList]).isSome = true) := by
  refine ⟨⟨_, means_iff.mpr (show _ = Command.positionGnubgid "4HPwATDgc/ABMA".toList by decide +kernel), C67_panic_counterexample.2.2⟩, ?_⟩
  intro dbg; cases dbg <;> decide +kernel

/-! ## Default methods -/

/-- **C67** An engine that overrides none of the trait's default methods: it is always ready; `keys` lists the variant key only; reading or
writing any key but the variant is unsupported. -/
theorem C67_default_engine (idName idVersion : ε → Str) (choose : ε → Game → Dice → Except UbgiError (List Step) × ε)
    (h : run dbg (Engine.withDefaults idName idVersion choose) e lines = some (T₁ ++ (l, out) :: T₂, e', s)) :
    (Means (trim l) .isReady → out = ["readyok".toList]) ∧
    (Means (trim l) .keys → out = ["key game.variant enum backgammon|nackgammon|longgammon|hypergammon|hypergammon2|hypergammon4|hypergammon5 backgammon".toList]) ∧
    (∀ k, Means (trim l) (.get k) → k ≠ "game.variant".toList → out = ["error unsupported key".toList]) ∧
    (∀ k t, Means (trim l) (.set k t) → k ≠ "game.variant".toList → k ≠ [] → t ≠ [] → out = ["error unsupported key".toList]) := by
  obtain ⟨e₁, s₁, e₂, s₂, h1, h2, h3⟩ := run_split h
  obtain ⟨hspec, hkey, -, hval⟩ := run_specs h1
  have hs0 : s₁.specs = [] := hspec
  have hv0 : ∀ k, s₁.values k = none := by
    intro k
    have keep : ∀ (T : Transcript) (a b : Option OptionValue), Along (ValueStep [] k) a T b → b = a := by
      intro T
      induction T with
      | nil => rintro a b rfl; rfl
      | cons x T ih =>
        rintro a b ⟨c, h1, h2⟩
        rw [ih c b h2]
        rcases h1 with ⟨t, v, o, -, -, -, ho, -⟩ | ⟨-, rfl⟩
        · cases ho
        · rfl
    exact keep _ _ _ (hval k)
  refine ⟨fun hm => ?_, fun hm => ?_, fun k hm hk => ?_, fun k t hm hk h0 ht => ?_⟩ <;> rw [exchange_cmd hm (by simp)] at h2
  · simp only [handleCommand, Engine.withDefaults, Option.some.injEq, Prod.mk.injEq] at h2
    exact h2.1.symm
  · simp only [handleCommand, renderKeyLines, hs0, hkey, Option.some.injEq, Prod.mk.injEq] at h2
    rw [← h2.1]
    have : (Session.new (Engine.withDefaults idName idVersion choose) e).variantKey =
      "key game.variant enum ".toList ++ join "|".toList (variants.map Variant.toText) ++ " backgammon".toList := rfl
    rw [this]
    decide +kernel
  · simp only [handleCommand, handleGet, if_neg hk, hv0, Engine.withDefaults, Option.some.injEq, Prod.mk.injEq] at h2
    exact h2.1.symm.trans (by decide +kernel)
  · simp only [handleCommand, handleSet, h0, ht, or_self, if_false, if_neg hk, hs0, List.find?_nil, Option.some.injEq, Prod.mk.injEq] at h2
    exact h2.1.symm.trans (by decide +kernel)

/-- Such a session. -/
example : ((run true (Engine.withDefaults (fun _ => "x".toList) (fun _ => "1".toList) (fun e _ _ => (.ok [], e))) () (["isready", "get depth", "set depth 3"].map String.toList)).map
    fun r => r.1.map Prod.snd) = some [["readyok".toList], ["error unsupported key".toList], ["error unsupported key".toList]] := by decide +kernel

end Bkgm.Ubgi
