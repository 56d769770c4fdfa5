import Verif.Proofs.Ubgi
import Verif.Props.UbgiOptions
import Verif.Props.VariantDecode
/-!
Helper lemmas for the UBGI session properties (C50-C53).
-/

namespace Bkgm.Ubgi
open Spec
variable {ε : Type} {dbg : Bool} {E : Engine ε}

/-- What one line does. -/
def exchange (dbg : Bool) (E : Engine ε) (e : ε) (s : Session) (line : Str) : Option (List Str × ε × Session) :=
  if trim line = [] then some ([], e, s) else handleCommand dbg E e s (parseCommand (trim line))

theorem parse_nil : parseCommand [] = .unknown := by decide +kernel

theorem loop_cons {line : Str} {rest : List Str} {e : ε} {s : Session} {r : List (Str × List Str) × ε × Session} :
    loop dbg E (line :: rest) e s = some r ↔ ∃ out e1 s1, exchange dbg E e s line = some (out, e1, s1) ∧
      ((parseCommand (trim line) = .quit ∧ r = ([(line, out)], e1, s1)) ∨
       (parseCommand (trim line) ≠ .quit ∧ ∃ r', loop dbg E rest e1 s1 = some r' ∧ r = ((line, out) :: r'.1, r'.2))) := by
  conv_lhs => unfold loop
  unfold exchange
  by_cases h : trim line = []
  · simp only [h, if_true, parse_nil, Option.map_eq_some_iff]
    constructor
    · rintro ⟨r', h1, rfl⟩
      exact ⟨[], e, s, rfl, .inr ⟨by decide, r', h1, rfl⟩⟩
    · rintro ⟨out, e1, s1, h1, h2⟩
      simp only [Option.some.injEq, Prod.mk.injEq] at h1
      obtain ⟨rfl, rfl, rfl⟩ := h1
      rcases h2 with ⟨h2, -⟩ | ⟨-, r', h3, rfl⟩
      · cases h2
      · exact ⟨r', h3, rfl⟩
  · simp only [h, if_false, Option.bind_eq_some_iff]
    constructor
    · rintro ⟨⟨out, e1, s1⟩, h1, h2⟩
      refine ⟨out, e1, s1, h1, ?_⟩
      simp only at h2
      split_ifs at h2 with hq
      · exact .inl ⟨hq, (Option.some.inj h2).symm⟩
      · obtain ⟨r', h3, rfl⟩ := Option.map_eq_some_iff.mp h2
        exact .inr ⟨hq, r', h3, rfl⟩
    · rintro ⟨out, e1, s1, h1, h2⟩
      refine ⟨(out, e1, s1), h1, ?_⟩
      rcases h2 with ⟨hq, rfl⟩ | ⟨hq, r', h3, rfl⟩
      · simp [hq]
      · simp [hq, h3]

theorem loop_split : ∀ {T₁ T₂ : Transcript} {lines : List Str} {l : Str} {out : List Str} {e e' : ε} {s s' : Session},
    loop dbg E lines e s = some (T₁ ++ (l, out) :: T₂, e', s') →
    ∃ e1 s1 e2 s2, loop dbg E (lines.take T₁.length) e s = some (T₁, e1, s1) ∧ exchange dbg E e1 s1 l = some (out, e2, s2) ∧
      loop dbg E (lines.take (T₁.length + 1)) e s = some (T₁ ++ [(l, out)], e2, s2) ∧
      (∀ x ∈ T₁, parseCommand (trim x.1) ≠ .quit) := by
  intro T₁
  induction T₁ with
  | nil =>
    intro T₂ lines l out e e' s s' h
    cases lines with
    | nil => simp [loop] at h
    | cons line rest =>
      obtain ⟨out', e1, s1, h1, h2⟩ := loop_cons.mp h
      have : line = l ∧ out' = out := by
        rcases h2 with ⟨-, h2⟩ | ⟨-, r', -, h2⟩ <;>
          simp only [List.nil_append, Prod.mk.injEq, List.cons.injEq] at h2 <;> exact ⟨h2.1.1.1.symm, h2.1.1.2.symm⟩
      obtain ⟨rfl, rfl⟩ := this
      refine ⟨e, s, e1, s1, by simp [loop], h1, ?_, by simp⟩
      simp only [List.length_nil, List.take_succ_cons, List.take_zero, List.nil_append]
      refine loop_cons.mpr ⟨out', e1, s1, h1, ?_⟩
      by_cases hq : parseCommand (trim line) = .quit
      · exact .inl ⟨hq, rfl⟩
      · exact .inr ⟨hq, ([], e1, s1), by simp [loop], rfl⟩
  | cons x T₁ ih =>
    intro T₂ lines l out e e' s s' h
    cases lines with
    | nil => simp [loop] at h
    | cons line rest =>
      obtain ⟨out', e1, s1, h1, h2⟩ := loop_cons.mp h
      rcases h2 with ⟨hq, h2⟩ | ⟨hq, r', h3, h2⟩
      · simp at h2
      · simp only [List.cons_append, Prod.mk.injEq, List.cons.injEq] at h2
        obtain ⟨⟨rfl, h4⟩, h5⟩ := h2
        have hr : r' = (T₁ ++ (l, out) :: T₂, e', s') := by
          rw [h4, h5]
        rw [hr] at h3
        obtain ⟨f1, t1, f2, t2, g1, g2, g3, g4⟩ := ih h3
        refine ⟨f1, t1, f2, t2, ?_, g2, ?_, ?_⟩
        · rw [List.length_cons, List.take_succ_cons]
          exact loop_cons.mpr ⟨out', e1, s1, h1, .inr ⟨hq, _, g1, rfl⟩⟩
        · rw [List.length_cons, List.take_succ_cons]
          exact loop_cons.mpr ⟨out', e1, s1, h1, .inr ⟨hq, _, g3, rfl⟩⟩
        · intro y hy
          rcases List.mem_cons.mp hy with rfl | hy
          · exact hq
          · exact g4 y hy

/-- Game, variant and position of a session fit together. -/
def GameInv (s : Session) : Prop := s.game.variant = s.variant ∧ s.game.position.variant = s.variant

theorem gnu_variant {v : Variant} {id : Str} {q : VPos} (h : GnuId.decodeV dbg v id = some (.ok q)) : q.variant = v := by
  unfold GnuId.decodeV Variant.decodeWith at h
  cases v <;> simp only [Option.map_eq_some_iff] at h <;> obtain ⟨r, -, h⟩ := h <;> cases r <;>
    simp [Except.map] at h <;> subst h <;> rfl

theorem setPosition_ok {g : Game} {q : VPos} (h : q.variant = g.variant) : (g.setPosition q).1 = ⟨g.variant, q⟩ := by
  unfold Game.setPosition
  rw [if_neg (by simp [h])]

theorem parse_variant {t : Str} {v : Variant} : Variant.parse t = some v ↔ lower (trim t) = v.toText := by
  constructor
  · intro h
    unfold Variant.parse at h
    simp only at h
    split_ifs at h with h1 h2 h3 h4 h5 h6 h7 <;> simp only [Option.some.injEq] at h <;> subst h <;> assumption
  · intro h
    unfold Variant.parse
    simp only [h]
    cases v <;> decide +kernel

theorem toLine_error (p : ProtocolError) : IsError [p.toLine] := by
  have e1 : "error bad_command ".toList = "error ".toList ++ "bad_command ".toList := by decide +kernel
  have e2 : "error bad_value ".toList = "error ".toList ++ "bad_value ".toList := by decide +kernel
  have e3 : "error bad_state ".toList = "error ".toList ++ "bad_state ".toList := by decide +kernel
  have e4 : "error unsupported ".toList = "error ".toList ++ "unsupported ".toList := by decide +kernel
  have key : ∀ (a b : Str) (d : Str), a = "error ".toList ++ b → IsError [a ++ d] := fun a b d h =>
    Exists.intro (b ++ d) (by rw [h, List.append_assoc])
  cases p with
  | badCommand d => exact key _ _ d e1
  | badValue d => exact key _ _ d e2
  | badState d => exact key _ _ d e3
  | unsupported d => exact key _ _ d e4

/-- The outcomes of `handle_set`. -/
theorem handleSet_cases (e : ε) (s : Session) (k t : Str) :
    (∃ p : ProtocolError, ∃ e', handleSet E e s k t = ([p.toLine], e', s)) ∨
    (k = "game.variant".toList ∧ ∃ v, lower (trim t) = v.toText ∧ handleSet E e s k t = ([], e, { s with variant := v, game := Game.new v })) ∨
    (k ≠ "game.variant".toList ∧ ∃ o v e', o ∈ s.specs ∧ o.key = k ∧ Allowed o v ∧ Denotes t v ∧
      handleSet E e s k t = ([], e', { s with values := insertValue s.values k v })) := by
  unfold handleSet
  by_cases h0 : k = [] ∨ t = []
  · rw [if_pos h0]; exact .inl ⟨_, _, rfl⟩
  rw [if_neg h0]
  by_cases h1 : k = "game.variant".toList
  · rw [if_pos h1]
    cases hv : Variant.parse t with
    | none => exact .inl ⟨_, _, rfl⟩
    | some v => exact .inr (.inl ⟨h1, v, parse_variant.mp hv, rfl⟩)
  rw [if_neg h1]
  cases hf : s.specs.find? (fun o => o.key == k) with
  | none => exact .inl ⟨_, _, rfl⟩
  | some o =>
    simp only
    cases hp : o.parseValue t with
    | error m => exact .inl ⟨_, _, rfl⟩
    | ok v =>
      simp only
      rcases hs : E.set e k v with ⟨r, e'⟩
      cases r with
      | error m => exact .inl ⟨_, _, rfl⟩
      | ok u =>
        have hv := (C49_accepts_exactly o t v).mp hp
        exact .inr (.inr ⟨h1, o, v, e', List.mem_of_find?_eq_some hf, by simpa using List.find?_some hf, hv.1, hv.2, rfl⟩)

theorem usize_dec {t : Str} {n : Nat} (h : parseNat MoveText.usizeMax t = some n) : Decimal t n := by
  obtain ⟨-, ds, h1, h2, h3, h4⟩ := parseNat_some.mp h
  refine ⟨ds, h1, h2, ?_⟩
  rcases h4 with h4 | h4
  · exact .inl ⟨h4, by rw [h3]⟩
  · exact .inr (.inl ⟨h4, by rw [h3]⟩)

theorem handleDice_cases (s : Session) (r : Str) :
    handleDice s r = ([(ProtocolError.badValue "dice".toList).toLine], s) ∨
    (∃ t1 t2 a b, splitWs r = [t1, t2] ∧ Decimal t1 (a : Nat) ∧ Decimal t2 (b : Nat) ∧ 1 ≤ a ∧ a ≤ 6 ∧ 1 ≤ b ∧ b ≤ 6 ∧
      handleDice s r = ([], { s with dice := some (Dice.new a b) })) := by
  unfold handleDice
  split
  · rename_i t1 t2 hs
    split
    · rename_i a b ha hb
      split_ifs with hr
      · exact .inr ⟨t1, t2, a, b, hs, usize_dec ha, usize_dec hb, hr.1.1, hr.1.2, hr.2.1, hr.2.2, rfl⟩
      · exact .inl rfl
    · exact .inl rfl
  · exact .inl rfl

/-- Everything one exchange does to the session. -/
structure StepOk (dbg : Bool) (s : Session) (x : Str × List Str) (s' : Session) : Prop where
  inv : GameInv s'
  specs : s'.specs = s.specs
  key : s'.variantKey = s.variantKey
  game : Spec.GameStep dbg (s.variant, s.game.position) x (s'.variant, s'.game.position)
  dice : DiceStep s.dice x s'.dice
  value : ∀ k, ValueStep s.specs k (s.values k) x (s'.values k)
  error : IsError x.2 → s' = s

theorem means_inj {l : Str} {c c' : Command} (h : Means l c) (h' : Means l c') : c = c' := by
  rw [means_iff] at h h'; exact h.symm.trans h'

theorem gameStep_same {g : Variant × VPos} {x : Str × List Str} (h1 : ¬ Means (trim x.1) .newGame)
    (h2 : ∀ t, ¬ (Means (trim x.1) (.set "game.variant".toList t) ∧ x.2 = [])) (h3 : ∀ id, ¬ (Means (trim x.1) (.positionGnubgid id) ∧ x.2 = [])) :
    Spec.GameStep dbg g x g := .inr (.inr (.inr ⟨h1, h2, h3, rfl⟩))

theorem stepOk_same {s : Session} {x : Str × List Str} (hs : GameInv s)
    (h1 : ¬ Means (trim x.1) .newGame) (h2 : ∀ k t, ¬ (Means (trim x.1) (.set k t) ∧ x.2 = []))
    (h3 : ∀ id, ¬ (Means (trim x.1) (.positionGnubgid id) ∧ x.2 = [])) (h4 : ∀ r, ¬ (Means (trim x.1) (.dice r) ∧ x.2 = [])) :
    StepOk dbg s x s where
  inv := hs
  specs := rfl
  key := rfl
  game := gameStep_same h1 (h2 _) h3
  dice := .inr (.inr ⟨h1, h4, rfl⟩)
  value := fun k => .inr ⟨.inr (h2 k), rfl⟩
  error := fun _ => rfl

theorem not_isError_nil : ¬ IsError [] := by rintro ⟨t, h⟩; cases h

theorem exchange_ok {e e' : ε} {s s' : Session} {l : Str} {out : List Str} (hs : GameInv s) (h : exchange dbg E e s l = some (out, e', s')) :
    StepOk dbg s (l, out) s' := by
  unfold exchange at h
  have hm := means_parse (trim l)
  by_cases h0 : trim l = []
  · rw [if_pos h0] at h
    rw [h0, parse_nil, ← h0] at hm
    simp only [Option.some.injEq, Prod.mk.injEq] at h
    obtain ⟨rfl, rfl, rfl⟩ := h
    refine stepOk_same hs (fun h' => (by cases means_inj hm h')) (fun k t h' => (by cases means_inj hm h'.1)) (fun k h' => (by cases means_inj hm h'.1))
      (fun k h' => (by cases means_inj hm h'.1))
  rw [if_neg h0] at h
  -- commands that never change the session
  have same : s' = s → (∀ k t, parseCommand (trim l) ≠ .set k t) → (∀ id, parseCommand (trim l) ≠ .positionGnubgid id) →
      (∀ r, parseCommand (trim l) ≠ .dice r) → parseCommand (trim l) ≠ .newGame → StepOk dbg s (l, out) s' := by
    rintro rfl a1 a2 a3 a4
    exact stepOk_same hs (fun h' => a4 (means_iff.mp h')) (fun k t h' => a1 k t (means_iff.mp h'.1)) (fun k h' => a2 k (means_iff.mp h'.1))
      (fun k h' => a3 k (means_iff.mp h'.1))
  have simple : parseCommand (trim l) ≠ .newGame → (∀ k t, parseCommand (trim l) ≠ .set k t) → (∀ id, parseCommand (trim l) ≠ .positionGnubgid id) →
      (∀ r, parseCommand (trim l) ≠ .dice r) → s' = s := by
    intro a1 a2 a3 a4
    cases hc : parseCommand (trim l) with
    | ubgi => rw [hc] at h; simp only [handleCommand, Option.some.injEq, Prod.mk.injEq] at h; exact h.2.2.symm
    | isReady =>
      rw [hc] at h; simp only [handleCommand] at h
      rcases hr : E.onReady e with ⟨r, e1⟩
      rw [hr] at h
      cases r <;> simp only [Option.some.injEq, Prod.mk.injEq] at h <;> exact h.2.2.symm
    | newGame => exact absurd hc a1
    | keys => rw [hc] at h; simp only [handleCommand, Option.some.injEq, Prod.mk.injEq] at h; exact h.2.2.symm
    | get k => rw [hc] at h; simp only [handleCommand, Option.some.injEq, Prod.mk.injEq] at h; exact h.2.2.symm
    | set k t => exact absurd hc (a2 k t)
    | positionGnubgid id => exact absurd hc (a3 id)
    | positionXgid => rw [hc] at h; simp only [handleCommand, Option.some.injEq, Prod.mk.injEq] at h; exact h.2.2.symm
    | positionUnknown => rw [hc] at h; simp only [handleCommand, Option.some.injEq, Prod.mk.injEq] at h; exact h.2.2.symm
    | dice r => exact absurd hc (a4 r)
    | goChequer => rw [hc] at h; simp only [handleCommand, Option.some.injEq, Prod.mk.injEq] at h; exact h.2.2.symm
    | goCube => rw [hc] at h; simp only [handleCommand, Option.some.injEq, Prod.mk.injEq] at h; exact h.2.2.symm
    | goTurn => rw [hc] at h; simp only [handleCommand, Option.some.injEq, Prod.mk.injEq] at h; exact h.2.2.symm
    | quit => rw [hc] at h; simp only [handleCommand, Option.some.injEq, Prod.mk.injEq] at h; exact h.2.2.symm
    | unknown => rw [hc] at h; simp only [handleCommand, Option.some.injEq, Prod.mk.injEq] at h; exact h.2.2.symm
  by_cases c1 : parseCommand (trim l) = .newGame
  · rw [c1] at h hm
    simp only [handleCommand, Option.some.injEq, Prod.mk.injEq] at h
    obtain ⟨rfl, rfl, rfl⟩ := h
    have hv : (Game.new s.variant).position.variant = s.variant := by cases s.variant <;> rfl
    exact ⟨⟨rfl, hv⟩, rfl, rfl, .inl ⟨hm, rfl⟩, .inl ⟨hm, rfl⟩, fun k => .inr ⟨.inr fun t h' => (by cases means_inj hm h'.1), rfl⟩,
      fun h' => absurd h' not_isError_nil⟩
  by_cases c2 : ∃ k t, parseCommand (trim l) = .set k t
  · obtain ⟨k, t, c2⟩ := c2
    rw [c2] at h hm
    simp only [handleCommand, Option.some.injEq] at h
    rcases handleSet_cases (E := E) e s k t with ⟨p, e1, hh⟩ | ⟨rfl, v, hv, hh⟩ | ⟨hk, o, v, e1, ho, hok, ha, hd, hh⟩
    · rw [hh] at h
      simp only [Prod.mk.injEq] at h
      obtain ⟨rfl, rfl, rfl⟩ := h
      refine stepOk_same hs (fun h' => (by cases means_inj hm h')) (fun k t h' => by simp at h') (fun k h' => by simp at h')
        (fun k h' => by simp at h')
    · rw [hh] at h
      simp only [Prod.mk.injEq] at h
      obtain ⟨rfl, rfl, rfl⟩ := h
      have hv' : (Game.new v).position.variant = v := by cases v <;> rfl
      refine ⟨⟨rfl, hv'⟩, rfl, rfl, .inr (.inl ⟨t, v, hm, rfl, hv, rfl⟩), ?_, fun k => ?_, fun h' => absurd h' not_isError_nil⟩
      · exact .inr (.inr ⟨fun h' => (by cases means_inj hm h'), fun k h' => (by cases means_inj hm h'.1), rfl⟩)
      · refine .inr ⟨?_, rfl⟩
        by_cases hk : k = "game.variant".toList
        · exact .inl hk
        · refine .inr fun t' h' => hk ?_
          have := means_inj hm h'.1
          simp only [Command.set.injEq] at this
          exact this.1.symm
    · rw [hh] at h
      simp only [Prod.mk.injEq] at h
      obtain ⟨rfl, rfl, rfl⟩ := h
      refine ⟨hs, rfl, rfl, gameStep_same (fun h' => (by cases means_inj hm h')) (fun t' h' => ?_) (fun k h' => (by cases means_inj hm h'.1)),
        .inr (.inr ⟨fun h' => (by cases means_inj hm h'), fun k h' => (by cases means_inj hm h'.1), rfl⟩), fun k' => ?_, fun h' => absurd h' not_isError_nil⟩
      · have := means_inj hm h'.1
        simp only [Command.set.injEq] at this
        exact hk this.1
      · by_cases e2 : k' = k
        · subst e2
          exact .inl ⟨t, v, o, hk, hm, rfl, ho, hok, ha, hd, by simp [insertValue]⟩
        · refine .inr ⟨.inr fun t' h' => e2 ?_, by simp [insertValue, e2]⟩
          have := means_inj hm h'.1
          simp only [Command.set.injEq] at this
          exact this.1.symm
  by_cases c3 : ∃ id, parseCommand (trim l) = .positionGnubgid id
  · obtain ⟨id, c3⟩ := c3
    rw [c3] at h hm
    simp only [handleCommand, Option.map_eq_some_iff] at h
    obtain ⟨r, hr, h⟩ := h
    have hid : trim id = id := by
      have : ∃ u, id = trim u := by
        revert hm
        generalize hx : trim l = x
        generalize hc : Command.positionGnubgid id = c
        intro hm
        cases hm <;> simp only [reduceCtorEq, Command.positionGnubgid.injEq] at hc
        exact ⟨_, hc⟩
      obtain ⟨u, rfl⟩ := this
      exact trim_trim u
    rw [hid] at hr
    cases r with
    | error m =>
      simp only [Prod.mk.injEq] at h
      obtain ⟨rfl, rfl, rfl⟩ := h
      refine stepOk_same hs (fun h' => (by cases means_inj hm h')) (fun k t h' => by simp at h') (fun k h' => by simp at h')
        (fun k h' => by simp at h')
    | ok q =>
      simp only [Prod.mk.injEq] at h
      obtain ⟨rfl, rfl, rfl⟩ := h
      have hq := gnu_variant hr
      have hg := setPosition_ok (g := s.game) (q := q) (by rw [hq, hs.1])
      refine ⟨⟨?_, ?_⟩, rfl, rfl, ?_, .inr (.inr ⟨fun h' => (by cases means_inj hm h'), fun k h' => (by cases means_inj hm h'.1), rfl⟩),
        fun k => .inr ⟨.inr fun t h' => (by cases means_inj hm h'.1), rfl⟩, fun h' => absurd h' not_isError_nil⟩
      · simp only [hg, hs.1]
      · simp only [hg]; exact hq
      · simp only [hg]
        exact .inr (.inr (.inl ⟨id, q, hm, rfl, ((C93_gnuid dbg _ _).1 q).1 hr, rfl⟩))
  by_cases c4 : ∃ r, parseCommand (trim l) = .dice r
  · obtain ⟨r, c4⟩ := c4
    rw [c4] at h hm
    simp only [handleCommand, Option.some.injEq, Prod.mk.injEq] at h
    rcases handleDice_cases s r with hh | ⟨t1, t2, a, b, hw, ha, hb, a1, a6, b1, b6, hh⟩
    · rw [hh] at h
      obtain ⟨rfl, rfl, rfl⟩ := h
      refine stepOk_same hs (fun h' => (by cases means_inj hm h')) (fun k t h' => by simp at h') (fun k h' => by simp at h')
        (fun k h' => by simp at h')
    · rw [hh] at h
      obtain ⟨rfl, rfl, rfl⟩ := h
      refine ⟨hs, rfl, rfl, gameStep_same (fun h' => (by cases means_inj hm h')) (fun t' h' => (by cases means_inj hm h'.1)) (fun k h' => (by cases means_inj hm h'.1)),
        .inr (.inl ⟨r, t1, t2, a, b, hm, rfl, hw, ha, hb, by omega, by omega, by omega, by omega, rfl⟩),
        fun k => .inr ⟨.inr fun t h' => (by cases means_inj hm h'.1), rfl⟩, fun h' => absurd h' not_isError_nil⟩
  · push Not at c2 c3 c4
    exact same (simple c1 c2 c3 c4) c2 c3 c4 c1

/-- What a whole run does to the session. -/
theorem loop_ok : ∀ {lines : List Str} {T : Transcript} {e e' : ε} {s s' : Session}, GameInv s → loop dbg E lines e s = some (T, e', s') →
    GameInv s' ∧ s'.specs = s.specs ∧ s'.variantKey = s.variantKey ∧
    Along (Spec.GameStep dbg) (s.variant, s.game.position) T (s'.variant, s'.game.position) ∧ Along DiceStep s.dice T s'.dice ∧
    (∀ k, Along (ValueStep s.specs k) (s.values k) T (s'.values k)) := by
  intro lines
  induction lines with
  | nil =>
    intro T e e' s s' hs h
    simp only [loop, Option.some.injEq, Prod.mk.injEq] at h
    obtain ⟨rfl, rfl, rfl⟩ := h
    exact ⟨hs, rfl, rfl, rfl, rfl, fun _ => rfl⟩
  | cons line rest ih =>
    intro T e e' s s' hs h
    obtain ⟨out, e1, s1, h1, h2⟩ := loop_cons.mp h
    have st := exchange_ok hs h1
    rcases h2 with ⟨-, h2⟩ | ⟨-, ⟨T', e2, s2⟩, h3, h2⟩
    · simp only [Prod.mk.injEq] at h2
      obtain ⟨rfl, rfl, rfl⟩ := h2
      exact ⟨st.inv, st.specs, st.key, ⟨_, st.game, rfl⟩, ⟨_, st.dice, rfl⟩, fun k => ⟨_, st.value k, rfl⟩⟩
    · simp only [Prod.mk.injEq] at h2
      obtain ⟨rfl, rfl, rfl⟩ := h2
      obtain ⟨g1, g2, g3, g4, g5, g6⟩ := ih st.inv h3
      refine ⟨g1, g2.trans st.specs, g3.trans st.key, ⟨_, st.game, g4⟩, ⟨_, st.dice, g5⟩, fun k => ⟨_, st.value k, ?_⟩⟩
      rw [← st.specs]; exact g6 k

theorem new_inv (E : Engine ε) (e : ε) : GameInv (Session.new E e) := ⟨rfl, rfl⟩

theorem defaults_eq (specs : List OptionSpec) (k : Str) : defaultValues specs k = Spec.default specs k := by
  unfold defaultValues Spec.default
  induction specs using List.reverseRecOn with
  | nil => rfl
  | append_singleton l o ih =>
    rw [List.foldl_append, List.reverse_append]
    simp only [List.foldl_cons, List.foldl_nil, List.reverse_cons, List.reverse_nil, List.nil_append, List.cons_append, List.find?_cons]
    by_cases h : o.key = k
    · simp [h, insertValue]
    · have h' : ¬ k = o.key := fun e => h e.symm
      simp only [insertValue, h', if_false, h, decide_false]
      exact ih

end Bkgm.Ubgi
