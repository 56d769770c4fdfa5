import Verif.Proofs.UbgiSession
/-!
# C50-C53: UBGI sessions

`run dbg E e lines = some (T, e', s)`: the program, started with the engine `E` in state `e` and fed with `lines`, did not panic, `T` lists
the lines it read with the replies to each, and `e'` and `s` are the final engine and session states. `lines.take n` is a session that is
stopped after `n` lines.
-/

namespace Bkgm.Ubgi
open Spec MoveText
variable {ε : Type} {dbg : Bool} {E : Engine ε} {e e' : ε} {s : Session} {lines : List Str} {T T₁ T₂ : Transcript} {l : Str} {out : List Str}

/-- The game at the start of a session. -/
def startGame : Variant × VPos := (.backgammon, Variant.backgammon.startPosition)

theorem along_append {α : Type} {R : α → Str × List Str → α → Prop} : ∀ {T T' : Transcript} {a c : α},
    Along R a (T ++ T') c ↔ ∃ b, Along R a T b ∧ Along R b T' c := by
  intro T
  induction T with
  | nil => intro T' a c; exact ⟨fun h => ⟨a, rfl, h⟩, fun ⟨b, h1, h2⟩ => by cases h1; exact h2⟩
  | cons x T ih =>
    intro T' a c
    constructor
    · rintro ⟨b, h1, h2⟩
      obtain ⟨d, h3, h4⟩ := ih.mp h2
      exact ⟨d, ⟨b, h1, h3⟩, h4⟩
    · rintro ⟨d, ⟨b, h1, h3⟩, h4⟩
      exact ⟨b, h1, ih.mpr ⟨d, h3, h4⟩⟩

theorem along_unique {α : Type} {R : α → Str × List Str → α → Prop} (hR : ∀ a x b c, R a x b → R a x c → b = c) :
    ∀ {T : Transcript} {a b c : α}, Along R a T b → Along R a T c → b = c := by
  intro T
  induction T with
  | nil => intro a b c h1 h2; exact h1.symm.trans h2
  | cons x T ih =>
    rintro a b c ⟨b', h1, h2⟩ ⟨c', h3, h4⟩
    obtain rfl := hR _ _ _ _ h1 h3
    exact ih h2 h4

theorem toText_inj {v w : Variant} (h : v.toText = w.toText) : v = w := by
  revert h; cases v <;> cases w <;> decide +kernel

theorem gameStep_unique (g : Variant × VPos) (x : Str × List Str) (b c : Variant × VPos) (h1 : Spec.GameStep dbg g x b) (h2 : Spec.GameStep dbg g x c) :
    b = c := by
  rcases h1 with ⟨m, rfl⟩ | ⟨t, v, m, o, hv, rfl⟩ | ⟨id, q, m, o, hq, rfl⟩ | ⟨n1, n2, n3, rfl⟩ <;>
    rcases h2 with ⟨m', rfl⟩ | ⟨t', v', m', o', hv', rfl⟩ | ⟨id', q', m', o', hq', rfl⟩ | ⟨n1', n2', n3', rfl⟩
  · rfl
  · cases means_inj m m'
  · cases means_inj m m'
  · exact absurd m n1'
  · cases means_inj m m'
  · have := means_inj m m'
    simp only [Command.set.injEq] at this
    obtain rfl := this.2
    rw [toText_inj (hv.symm.trans hv')]
  · cases means_inj m m'
  · exact absurd ⟨m, o⟩ (n2' t)
  · cases means_inj m m'
  · cases means_inj m m'
  · have := means_inj m m'
    simp only [Command.positionGnubgid.injEq] at this
    obtain rfl := this
    rw [← (C93_gnuid dbg _ _).1] at hq hq'
    rw [hq] at hq'
    simp only [Option.some.injEq, Except.ok.injEq] at hq'
    rw [hq']
  · exact absurd ⟨m, o⟩ (n3' id)
  · exact absurd m' n1
  · exact absurd ⟨m', o'⟩ (n2 t')
  · exact absurd ⟨m', o'⟩ (n3 id')
  · rfl

theorem decimal_unique {t : Str} {a b : Int} (h1 : Decimal t a) (h2 : Decimal t b) : a = b := by
  have ha := (parseInt_some (max := max a.natAbs b.natAbs)).mpr ⟨by omega, by omega, h1⟩
  have hb := (parseInt_some (max := max a.natAbs b.natAbs)).mpr ⟨by omega, by omega, h2⟩
  rw [ha] at hb
  exact Option.some.inj hb

theorem diceStep_unique (d : Option Dice) (x : Str × List Str) (b c : Option Dice) (h1 : DiceStep d x b) (h2 : DiceStep d x c) : b = c := by
  rcases h1 with ⟨m, rfl⟩ | ⟨r, t1, t2, a, b, m, o, hw, d1, d2, -, -, -, -, rfl⟩ | ⟨n1, n2, rfl⟩ <;>
    rcases h2 with ⟨m', rfl⟩ | ⟨r', t1', t2', a', b', m', o', hw', d1', d2', -, -, -, -, rfl⟩ | ⟨n1', n2', rfl⟩
  · rfl
  · cases means_inj m m'
  · exact absurd m n1'
  · cases means_inj m m'
  · have := means_inj m m'
    simp only [Command.dice.injEq] at this
    obtain rfl := this
    rw [hw] at hw'
    simp only [List.cons.injEq, and_true] at hw'
    obtain ⟨rfl, rfl⟩ := hw'
    rw [decimal_unique d1 d1', decimal_unique d2 d2']
  · exact absurd ⟨m, o⟩ (n2' r)
  · exact absurd m' n1
  · exact absurd ⟨m', o'⟩ (n2 r')
  · rfl

theorem dice_valid : ∀ {T : Transcript} {a b : Option Dice}, (∀ d, a = some d → d.Valid) → Along DiceStep a T b → ∀ d, b = some d → d.Valid := by
  intro T
  induction T with
  | nil => rintro a b ha rfl; exact ha
  | cons x T ih =>
    rintro a b ha ⟨c, hc, h⟩
    refine ih ?_ h
    rcases hc with ⟨-, rfl⟩ | ⟨-, -, -, x, y, -, -, -, -, -, x1, x6, y1, y6, rfl⟩ | ⟨-, -, rfl⟩
    · simp
    · rintro d hd
      obtain rfl := Option.some.inj hd
      unfold Dice.new mixedNew
      split_ifs <;> simp only [Dice.Valid] <;> omega
    · exact ha

/-! ## C50 -/

/-- **C50** After any lines the game has the session's variant, so has its position; variant and position are what the transcript says: those
of the last accepted `set game.variant`, `position gnubgid` or `newgame`. The dice are what the transcript says, and they are legal. -/
theorem C50_session (h : run dbg E e lines = some (T, e', s)) :
    s.game.variant = s.variant ∧ s.game.position.variant = s.variant ∧
    Along (Spec.GameStep dbg) startGame T (s.variant, s.game.position) ∧
    Along DiceStep none T s.dice ∧ ∀ d, s.dice = some d → d.Valid := by
  obtain ⟨h1, -, -, h2, h3, -⟩ := loop_ok (new_inv E e) h
  exact ⟨h1.1, h1.2, h2, h3, dice_valid (a := none) (by simp) h3⟩

/-- **C50** The transcript determines variant, position and dice. -/
theorem C50_determined (T : Transcript) :
    (∀ g g', Along (Spec.GameStep dbg) startGame T g → Along (Spec.GameStep dbg) startGame T g' → g = g') ∧
    (∀ d d', Along DiceStep none T d → Along DiceStep none T d' → d = d') :=
  ⟨fun _ _ => along_unique gameStep_unique, fun _ _ => along_unique diceStep_unique⟩

/-! ## Exchanges -/

theorem run_split (h : run dbg E e lines = some (T₁ ++ (l, out) :: T₂, e', s)) :
    ∃ e₁ s₁ e₂ s₂, run dbg E e (lines.take T₁.length) = some (T₁, e₁, s₁) ∧ exchange dbg E e₁ s₁ l = some (out, e₂, s₂) ∧
      run dbg E e (lines.take (T₁.length + 1)) = some (T₁ ++ [(l, out)], e₂, s₂) := by
  obtain ⟨e₁, s₁, e₂, s₂, h1, h2, h3, -⟩ := loop_split h
  exact ⟨e₁, s₁, e₂, s₂, h1, h2, h3⟩

theorem run_specs (h : run dbg E e lines = some (T, e', s)) : s.specs = E.options e ∧ s.variantKey = (Session.new E e).variantKey ∧ GameInv s ∧
    ∀ k, Along (ValueStep (E.options e) k) (Spec.default (E.options e) k) T (s.values k) := by
  obtain ⟨h1, h2, h3, -, -, h4⟩ := loop_ok (new_inv E e) h
  refine ⟨h2, h3, h1, fun k => ?_⟩
  have := h4 k
  rwa [show (Session.new E e).values k = Spec.default (E.options e) k from defaults_eq _ k] at this

theorem exchange_cmd {c : Command} {e₁ : ε} {s₁ : Session} (hm : Means (trim l) c) (hc : c ≠ .unknown) :
    exchange dbg E e₁ s₁ l = handleCommand dbg E e₁ s₁ c := by
  have hp := means_iff.mp hm
  unfold exchange
  rw [if_neg, hp]
  intro h0
  rw [h0, parse_nil] at hp
  exact hc hp.symm

/-! ## C51 -/

/-- **C51** What `get key` answers, at any moment of any session: the variant; for an option, the value of the last accepted `set` of
that key, or its default; for other keys what the engine says. -/
theorem C51_get (h : run dbg E e lines = some (T₁ ++ (l, out) :: T₂, e', s)) (k : Str) (hm : Means (trim l) (.get k)) :
    ∃ e₁ s₁, run dbg E e (lines.take T₁.length) = some (T₁, e₁, s₁) ∧
    (k = "game.variant".toList → ∃ v q, Along (Spec.GameStep dbg) startGame T₁ (v, q) ∧ out = ["value game.variant ".toList ++ v.toText]) ∧
    (k ≠ "game.variant".toList → ∃ w, Along (ValueStep (E.options e) k) (Spec.default (E.options e) k) T₁ w ∧
      out = match (match w with | some w => some w | none => E.get e₁ k) with
        | some w => ["value ".toList ++ k ++ " ".toList ++ w.toWire]
        | none => ["error unsupported key".toList]) := by
  obtain ⟨e₁, s₁, e₂, s₂, h1, h2, h3⟩ := run_split h
  refine ⟨e₁, s₁, h1, ?_⟩
  rw [exchange_cmd hm (by simp)] at h2
  simp only [handleCommand, Option.some.injEq, Prod.mk.injEq] at h2
  obtain ⟨rfl, -, -⟩ := h2
  obtain ⟨-, -, -, hv⟩ := run_specs h1
  obtain ⟨-, -, hg, -⟩ := C50_session h1
  unfold handleGet
  constructor
  · intro hk
    exact ⟨_, _, hg, by rw [if_pos hk]⟩
  · intro hk
    refine ⟨_, hv k, ?_⟩
    rw [if_neg hk]
    cases s₁.values k with
    | some w => rfl
    | none =>
      simp only
      cases E.get e₁ k with
      | some w => rfl
      | none => exact congrArg (fun x => [x]) (by decide +kernel)

theorem value_kept {specs : List OptionSpec} {k : Str} : ∀ {T : Transcript} {a b : Option OptionValue},
    (∀ x ∈ T, ∀ t, ¬ (Means (trim x.1) (.set k t) ∧ x.2 = [])) → Along (ValueStep specs k) a T b → a = b := by
  intro T
  induction T with
  | nil => intro a b _ h; exact h
  | cons x T ih =>
    rintro a b hn ⟨c, hc, h⟩
    have e1 := ih (fun y hy => hn y (by simp [hy])) h
    rcases hc with ⟨t, v, o, -, m, o', -⟩ | ⟨-, rfl⟩
    · exact absurd ⟨m, o'⟩ (hn x (by simp) t)
    · exact e1

/-- **C51** Read your writes: an option set without an error line is answered with the set value until the next accepted `set` of the
same key, whatever happens in between. -/
theorem C51_read_your_writes {a b : Str} {k t : Str} {T₃ : Transcript}
    (h : run dbg E e lines = some (T₁ ++ (a, []) :: T₂ ++ (b, out) :: T₃, e', s)) (hk : k ≠ "game.variant".toList)
    (ha : Means (trim a) (.set k t)) (hb : Means (trim b) (.get k))
    (hn : ∀ x ∈ T₂, ∀ t', ¬ (Means (trim x.1) (.set k t') ∧ x.2 = [])) :
    ∃ o ∈ E.options e, ∃ v, o.key = k ∧ Allowed o v ∧ Denotes t v ∧ out = ["value ".toList ++ k ++ " ".toList ++ v.toWire] := by
  obtain ⟨e₁, s₁, -, -, h2⟩ := C51_get h k hb
  obtain ⟨w, hw, rfl⟩ := h2 hk
  obtain ⟨b0, -, hx⟩ := along_append.mp hw
  obtain ⟨b1, hx, hr⟩ := hx
  obtain rfl := value_kept hn hr
  rcases hx with ⟨t', v, o, -, m, -, ho, hok, hal, hd, rfl⟩ | ⟨h3, -⟩
  · have := means_inj ha m
    simp only [Command.set.injEq, true_and] at this
    subst this
    exact ⟨o, ho, v, hok, hal, hd, rfl⟩
  · rcases h3 with h3 | h3
    · exact absurd h3 hk
    · exact absurd ⟨ha, rfl⟩ (h3 t)

/-- **C51** The same for the variant. -/
theorem C51_read_variant {a b : Str} {t : Str} {T₃ : Transcript}
    (h : run dbg E e lines = some (T₁ ++ (a, []) :: T₂ ++ (b, out) :: T₃, e', s))
    (ha : Means (trim a) (.set "game.variant".toList t)) (hb : Means (trim b) (.get "game.variant".toList))
    (hn : ∀ x ∈ T₂, ∀ t', ¬ (Means (trim x.1) (.set "game.variant".toList t') ∧ x.2 = [])) :
    ∃ v : Variant, lower (trim t) = v.toText ∧ out = ["value game.variant ".toList ++ v.toText] := by
  obtain ⟨e₁, s₁, -, h2, -⟩ := C51_get h _ hb
  obtain ⟨v, q, hw, rfl⟩ := h2 rfl
  obtain ⟨b0, -, hx⟩ := along_append.mp hw
  obtain ⟨⟨v1, q1⟩, hx, hr⟩ := hx
  have kept : ∀ {T : Transcript} {g g' : Variant × VPos},
      (∀ x ∈ T, ∀ t', ¬ (Means (trim x.1) (.set "game.variant".toList t') ∧ x.2 = [])) → Along (Spec.GameStep dbg) g T g' → g.1 = g'.1 := by
    intro T
    induction T with
    | nil => rintro g g' - rfl; rfl
    | cons x T ih =>
      rintro g g' hn ⟨c, hc, h⟩
      have e1 := ih (fun y hy => hn y (by simp [hy])) h
      rcases hc with ⟨-, rfl⟩ | ⟨t, v, m, o, -⟩ | ⟨id, q, m, o, -, rfl⟩ | ⟨-, -, -, rfl⟩
      · exact e1
      · exact absurd ⟨m, o⟩ (hn x (by simp) t)
      · exact e1
      · exact e1
  have hv : v1 = v := kept hn hr
  subst hv
  rcases hx with ⟨m, -⟩ | ⟨t', v', m, -, hv', hg⟩ | ⟨id, q', m, -⟩ | ⟨-, h3, -⟩
  · cases means_inj ha m
  · have := means_inj ha m
    simp only [Command.set.injEq, true_and] at this
    subst this
    simp only [Prod.mk.injEq] at hg
    exact ⟨v1, by rw [hv', hg.1], rfl⟩
  · cases means_inj ha m
  · exact absurd ⟨ha, rfl⟩ (h3 t)

/-! ## C52 -/

/-- **C52** `go` (or `go chequer`): with no dice it answers `error bad_state missing.dice`; otherwise the engine is asked, in its current
state, about exactly the current position and the last accepted dice, and its move or error is the answer. The session does not change. -/
theorem C52_go (h : run dbg E e lines = some (T₁ ++ (l, out) :: T₂, e', s)) (hm : Means (trim l) .goChequer) :
    ∃ e₁ s₁ e₂ v q d, run dbg E e (lines.take T₁.length) = some (T₁, e₁, s₁) ∧
      run dbg E e (lines.take (T₁.length + 1)) = some (T₁ ++ [(l, out)], e₂, s₁) ∧
      Along (Spec.GameStep dbg) startGame T₁ (v, q) ∧ Along DiceStep none T₁ d ∧
      match d with
      | none => out = ["error bad_state missing.dice".toList] ∧ e₂ = e₁
      | some d => e₂ = (E.chooseMove e₁ ⟨v, q⟩ d).2 ∧
        out = match (E.chooseMove e₁ ⟨v, q⟩ d).1 with
          | .ok mv => ["bestmove ".toList ++ formatSteps mv]
          | .error err => ["error bad_state move.select ".toList ++ err.toText] := by
  obtain ⟨e₁, s₁, e₂, s₂, h1, h2, h3⟩ := run_split h
  obtain ⟨hgv, -, hg, hd, -⟩ := C50_session h1
  rw [exchange_cmd hm (by simp)] at h2
  simp only [handleCommand, Option.some.injEq, Prod.mk.injEq] at h2
  obtain ⟨h4, h5, rfl⟩ := h2
  refine ⟨e₁, s₁, e₂, s₁.variant, s₁.game.position, s₁.dice, h1, h3, hg, hd, ?_⟩
  have hgame : s₁.game = ⟨s₁.variant, s₁.game.position⟩ := by rw [← hgv]
  rw [← hgame]
  unfold handleGo at h4 h5
  cases hdice : s₁.dice with
  | none =>
    simp only [hdice] at h4 h5 ⊢
    exact ⟨by rw [← h4]; exact congrArg (fun x => [x]) (by decide +kernel), h5.symm⟩
  | some d =>
    simp only [hdice] at h4 h5 ⊢
    rcases hc : E.chooseMove e₁ s₁.game d with ⟨r, e3⟩
    rw [hc] at h4 h5
    cases r with
    | ok mv => exact ⟨h5.symm, h4.symm⟩
    | error err =>
      refine ⟨h5.symm, h4.symm.trans (congrArg (fun x => [x]) ?_)⟩
      have e1 : "error bad_state move.select ".toList = "error bad_state ".toList ++ "move.select ".toList := by decide +kernel
      rw [e1, List.append_assoc]
      rfl

theorem dice_none_iff : ∀ {T : Transcript} {a b : Option Dice}, Along DiceStep a T b →
    (b = none ↔ (a = none ∨ ∃ x ∈ T, Means (trim x.1) .newGame) ∧
      ∀ A x B, T = A ++ x :: B → (∃ r, Means (trim x.1) (.dice r) ∧ x.2 = []) → ∃ y ∈ B, Means (trim y.1) .newGame) := by
  intro T
  induction T with
  | nil => rintro a b rfl; simp
  | cons x T ih =>
    rintro a b ⟨c, hc, h⟩
    rw [ih h]
    rcases hc with ⟨m, rfl⟩ | ⟨r, t1, t2, p, q, m, o, -, -, -, -, -, -, -, rfl⟩ | ⟨n1, n2, rfl⟩
    · constructor
      · rintro ⟨-, h2⟩
        refine ⟨.inr ⟨x, by simp, m⟩, fun A y B e hy => ?_⟩
        cases A with
        | nil =>
          simp only [List.nil_append, List.cons.injEq] at e
          obtain ⟨rfl, rfl⟩ := e
          obtain ⟨r, m', -⟩ := hy
          cases means_inj m m'
        | cons z A =>
          simp only [List.cons_append, List.cons.injEq] at e
          exact h2 A y B e.2 hy
      · rintro ⟨-, h2⟩
        exact ⟨.inl rfl, fun A y B e hy => h2 (x :: A) y B (by rw [e]; rfl) hy⟩
    · constructor
      · rintro ⟨h1, h2⟩
        simp only [reduceCtorEq, false_or] at h1
        obtain ⟨y, hy, hy'⟩ := h1
        refine ⟨.inr ⟨y, by simp [hy], hy'⟩, fun A z B e hz => ?_⟩
        cases A with
        | nil =>
          simp only [List.nil_append, List.cons.injEq] at e
          obtain ⟨rfl, rfl⟩ := e
          exact ⟨y, hy, hy'⟩
        | cons w A =>
          simp only [List.cons_append, List.cons.injEq] at e
          exact h2 A z B e.2 hz
      · rintro ⟨-, h2⟩
        exact ⟨.inr (h2 [] x T rfl ⟨r, m, o⟩), fun A y B e hy => h2 (x :: A) y B (by rw [e]; rfl) hy⟩
    · constructor
      · rintro ⟨h1, h2⟩
        refine ⟨?_, fun A z B e hz => ?_⟩
        · rcases h1 with h1 | ⟨y, hy, hy'⟩
          · exact .inl h1
          · exact .inr ⟨y, by simp [hy], hy'⟩
        · cases A with
          | nil =>
            simp only [List.nil_append, List.cons.injEq] at e
            obtain ⟨rfl, rfl⟩ := e
            obtain ⟨r, m', o'⟩ := hz
            exact absurd ⟨m', o'⟩ (n2 r)
          | cons w A =>
            simp only [List.cons_append, List.cons.injEq] at e
            exact h2 A z B e.2 hz
      · rintro ⟨h1, h2⟩
        refine ⟨?_, fun A y B e hy => h2 (x :: A) y B (by rw [e]; rfl) hy⟩
        rcases h1 with h1 | ⟨y, hy, hy'⟩
        · exact .inl h1
        · rcases List.mem_cons.mp hy with rfl | hy
          · exact absurd hy' n1
          · exact .inr ⟨y, hy, hy'⟩

/-- **C52** `go` answers `error bad_state missing.dice` exactly if every accepted `dice` so far was followed by a `newgame`. -/
theorem C52_missing_dice_iff (h : run dbg E e lines = some (T₁ ++ (l, out) :: T₂, e', s)) (hm : Means (trim l) .goChequer) :
    out = ["error bad_state missing.dice".toList] ↔
      ∀ A x B, T₁ = A ++ x :: B → (∃ r, Means (trim x.1) (.dice r) ∧ x.2 = []) → ∃ y ∈ B, Means (trim y.1) .newGame := by
  obtain ⟨e₁, s₁, e₂, v, q, d, -, -, -, hd, hout⟩ := C52_go h hm
  have key := dice_none_iff hd
  simp only [true_or, true_and] at key
  rw [← key]
  cases d with
  | none => exact ⟨fun _ => rfl, fun _ => hout.1⟩
  | some d =>
    simp only [reduceCtorEq, iff_false]
    obtain ⟨-, h2⟩ := hout
    rw [h2]
    split
    · intro e; simp at e
    · intro e; simp at e

/-! ## C53 -/

/-- **C53** The command language: the recogniser understands exactly the documented lines. -/
theorem C53_commands (line : Str) (c : Command) : parseCommand line = c ↔ Means line c := means_iff.symm

/-- **C53** A line answered with an error changes nothing in the session: variant, game, dice and option values are as before. -/
theorem C53_error_unchanged (h : run dbg E e lines = some (T₁ ++ (l, out) :: T₂, e', s)) (he : IsError out) :
    ∃ e₁ e₂ s₁, run dbg E e (lines.take T₁.length) = some (T₁, e₁, s₁) ∧
      run dbg E e (lines.take (T₁.length + 1)) = some (T₁ ++ [(l, out)], e₂, s₁) := by
  obtain ⟨e₁, s₁, e₂, s₂, h1, h2, h3⟩ := run_split h
  obtain rfl := (exchange_ok (run_specs h1).2.2.1 h2).error he
  exact ⟨e₁, e₂, s₂, h1, h3⟩

/-- **C53** `quit` gets no reply, and no line after it is read. -/
theorem C53_quit (A B : List Str) (q : Str) (hq : Means (trim q) .quit) :
    run dbg E e (A ++ q :: B) = run dbg E e (A ++ [q]) ∧
    (run dbg E e lines = some (T₁ ++ (q, out) :: T₂, e', s) → out = [] ∧ T₂ = []) := by
  have hp := means_iff.mp hq
  constructor
  · unfold run
    generalize Session.new E e = s0
    revert e s0
    induction A with
    | nil =>
      intro e s0
      have hne : trim q ≠ [] := fun h0 => by rw [h0, parse_nil] at hp; cases hp
      simp only [List.nil_append, loop, hp, hne, if_false, if_true]
    | cons a A ih =>
      intro e s0
      simp only [List.cons_append, loop]
      split_ifs
      · rw [ih]
      · rfl
      · congr 1; funext x; rw [ih]
  · intro h
    have key : ∀ {T₁ T₂ : Transcript} {lines : List Str} {e : ε} {s0 : Session},
        loop dbg E lines e s0 = some (T₁ ++ (q, out) :: T₂, e', s) → out = [] ∧ T₂ = [] := by
      intro T₁
      induction T₁ with
      | nil =>
        intro T₂ lines e s0 h
        cases lines with
        | nil => simp [loop] at h
        | cons line rest =>
          obtain ⟨out', e1, s1, h1, h2⟩ := loop_cons.mp h
          rcases h2 with ⟨-, h2⟩ | ⟨hn, r', -, h2⟩
          · simp only [List.nil_append, Prod.mk.injEq, List.cons.injEq] at h2
            obtain ⟨⟨⟨rfl, rfl⟩, rfl⟩, -⟩ := h2
            rw [exchange_cmd hq (by simp)] at h1
            simp only [handleCommand, Option.some.injEq, Prod.mk.injEq] at h1
            exact ⟨h1.1.symm, rfl⟩
          · simp only [List.nil_append, Prod.mk.injEq, List.cons.injEq] at h2
            obtain ⟨⟨⟨rfl, rfl⟩, -⟩, -⟩ := h2
            exact absurd hp hn
      | cons x T₁ ih =>
        intro T₂ lines e s0 h
        cases lines with
        | nil => simp [loop] at h
        | cons line rest =>
          obtain ⟨out', e1, s1, h1, h2⟩ := loop_cons.mp h
          rcases h2 with ⟨-, h2⟩ | ⟨hn, r', h3, h2⟩
          · simp at h2
          · simp only [List.cons_append, Prod.mk.injEq, List.cons.injEq] at h2
            have hr : r' = (T₁ ++ (q, out) :: T₂, e', s) := by rw [h2.1.2, h2.2]
            rw [hr] at h3
            exact ih h3
    exact key h

/-- **C53** As long as there is no `quit`, every line is read, in order. -/
theorem C53_every_line_read (h : run dbg E e lines = some (T, e', s)) (hn : ∀ l ∈ lines, ¬ Means (trim l) .quit) : T.map Prod.fst = lines := by
  unfold run at h
  revert h
  generalize Session.new E e = s0
  revert e s0 T
  induction lines with
  | nil =>
    intro T e s0 h
    simp only [loop, Option.some.injEq, Prod.mk.injEq] at h
    rw [← h.1]; rfl
  | cons l lines ih =>
    intro T e s0 h
    obtain ⟨out', e1, s1, h1, h2⟩ := loop_cons.mp h
    rcases h2 with ⟨hq, -⟩ | ⟨-, r', h3, h2⟩
    · exact absurd (means_iff.mpr hq) (hn l (by simp))
    · simp only [Prod.mk.injEq] at h2
      rw [h2.1, List.map_cons, ih (fun l hl => hn l (by simp [hl])) (T := r'.1) (e := e1) (s0 := s1)]
      rw [h3]
      rcases h2 with ⟨-, h2⟩
      rw [h2]

/-- **C53** A blank line gets no reply and changes nothing. -/
theorem C53_blank (h : run dbg E e lines = some (T₁ ++ (l, out) :: T₂, e', s)) (hl : ∀ c ∈ l, isWs c = true) :
    out = [] ∧ ∃ e₁ s₁, run dbg E e (lines.take T₁.length) = some (T₁, e₁, s₁) ∧
      run dbg E e (lines.take (T₁.length + 1)) = some (T₁ ++ [(l, out)], e₁, s₁) := by
  obtain ⟨e₁, s₁, e₂, s₂, h1, h2, h3⟩ := run_split h
  have h0 : trim l = [] := by
    have := trim_surround (w := l) (t := []) (w' := []) hl (by simp) (by simp [Trimmed])
    simpa using this
  unfold exchange at h2
  rw [if_pos h0] at h2
  simp only [Option.some.injEq, Prod.mk.injEq] at h2
  obtain ⟨rfl, rfl, rfl⟩ := h2
  exact ⟨rfl, e₁, s₁, h1, h3⟩

/-- The line that describes the variant key. -/
def variantKeyLine : Str :=
  "key game.variant enum backgammon|nackgammon|longgammon|hypergammon|hypergammon2|hypergammon4|hypergammon5 backgammon".toList

/-- **C53** The replies to the commands that only ask: `ubgi` introduces the engine and lists all keys, `keys` lists them, `isready` reports
what the engine says; `newgame` and `quit` are silent; what is not supported or not understood gets its own error line. -/
theorem C53_replies (h : run dbg E e lines = some (T₁ ++ (l, out) :: T₂, e', s)) (hl : trim l ≠ []) :
    ∃ e₁ s₁, run dbg E e (lines.take T₁.length) = some (T₁, e₁, s₁) ∧
    (Means (trim l) .ubgi → out = ["id name ".toList ++ E.idName e₁, "id author bkgm".toList, "id version ".toList ++ E.idVersion e₁,
      "proto 0.2".toList, variantKeyLine] ++ (E.options e).map OptionSpec.toKeyLine ++ ["ubgiok".toList]) ∧
    (Means (trim l) .keys → out = variantKeyLine :: (E.options e).map OptionSpec.toKeyLine) ∧
    (Means (trim l) .isReady → out = match (E.onReady e₁).1 with
      | .ok _ => ["readyok".toList]
      | .error err => ["error bad_state isready ".toList ++ err.toText]) ∧
    (Means (trim l) .newGame → out = []) ∧ (Means (trim l) .quit → out = []) ∧
    (Means (trim l) .positionXgid → out = ["error unsupported position.xgid".toList]) ∧
    (Means (trim l) .positionUnknown → out = ["error bad_command expected: position gnubgid <GNU_POSITION_ID>".toList]) ∧
    (Means (trim l) .goCube → out = ["error unsupported go cube".toList]) ∧
    (Means (trim l) .goTurn → out = ["error unsupported go turn".toList]) ∧
    (Means (trim l) .unknown → out = ["error bad_command unknown".toList]) := by
  obtain ⟨e₁, s₁, e₂, s₂, h1, h2, h3⟩ := run_split h
  obtain ⟨hspec, hkey, -, -⟩ := run_specs h1
  have hvk : s₁.variantKey = variantKeyLine := by
    rw [hkey]
    show "key game.variant enum ".toList ++ join "|".toList (variants.map Variant.toText) ++ " backgammon".toList = variantKeyLine
    decide +kernel
  have hx : ∀ c, Means (trim l) c → handleCommand dbg E e₁ s₁ c = some (out, e₂, s₂) := by
    intro c hm
    rw [← means_iff.mp hm]
    unfold exchange at h2
    rwa [if_neg hl] at h2
  refine ⟨e₁, s₁, h1, ?_, ?_, ?_, ?_, ?_, ?_, ?_, ?_, ?_, ?_⟩ <;> intro hm <;> have h4 := hx _ hm
  · simp only [handleCommand, Option.some.injEq, Prod.mk.injEq] at h4
    rw [← h4.1, renderKeyLines, hvk, hspec]; rfl
  · simp only [handleCommand, Option.some.injEq, Prod.mk.injEq] at h4
    rw [← h4.1, renderKeyLines, hvk, hspec]
  · simp only [handleCommand] at h4
    rcases hr : E.onReady e₁ with ⟨r, e3⟩
    rw [hr] at h4
    cases r with
    | ok u => simp only [Option.some.injEq, Prod.mk.injEq] at h4; exact h4.1.symm
    | error err =>
      simp only [Option.some.injEq, Prod.mk.injEq] at h4
      refine h4.1.symm.trans (congrArg (fun x => [x]) ?_)
      have e1 : "error bad_state isready ".toList = "error bad_state ".toList ++ "isready ".toList := by decide +kernel
      rw [e1, List.append_assoc]
      rfl
  · simp only [handleCommand, Option.some.injEq, Prod.mk.injEq] at h4; exact h4.1.symm
  · simp only [handleCommand, Option.some.injEq, Prod.mk.injEq] at h4; exact h4.1.symm
  all_goals
    simp only [handleCommand, Option.some.injEq, Prod.mk.injEq] at h4
    exact h4.1.symm.trans (congrArg (fun x => [x]) (by decide +kernel))

theorem map_unsupported (d k : Str) : mapEngineSetError (.unsupported d) k = .unsupported "key".toList := rfl
theorem map_badState (d k : Str) : mapEngineSetError (.badState d) k = .badState ("set ".toList ++ d) := rfl
theorem map_badValue (d k : Str) : mapEngineSetError (.badValue d) k = .badValue (if d = [] then k else d) := by
  by_cases h : d = []
  · rw [if_pos h]; exact if_pos h
  · rw [if_neg h]; exact if_neg h

theorem error_lines (k : Str) (err : UbgiError) : [(mapEngineSetError err k).toLine] =
    match (Except.error err : Except UbgiError Unit) with
            | .ok _ => []
            | .error (.unsupported _) => ["error unsupported key".toList]
            | .error (.badValue d) => ["error bad_value ".toList ++ (if d = [] then k else d)]
            | .error (.badState d) => ["error bad_state set ".toList ++ d] := by
  rcases err with d | d | d
  · rw [map_unsupported]
    exact congrArg (fun x => [x]) (show "error unsupported ".toList ++ "key".toList = _ by decide +kernel)
  · rw [map_badValue]; rfl
  · rw [map_badState]
    have e1 : "error bad_state set ".toList = "error bad_state ".toList ++ "set ".toList := by decide +kernel
    refine congrArg (fun x => [x]) ?_
    rw [e1, List.append_assoc]
    rfl
/-- **C53** The replies to `set key value`, case by case. It is accepted (no reply) exactly for the name of a variant, or for an allowed
value of an option that the engine accepts. -/
theorem C53_set_replies (h : run dbg E e lines = some (T₁ ++ (l, out) :: T₂, e', s)) (k t : Str) (hm : Means (trim l) (.set k t)) :
    ∃ e₁ s₁, run dbg E e (lines.take T₁.length) = some (T₁, e₁, s₁) ∧
    ((k = [] ∨ t = []) ∧ out = ["error bad_command expected: set <key> <value>".toList] ∨
     k ≠ [] ∧ t ≠ [] ∧
      (k = "game.variant".toList ∧ ((∃ v : Variant, lower (trim t) = v.toText) ∧ out = [] ∨
         (∀ v : Variant, lower (trim t) ≠ v.toText) ∧ out = ["error bad_value game.variant".toList]) ∨
       k ≠ "game.variant".toList ∧
        ((∀ o ∈ E.options e, o.key ≠ k) ∧ out = ["error unsupported key".toList] ∨
         ∃ o, (E.options e).find? (fun o => decide (o.key = k)) = some o ∧
          ((∀ v, ¬ (Allowed o v ∧ Denotes t v)) ∧ out = ["error bad_value ".toList ++ k] ∨
           ∃ v, Allowed o v ∧ Denotes t v ∧ out = match (E.set e₁ k v).1 with
            | .ok _ => []
            | .error (.unsupported _) => ["error unsupported key".toList]
            | .error (.badValue d) => ["error bad_value ".toList ++ (if d = [] then k else d)]
            | .error (.badState d) => ["error bad_state set ".toList ++ d])))) := by
  obtain ⟨e₁, s₁, e₂, s₂, h1, h2, h3⟩ := run_split h
  obtain ⟨hspec, -, -, -⟩ := run_specs h1
  refine ⟨e₁, s₁, h1, ?_⟩
  rw [exchange_cmd hm (by simp)] at h2
  simp only [handleCommand, Option.some.injEq] at h2
  unfold handleSet at h2
  by_cases h0 : k = [] ∨ t = []
  · rw [if_pos h0] at h2
    simp only [Prod.mk.injEq] at h2
    exact .inl ⟨h0, h2.1.symm.trans (congrArg (fun x => [x]) (by decide +kernel))⟩
  rw [if_neg h0] at h2
  push Not at h0
  refine .inr ⟨h0.1, h0.2, ?_⟩
  by_cases hk : k = "game.variant".toList
  · rw [if_pos hk] at h2
    refine .inl ⟨hk, ?_⟩
    cases hv : Variant.parse t with
    | none =>
      rw [hv] at h2
      simp only [Prod.mk.injEq] at h2
      refine .inr ⟨fun v e => ?_, h2.1.symm.trans (congrArg (fun x => [x]) (by decide +kernel))⟩
      rw [parse_variant.mpr e] at hv; cases hv
    | some v =>
      rw [hv] at h2
      simp only [Prod.mk.injEq] at h2
      exact .inl ⟨⟨v, parse_variant.mp hv⟩, h2.1.symm⟩
  rw [if_neg hk] at h2
  refine .inr ⟨hk, ?_⟩
  rw [hspec] at h2
  have efun : (fun o : OptionSpec => o.key == k) = fun o => decide (o.key = k) := by
    funext o; rw [Bool.eq_iff_iff]; simp
  rw [efun] at h2
  cases hf : (E.options e).find? (fun o => decide (o.key = k)) with
  | none =>
    rw [hf] at h2
    simp only [Prod.mk.injEq] at h2
    refine .inl ⟨fun o ho e => ?_, h2.1.symm.trans (congrArg (fun x => [x]) (by decide +kernel))⟩
    have := List.find?_eq_none.mp hf o ho
    simp [e] at this
  | some o =>
    rw [hf] at h2
    simp only at h2
    refine .inr ⟨o, rfl, ?_⟩
    cases hp : o.parseValue t with
    | error m =>
      rw [hp] at h2
      simp only [Prod.mk.injEq] at h2
      refine .inl ⟨fun v hv => ?_, h2.1.symm⟩
      rw [(C49_accepts_exactly o t v).mpr hv] at hp; cases hp
    | ok v =>
      rw [hp] at h2
      simp only at h2
      have hv := (C49_accepts_exactly o t v).mp hp
      refine .inr ⟨v, hv.1, hv.2, ?_⟩
      rcases hs : E.set e₁ k v with ⟨r, e3⟩
      rw [hs] at h2
      cases r with
      | ok u => simp only [Prod.mk.injEq] at h2; exact h2.1.symm
      | error err =>
        simp only [Prod.mk.injEq] at h2
        exact h2.1.symm.trans (error_lines k err)

/-- **C53** The replies to `dice` and `position gnubgid`: two numbers from 1 to 6, or an id of the current variant, are accepted without a reply. -/
theorem C53_dice_position_replies (h : run dbg E e lines = some (T₁ ++ (l, out) :: T₂, e', s)) :
    (∀ r, Means (trim l) (.dice r) →
      (∃ t1 t2, ∃ a b : Nat, splitWs r = [t1, t2] ∧ Decimal t1 a ∧ Decimal t2 b ∧ 1 ≤ a ∧ a ≤ 6 ∧ 1 ≤ b ∧ b ≤ 6) ∧ out = [] ∨
      (¬ ∃ t1 t2, ∃ a b : Nat, splitWs r = [t1, t2] ∧ Decimal t1 a ∧ Decimal t2 b ∧ 1 ≤ a ∧ a ≤ 6 ∧ 1 ≤ b ∧ b ≤ 6) ∧ out = ["error bad_value dice".toList]) ∧
    (∀ id, Means (trim l) (.positionGnubgid id) → ∃ v q, Along (Spec.GameStep dbg) startGame T₁ (v, q) ∧
      ((∃ q', _root_.Spec.GnuId.Says dbg v id q') ∧ out = [] ∨ ¬ _root_.Spec.GnuId.IsKey id ∧ out = ["error bad_value position".toList])) := by
  obtain ⟨e₁, s₁, e₂, s₂, h1, h2, h3⟩ := run_split h
  constructor
  · intro r hm
    rw [exchange_cmd hm (by simp)] at h2
    simp only [handleCommand, Option.some.injEq, Prod.mk.injEq] at h2
    have conv : ∀ {t : Str} {a : Nat}, Decimal t a → 1 ≤ a → a ≤ 6 → parseNat usizeMax t = some a := by
      intro t a hd ha1 ha6
      obtain ⟨ds, hne, hds, hc⟩ := hd
      refine parseNat_some.mpr ⟨by unfold usizeMax; omega, ds, hne, hds, ?_, ?_⟩
      · rcases hc with ⟨-, hc⟩ | ⟨-, hc⟩ | ⟨-, hc⟩ <;> omega
      · rcases hc with ⟨hc, -⟩ | ⟨hc, -⟩ | ⟨-, hc⟩
        · exact .inl hc
        · exact .inr hc
        · omega
    rcases handleDice_cases s₁ r with hh | ⟨t1, t2, a, b, hw, ha, hb, a1, a6, b1, b6, hh⟩
    · rw [hh] at h2
      refine .inr ⟨?_, h2.1.symm.trans (congrArg (fun x => [x]) (by decide +kernel))⟩
      rintro ⟨t1, t2, a, b, hw, ha, hb, a1, a6, b1, b6⟩
      unfold handleDice at hh
      rw [hw] at hh
      simp only [conv ha a1 a6, conv hb b1 b6] at hh
      rw [if_pos ⟨⟨a1, a6⟩, b1, b6⟩] at hh
      simp at hh
    · rw [hh] at h2
      exact .inl ⟨⟨t1, t2, a, b, hw, ha, hb, a1, a6, b1, b6⟩, h2.1.symm⟩
  · intro id hm
    obtain ⟨-, -, hg, -⟩ := C50_session h1
    refine ⟨_, _, hg, ?_⟩
    rw [exchange_cmd hm (by simp)] at h2
    simp only [handleCommand, Option.map_eq_some_iff] at h2
    obtain ⟨r, hr, h2⟩ := h2
    have hid : trim id = id := by
      have : ∃ u, id = trim u := by
        revert hm
        generalize hx : trim l = x
        generalize hc : Command.positionGnubgid id = c
        intro hm
        cases hm <;> simp only [reduceCtorEq, Command.positionGnubgid.injEq] at hc
        exact ⟨_, hc⟩
      obtain ⟨u, rfl⟩ := this
      exact trim_trim u
    rw [hid] at hr
    cases r with
    | ok q => simp only [Prod.mk.injEq] at h2; exact .inl ⟨⟨q, ((C93_gnuid dbg _ _).1 q).1 hr⟩, h2.1.symm⟩
    | error err =>
      simp only [Prod.mk.injEq] at h2
      exact .inr ⟨(C93_gnuid dbg _ _).2.2.2.2.1 ⟨err, hr⟩, h2.1.symm.trans (congrArg (fun x => [x]) (by decide +kernel))⟩

/-! ## C58 -/

/-- **C58** The move of a `bestmove` reply can be read back: `parse_ubgi_move` undoes `format_move_steps`, for every list of steps that
move from a point or the bar to a point or off. -/
theorem C58_move_round_trip (mv : List Step) (h : ∀ st ∈ mv, 1 ≤ st.src ∧ st.src ≤ 25 ∧ st.dst ≤ 24) :
    parseUbgiMove (formatSteps mv) = .ok mv := by
  have h' : ∀ st ∈ mv, st.Ok := fun st hs => h st hs
  simp only [parseUbgiMove, normalize_format h', parseSteps_format h']

example := C58_move_round_trip [⟨25, 20⟩, ⟨6, 0⟩] (by decide)

/-- **C58** `parse_ubgi_move` fails only with `bad_value move.invalid`, and whatever it returns is such a list of steps. -/
theorem C58_move_parsed (t : Str) :
    (∃ mv, parseUbgiMove t = .ok mv ∧ ∀ st ∈ mv, 1 ≤ st.src ∧ st.src ≤ 25 ∧ st.dst ≤ 24) ∨
    parseUbgiMove t = .error (.badValue "move.invalid".toList) := by
  unfold parseUbgiMove
  cases hn : normalize t with
  | none => exact .inr rfl
  | some u =>
    obtain ⟨l, hl, rfl⟩ := normalize_some hn
    simp only [parseSteps_format hl]
    exact .inl ⟨l, rfl, hl⟩

example : parseUbgiMove " BAR/20*, 13/11/9".toList = .ok [⟨25, 20⟩, ⟨13, 11⟩, ⟨11, 9⟩] ∧
    parseUbgiMove "26/20".toList = .error (.badValue "move.invalid".toList) ∧ parseUbgiMove "pass".toList = .ok [] := by decide +kernel

/-! ## A session -/

/-- An engine with one option that counts its calls and always plays `24/18`. -/
def demo : Engine Nat where
  idName _ := "demo".toList
  idVersion _ := "1".toList
  onReady n := (.ok (), n)
  options _ := [OptionSpec.mkInteger "engine.ply".toList 1 4 2]
  get _ _ := none
  set n _ _ := (.ok (), n + 1)
  chooseMove n _ _ := (.ok [⟨24, 18⟩], n + 1)

/-- The lines of a session that sets an option, the variant, a position and dice, makes errors, and quits. -/
def demoLines : List Str := ["go", "set engine.ply 3", "set engine.ply 9", " ", "set game.variant Nackgammon", "get engine.ply", "get game.variant",
  "position gnubgid 4HPwATDgc/ABMA", "dice 6 1", "go", "newgame", "go chequer", "quit", "keys"].map String.toList

/-- Its transcript. -/
def demoTranscript : Spec.Transcript := demoLines.zip
  [["error bad_state missing.dice".toList], [], ["error bad_value engine.ply".toList], [], [], ["value engine.ply 3".toList],
      ["value game.variant nackgammon".toList], [], [], ["bestmove 24/18".toList], [], ["error bad_state missing.dice".toList], []]

theorem demo_run : ∃ e' s, run true demo 0 demoLines = some (demoTranscript, e', s) := by
  have h : (run true demo 0 demoLines).map Prod.fst = some demoTranscript := by decide +kernel
  obtain ⟨⟨T, e', s⟩, h1, rfl⟩ := Option.map_eq_some_iff.1 h
  exact ⟨e', s, h1⟩

/-- Line `i` of the session, for the theorems that speak about one line. -/
theorem demo_at (i : Nat) (l : Str) (out : List Str) (h : demoTranscript[i]? = some (l, out)) :
    ∃ e' s, run true demo 0 demoLines = some (demoTranscript.take i ++ (l, out) :: demoTranscript.drop (i + 1), e', s) := by
  obtain ⟨e', s, hr⟩ := demo_run
  obtain ⟨hi, hx⟩ := List.getElem?_eq_some_iff.1 h
  refine ⟨e', s, ?_⟩
  rw [← hx, ← List.drop_eq_getElem_cons hi, List.take_append_drop]
  exact hr

/-! Each of the theorems above applied to it. -/

example : ∃ s : Session, s.game.variant = s.variant ∧ Spec.Along (Spec.GameStep true) startGame demoTranscript (s.variant, s.game.position) ∧
    Spec.Along Spec.DiceStep none demoTranscript s.dice := by
  obtain ⟨e', s, h⟩ := demo_run
  obtain ⟨h1, -, h2, h3, -⟩ := C50_session h
  exact ⟨s, h1, h2, h3⟩
example := C50_determined (dbg := true) demoTranscript
example := (demo_at 5 _ _ rfl).elim fun _ h => h.elim fun _ h => C51_get h "engine.ply".toList (means_iff.2 (by decide +kernel))
example : ∃ o ∈ demo.options 0, ∃ v, o.key = "engine.ply".toList ∧ Spec.Allowed o v ∧ Spec.Denotes "3".toList v ∧
    ["value engine.ply 3".toList] = ["value ".toList ++ "engine.ply".toList ++ " ".toList ++ v.toWire] := by
  obtain ⟨e', s, h⟩ := demo_run
  refine C51_read_your_writes (T₁ := demoTranscript.take 1) (T₂ := (demoTranscript.drop 2).take 3) (T₃ := demoTranscript.drop 6)
    (a := "set engine.ply 3".toList) (b := "get engine.ply".toList) h (by decide) (means_iff.2 (by decide +kernel)) (means_iff.2 (by decide +kernel)) ?_
  rintro x hx t' ⟨h1, h2⟩
  have h1 := means_iff.1 h1
  have hc : ∀ x ∈ (demoTranscript.drop 2).take 3, x.2 = [] → parseCommand (trim x.1) = .unknown ∨ parseCommand (trim x.1) = .set "game.variant".toList "Nackgammon".toList := by
    decide +kernel
  rcases hc x hx h2 with e | e <;> rw [e] at h1
  · cases h1
  · injection h1 with h1; exact absurd h1 (by decide)
example : ∃ v : Variant, lower (trim "Nackgammon".toList) = v.toText ∧ ["value game.variant nackgammon".toList] = ["value game.variant ".toList ++ v.toText] := by
  obtain ⟨e', s, h⟩ := demo_run
  refine C51_read_variant (T₁ := demoTranscript.take 4) (T₂ := (demoTranscript.drop 5).take 1) (T₃ := demoTranscript.drop 7)
    (a := "set game.variant Nackgammon".toList) (b := "get game.variant".toList) h (means_iff.2 (by decide +kernel)) (means_iff.2 (by decide +kernel)) ?_
  rintro x hx t' ⟨-, h2⟩
  exact absurd h2 ((by decide +kernel : ∀ x ∈ (demoTranscript.drop 5).take 1, x.2 ≠ []) x hx)
example := (demo_at 9 _ _ rfl).elim fun _ h => h.elim fun _ h => C52_go h (means_iff.2 (by decide +kernel))
example := (demo_at 11 _ _ rfl).elim fun _ h => h.elim fun _ h => C52_missing_dice_iff h (means_iff.2 (by decide +kernel))
example := (demo_at 2 _ _ rfl).elim fun _ h => h.elim fun _ h => C53_error_unchanged h ⟨"bad_value engine.ply".toList, rfl⟩
example := (demo_at 12 _ _ rfl).elim fun _ h => h.elim fun _ h => (C53_quit (demoLines.take 12) (demoLines.drop 13) "quit".toList (means_iff.2 (by decide +kernel))).2 h
example := (demo_at 3 _ _ rfl).elim fun _ h => h.elim fun _ h => C53_blank h (by decide)
example := (demo_at 10 _ _ rfl).elim fun _ h => h.elim fun _ h => C53_replies h (by decide +kernel)
example := (demo_at 2 _ _ rfl).elim fun _ h => h.elim fun _ h => C53_set_replies h "engine.ply".toList "9".toList (means_iff.2 (by decide +kernel))
example := (demo_at 8 _ _ rfl).elim fun _ h => h.elim fun _ h => C53_dice_position_replies h
/-- A session without `quit`: every line is read. -/
example : ∃ r, run true demo 0 ["dice 6 1".toList, "go".toList] = some r ∧ r.1.map Prod.fst = ["dice 6 1".toList, "go".toList] := by
  obtain ⟨⟨T, e', s⟩, h⟩ := Option.ne_none_iff_exists'.1 (show run true demo 0 ["dice 6 1".toList, "go".toList] ≠ none by
    rw [← Option.isSome_iff_ne_none]; decide +kernel)
  refine ⟨_, h, C53_every_line_read h ?_⟩
  intro l hl hm
  have h := means_iff.1 hm
  have hc : ∀ l ∈ ["dice 6 1".toList, "go".toList], parseCommand (trim l) ≠ .quit := by decide +kernel
  exact hc l hl h

end Bkgm.Ubgi
