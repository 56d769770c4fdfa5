import Verif.Proofs.Ubgi
/-!
# C48, C49: UBGI options
-/

namespace Bkgm.Ubgi
open Spec

theorem decimal_showInt (z : Int) : Decimal (showInt z) z := by
  have h := parseInt_showInt (z := z) (max := z.natAbs) (by omega) (by omega)
  exact (parseInt_some.mp h).2.2

theorem showInt_injective {a b : Int} (h : showInt a = showInt b) : a = b := by
  have ha := parseInt_showInt (z := a) (max := max a.natAbs b.natAbs) (by omega) (by omega)
  have hb := parseInt_showInt (z := b) (max := max a.natAbs b.natAbs) (by omega) (by omega)
  rw [h, hb] at ha
  exact (Option.some.inj ha).symm

theorem i64_iff {z : Int} : I64 z ↔ -(i64Max + 1 : Int) ≤ z ∧ z ≤ i64Max := by
  unfold I64 i64Max; norm_num; omega

/-! ## C49 -/

/-- **C49** A value text is accepted exactly if it denotes an allowed value of the option, and then the result is that value. -/
theorem C49_accepts_exactly (o : OptionSpec) (raw : Str) (v : OptionValue) :
    o.parseValue raw = .ok v ↔ Allowed o v ∧ Denotes raw v := by
  cases o with
  | integer k a b d m =>
    have key : ∀ z, parseInt i64Max raw = some z ↔ I64 z ∧ Decimal raw z := fun z => by
      rw [parseInt_some, i64_iff, and_assoc]
    unfold OptionSpec.parseValue
    simp only
    cases hp : parseInt i64Max raw with
    | none =>
      simp only
      constructor
      · intro h; cases h
      · rintro ⟨h1, h2⟩
        cases v with
        | int z =>
          have : I64 z := by
            cases a <;> cases b <;> simp only [Allowed] at h1 <;> first | exact h1 | exact h1.1
          rw [(key z).mpr ⟨this, h2⟩] at hp; cases hp
        | bool _ => cases a <;> cases b <;> exact h1.elim
        | choice _ => cases a <;> cases b <;> exact h1.elim
        | text _ => cases a <;> cases b <;> exact h1.elim
    | some z =>
      obtain ⟨hz, hd⟩ := (key z).mp hp
      have uniq : ∀ y, I64 y → Decimal raw y → z = y := fun y h1 h2 => by
        have := (key y).mpr ⟨h1, h2⟩
        rw [hp] at this; exact Option.some.inj this
      cases v with
      | int y =>
        cases a <;> cases b <;> simp only [Allowed, Denotes, Except.ok.injEq, OptionValue.int.injEq]
        · exact ⟨fun h => h ▸ ⟨hz, hd⟩, fun h => uniq y h.1 h.2⟩
        · exact ⟨fun h => h ▸ ⟨hz, hd⟩, fun h => uniq y h.1 h.2⟩
        · exact ⟨fun h => h ▸ ⟨hz, hd⟩, fun h => uniq y h.1 h.2⟩
        · rename_i a b
          constructor
          · intro h
            split_ifs at h with hr
            have : z = y := by simpa using h
            subst this
            exact ⟨⟨hz, by omega, by omega⟩, hd⟩
          · rintro ⟨⟨h1, h2, h3⟩, h4⟩
            have := uniq y h1 h4
            subst this
            rw [if_neg (by omega)]
      | bool _ => cases a <;> cases b <;> simp [Allowed]; split_ifs <;> simp
      | choice _ => cases a <;> cases b <;> simp [Allowed]; split_ifs <;> simp
      | text _ => cases a <;> cases b <;> simp [Allowed]; split_ifs <;> simp
  | boolean k d m =>
    unfold OptionSpec.parseValue
    simp only
    cases v with
    | bool b =>
      simp only [Allowed, Denotes, true_and]
      constructor
      · intro h
        split_ifs at h with h1 h2
        · have : true = b := by simpa using h
          subst this; exact h1
        · have : false = b := by simpa using h
          subst this; exact h2
      · rintro rfl
        cases b <;> decide +kernel
    | int _ => simp only [Allowed, false_and, iff_false]; split_ifs <;> simp
    | choice _ => simp only [Allowed, false_and, iff_false]; split_ifs <;> simp
    | text _ => simp only [Allowed, false_and, iff_false]; split_ifs <;> simp
  | choice k cs d m =>
    unfold OptionSpec.parseValue
    simp only
    cases v with
    | choice c =>
      simp only [Allowed, Denotes]
      constructor
      · intro h
        split_ifs at h with h1
        have : raw = c := by simpa using h
        subst this
        exact ⟨by simpa using h1, rfl⟩
      · rintro ⟨h, rfl⟩
        rw [if_pos (by simpa using h)]
    | int _ => simp only [Allowed, false_and, iff_false]; split_ifs <;> simp
    | bool _ => simp only [Allowed, false_and, iff_false]; split_ifs <;> simp
    | text _ => simp only [Allowed, false_and, iff_false]; split_ifs <;> simp
  | text k d m =>
    cases v <;> simp [OptionSpec.parseValue, Allowed, Denotes]

/-- **C49** Writing an allowed value and reading it back gives the same value. -/
theorem C49_round_trip (o : OptionSpec) (v : OptionValue) (h : Allowed o v) : o.parseValue v.toWire = .ok v := by
  refine (C49_accepts_exactly o _ v).mpr ⟨h, ?_⟩
  cases v with
  | int z => exact decimal_showInt z
  | bool b => cases b <;> rfl
  | choice c => rfl
  | text t => rfl

example := C49_round_trip (OptionSpec.mkInteger "engine.ply".toList 1 4 2) (.int 4) (by simp [Allowed, OptionSpec.mkInteger, I64])

/-- **C49** Reading a text and writing the value keeps booleans, choices and texts as they are. -/
theorem C49_same_text (o : OptionSpec) (raw : Str) (v : OptionValue) (h : o.parseValue raw = .ok v) (hv : ∀ z, v ≠ .int z) :
    v.toWire = raw := by
  obtain ⟨-, h⟩ := (C49_accepts_exactly o raw v).mp h
  cases v with
  | int z => exact absurd rfl (hv z)
  | bool b => cases b <;> exact h.symm
  | choice c => exact h.symm
  | text t => exact h.symm

/-- **C49** Not vacuous: the bounds are sharp, signs are read, and there are allowed values. -/
example : (OptionSpec.mkInteger "engine.ply".toList 1 4 2).parseValue "4".toList = .ok (.int 4) ∧
    (OptionSpec.mkInteger "engine.ply".toList 1 4 2).parseValue "5".toList = .error "must be in range 1..4".toList ∧
    (OptionSpec.mkInteger "engine.ply".toList (-3) 4 2).parseValue "-3".toList = .ok (.int (-3)) ∧
    (OptionSpec.mkChoice "k".toList ["a".toList, "b".toList] "a".toList).parseValue "b".toList = .ok (.choice "b".toList) ∧
    (OptionSpec.mkChoice "k".toList ["a".toList, "b".toList] "a".toList).parseValue "c".toList = .error "expected one of [a|b]".toList := by
  decide +kernel

example : Allowed (OptionSpec.mkInteger "engine.ply".toList 1 4 2) (.int 4) ∧ ¬ Allowed (OptionSpec.mkInteger "engine.ply".toList 1 4 2) (.int 5) := by
  simp [Allowed, OptionSpec.mkInteger, I64]

/-- **C49** A single bound is not enforced: only an option with both bounds is checked. -/
theorem C49_one_sided_bound (k : Str) (a d : Int) (m : Bool) (z : Int) (hz : I64 z) :
    (OptionSpec.integer k (some a) none d m).parseValue (showInt z) = .ok (.int z) :=
  C49_round_trip (.integer k (some a) none d m) (.int z) hz

example := C49_one_sided_bound "engine.ply".toList 1 2 false (-7) (by simp [I64])

/-! ## C48 -/

theorem word_showInt (z : Int) : Word (showInt z) := by
  constructor
  · unfold showInt; split_ifs
    · simp
    · exact showNat_ne_nil _
  · intro c hc
    unfold showInt at hc
    split_ifs at hc
    · rcases List.mem_cons.mp hc with rfl | hc
      · decide
      · exact digit_not_ws (showNat_digit _ c hc)
    · exact digit_not_ws (showNat_digit _ c hc)

theorem word_showBool (b : Bool) : Word (showBool b) := by cases b <;> decide +kernel

theorem dot_not_mem_showInt (z : Int) : '.' ∉ showInt z := by
  intro hc
  have : ∀ n, '.' ∉ showNat n := fun n h => digit_ne (showNat_digit _ _ h) (.inl (by decide)) rfl
  unfold showInt at hc
  split_ifs at hc
  · rcases List.mem_cons.mp hc with e | hc
    · revert e; decide
    · exact this _ hc
  · exact this _ hc

theorem looksLike_showInt {s : Str} (h : '.' ∉ s) : looksLikeIntDomain s = false := by
  induction s with
  | nil => rfl
  | cons c s ih =>
    simp only [List.mem_cons, not_or] at h
    unfold looksLikeIntDomain
    split
    · rename_i e; simp only [List.cons.injEq] at e; exact absurd e.1.symm h.1
    · rename_i e; simp only [List.cons.injEq] at e; rw [← e.2]; exact ih h.2
    · rfl

theorem looksLike_domain (a : Str) (b : Str) : looksLikeIntDomain (a ++ ['.', '.'] ++ b) = true := by
  induction a with
  | nil => rfl
  | cons c a ih =>
    simp only [List.cons_append] at ih ⊢
    unfold looksLikeIntDomain
    split
    · rfl
    · rename_i e; simp only [List.cons.injEq] at e; rw [← e.2]; simpa using ih
    · rename_i e; simp at e

theorem word_join {cs : List Str} (h1 : cs ≠ []) (h : ∀ c ∈ cs, Word c ∧ '|' ∉ c) : Word (join ['|'] cs) := by
  induction cs with
  | nil => exact absurd rfl h1
  | cons c cs ih =>
    cases cs with
    | nil => exact (h c (by simp)).1
    | cons c' cs =>
      have := ih (by simp) fun x hx => h x (by simp [hx])
      have hc := (h c (by simp)).1
      rw [join_cons (by simp)]
      refine ⟨by simp, fun x hx => ?_⟩
      simp only [List.mem_append, List.mem_singleton] at hx
      rcases hx with (hx | rfl) | hx
      · exact hc.2 x hx
      · decide
      · exact this.2 x hx

/-- The words of the key line of an option. -/
theorem keyLine_words (o : OptionSpec) (h : WellFormed o) :
    splitWs o.toKeyLine = "key".toList :: o.key :: typeName o :: ((domain o).toList ++ o.defaultValue.toWire :: if isMinor o then ["!".toList] else []) := by
  have main : ∀ (l : List Str), (∀ t ∈ l, Word t) → o.toKeyLine = join [' '] l → splitWs o.toKeyLine = l := fun l hl e => by
    rw [e]; exact splitWs_join fun t ht => hl t ht
  apply main
  · have hk : Word "key".toList := by decide +kernel
    have hx : Word "!".toList := by decide +kernel
    have ht : Word (typeName o) := by cases o <;> (dsimp only [typeName]; decide +kernel)
    have hb : Word o.key := by
      cases o with
      | integer => exact h.1
      | boolean => exact h
      | choice => exact h.1
      | text => exact h.1
    have hd : Word o.defaultValue.toWire := by
      cases o with
      | integer => exact word_showInt _
      | boolean => exact word_showBool _
      | choice => exact h.2.2.2
      | text => exact h.2
    have hm : ∀ t ∈ domain o, Word t := by
      intro t ht
      cases o with
      | integer k a b d m =>
        cases a <;> cases b <;> simp only [domain, Option.mem_def, reduceCtorEq, Option.some.injEq] at ht
        subst ht
        refine ⟨by simp, fun c hc => ?_⟩
        simp only [List.mem_append, List.mem_cons, List.not_mem_nil, or_false] at hc
        rcases hc with (hc | rfl | rfl) | hc
        · exact (word_showInt _).2 c hc
        · decide
        · decide
        · exact (word_showInt _).2 c hc
      | boolean => simp [domain] at ht
      | choice k cs d m =>
        simp only [domain, Option.mem_def, Option.some.injEq] at ht
        subst ht
        exact word_join h.2.1 h.2.2.1
      | text =>
        simp only [domain, Option.mem_def, Option.some.injEq] at ht
        subst ht
        exact (by decide +kernel)
    intro t htm
    simp only [List.mem_cons, List.mem_append, Option.mem_toList] at htm
    rcases htm with rfl | rfl | rfl | ht' | rfl | ht'
    · exact hk
    · exact hb
    · exact ht
    · exact hm t ht'
    · exact hd
    · split_ifs at ht' <;> simp only [List.mem_singleton, List.not_mem_nil] at ht'
      subst ht'; exact hx
  · cases o with
    | integer k a b d m =>
      cases a <;> cases b <;> cases m <;>
        simp [OptionSpec.toKeyLine, OptionSpec.withMinor, domain, typeName, isMinor, OptionSpec.key, OptionSpec.defaultValue, OptionValue.toWire, join]
    | boolean k d m => cases m <;>
        simp [OptionSpec.toKeyLine, OptionSpec.withMinor, domain, typeName, isMinor, OptionSpec.key, OptionSpec.defaultValue, OptionValue.toWire, join]
    | choice k cs d m => cases m <;>
        simp [OptionSpec.toKeyLine, OptionSpec.withMinor, domain, typeName, isMinor, OptionSpec.key, OptionSpec.defaultValue, OptionValue.toWire, join]
    | text k d m => cases m <;>
        simp [OptionSpec.toKeyLine, OptionSpec.withMinor, domain, typeName, isMinor, OptionSpec.key, OptionSpec.defaultValue, OptionValue.toWire, join]

/-- **C48** Parsing the key line of a well-formed option recovers its key, type, domain, default and minor mark. -/
theorem C48_round_trip (o : OptionSpec) (h : WellFormed o) :
    parseKeyLine o.toKeyLine = some ⟨o.key, typeName o, domain o, o.defaultValue.toWire, isMinor o, []⟩ := by
  unfold parseKeyLine
  rw [keyLine_words o h]
  cases o with
  | integer k a b d m =>
    have hl := looksLike_showInt (dot_not_mem_showInt d)
    cases a <;> cases b <;> cases m <;>
      simp_all [domain, typeName, isMinor, OptionSpec.key, OptionSpec.defaultValue, OptionValue.toWire, finishKeyLine, join, WellFormed]
    all_goals
      rename_i a b
      have := looksLike_domain (showInt a) (showInt b)
      simp_all [join]
  | boolean k d m =>
    cases m <;> simp [domain, typeName, isMinor, OptionSpec.key, OptionSpec.defaultValue, OptionValue.toWire, finishKeyLine, join]
  | choice k cs d m =>
    cases m <;> simp [domain, typeName, isMinor, OptionSpec.key, OptionSpec.defaultValue, OptionValue.toWire, finishKeyLine, join]
  | text k d m =>
    cases m <;> simp [domain, typeName, isMinor, OptionSpec.key, OptionSpec.defaultValue, OptionValue.toWire, finishKeyLine, join]

example := C48_round_trip (OptionSpec.mkInteger "engine.threads".toList 1 64 8).setMinor ⟨by decide +kernel, by decide⟩

/-- **C48** The key line determines the option completely. -/
theorem C48_injective (o o' : OptionSpec) (h : WellFormed o) (h' : WellFormed o') (e : o.toKeyLine = o'.toKeyLine) : o = o' := by
  have r := C48_round_trip o h
  rw [e, C48_round_trip o' h'] at r
  simp only [Option.some.injEq, KeyLineSpec.mk.injEq, and_true] at r
  obtain ⟨rk, rt, rd, rv, rm⟩ := r
  cases o with
  | integer k a b d m =>
    cases o' with
    | integer k' a' b' d' m' =>
      simp only [OptionSpec.key, isMinor, OptionSpec.defaultValue, OptionValue.toWire] at rk rv rm
      obtain rfl := showInt_injective rv
      subst rk rm
      cases a <;> cases b <;> cases a' <;> cases b' <;> simp [WellFormed] at h h' <;>
        simp only [domain, reduceCtorEq, Option.some.injEq] at rd
      · rfl
      · rename_i a b a' b'
        have s1 := splitOnce_append (b := '.' :: showInt b) (dot_not_mem_showInt a)
        have s2 := splitOnce_append (b := '.' :: showInt b') (dot_not_mem_showInt a')
        simp only [List.append_assoc, List.cons_append, List.nil_append] at rd
        rw [← rd, s2] at s1
        simp only [Option.some.injEq, Prod.mk.injEq, List.cons.injEq, true_and] at s1
        rw [showInt_injective s1.1, showInt_injective s1.2]
    | boolean => simp [typeName] at rt
    | choice => simp [typeName] at rt
    | text => simp [typeName] at rt
  | boolean k d m =>
    cases o' with
    | boolean k' d' m' =>
      simp only [OptionSpec.key, isMinor, OptionSpec.defaultValue, OptionValue.toWire] at rk rv rm
      subst rk rm
      cases d <;> cases d' <;> simp [showBool] at rv ⊢
    | integer => simp [typeName] at rt
    | choice => simp [typeName] at rt
    | text => simp [typeName] at rt
  | choice k cs d m =>
    cases o' with
    | choice k' cs' d' m' =>
      simp only [OptionSpec.key, isMinor, OptionSpec.defaultValue, OptionValue.toWire, domain, Option.some.injEq] at rk rv rm rd
      subst rk rm rv
      have s1 := splitChar_join h.2.1 fun c hc => (h.2.2.1 c hc).2
      have s2 := splitChar_join h'.2.1 fun c hc => (h'.2.2.1 c hc).2
      rw [← rd, s2] at s1
      rw [s1]
    | integer => simp [typeName] at rt
    | boolean => simp [typeName] at rt
    | text => simp [typeName] at rt
  | text k d m =>
    cases o' with
    | text k' d' m' =>
      simp only [OptionSpec.key, isMinor, OptionSpec.defaultValue, OptionValue.toWire] at rk rv rm
      subst rk rm rv
      rfl
    | integer => simp [typeName] at rt
    | boolean => simp [typeName] at rt
    | choice => simp [typeName] at rt

/-- **C48** Not vacuous, and the code's own examples. -/
example : WellFormed (OptionSpec.mkInteger "engine.threads".toList 1 64 8).setMinor ∧
    (OptionSpec.mkInteger "engine.threads".toList 1 64 8).setMinor.toKeyLine = "key engine.threads int 1..64 8 !".toList ∧
    (OptionSpec.mkUnbounded "engine.seed".toList 42).toKeyLine = "key engine.seed int 42".toList ∧
    parseKeyLine "key engine.seed int 0..999999 42 ! rng seed".toList =
      some ⟨"engine.seed".toList, "int".toList, some "0..999999".toList, "42".toList, true, "rng seed".toList⟩ := by
  refine ⟨⟨by decide +kernel, by decide⟩, by decide +kernel, by decide +kernel, by decide +kernel⟩

/-- **C48** The restriction is needed: a text option whose default is empty is not recovered. -/
theorem C48_empty_default : parseKeyLine (OptionSpec.mkText "k".toList []).toKeyLine = none ∧
    parseKeyLine (OptionSpec.mkText "k".toList []).setMinor.toKeyLine =
      some ⟨"k".toList, "string".toList, some "*".toList, "!".toList, false, []⟩ := by decide +kernel

/-- **C48** What an engine announces for an option made by each of the five constructors, and `minor()`: the same line with ` !` at the end, and nothing else
about the option changes. -/
theorem C48_constructors (k : Str) (a b d : Int) (t : Bool) (cs : List Str) (c : Str) :
    (OptionSpec.mkInteger k a b d).toKeyLine = "key ".toList ++ k ++ " int ".toList ++ showInt a ++ "..".toList ++ showInt b ++ " ".toList ++ showInt d ∧
    (OptionSpec.mkUnbounded k d).toKeyLine = "key ".toList ++ k ++ " int ".toList ++ showInt d ∧
    (OptionSpec.mkBoolean k t).toKeyLine = "key ".toList ++ k ++ " bool ".toList ++ (if t then "true".toList else "false".toList) ∧
    (OptionSpec.mkChoice k cs c).toKeyLine = "key ".toList ++ k ++ " enum ".toList ++ join "|".toList cs ++ " ".toList ++ c ∧
    (OptionSpec.mkText k c).toKeyLine = "key ".toList ++ k ++ " string * ".toList ++ c ∧
    ∀ o ∈ [OptionSpec.mkInteger k a b d, OptionSpec.mkUnbounded k d, OptionSpec.mkBoolean k t, OptionSpec.mkChoice k cs c, OptionSpec.mkText k c],
      o.setMinor.toKeyLine = o.toKeyLine ++ " !".toList ∧ o.key = k ∧ o.setMinor.key = k ∧ o.setMinor.defaultValue = o.defaultValue ∧
      ∀ raw, o.setMinor.parseValue raw = o.parseValue raw := by
  refine ⟨rfl, rfl, by cases t <;> rfl, rfl, rfl, ?_⟩
  intro o ho
  simp only [List.mem_cons, List.not_mem_nil, or_false] at ho
  rcases ho with rfl | rfl | rfl | rfl | rfl <;> exact ⟨rfl, rfl, rfl, rfl, fun _ => rfl⟩

/-- **C48** The default value of each of them. -/
theorem C48_defaults (k : Str) (a b d : Int) (t : Bool) (cs : List Str) (c : Str) :
    (OptionSpec.mkInteger k a b d).defaultValue = .int d ∧ (OptionSpec.mkUnbounded k d).defaultValue = .int d ∧
    (OptionSpec.mkBoolean k t).defaultValue = .bool t ∧ (OptionSpec.mkChoice k cs c).defaultValue = .choice c ∧
    (OptionSpec.mkText k c).defaultValue = .text c := ⟨rfl, rfl, rfl, rfl, rfl⟩

/-- **C49** What a refused value is told, for each kind of option. -/
theorem C49_refusals (k : Str) (a b d : Int) (t m : Bool) (cs : List Str) (c raw e : Str) :
    ((OptionSpec.integer k (some a) (some b) d m).parseValue raw = .error e ↔
      (¬ ∃ z, I64 z ∧ Decimal raw z) ∧ e = "expected int, got '".toList ++ raw ++ "'".toList ∨
      (∃ z, I64 z ∧ Decimal raw z ∧ ¬ (a ≤ z ∧ z ≤ b)) ∧ e = "must be in range ".toList ++ showInt a ++ "..".toList ++ showInt b) ∧
    ((OptionSpec.mkUnbounded k d).parseValue raw = .error e ↔
      (¬ ∃ z, I64 z ∧ Decimal raw z) ∧ e = "expected int, got '".toList ++ raw ++ "'".toList) ∧
    ((OptionSpec.boolean k t m).parseValue raw = .error e ↔
      raw ≠ "true".toList ∧ raw ≠ "false".toList ∧ e = "expected bool true|false, got '".toList ++ raw ++ "'".toList) ∧
    ((OptionSpec.choice k cs c m).parseValue raw = .error e ↔ raw ∉ cs ∧ e = "expected one of [".toList ++ join "|".toList cs ++ "]".toList) ∧
    (OptionSpec.text k c m).parseValue raw ≠ .error e := by
  have key : ∀ z, parseInt i64Max raw = some z ↔ I64 z ∧ Decimal raw z := fun z => by
    rw [parseInt_some, i64_iff, and_assoc]
  refine ⟨?_, ?_, ?_, ?_, by simp [OptionSpec.parseValue]⟩
  · simp only [OptionSpec.parseValue]
    cases h : parseInt i64Max raw with
    | none =>
      have hn : ¬ ∃ z, I64 z ∧ Decimal raw z := fun ⟨z, hz⟩ => by rw [(key z).2 hz] at h; cases h
      have hn' : ¬ ∃ z, I64 z ∧ Decimal raw z ∧ ¬ (a ≤ z ∧ z ≤ b) := fun ⟨z, h1, h2, _⟩ => hn ⟨z, h1, h2⟩
      simp only [Except.error.injEq, hn, hn', not_false_eq_true, true_and, false_and, or_false]
      exact eq_comm
    | some z =>
      have hz := (key z).1 h
      have hu : ∀ y, I64 y ∧ Decimal raw y → y = z := fun y hy => by
        have := (key y).2 hy
        rw [h] at this
        exact (Option.some.inj this).symm
      have hy : ¬ ¬ ∃ z, I64 z ∧ Decimal raw z := fun hc => hc ⟨z, hz⟩
      have hy' : (∃ y, I64 y ∧ Decimal raw y ∧ ¬ (a ≤ y ∧ y ≤ b)) ↔ ¬ (a ≤ z ∧ z ≤ b) :=
        ⟨fun ⟨y, h1, h2, h3⟩ => hu y ⟨h1, h2⟩ ▸ h3, fun h3 => ⟨z, hz.1, hz.2, h3⟩⟩
      simp only [hy, hy', false_and, false_or]
      split_ifs with hr
      · simp only [Except.error.injEq]
        exact ⟨fun he => ⟨by omega, he.symm⟩, fun he => he.2.symm⟩
      · simp only [reduceCtorEq, false_iff]
        intro he; omega
  · simp only [OptionSpec.parseValue, OptionSpec.mkUnbounded]
    cases h : parseInt i64Max raw with
    | none =>
      have hn : ¬ ∃ z, I64 z ∧ Decimal raw z := fun ⟨z, hz⟩ => by rw [(key z).2 hz] at h; cases h
      simp only [Except.error.injEq, hn, not_false_eq_true, true_and]
      exact eq_comm
    | some z =>
      have hy : ¬ ¬ ∃ z, I64 z ∧ Decimal raw z := fun hc => hc ⟨z, (key z).1 h⟩
      simp only [reduceCtorEq, hy, false_and]
  · simp only [OptionSpec.parseValue]
    split_ifs with h1 h2
    · simp [h1]
    · simp [h2]
    · simp only [Except.error.injEq, ne_eq, h1, h2, not_false_eq_true, true_and]
      exact eq_comm
  · simp only [OptionSpec.parseValue]
    by_cases hm : raw ∈ cs
    · rw [if_pos (by simpa using hm)]
      simp [hm]
    · rw [if_neg (by simpa using hm)]
      simp only [Except.error.injEq, hm, not_false_eq_true, true_and]
      exact eq_comm

example : (OptionSpec.mkInteger "engine.ply".toList 1 4 2).parseValue "5".toList = .error "must be in range 1..4".toList :=
  ((C49_refusals "engine.ply".toList 1 4 2 true false [] [] "5".toList _).1).2 (Or.inr ⟨⟨5, by simp [I64], ⟨[5], by decide, by decide, Or.inl ⟨by decide, by decide⟩⟩, by decide⟩, by decide⟩)

end Bkgm.Ubgi
