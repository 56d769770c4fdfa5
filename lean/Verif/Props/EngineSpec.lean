import Verif.Proofs.EngineSpec
/-!
# C46, C47: engine specs
-/

namespace Bkgm
open EngineSpec

/-- A well-formed engine spec: aliasName, version and options are non-empty where needed, have no separator in them and no white space
around them. -/
structure EngineSpec.Spec.WellFormed (s : EngineSpec.Spec) : Prop where
  aliasName : s.aliasName ≠ [] ∧ Trimmed s.aliasName ∧ ':' ∉ s.aliasName ∧ '@' ∉ s.aliasName
  version : ∀ v, s.version = some v → v ≠ [] ∧ Trimmed v ∧ ':' ∉ v
  /-- the entries of a `BTreeMap` are in increasing order of the keys -/
  sorted : s.options.Pairwise fun a b => strLt a.1 b.1 = true
  keys : ∀ e ∈ s.options, ∃ k, e.1 = "engine.".toList ++ k ∧ Trimmed k ∧ ¬ "engine.".toList <+: k ∧ ',' ∉ k ∧ '=' ∉ k
  values : ∀ e ∈ s.options, Trimmed e.2 ∧ ',' ∉ e.2

namespace EngineSpec

theorem stripPrefix_none {p s : Str} : stripPrefix p s = none ↔ ¬ p <+: s := by
  cases h : stripPrefix p s with
  | none =>
    simp only [true_iff]
    rintro ⟨t, rfl⟩
    rw [stripPrefix_some.2 rfl] at h; cases h
  | some t =>
    simp only [reduceCtorEq, false_iff, not_not]
    exact ⟨t, (stripPrefix_some.1 h).symm⟩

theorem shortKey_prefix {k : Str} (h : ¬ "engine.".toList <+: k) : shortKey ("engine.".toList ++ k) = k := by
  unfold shortKey
  have : ("engine.".toList ++ k).length = (5 + k.length + 1) + 1 := by
    rw [List.length_append]
    have : "engine.".toList.length = 7 := by decide
    omega
  rw [this]
  simp only [stripAll]
  rw [stripPrefix_some.2 (show "engine.".toList ++ k = enginePrefix ++ k from rfl)]
  simp only
  rw [stripPrefix_none (p := enginePrefix).2 h]

theorem optionKey_short {k : Str} (h : ¬ "engine.".toList <+: k) (ht : Trimmed k) : optionKey k = "engine.".toList ++ k := by
  unfold optionKey
  rw [trim_of_trimmed ht, if_neg]
  · rfl
  · rw [stripPrefix_none (p := enginePrefix).2 h]; simp

/-- The option entries shown, as pairs of short key and value. -/
def shownPairs (m : Options) : List (Str × Str) :=
  (match get "engine.ply".toList m with | some v => [("ply".toList, v)] | none => []) ++
  (match get "engine.top_k".toList m with | some v => [("top_k".toList, v)] | none => []) ++
  (m.filter fun (k, _) => !(k == "engine.ply".toList || k == "engine.top_k".toList)).map fun (k, v) => (shortKey k, v)

theorem shown_eq (m : Options) : shown m = (shownPairs m).map fun e => showOption e.1 e.2 := by
  unfold shown shownPairs
  rw [List.map_append, List.map_append, List.map_map]
  congr 1
  congr 1
  · split <;> simp_all
  · split <;> simp_all

/-- The shown pairs are the entries of the map with `engine.` taken off. -/
theorem mem_shownPairs {m : Options} (hs : Sorted m)
    (hk : ∀ e ∈ m, ∃ k, e.1 = "engine.".toList ++ k ∧ Trimmed k ∧ ¬ "engine.".toList <+: k ∧ ',' ∉ k ∧ '=' ∉ k) (a v : Str) :
    (a, v) ∈ shownPairs m ↔ ("engine.".toList ++ a, v) ∈ m ∧ ¬ "engine.".toList <+: a := by
  have ply : ∀ v, ("engine.ply".toList, v) ∈ m ↔ get "engine.ply".toList m = some v := fun v => ⟨get_of_mem hs, get_mem⟩
  have top : ∀ v, ("engine.top_k".toList, v) ∈ m ↔ get "engine.top_k".toList m = some v := fun v => ⟨get_of_mem hs, get_mem⟩
  have e1 : "engine.ply".toList = "engine.".toList ++ "ply".toList := by decide
  have e2 : "engine.top_k".toList = "engine.".toList ++ "top_k".toList := by decide
  have n1 : ¬ "engine.".toList <+: "ply".toList := by decide
  have n2 : ¬ "engine.".toList <+: "top_k".toList := by decide
  have m1 : (a, v) ∈ (match get "engine.ply".toList m with | some v => [("ply".toList, v)] | none => []) ↔
      a = "ply".toList ∧ ("engine.".toList ++ a, v) ∈ m := by
    constructor
    · intro h
      split at h
      · rename_i w hw
        simp only [List.mem_singleton, Prod.mk.injEq] at h
        refine ⟨h.1, ?_⟩
        rw [h.1, ← e1, h.2]; exact (ply _).2 hw
      · cases h
    · rintro ⟨rfl, h⟩
      rw [← e1] at h
      rw [(ply v).1 h]; simp
  have m2 : (a, v) ∈ (match get "engine.top_k".toList m with | some v => [("top_k".toList, v)] | none => []) ↔
      a = "top_k".toList ∧ ("engine.".toList ++ a, v) ∈ m := by
    constructor
    · intro h
      split at h
      · rename_i w hw
        simp only [List.mem_singleton, Prod.mk.injEq] at h
        refine ⟨h.1, ?_⟩
        rw [h.1, ← e2, h.2]; exact (top _).2 hw
      · cases h
    · rintro ⟨rfl, h⟩
      rw [← e2] at h
      rw [(top v).1 h]; simp
  unfold shownPairs
  rw [List.mem_append, List.mem_append, m1, m2]
  constructor
  · rintro ((⟨rfl, h⟩ | ⟨rfl, h⟩) | h)
    · exact ⟨h, n1⟩
    · exact ⟨h, n2⟩
    · obtain ⟨⟨k, w⟩, hm, he⟩ := List.mem_map.1 h
      obtain ⟨hm, -⟩ := List.mem_filter.1 hm
      obtain ⟨k', rfl, -, hp, -⟩ := hk _ hm
      simp only [Prod.mk.injEq] at he
      rw [shortKey_prefix hp] at he
      rw [← he.1, ← he.2]; exact ⟨hm, hp⟩
  · rintro ⟨h, hp⟩
    by_cases c1 : a = "ply".toList
    · exact Or.inl (Or.inl ⟨c1, h⟩)
    by_cases c2 : a = "top_k".toList
    · exact Or.inl (Or.inr ⟨c2, h⟩)
    right
    refine List.mem_map.2 ⟨("engine.".toList ++ a, v), List.mem_filter.2 ⟨h, ?_⟩, ?_⟩
    · simp only [Bool.not_eq_true', Bool.or_eq_false_iff, beq_eq_false_iff_ne, ne_eq]
      rw [e1, e2, List.append_cancel_left_eq, List.append_cancel_left_eq]
      exact ⟨c1, c2⟩
    · simp only [shortKey_prefix hp]

theorem trimmed_option {k v : Str} (hk : Trimmed k) (hv : Trimmed v) : Trimmed (showOption k v) := by
  constructor
  · intro c hc
    cases k with
    | nil => simp [showOption] at hc; subst hc; decide
    | cons x k => simp [showOption] at hc; subst hc; exact hk.1 _ rfl
  · intro c hc
    unfold showOption at hc
    rw [List.getLast?_append_of_ne_nil _ (by simp)] at hc
    cases v with
    | nil => simp at hc; subst hc; decide
    | cons x v => rw [List.getLast?_cons_cons] at hc; exact hv.2 _ hc

/-- The overrides loop on a list of well-formed overrides. -/
theorem parseOverrides_show (spec : Str) : ∀ (l : List (Str × Str)) (m : Options),
    (∀ e ∈ l, Trimmed e.1 ∧ ¬ "engine.".toList <+: e.1 ∧ '=' ∉ e.1 ∧ Trimmed e.2) →
    parseOverrides spec (l.map fun e => showOption e.1 e.2) m =
      .ok ((l.map fun e => ("engine.".toList ++ e.1, e.2)).foldl (fun m e => insert e.1 e.2 m) m)
  | [], m, _ => rfl
  | e :: l, m, h => by
    obtain ⟨h1, h2, h3, h4⟩ := h e (by simp)
    rw [List.map_cons, parseOverrides, trim_of_trimmed (trimmed_option h1 h4), if_neg (by simp [showOption])]
    rw [showOption, splitOnce_append h3]
    simp only
    rw [optionKey_short h2 h1, trim_of_trimmed h4, parseOverrides_show spec l _ (fun e he => h e (by simp [he]))]
    rfl

theorem lastValue_some {k v : Str} {l : List (Str × Str)} (h : lastValue k l = some v) : (k, v) ∈ l := by
  unfold lastValue at h
  obtain ⟨e, h1, rfl⟩ := Option.map_eq_some_iff.1 h
  have := List.find?_some h1
  have h2 := List.mem_of_find?_eq_some h1
  simp only [beq_iff_eq] at this
  rw [← this]
  simpa using h2

theorem lastValue_none {k : Str} {l : List (Str × Str)} (h : lastValue k l = none) (v : Str) : (k, v) ∉ l := by
  unfold lastValue at h
  rw [Option.map_eq_none_iff, List.find?_eq_none] at h
  intro hm
  exact h (k, v) (by simpa using hm) (by simp)

theorem trimmed_join {l : List Str} (hne : l ≠ []) (h : ∀ s ∈ l, s ≠ [] ∧ Trimmed s) : Trimmed (join [','] l) := by
  induction l with
  | nil => exact absurd rfl hne
  | cons s l ih =>
    obtain ⟨h1, h2⟩ := h s (by simp)
    cases l with
    | nil => exact h2
    | cons t l =>
      have ih := ih (by simp) (fun s hs => h s (by simp [hs]))
      have hj : join [','] (t :: l) ≠ [] := by
        intro e
        obtain ⟨h1, -⟩ := h t (by simp)
        cases l with
        | nil => exact h1 e
        | cons u l => simp [join] at e
      unfold join
      constructor
      · intro c hc
        cases s with
        | nil => exact absurd rfl h1
        | cons x s => simp at hc; subst hc; exact h2.1 _ rfl
      · intro c hc
        rw [List.getLast?_append_of_ne_nil _ hj] at hc
        exact ih.2 c hc

end EngineSpec

/-- **C46** Parsing the formatted text of a well-formed engine spec gives the spec back. -/
theorem C46_round_trip (s : EngineSpec.Spec) (h : s.WellFormed) : EngineSpec.parse (EngineSpec.format s) = .ok s := by
  obtain ⟨aliasName, version, m⟩ := s
  obtain ⟨⟨ha1, ha2, ha3, ha4⟩, hv, hs, hk, hval⟩ := h
  simp only at ha1 ha2 ha3 ha4 hv hs hk hval
  have hpairs := mem_shownPairs hs hk
  have hgood : ∀ e ∈ shownPairs m, Trimmed e.1 ∧ ¬ "engine.".toList <+: e.1 ∧ '=' ∉ e.1 ∧ Trimmed e.2 ∧ ',' ∉ e.1 ∧ ',' ∉ e.2 := by
    rintro ⟨a, v⟩ he
    obtain ⟨h1, h2⟩ := (hpairs a v).1 he
    obtain ⟨k', e, ht, -, hc, hq⟩ := hk _ h1
    rw [List.append_cancel_left_eq] at e
    obtain ⟨h3, h4⟩ := hval _ h1
    rw [← e] at ht hc hq
    exact ⟨ht, h2, hq, h3, hc, h4⟩
  -- the head
  have hhead : ':' ∉ base aliasName version ∧ trim (base aliasName version) = base aliasName version ∧
      parseAliasVersion (base aliasName version) = (aliasName, version) := by
    cases version with
    | none =>
      refine ⟨ha3, trim_of_trimmed ha2, ?_⟩
      simp only [base, parseAliasVersion, splitOnce_none.2 ha4, trim_of_trimmed ha2]
    | some v =>
      obtain ⟨v1, v2, v3⟩ := hv v rfl
      simp only [base]
      refine ⟨?_, trim_of_trimmed ⟨?_, ?_⟩, ?_⟩
      · simp only [List.mem_append, List.mem_cons, not_or]
        exact ⟨ha3, by decide, v3⟩
      · intro c hc
        cases aliasName with
        | nil => exact absurd rfl ha1
        | cons x a => simp at hc; subst hc; exact ha2.1 _ rfl
      · intro c hc
        rw [List.getLast?_append_of_ne_nil _ (by simp)] at hc
        cases v with
        | nil => exact absurd rfl v1
        | cons x v => rw [List.getLast?_cons_cons] at hc; exact v2.2 _ hc
      · unfold parseAliasVersion
        rw [splitOnce_append ha4]
        simp only [trim_of_trimmed v2, if_neg v1, trim_of_trimmed ha2]
  -- the options
  have hget : ∀ k, get k (((shownPairs m).map fun e => ("engine.".toList ++ e.1, e.2)).foldl (fun m e => insert e.1 e.2 m) []) = get k m := by
    intro k
    rw [get_foldl]
    simp only [EngineSpec.get, Option.or_none]
    cases hl : lastValue k ((shownPairs m).map fun e => ("engine.".toList ++ e.1, e.2)) with
    | some v =>
      obtain ⟨⟨a, w⟩, h1, h2⟩ := List.mem_map.1 (lastValue_some hl)
      simp only [Prod.mk.injEq] at h2
      rw [← h2.1, ← h2.2]
      exact (get_of_mem hs ((hpairs a w).1 h1).1).symm
    | none =>
      cases hg : get k m with
      | none => rfl
      | some v =>
        have hm := get_mem hg
        obtain ⟨k', e, -, hp, -⟩ := hk _ hm
        simp only at e
        subst e
        exact absurd (List.mem_map.2 ⟨(k', v), (hpairs k' v).2 ⟨hm, hp⟩, rfl⟩) (lastValue_none hl v)
  have hmap : ((shownPairs m).map fun e => ("engine.".toList ++ e.1, e.2)).foldl (fun m e => insert e.1 e.2 m) [] = m :=
    sorted_ext (foldl_sorted _ _ List.Pairwise.nil) hs hget
  obtain ⟨hb1, hb2, hb3⟩ := hhead
  unfold EngineSpec.format
  by_cases he : shownPairs m = []
  · have hsh : shown m = [] := by rw [shown_eq, he]; rfl
    simp only [hsh, if_true]
    rw [he] at hmap
    simp only [List.map_nil, List.foldl_nil] at hmap
    subst hmap
    unfold EngineSpec.parse splitSpec
    simp only [splitOnce_none.2 hb1, hb2, hb3, if_neg ha1]
  · have hsh : shown m ≠ [] := by rw [shown_eq]; simpa using he
    have hparts : ∀ s ∈ shown m, s ≠ [] ∧ Trimmed s ∧ ',' ∉ s := by
      intro s hs'
      rw [shown_eq] at hs'
      obtain ⟨e, h1, rfl⟩ := List.mem_map.1 hs'
      obtain ⟨g1, g2, g3, g4, g5, g6⟩ := hgood e h1
      refine ⟨by simp [showOption], trimmed_option g1 g4, ?_⟩
      simp only [showOption, List.mem_append, List.mem_cons, not_or]
      exact ⟨g5, by decide, g6⟩
    have hj := trimmed_join hsh fun s hs' => ⟨(hparts s hs').1, (hparts s hs').2.1⟩
    have hjne : join [','] (shown m) ≠ [] := by
      cases hc : shown m with
      | nil => exact absurd hc hsh
      | cons s l =>
        have := (hparts s (by simp [hc])).1
        cases l with
        | nil => exact this
        | cons t l => simp [join]
    have hsplit := splitChar_join hsh fun s hs' => (hparts s hs').2.2
    have hpo := parseOverrides_show
    simp only [if_neg hsh]
    unfold EngineSpec.parse splitSpec
    rw [splitOnce_append hb1]
    simp only [hb2, hb3, if_neg ha1, trim_of_trimmed hj, if_neg hjne, hsplit]
    rw [shown_eq, parseOverrides_show _ _ _ fun e he' => ⟨(hgood e he').1, (hgood e he').2.1, (hgood e he').2.2.1, (hgood e he').2.2.2.1⟩,
      hmap]

/-- A spec with a version, the two special options and another one, with an `=` and a `:` in a value. -/
example : EngineSpec.Spec.WellFormed ⟨"hawk".toList, some "v1@3".toList,
    [("engine.a".toList, "x=1:2".toList), ("engine.ply".toList, "2".toList), ("engine.top_k".toList, [])]⟩ where
  aliasName := by decide
  version := by intro v h; injection h with h; subst h; decide
  sorted := by decide
  keys := by
    intro e he
    simp only [List.mem_cons, List.not_mem_nil, or_false] at he
    rcases he with rfl | rfl | rfl
    · exact ⟨"a".toList, by decide⟩
    · exact ⟨"ply".toList, by decide⟩
    · exact ⟨"top_k".toList, by decide⟩
  values := by decide

/-! ### C47 -/

/-- The text before the first `:`. -/
def specHead (s : Str) : Str := s.takeWhile (· ≠ ':')
/-- The non-blank overrides: the pieces between commas of the text after the first `:`, trimmed. -/
def specOverrides (s : Str) : List Str :=
  ((splitChar ',' (trim ((s.dropWhile (· ≠ ':')).drop 1))).map trim).filter (· ≠ [])
/-- The key of an override: the trimmed text before the first `=`, with `engine.` put in front unless it is already there. -/
def overrideKey (p : Str) : Str :=
  if "engine.".toList <+: trim (p.takeWhile (· ≠ '=')) then trim (p.takeWhile (· ≠ '='))
  else "engine.".toList ++ trim (p.takeWhile (· ≠ '='))
/-- The value of an override: the trimmed text after the first `=`. -/
def overrideValue (p : Str) : Str := trim ((p.dropWhile (· ≠ '=')).drop 1)

theorem takeWhile_split {c : Char} {a b : Str} (h : c ∉ a) :
    (a ++ c :: b).takeWhile (· ≠ c) = a ∧ ((a ++ c :: b).dropWhile (· ≠ c)).drop 1 = b := by
  induction a with
  | nil => simp
  | cons x a ih =>
    rw [List.mem_cons, not_or] at h
    have hx : decide (x ≠ c) = true := by simpa using fun e : x = c => h.1 e.symm
    obtain ⟨h1, h2⟩ := ih h.2
    rw [List.cons_append, List.takeWhile_cons, List.dropWhile_cons, if_pos hx, if_pos hx]
    exact ⟨by rw [h1], h2⟩

theorem takeWhile_nosplit {c : Char} {a : Str} (h : c ∉ a) : a.takeWhile (· ≠ c) = a ∧ (a.dropWhile (· ≠ c)).drop 1 = [] := by
  induction a with
  | nil => exact ⟨rfl, rfl⟩
  | cons x a ih =>
    rw [List.mem_cons, not_or] at h
    have hx : decide (x ≠ c) = true := by simpa using fun e : x = c => h.1 e.symm
    obtain ⟨h1, h2⟩ := ih h.2
    rw [List.takeWhile_cons, List.dropWhile_cons, if_pos hx, if_pos hx]
    exact ⟨by rw [h1], h2⟩

theorem not_mem_takeWhile {c : Char} {a : Str} : c ∉ a.takeWhile (· ≠ c) := by
  induction a with
  | nil => simp
  | cons x a ih =>
    rw [List.takeWhile_cons]
    split
    · rename_i h
      rw [List.mem_cons, not_or]
      exact ⟨fun e => by simp [e] at h, ih⟩
    · simp

theorem splitSpec_eq (s : Str) : (splitSpec s).1 = trim (specHead s) ∧
    ((splitSpec s).2.getD []) = trim ((s.dropWhile (· ≠ ':')).drop 1) := by
  unfold splitSpec specHead
  cases h : splitOnce ':' s with
  | none =>
    obtain ⟨h1, h2⟩ := takeWhile_nosplit (splitOnce_none.1 h)
    simp only [h1, h2]
    exact ⟨trivial, rfl⟩
  | some ab =>
    obtain ⟨a, b⟩ := ab
    obtain ⟨rfl, hc⟩ := splitOnce_some.1 h
    obtain ⟨h1, h2⟩ := takeWhile_split (b := b) hc
    simp only [h1, h2, Option.getD_some, and_self]

/-- `parse` on the pieces of the text. -/
theorem parse_eq (s : Str) : EngineSpec.parse s =
    if (parseAliasVersion (trim (specHead s))).1 = [] then .error (.invalidSpec s)
    else match parseOverrides s (splitChar ',' (trim ((s.dropWhile (· ≠ ':')).drop 1))) [] with
      | .error e => .error e
      | .ok m => .ok ⟨(parseAliasVersion (trim (specHead s))).1, (parseAliasVersion (trim (specHead s))).2, m⟩ := by
  obtain ⟨h1, h2⟩ := splitSpec_eq s
  rw [← h1, ← h2]
  unfold EngineSpec.parse
  simp only
  split
  · rfl
  · cases h : (splitSpec s).2 with
    | none => rfl
    | some raw =>
      simp only [Option.getD_some]
      split
      · rename_i hr
        rw [hr]; rfl
      · rfl

theorem parseOverrides_eq (s : Str) : ∀ (l : List Str) (m : Options),
    parseOverrides s l m =
      if ∀ p ∈ (l.map trim).filter (· ≠ []), '=' ∈ p then
        .ok ((((l.map trim).filter (· ≠ [])).map fun p => (overrideKey p, overrideValue p)).foldl (fun m e => insert e.1 e.2 m) m)
      else .error (.invalidOverride ((((l.map trim).filter (· ≠ [])).find? fun p => !p.contains '=').getD []) s)
  | [], m => by simp [parseOverrides]
  | t :: l, m => by
    unfold parseOverrides
    by_cases h : trim t = []
    · have hf : ((t :: l).map trim).filter (· ≠ []) = (l.map trim).filter (· ≠ []) := by simp [h]
      rw [if_pos h, parseOverrides_eq s l m, hf]
    · have hf : ((t :: l).map trim).filter (· ≠ []) = trim t :: (l.map trim).filter (· ≠ []) := by simp [h]
      rw [if_neg h, hf]
      cases hs : splitOnce '=' (trim t) with
      | none =>
        have hn := splitOnce_none.1 hs
        rw [if_neg (fun hall => hn (hall (trim t) (by simp)))]
        simp [List.find?_cons, hn]
      | some kv =>
        obtain ⟨k, v⟩ := kv
        obtain ⟨e, hk⟩ := splitOnce_some.1 hs
        obtain ⟨t1, t2⟩ := takeWhile_split (b := v) hk
        have hin : '=' ∈ trim t := by rw [e]; simp
        have ek : optionKey k = overrideKey (trim t) := by
          unfold optionKey overrideKey
          rw [e, t1]
          by_cases hp : "engine.".toList <+: trim k
          · rw [if_pos hp, if_pos]
            obtain ⟨r, hr⟩ := hp
            rw [stripPrefix_some.2 (show trim k = enginePrefix ++ r from hr.symm)]; rfl
          · rw [if_neg hp, if_neg]
            · rfl
            · rw [stripPrefix_none (p := enginePrefix).2 hp]; simp
        have ev : trim v = overrideValue (trim t) := by
          unfold overrideValue
          rw [e, t2]
        simp only
        rw [ek, ev, parseOverrides_eq s l, List.map_cons, List.foldl_cons]
        have hiff : (∀ p ∈ trim t :: (l.map trim).filter (· ≠ []), '=' ∈ p) ↔ ∀ p ∈ (l.map trim).filter (· ≠ []), '=' ∈ p := by
          simp only [List.mem_cons, forall_eq_or_imp, hin, true_and]
        by_cases hc : ∀ p ∈ (l.map trim).filter (· ≠ []), '=' ∈ p
        · rw [if_pos hc, if_pos (hiff.2 hc)]
        · rw [if_neg hc, if_neg (fun h' => hc (hiff.1 h')), List.find?_cons, show (!(trim t).contains '=') = false by simp [hin]]

theorem parseAliasVersion_spec (t : Str) : Trimmed (parseAliasVersion t).1 ∧
    (∀ v, (parseAliasVersion t).2 = some v → v ≠ [] ∧ Trimmed v) := by
  unfold parseAliasVersion
  split
  · rename_i a v _
    split
    · exact ⟨trim_trimmed _, by simp⟩
    · rename_i hv
      refine ⟨trim_trimmed _, fun v' h => ?_⟩
      injection h with h
      subst h
      exact ⟨hv, trim_trimmed _⟩
  · exact ⟨trim_trimmed _, by simp⟩

theorem trimmed_overrideKey (p : Str) : "engine.".toList <+: overrideKey p ∧ Trimmed (overrideKey p) := by
  unfold overrideKey
  split
  · rename_i h
    exact ⟨h, trim_trimmed _⟩
  · refine ⟨List.prefix_append _ _, ?_⟩
    have ht := trim_trimmed (p.takeWhile (· ≠ '='))
    revert ht
    generalize trim (p.takeWhile (· ≠ '=')) = t
    intro ht
    constructor
    · intro c hc
      have : c = 'e' := by
        have e : ("engine.".toList ++ t).head? = some 'e' := rfl
        rw [e] at hc; injection hc with hc; exact hc.symm
      rw [this]; decide
    · intro c hc
      cases t with
      | nil =>
        have : c = '.' := by
          have e : ("engine.".toList ++ [] : Str).getLast? = some '.' := by decide
          rw [e] at hc; injection hc with hc; exact hc.symm
        rw [this]; decide
      | cons x t =>
        rw [List.getLast?_append_of_ne_nil _ (by simp)] at hc
        exact ht.2 c hc

/-- **C47** What a successful parse returns: a non-empty alias and version without outer white space, and options whose keys start with
`engine.`. -/
theorem C47_ok (s : Str) (e : EngineSpec.Spec) (h : EngineSpec.parse s = .ok e) :
    (e.aliasName ≠ [] ∧ Trimmed e.aliasName) ∧ (∀ v, e.version = some v → v ≠ [] ∧ Trimmed v) ∧
    (∀ o ∈ e.options, "engine.".toList <+: o.1 ∧ Trimmed o.1 ∧ Trimmed o.2) ∧
    e.options.Pairwise (fun a b => strLt a.1 b.1 = true) := by
  rw [parse_eq] at h
  split at h
  · cases h
  · rename_i hne
    split at h
    · cases h
    · rename_i m hm
      injection h with h
      subst h
      obtain ⟨h1, h2⟩ := parseAliasVersion_spec (trim (specHead s))
      rw [parseOverrides_eq] at hm
      split at hm
      · injection hm with hm
        have hs : Sorted m := hm ▸ foldl_sorted _ _ List.Pairwise.nil
        refine ⟨⟨hne, h1⟩, h2, ?_, hs⟩
        rintro ⟨k, v⟩ ho
        have hg := get_of_mem hs ho
        rw [← hm, get_foldl] at hg
        simp only [EngineSpec.get, Option.or_none] at hg
        obtain ⟨p, -, hp⟩ := List.mem_map.1 (lastValue_some hg)
        simp only [Prod.mk.injEq] at hp
        rw [← hp.1, ← hp.2]
        exact ⟨(trimmed_overrideKey p).1, (trimmed_overrideKey p).2, trim_trimmed _⟩
      · cases hm

example := C47_ok " hawk @ v1 : ply = 1 ,, engine.ply=2, k = a=b".toList _ (by rfl)

/-- **C47** The value of an option is the value of the last override with its key; there are no other options. -/
theorem C47_last_override_wins (s : Str) (e : EngineSpec.Spec) (h : EngineSpec.parse s = .ok e) (k : Str) :
    EngineSpec.get k e.options = ((specOverrides s).reverse.find? fun p => overrideKey p == k).map overrideValue := by
  rw [parse_eq] at h
  split at h
  · cases h
  · split at h
    · cases h
    · rename_i m hm
      injection h with h
      subst h
      rw [parseOverrides_eq] at hm
      split at hm
      · injection hm with hm
        simp only
        rw [← hm, get_foldl]
        simp only [EngineSpec.get, Option.or_none]
        unfold lastValue specOverrides
        rw [← List.map_reverse, List.find?_map, Option.map_map]
        rfl
      · cases hm

example := C47_last_override_wins " hawk @ v1 : ply = 1 ,, engine.ply=2, k = a=b".toList _ (by rfl) "engine.ply".toList

theorem trim_nil_iff (s : Str) : trim s = [] ↔ ∀ c ∈ s, isWs c = true := by
  constructor
  · intro h
    obtain ⟨w, w', h1, h2, h3⟩ := trim_split s
    rw [h3, h]
    intro c hc
    simp only [List.append_nil, List.mem_append] at hc
    exact hc.elim (h1 c) (h2 c)
  · intro h
    have := trim_surround (w := s) (t := []) (w' := []) h (by simp) ⟨by simp, by simp⟩
    simpa using this

/-- The alias is missing: the head is blank, or nothing but white space stands before the `@` of a version. -/
def NoAlias (head : Str) : Prop :=
  (∀ c ∈ head, isWs c = true) ∨ ∃ w v, head = w ++ '@' :: v ∧ (∀ c ∈ w, isWs c = true) ∧ ∃ c ∈ v, isWs c = false

theorem at_not_ws : isWs '@' = false := by decide

theorem noAlias_iff (t : Str) : (parseAliasVersion (trim t)).1 = [] ↔ NoAlias t := by
  obtain ⟨w, w', h1, h2, h3⟩ := trim_split t
  have hws : ∀ (a b : Str) (P : Char → Prop), (∀ c ∈ a ++ b, P c) ↔ (∀ c ∈ a, P c) ∧ ∀ c ∈ b, P c := by
    intro a b P
    simp only [List.mem_append]
    exact ⟨fun h => ⟨fun c hc => h c (Or.inl hc), fun c hc => h c (Or.inr hc)⟩, fun h c hc => hc.elim (h.1 c) (h.2 c)⟩
  unfold parseAliasVersion NoAlias
  cases hs : splitOnce '@' (trim t) with
  | none =>
    have hn := splitOnce_none.1 hs
    simp only [trim_trim]
    rw [trim_nil_iff]
    constructor
    · exact Or.inl
    · rintro (h | ⟨a, v, rfl, -, -⟩)
      · exact h
      · exact absurd ((mem_trim at_not_ws).2 (by simp)) hn
  | some av =>
    obtain ⟨a, v⟩ := av
    obtain ⟨e, ha⟩ := splitOnce_some.1 hs
    have et : t = (w ++ a) ++ '@' :: (v ++ w') := by rw [h3, e]; simp
    simp only [trim_trim]
    have hblank : ¬ ∀ c ∈ t, isWs c = true := by
      intro h
      have := h '@' (by rw [et]; simp)
      rw [at_not_ws] at this; cases this
    split
    · rename_i hv
      rw [trim_nil_iff] at hv
      constructor
      · intro h
        rw [e] at h; simp at h
      · rintro (h | ⟨a', v', e', ha', c, hc, hcw⟩)
        · exact absurd h hblank
        · exfalso
          have hna : '@' ∉ a' := fun h => by have := ha' _ h; rw [at_not_ws] at this; cases this
          have hnb : '@' ∉ w ++ a := by
            simp only [List.mem_append, not_or]
            exact ⟨fun h => (by have := h1 _ h; rw [at_not_ws] at this; cases this), ha⟩
          have q1 := splitOnce_append (b := v') hna
          have q2 := splitOnce_append (b := v ++ w') hnb
          rw [← e', et, q2] at q1
          simp only [Option.some.injEq, Prod.mk.injEq] at q1
          rw [← q1.2] at hc
          rcases List.mem_append.1 hc with hc | hc
          · rw [hv c hc] at hcw; cases hcw
          · rw [h2 c hc] at hcw; cases hcw
    · rename_i hv
      rw [trim_nil_iff] at hv
      simp only [not_forall, Bool.not_eq_true] at hv
      obtain ⟨c, hc, hcw⟩ := hv
      rw [trim_nil_iff]
      constructor
      · intro h
        exact Or.inr ⟨w ++ a, v ++ w', et, (hws _ _ _).2 ⟨h1, h⟩, c, by simp [hc], hcw⟩
      · rintro (h | ⟨a', v', e', ha', -⟩)
        · exact absurd h hblank
        · have hna : '@' ∉ a' := fun h => by have := ha' _ h; rw [at_not_ws] at this; cases this
          have hnb : '@' ∉ w ++ a := by
            simp only [List.mem_append, not_or]
            exact ⟨fun h => (by have := h1 _ h; rw [at_not_ws] at this; cases this), ha⟩
          have q1 := splitOnce_append (b := v') hna
          have q2 := splitOnce_append (b := v ++ w') hnb
          rw [← e', et, q2] at q1
          simp only [Option.some.injEq, Prod.mk.injEq] at q1
          rw [← q1.1] at ha'
          exact ((hws _ _ _).1 ha').2

/-- **C47** Parsing fails exactly when the alias is missing or some non-blank override has no `=`. -/
theorem C47_fails_iff (s : Str) : (∃ e, EngineSpec.parse s = .error e) ↔
    NoAlias (specHead s) ∨ ∃ p ∈ specOverrides s, '=' ∉ p := by
  rw [parse_eq, ← noAlias_iff]
  by_cases h : (parseAliasVersion (trim (specHead s))).1 = []
  · simp [h]
  · rw [if_neg h, parseOverrides_eq]
    simp only [h, false_or]
    by_cases hc : ∀ p ∈ specOverrides s, '=' ∈ p
    · unfold specOverrides at hc
      rw [if_pos hc]
      simp only [reduceCtorEq, exists_false, false_iff, not_exists, not_and, not_not]
      exact hc
    · have hc' := hc
      unfold specOverrides at hc'
      rw [if_neg hc']
      simp only [Except.error.injEq, exists_eq', true_iff]
      simpa using hc

/-- **C46/C47** What `format_engine_spec` keeps of a parsed spec: formatting a parsed spec and parsing again gives the same spec, as long as no option
key has a second `engine.` or white space after `engine.`. -/
theorem C46_reparse (s : Str) (e : EngineSpec.Spec) (h : EngineSpec.parse s = .ok e) (ha : '@' ∉ e.aliasName)
    (hk : ∀ o ∈ e.options, ∀ k, o.1 = "engine.".toList ++ k → Trimmed k ∧ ¬ "engine.".toList <+: k) :
    EngineSpec.parse (EngineSpec.format e) = .ok e := by
  obtain ⟨h1, h2, h3, h4⟩ := C47_ok s e h
  have hcol : ':' ∉ specHead s := not_mem_takeWhile
  have hcolT : ':' ∉ trim (specHead s) := fun hc => hcol ((mem_trim (by decide)).1 hc)
  have hlast := C47_last_override_wins s e h
  have hp := h
  rw [parse_eq] at hp
  split at hp
  · cases hp
  · split at hp
    · cases hp
    · rename_i m hm
      injection hp with hp
      have hav : ':' ∉ e.aliasName ∧ ∀ v, e.version = some v → ':' ∉ v := by
        rw [← hp]
        simp only
        unfold parseAliasVersion
        cases hs : splitOnce '@' (trim (specHead s)) with
        | none => simp only [trim_trim]; exact ⟨hcolT, by simp⟩
        | some av =>
          obtain ⟨a, v⟩ := av
          obtain ⟨e', -⟩ := splitOnce_some.1 hs
          rw [e'] at hcolT
          simp only [List.mem_append, List.mem_cons, not_or] at hcolT
          simp only
          split
          · refine ⟨fun hc => ?_, by simp⟩
            rw [trim_trim, e'] at hc
            simp only [List.mem_append, List.mem_cons] at hc
            rcases hc with hc | hc | hc
            · exact hcolT.1 hc
            · exact hcolT.2.1 hc
            · exact hcolT.2.2 hc
          · refine ⟨fun hc => hcolT.1 ((mem_trim (by decide)).1 hc), fun v' hv' => ?_⟩
            injection hv' with hv'
            rw [← hv']
            exact fun hc => hcolT.2.2 ((mem_trim (by decide)).1 hc)
      -- every option comes from an override
      have horig : ∀ o ∈ e.options, ∃ p ∈ specOverrides s, overrideKey p = o.1 ∧ overrideValue p = o.2 := by
        rintro ⟨k, v⟩ ho
        have hg := get_of_mem h4 ho
        rw [hlast k] at hg
        obtain ⟨p, hp1, hp2⟩ := Option.map_eq_some_iff.1 hg
        have := List.find?_some hp1
        simp only [beq_iff_eq] at this
        exact ⟨p, by simpa using List.mem_of_find?_eq_some hp1, this, hp2⟩
      have hcomma : ∀ p ∈ specOverrides s, ',' ∉ p := by
        intro p hp'
        unfold specOverrides at hp'
        obtain ⟨q, hq, rfl⟩ := List.mem_map.1 (List.mem_filter.1 hp').1
        exact fun hc => splitChar_not_mem _ _ q hq ((mem_trim (by decide)).1 hc)
      refine C46_round_trip e ⟨⟨h1.1, h1.2, hav.1, ha⟩, fun v hv => ⟨(h2 v hv).1, (h2 v hv).2, hav.2 v hv⟩, h4, ?_, ?_⟩
      · intro o ho
        obtain ⟨k, hk'⟩ := (h3 o ho).1
        obtain ⟨t1, t2⟩ := hk o ho k hk'.symm
        obtain ⟨p, hp1, hp2, -⟩ := horig o ho
        have hsub : ∀ c, isWs c = false → c ∈ overrideKey p → c ∈ "engine.".toList ∨ c ∈ p.takeWhile (· ≠ '=') := by
          intro c hw hc
          unfold overrideKey at hc
          split at hc
          · exact Or.inr ((mem_trim hw).1 hc)
          · rcases List.mem_append.1 hc with hc | hc
            · exact Or.inl hc
            · exact Or.inr ((mem_trim hw).1 hc)
        refine ⟨k, hk'.symm, t1, t2, fun hc => ?_, fun hc => ?_⟩
        · rcases hsub ',' (by decide) (by rw [hp2, ← hk']; simp [hc]) with h' | h'
          · exact absurd h' (by decide)
          · exact hcomma p hp1 ((List.takeWhile_sublist _).subset h')
        · rcases hsub '=' (by decide) (by rw [hp2, ← hk']; simp [hc]) with h' | h'
          · exact absurd h' (by decide)
          · exact not_mem_takeWhile h'
      · intro o ho
        obtain ⟨p, hp1, -, hp3⟩ := horig o ho
        refine ⟨(h3 o ho).2.2, fun hc => ?_⟩
        rw [← hp3] at hc
        unfold overrideValue at hc
        exact hcomma p hp1 ((List.dropWhile_sublist _).subset ((List.drop_sublist _ _).subset ((mem_trim (by decide)).1 hc)))

example := C46_reparse "hawk:k=a=b".toList ⟨"hawk".toList, none, [("engine.k".toList, "a=b".toList)]⟩ (by rfl) (by decide) (by
  intro o ho k hk
  rw [List.mem_singleton] at ho
  subst ho
  have e : "engine.".toList ++ "k".toList = "engine.".toList ++ k := hk
  have : k = "k".toList := (List.append_cancel_left e).symm
  subst this
  decide)

/-- Without the condition on the keys a parsed spec does not survive formatting: a repeated `engine.` and white space after `engine.` are lost. -/
theorem C46_reparse_counterexample :
    (∃ e, EngineSpec.parse "hawk:engine.engine.x=1".toList = .ok e ∧ EngineSpec.parse (EngineSpec.format e) ≠ .ok e) ∧
    (∃ e, EngineSpec.parse "hawk:engine. x=1".toList = .ok e ∧ EngineSpec.parse (EngineSpec.format e) ≠ .ok e) := by
  refine ⟨⟨⟨"hawk".toList, none, [("engine.engine.x".toList, "1".toList)]⟩, by rfl, fun h => ?_⟩,
    ⟨⟨"hawk".toList, none, [("engine. x".toList, "1".toList)]⟩, by rfl, fun h => ?_⟩⟩
  · have : EngineSpec.parse (EngineSpec.format ⟨"hawk".toList, none, [("engine.engine.x".toList, "1".toList)]⟩) =
      .ok ⟨"hawk".toList, none, [("engine.x".toList, "1".toList)]⟩ := by rfl
    rw [this] at h
    injection h with h
    exact absurd h (by decide)
  · have : EngineSpec.parse (EngineSpec.format ⟨"hawk".toList, none, [("engine. x".toList, "1".toList)]⟩) =
      .ok ⟨"hawk".toList, none, [("engine.x".toList, "1".toList)]⟩ := by rfl
    rw [this] at h
    injection h with h
    exact absurd h (by decide)

/-- Later overrides win, blanks are skipped. -/
example : EngineSpec.parse " hawk @ v1 : ply = 1 ,, engine.ply=2, k = a=b".toList =
    .ok ⟨"hawk".toList, some "v1".toList, [("engine.k".toList, "a=b".toList), ("engine.ply".toList, "2".toList)]⟩ := by rfl
example : NoAlias (specHead " @v1:ply=2".toList) :=
  Or.inr ⟨" ".toList, "v1".toList, rfl, by decide, 'v', by decide, by decide⟩

end Bkgm
