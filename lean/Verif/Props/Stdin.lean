import Verif.Model.Stdin
import Verif.Props.Utf8
import Verif.Spec.CommandLine
import Verif.Props.UbgiPanic
import Verif.Props.Corpus
import Verif.Props.Fibs
/-!
# C81: the UBGI session on bytes
-/
namespace Bkgm
namespace Stdin
open Spec.Cli (Lines)

/-! ## Lines -/

theorem readUntil_newline {a : List UInt8} (h : (10 : UInt8) ∉ a) (b : List UInt8) : readUntil (a ++ 10 :: b) = (a ++ [10], b) := by
  induction a with
  | nil => simp [readUntil]
  | cons x a ih =>
    simp only [List.mem_cons, not_or] at h
    rw [List.cons_append, readUntil, if_neg (fun e => h.1 e.symm), ih h.2]
    rfl

theorem readUntil_all {a : List UInt8} (h : (10 : UInt8) ∉ a) : readUntil a = (a, []) := by
  induction a with
  | nil => rfl
  | cons x a ih =>
    simp only [List.mem_cons, not_or] at h
    rw [readUntil, if_neg (fun e => h.1 e.symm), ih h.2]

theorem lines_eq (bytes : List UInt8) (h : bytes ≠ []) : lines bytes =
    match fromUtf8 (readUntil bytes).1 with
    | none => []
    | some t => chomp t :: lines (readUntil bytes).2 := by
  rw [lines, dif_neg h]
  cases fromUtf8 (readUntil bytes).1 <;> rfl

theorem lines_newline {t : Str} (h : '\n' ∉ t) (rest : List UInt8) : lines (utf8 t ++ 10 :: rest) = chomp (t ++ ['\n']) :: lines rest := by
  have h1 : (10 : UInt8) ∉ utf8 t := fun hm => h ((mem_utf8 t).1 hm)
  rw [lines_eq _ (by simp), readUntil_newline h1]
  have : utf8 t ++ [10] = utf8 (t ++ ['\n']) := by rw [utf8_append]; rfl
  simp only
  rw [this, (C81_utf8 _ _).2 rfl]

/-- A line that cannot be decoded ends the reading. -/
theorem lines_bad {bad rest : List UInt8} (h : (10 : UInt8) ∉ bad) (hb : ¬ ∃ t, bad = utf8 t) (hr : rest = [] ∨ rest.head? = some 10) : lines (bad ++ rest) = [] := by
  have hne : bad ≠ [] := by rintro rfl; exact hb ⟨[], rfl⟩
  rw [lines_eq _ (by simp [hne])]
  have key : fromUtf8 (readUntil (bad ++ rest)).1 = none := by
    cases e : fromUtf8 (readUntil (bad ++ rest)).1 with
    | none => rfl
    | some t =>
      exfalso
      have e := (C81_utf8 _ _).1 e
      cases rest with
      | nil =>
        rw [List.append_nil, readUntil_all h] at e
        exact hb ⟨t, e⟩
      | cons x rest =>
        have hx : x = 10 := by
          rcases hr with hr | hr
          · cases hr
          · simpa using hr
        subst hx
        rw [readUntil_newline h] at e
        simp only at e
        -- the text of a line ends in the newline
        have hn : '\n' ∈ t := (mem_utf8 t).1 (by rw [← e]; simp)
        obtain ⟨u, v, rfl, hu⟩ := List.eq_append_cons_of_mem hn
        have e2 : utf8 (u ++ '\n' :: v) = utf8 u ++ 10 :: utf8 v := by rw [utf8_append]; rfl
        rw [e2] at e
        have h1 : (10 : UInt8) ∉ utf8 u := fun hm => hu ((mem_utf8 u).1 hm)
        have r1 := readUntil_newline h []
        have r2 := readUntil_newline h1 (utf8 v)
        have := (Prod.mk.inj (r1.symm.trans ((congrArg readUntil e).trans r2))).1
        have := List.append_cancel_right this
        exact hb ⟨u, by simpa using this⟩
  rw [key]

/-- **C81** The session sees the lines of a text whose bytes come in. -/
theorem C81_lines (text : Str) (ls : List Str) (h : Lines text ls) : lines (utf8 text) = ls := by
  induction h with
  | done => rw [show utf8 [] = [] from rfl, lines, dif_pos rfl]
  | @last t h1 h2 =>
    have hm : (10 : UInt8) ∉ utf8 t := fun hm => h2 ((mem_utf8 t).1 hm)
    rw [lines_eq _ (fun e => h1 ((utf8_nil_iff t).1 e)), readUntil_all hm]
    simp only
    rw [(C81_utf8 _ _).2 rfl]
    simp only
    rw [lines, dif_pos rfl, chomp, if_neg fun e => h2 (List.mem_of_getLast? e)]
  | @lf t rest ls h1 h2 _ ih =>
    have e : utf8 (t ++ '\n' :: rest) = utf8 t ++ 10 :: utf8 rest := by rw [utf8_append]; rfl
    rw [e, lines_newline h1, ih, chomp, if_pos (by simp), List.dropLast_concat, if_neg h2]
  | @crlf t rest ls h1 _ ih =>
    have e : utf8 (t ++ '\r' :: '\n' :: rest) = utf8 (t ++ ['\r']) ++ 10 :: utf8 rest := by
      rw [utf8_append, utf8_append]
      simp [utf8]
      rfl
    rw [e, lines_newline (by simp [h1]), ih, chomp, if_pos (by simp), List.dropLast_concat, if_pos (by simp), List.dropLast_concat]

/-- **C81** Bytes that are not UTF-8 end the session: it sees the lines before the line with these bytes, and nothing after. -/
theorem C81_stops (text : Str) (ls : List Str) (h : Lines text ls) (hend : text = [] ∨ text.getLast? = some '\n') (bad rest : List UInt8)
    (hb : (10 : UInt8) ∉ bad) (hbad : ¬ ∃ t, bad = utf8 t) (hr : rest = [] ∨ rest.head? = some 10) : lines (utf8 text ++ bad ++ rest) = ls := by
  have hl := lines_bad hb hbad hr
  induction h with
  | done => exact hl
  | @last t h1 h2 =>
    rcases hend with he | he
    · exact absurd he h1
    · exact absurd (List.mem_of_getLast? he) h2
  | @lf t rest' ls h1 h2 _ ih =>
    have e : utf8 (t ++ '\n' :: rest') ++ bad ++ rest = utf8 t ++ 10 :: (utf8 rest' ++ bad ++ rest) := by
      have : utf8 (t ++ '\n' :: rest') = utf8 t ++ 10 :: utf8 rest' := by rw [utf8_append]; rfl
      rw [this]; simp
    have hend' : rest' = [] ∨ rest'.getLast? = some '\n' := by
      cases rest' with
      | nil => exact Or.inl rfl
      | cons x r =>
        rcases hend with he | he
        · simp at he
        · right
          rw [List.getLast?_append, List.getLast?_cons_cons] at he
          rw [List.getLast?_cons] at he ⊢
          simpa using he
    rw [e, lines_newline h1, ih hend', chomp, if_pos (by simp), List.dropLast_concat, if_neg h2]
  | @crlf t rest' ls h1 _ ih =>
    have e : utf8 (t ++ '\r' :: '\n' :: rest') ++ bad ++ rest = utf8 (t ++ ['\r']) ++ 10 :: (utf8 rest' ++ bad ++ rest) := by
      have : utf8 (t ++ '\r' :: '\n' :: rest') = utf8 (t ++ ['\r']) ++ 10 :: utf8 rest' := by
        rw [utf8_append, utf8_append]
        simp [utf8]
        rfl
      rw [this]; simp
    have hend' : rest' = [] ∨ rest'.getLast? = some '\n' := by
      cases rest' with
      | nil => exact Or.inl rfl
      | cons x r =>
        rcases hend with he | he
        · simp at he
        · right
          rw [List.getLast?_append, List.getLast?_cons_cons, List.getLast?_cons_cons] at he
          rw [List.getLast?_cons] at he ⊢
          simpa using he
    rw [e, lines_newline (by simp [h1]), ih hend', chomp, if_pos (by simp), List.dropLast_concat, if_pos (by simp), List.dropLast_concat]

/-- **C81** Every input is of one of the two kinds. -/
theorem C81_inputs (bytes : List UInt8) : (∃ text ls, bytes = utf8 text ∧ Lines text ls) ∨
    ∃ text ls bad rest, bytes = utf8 text ++ bad ++ rest ∧ Lines text ls ∧ (text = [] ∨ text.getLast? = some '\n') ∧ (10 : UInt8) ∉ bad ∧
      (¬ ∃ t, bad = utf8 t) ∧ (rest = [] ∨ rest.head? = some 10) := by
  have hlines : ∀ text : Str, ∃ ls, Lines text ls := fun text => ⟨_, (Corpus.lines_iff text _).1 rfl⟩
  have gen : ∀ k, ∀ bytes : List UInt8, bytes.length = k → (∃ text, bytes = utf8 text) ∨
      ∃ text bad rest, bytes = utf8 text ++ bad ++ rest ∧ (text = [] ∨ text.getLast? = some '\n') ∧ (10 : UInt8) ∉ bad ∧
      (¬ ∃ t, bad = utf8 t) ∧ (rest = [] ∨ rest.head? = some 10) := by
    intro k
    induction k using Nat.strong_induction_on with
    | _ k ih =>
      intro bytes hk
      by_cases hm : (10 : UInt8) ∈ bytes
      · obtain ⟨a, b, rfl, ha⟩ := List.eq_append_cons_of_mem hm
        by_cases hu : ∃ t, a = utf8 t
        · obtain ⟨t, rfl⟩ := hu
          have e1 : ∀ s : Str, utf8 t ++ 10 :: utf8 s = utf8 (t ++ '\n' :: s) := fun s => by rw [utf8_append]; rfl
          rcases ih b.length (by rw [← hk]; simp; omega) b rfl with ⟨s, rfl⟩ | ⟨s, bad, rest, rfl, h1, h2⟩
          · exact Or.inl ⟨_, e1 s⟩
          · refine Or.inr ⟨t ++ '\n' :: s, bad, rest, by rw [← e1]; simp, Or.inr ?_, h2⟩
            rcases h1 with rfl | h1
            · simp
            · rw [List.getLast?_append, List.getLast?_cons, h1]; simp
        · exact Or.inr ⟨[], a, 10 :: b, by simp [utf8], Or.inl rfl, ha, hu, Or.inr rfl⟩
      · by_cases hu : ∃ t, bytes = utf8 t
        · exact Or.inl hu
        · exact Or.inr ⟨[], bytes, [], by simp [utf8], Or.inl rfl, hm, hu, Or.inl rfl⟩
  rcases gen _ bytes rfl with ⟨t, h⟩ | ⟨t, bad, rest, h, h'⟩
  · obtain ⟨ls, hl⟩ := hlines t
    exact Or.inl ⟨t, ls, h, hl⟩
  · obtain ⟨ls, hl⟩ := hlines t
    exact Or.inr ⟨t, ls, bad, rest, h, hl, h'⟩

/-! ## Output -/

section Session
open Ubgi Ubgi.Spec
variable {ε : Type} {dbg : Bool} {E : Engine ε}

/-- The same loop, with a record of what was said. -/
theorem loop_some : ∀ {ls : List Str} {e e' : ε} {s s' : Session} {T : Transcript}, Ubgi.loop dbg E ls e s = some (T, e', s') →
    loop dbg E ls e s = (T.flatMap Prod.snd, false)
  | [], e, e', s, s', T, h => by
    simp only [Ubgi.loop, Option.some.injEq, Prod.mk.injEq] at h
    rw [← h.1]; rfl
  | line :: rest, e, e', s, s', T, h => by
    unfold Ubgi.loop at h
    unfold loop
    by_cases ht : trim line = []
    · rw [if_pos ht] at h ⊢
      obtain ⟨r, hr, h⟩ := Option.map_eq_some_iff.1 h
      obtain ⟨T', e2, s2⟩ := r
      simp only [Prod.mk.injEq] at h
      rw [loop_some hr, ← h.1]; rfl
    · rw [if_neg ht] at h ⊢
      obtain ⟨⟨out, e1, s1⟩, h1, h⟩ := Option.bind_eq_some_iff.1 h
      rw [h1]
      simp only at h ⊢
      split_ifs at h ⊢ with hq
      · simp only [Option.some.injEq, Prod.mk.injEq] at h
        rw [← h.1]; simp
      · obtain ⟨⟨T', e2, s2⟩, hr, h⟩ := Option.map_eq_some_iff.1 h
        simp only [Prod.mk.injEq] at h
        rw [loop_some hr, ← h.1]; simp

theorem loop_panic : ∀ {ls : List Str} {e : ε} {s : Session}, Ubgi.loop dbg E ls e s = none →
    ∃ A l B T e' s', ls = A ++ l :: B ∧ Ubgi.loop dbg E A e s = some (T, e', s') ∧ Ubgi.loop dbg E (A ++ [l]) e s = none ∧
      loop dbg E ls e s = (T.flatMap Prod.snd, true)
  | [], e, s, h => by simp [Ubgi.loop] at h
  | line :: rest, e, s, h => by
    unfold Ubgi.loop at h
    by_cases ht : trim line = []
    · rw [if_pos ht, Option.map_eq_none_iff] at h
      obtain ⟨A, l, B, T, e', s', h1, h2, h3, h4⟩ := loop_panic h
      refine ⟨line :: A, l, B, (line, []) :: T, e', s', by rw [h1]; rfl, ?_, ?_, ?_⟩
      · unfold Ubgi.loop; rw [if_pos ht, h2]; rfl
      · rw [List.cons_append]; unfold Ubgi.loop; rw [if_pos ht, h3]; rfl
      · unfold loop; rw [if_pos ht, h4]; rfl
    · rw [if_neg ht] at h
      cases hc : handleCommand dbg E e s (parseCommand (trim line)) with
      | none =>
        refine ⟨[], line, rest, [], e, s, rfl, by simp [Ubgi.loop], ?_, ?_⟩
        · rw [List.nil_append]; unfold Ubgi.loop; rw [if_neg ht, hc]; rfl
        · unfold loop; rw [if_neg ht, hc]; rfl
      | some r =>
        obtain ⟨out, e1, s1⟩ := r
        rw [hc] at h
        simp only [Option.bind_some] at h
        split_ifs at h with hq
        rw [Option.map_eq_none_iff] at h
        obtain ⟨A, l, B, T, e', s', h1, h2, h3, h4⟩ := loop_panic h
        refine ⟨line :: A, l, B, (line, out) :: T, e', s', by rw [h1]; rfl, ?_, ?_, ?_⟩
        · unfold Ubgi.loop; rw [if_neg ht, hc]; simp only [Option.bind_some]; rw [if_neg hq, h2]; rfl
        · rw [List.cons_append]; unfold Ubgi.loop; rw [if_neg ht, hc]; simp only [Option.bind_some]; rw [if_neg hq, h3]; rfl
        · unfold loop; rw [if_neg ht, hc]; simp only; rw [if_neg hq, h4]; simp

/-- **C81** What is written to standard output: the replies of the session (C50 to C53) on the lines read, each followed by a newline. If the session panics, the replies to
the lines before the one that panics have been written. -/
theorem C81_output (e : ε) (stdin : List UInt8) :
    (∀ T e' s, run dbg E e (lines stdin) = some (T, e', s) → runStdio dbg E e stdin = ((T.flatMap Prod.snd).flatMap fun r => utf8 r ++ [10], false)) ∧
    (run dbg E e (lines stdin) = none → ∃ A l B T e' s, lines stdin = A ++ l :: B ∧ run dbg E e A = some (T, e', s) ∧ run dbg E e (A ++ [l]) = none ∧
      runStdio dbg E e stdin = ((T.flatMap Prod.snd).flatMap fun r => utf8 r ++ [10], true)) := by
  constructor
  · intro T e' s h
    unfold runStdio
    simp only
    rw [loop_some h]; rfl
  · intro h
    obtain ⟨A, l, B, T, e', s', h1, h2, h3, h4⟩ := loop_panic h
    refine ⟨A, l, B, T, e', s', h1, h2, h3, ?_⟩
    unfold runStdio
    simp only
    rw [h4]; rfl

/-! ## Every reply is one line -/

/-- A text that is one line. -/
def OneLine (s : Str) : Prop := '\n' ∉ s ∧ '\r' ∉ s

/-- The engine's own texts are single lines: its name and version, its options, the values it returns for keys that are not options, its error messages. -/
structure Tidy (E : Engine ε) : Prop where
  name : ∀ e, OneLine (E.idName e)
  version : ∀ e, OneLine (E.idVersion e)
  options : ∀ e, ∀ o ∈ E.options e, OneLine o.toKeyLine
  get : ∀ e k v, E.get e k = some v → OneLine v.toWire
  onReady : ∀ e err, (E.onReady e).1 = .error err → OneLine err.toText
  set : ∀ e k v err, (E.set e k v).1 = .error err → OneLine err.toText
  chooseMove : ∀ e g d err, (E.chooseMove e g d).1 = .error err → OneLine err.toText

/-- No line break inside, and none that begins at the end. -/
def Clean (s : Str) : Prop := '\n' ∉ s ∧ s.getLast? ≠ some '\r'

theorem OneLine.clean {s : Str} (h : OneLine s) : Clean s := ⟨h.1, fun e => h.2 (List.mem_of_getLast? e)⟩

theorem clean_append {a b : Str} (ha : OneLine a) (hb : Clean b) : Clean (a ++ b) := by
  refine ⟨by simp [ha.1, hb.1], ?_⟩
  cases b with
  | nil => rw [List.append_nil]; exact ha.clean.2
  | cons c b => have h2 := hb.2; rw [List.getLast?_append]; rw [List.getLast?_cons] at h2 ⊢; simpa using h2

theorem clean_mid {a b c : Str} (ha : OneLine a) (hb : '\n' ∉ b) (hc : Clean c) : Clean (a ++ b ++ " ".toList ++ c) := by
  have h : Clean (" ".toList ++ c) := clean_append (by unfold OneLine; decide) hc
  refine ⟨?_, ?_⟩
  · have := h.1
    simp only [List.append_assoc, List.mem_append, not_or] at this ⊢
    exact ⟨ha.1, hb, this⟩
  · rw [List.append_assoc, List.getLast?_append]
    have : (" ".toList ++ c).getLast? ≠ none := by simp
    cases e : (" ".toList ++ c).getLast? with
    | none => exact absurd e this
    | some x => have := h.2; rw [e] at this; simpa using this

theorem sub_trim (s : Str) : ∀ c ∈ trim s, c ∈ s := by
  obtain ⟨w, w', -, -, e⟩ := trim_split s
  intro c hc
  rw [e]; simp [hc]

theorem clean_trim {s : Str} (h : '\n' ∉ s) : Clean (trim s) := by
  refine ⟨fun hm => h (sub_trim s _ hm), fun e => ?_⟩
  have := (trim_trimmed s).2 _ e
  revert this; decide

theorem clean_key {l k : Str} (hl : '\n' ∉ l) (hm : Means l (.get k)) : Clean k := by
  cases hm with
  | get k => exact clean_trim fun h => hl (by simp [h])

theorem clean_set {l k v : Str} (hl : '\n' ∉ l) (hm : Means l (.set k v)) : Clean k ∧ Clean v := by
  cases hm with
  | set k v h => exact ⟨clean_trim fun h => hl (by simp [h]), clean_trim fun h => hl (by simp [h])⟩
  | setNoValue k h => exact ⟨clean_trim fun h => hl (by simp [h]), by unfold Clean; decide⟩

theorem oneLine_showInt (z : Int) : OneLine (showInt z) := by
  have h := (word_showInt z).2
  exact ⟨fun hm => by have := h _ hm; revert this; decide, fun hm => by have := h _ hm; revert this; decide⟩

theorem oneLine_default {o : OptionSpec} (h : OneLine o.toKeyLine) : OneLine o.defaultValue.toWire := by
  cases o with
  | integer k a b d m => exact oneLine_showInt d
  | boolean k d m =>
    cases d
    · show OneLine "false".toList
      unfold OneLine; decide
    · show OneLine "true".toList
      unfold OneLine; decide
  | choice k cs d m =>
    have sub : ∀ c ∈ d, c ∈ (OptionSpec.choice k cs d m).toKeyLine := fun c hc => by
      simp only [OptionSpec.toKeyLine, OptionSpec.withMinor]; split_ifs <;> simp [hc]
    exact ⟨fun hm => h.1 (sub _ hm), fun hm => h.2 (sub _ hm)⟩
  | text k d m =>
    have sub : ∀ c ∈ d, c ∈ (OptionSpec.text k d m).toKeyLine := fun c hc => by
      simp only [OptionSpec.toKeyLine, OptionSpec.withMinor]; split_ifs <;> simp [hc]
    exact ⟨fun hm => h.1 (sub _ hm), fun hm => h.2 (sub _ hm)⟩

theorem clean_parsed {o : OptionSpec} {raw : Str} {v : OptionValue} (h : o.parseValue raw = .ok v) (hr : Clean raw) : Clean v.toWire := by
  cases v with
  | int z => exact (oneLine_showInt z).clean
  | bool b => cases b <;> unfold Clean <;> decide
  | choice c => rw [C49_same_text o raw _ h (by simp)]; exact hr
  | text t => rw [C49_same_text o raw _ h (by simp)]; exact hr

theorem oneLine_showNat (n : Nat) : OneLine (showNat n) :=
  ⟨fun hm => by have := (showNat_digit n _ hm).1; revert this; decide, fun hm => by have := (showNat_digit n _ hm).1; revert this; decide⟩

theorem oneLine_append {a b : Str} (ha : OneLine a) (hb : OneLine b) : OneLine (a ++ b) := ⟨by simp [ha.1, hb.1], by simp [ha.2, hb.2]⟩

theorem oneLine_steps (l : List MoveText.Step) : OneLine (MoveText.formatSteps l) := by
  unfold MoveText.formatSteps
  split_ifs
  · unfold OneLine; decide
  · have key : ∀ st : MoveText.Step, OneLine (MoveText.stepText st) := by
      intro st
      unfold MoveText.stepText
      have pt : ∀ n, OneLine (MoveText.pointText n) := by
        intro n
        unfold MoveText.pointText
        split_ifs
        · unfold OneLine; decide
        · unfold OneLine; decide
        · exact oneLine_showNat n
      exact oneLine_append (pt _) (oneLine_append (a := ['/']) (by unfold OneLine; decide) (pt _))
    exact ⟨fun hm => (Fibs.mem_join hm).elim (by decide) (fun ⟨s, hs, hc⟩ => by
        obtain ⟨st, -, rfl⟩ := List.mem_map.1 hs
        exact (key st).1 hc), fun hm => (Fibs.mem_join hm).elim (by decide) (fun ⟨s, hs, hc⟩ => by
        obtain ⟨st, -, rfl⟩ := List.mem_map.1 hs
        exact (key st).2 hc)⟩

/-- The session's own texts are clean. -/
structure Inv (s : Session) : Prop where
  key : OneLine s.variantKey
  specs : ∀ o ∈ s.specs, OneLine o.toKeyLine
  values : ∀ k v, s.values k = some v → Clean v.toWire

theorem inv_new (hE : Tidy E) (e : ε) : Inv (Session.new E e) := by
  refine ⟨?_, hE.options e, ?_⟩
  · show OneLine ("key game.variant enum ".toList ++ join "|".toList (List.map Variant.toText variants) ++ " backgammon".toList)
    unfold OneLine; decide
  have gen : ∀ (l : List OptionSpec) (m : Str → Option OptionValue), (∀ o ∈ l, OneLine o.toKeyLine) → (∀ k v, m k = some v → Clean v.toWire) →
      ∀ k v, l.foldl (fun m o => insertValue m o.key o.defaultValue) m k = some v → Clean v.toWire := by
    intro l
    induction l with
    | nil => intro m _ hm; exact hm
    | cons o l ih =>
      intro m hl hm
      refine ih _ (fun o' ho => hl o' (by simp [ho])) fun k v h => ?_
      simp only [insertValue] at h
      split_ifs at h
      · rw [← Option.some.inj h]
        exact (oneLine_default (hl o (by simp))).clean
      · exact hm k v h
  exact gen _ _ (hE.options e) (by simp)

theorem clean_lit {s : Str} (h : OneLine s) : Clean s := h.clean

theorem step_clean (hE : Tidy E) {e e' : ε} {s s' : Session} (hs : Inv s) {l : Str} (hl : '\n' ∉ l) {out : List Str}
    (h : handleCommand dbg E e s (parseCommand l) = some (out, e', s')) : Inv s' ∧ ∀ r ∈ out, Clean r := by
  have hm : Means l (parseCommand l) := means_iff.2 rfl
  have hkeys : ∀ r ∈ renderKeyLines s, Clean r := by
    intro r hr
    rcases List.mem_cons.1 hr with rfl | hr
    · exact hs.key.clean
    · obtain ⟨o, ho, rfl⟩ := List.mem_map.1 hr
      exact (hs.specs o ho).clean
  have one : ∀ {r : Str}, Clean r → ∀ x ∈ [r], Clean x := fun h x hx => by rw [List.mem_singleton.1 hx]; exact h
  have lit : ∀ {r : Str}, ('\n' ∉ r ∧ '\r' ∉ r) → ∀ x ∈ [r], Clean x := fun h => one (OneLine.clean h)
  generalize parseCommand l = c at h hm
  cases c with
  | ubgi =>
    simp only [handleCommand, Option.some.injEq, Prod.mk.injEq] at h
    obtain ⟨rfl, -, rfl⟩ := h
    refine ⟨hs, fun r hr => ?_⟩
    simp only [List.mem_append, List.mem_cons, List.not_mem_nil, or_false] at hr
    rcases hr with ((rfl | rfl | rfl | rfl) | hr) | rfl
    · exact clean_append (by unfold OneLine; decide) (hE.name e).clean
    · unfold Clean; decide
    · exact clean_append (by unfold OneLine; decide) (hE.version e).clean
    · unfold Clean; decide
    · exact hkeys r hr
    · unfold Clean; decide
  | isReady =>
    simp only [handleCommand] at h
    split at h
    · simp only [Option.some.injEq, Prod.mk.injEq] at h
      obtain ⟨rfl, -, rfl⟩ := h
      exact ⟨hs, lit (by decide)⟩
    · rename_i err e2 he
      simp only [Option.some.injEq, Prod.mk.injEq] at h
      obtain ⟨rfl, -, rfl⟩ := h
      refine ⟨hs, one ?_⟩
      have := hE.onReady e err (by rw [he])
      exact clean_append (by unfold OneLine; decide) (clean_append (by unfold OneLine; decide) this.clean)
  | newGame =>
    simp only [handleCommand, Option.some.injEq, Prod.mk.injEq] at h
    obtain ⟨rfl, -, rfl⟩ := h
    exact ⟨⟨hs.key, hs.specs, hs.values⟩, by simp⟩
  | keys =>
    simp only [handleCommand, Option.some.injEq, Prod.mk.injEq] at h
    obtain ⟨rfl, -, rfl⟩ := h
    exact ⟨hs, hkeys⟩
  | get k =>
    simp only [handleCommand, Option.some.injEq, Prod.mk.injEq] at h
    obtain ⟨rfl, -, rfl⟩ := h
    refine ⟨hs, ?_⟩
    have hk := clean_key hl hm
    unfold handleGet
    split_ifs
    · refine one (clean_append (by unfold OneLine; decide) ?_)
      cases s.variant <;> unfold Clean <;> decide
    · split
      · rename_i v hv
        exact one (clean_mid (by unfold OneLine; decide) hk.1 (hs.values k v hv))
      · split
        · rename_i v hv
          exact one (clean_mid (by unfold OneLine; decide) hk.1 (hE.get e k v hv).clean)
        · exact lit (by decide)
  | set k v =>
    simp only [handleCommand, Option.some.injEq] at h
    obtain ⟨hk, hv⟩ := clean_set hl hm
    unfold handleSet at h
    split_ifs at h
    · simp only [Prod.mk.injEq] at h
      obtain ⟨rfl, -, rfl⟩ := h
      exact ⟨hs, lit (by decide)⟩
    · split at h
      · simp only [Prod.mk.injEq] at h
        obtain ⟨rfl, -, rfl⟩ := h
        exact ⟨⟨hs.key, hs.specs, hs.values⟩, by simp⟩
      · simp only [Prod.mk.injEq] at h
        obtain ⟨rfl, -, rfl⟩ := h
        exact ⟨hs, lit (by decide)⟩
    · split at h
      · simp only [Prod.mk.injEq] at h
        obtain ⟨rfl, -, rfl⟩ := h
        exact ⟨hs, lit (by decide)⟩
      · split at h
        · simp only [Prod.mk.injEq] at h
          obtain ⟨rfl, -, rfl⟩ := h
          exact ⟨hs, one (clean_append (by unfold OneLine; decide) hk)⟩
        · rename_i w hw
          split at h
          · simp only [Prod.mk.injEq] at h
            obtain ⟨rfl, -, rfl⟩ := h
            refine ⟨⟨hs.key, hs.specs, fun k' v' h' => ?_⟩, by simp⟩
            simp only [insertValue] at h'
            split_ifs at h'
            · rw [← Option.some.inj h']
              exact clean_parsed hw hv
            · exact hs.values k' v' h'
          · rename_i err e2 he
            simp only [Prod.mk.injEq] at h
            obtain ⟨rfl, -, rfl⟩ := h
            refine ⟨hs, one ?_⟩
            have ht := hE.set e k w err (by rw [he])
            cases err with
            | unsupported m =>
              show Clean (ProtocolError.unsupported "key".toList).toLine
              exact OneLine.clean (by unfold OneLine; decide)
            | badValue d =>
              simp only [mapEngineSetError]
              split_ifs
              · exact clean_append (by unfold OneLine; decide) hk
              · exact clean_append (by unfold OneLine; decide) ht.clean
            | badState d => exact clean_append (by unfold OneLine; decide) (clean_append (by unfold OneLine; decide) ht.clean)
  | positionGnubgid id =>
    simp only [handleCommand, Option.map_eq_some_iff] at h
    obtain ⟨r, -, h⟩ := h
    split at h
    · simp only [Prod.mk.injEq] at h
      obtain ⟨rfl, -, rfl⟩ := h
      exact ⟨⟨hs.key, hs.specs, hs.values⟩, by simp⟩
    · simp only [Prod.mk.injEq] at h
      obtain ⟨rfl, -, rfl⟩ := h
      exact ⟨hs, lit (by decide)⟩
  | positionXgid =>
    simp only [handleCommand, Option.some.injEq, Prod.mk.injEq] at h
    obtain ⟨rfl, -, rfl⟩ := h
    exact ⟨hs, lit (by decide)⟩
  | positionUnknown =>
    simp only [handleCommand, Option.some.injEq, Prod.mk.injEq] at h
    obtain ⟨rfl, -, rfl⟩ := h
    exact ⟨hs, lit (by decide)⟩
  | dice rest =>
    simp only [handleCommand, Option.some.injEq, Prod.mk.injEq] at h
    obtain ⟨rfl, -, rfl⟩ := h
    unfold handleDice
    split
    · split
      · split_ifs
        · exact ⟨⟨hs.key, hs.specs, hs.values⟩, by simp⟩
        · exact ⟨hs, lit (by decide)⟩
      · exact ⟨hs, lit (by decide)⟩
    · exact ⟨hs, lit (by decide)⟩
  | goChequer =>
    simp only [handleCommand, Option.some.injEq, Prod.mk.injEq] at h
    obtain ⟨rfl, -, rfl⟩ := h
    refine ⟨hs, ?_⟩
    unfold handleGo
    split
    · exact lit (by decide)
    · rename_i d _
      split
      · rename_i mv e2 _
        exact one (clean_append (by unfold OneLine; decide) (oneLine_steps mv).clean)
      · rename_i err e2 he
        have ht := hE.chooseMove e s.game d err (by rw [he])
        exact one (clean_append (by unfold OneLine; decide) (clean_append (by unfold OneLine; decide) ht.clean))
  | goCube =>
    simp only [handleCommand, Option.some.injEq, Prod.mk.injEq] at h
    obtain ⟨rfl, -, rfl⟩ := h
    exact ⟨hs, lit (by decide)⟩
  | goTurn =>
    simp only [handleCommand, Option.some.injEq, Prod.mk.injEq] at h
    obtain ⟨rfl, -, rfl⟩ := h
    exact ⟨hs, lit (by decide)⟩
  | quit =>
    simp only [handleCommand, Option.some.injEq, Prod.mk.injEq] at h
    obtain ⟨rfl, -, rfl⟩ := h
    exact ⟨hs, by simp⟩
  | unknown =>
    simp only [handleCommand, Option.some.injEq, Prod.mk.injEq] at h
    obtain ⟨rfl, -, rfl⟩ := h
    exact ⟨hs, lit (by decide)⟩

theorem loop_clean (hE : Tidy E) : ∀ {ls : List Str} {e : ε} {s : Session}, Inv s → (∀ l ∈ ls, '\n' ∉ l) → ∀ r ∈ (loop dbg E ls e s).1, Clean r
  | [], e, s, _, _ => by simp [loop]
  | line :: rest, e, s, hs, hl => by
    unfold loop
    have hrest : ∀ l ∈ rest, '\n' ∉ l := fun l h => hl l (by simp [h])
    by_cases ht : trim line = []
    · rw [if_pos ht]; exact loop_clean hE hs hrest
    · rw [if_neg ht]
      cases hc : handleCommand dbg E e s (parseCommand (trim line)) with
      | none => simp
      | some r =>
        obtain ⟨out, e1, s1⟩ := r
        obtain ⟨h1, h2⟩ := step_clean hE hs (fun hm => hl line (by simp) (sub_trim line _ hm)) hc
        simp only
        split_ifs with hq
        · exact h2
        · intro r hr
          rcases List.mem_append.1 hr with hr | hr
          · exact h2 r hr
          · exact loop_clean hE h1 hrest r hr

theorem lines_noNewline (bytes : List UInt8) : ∀ l ∈ lines bytes, '\n' ∉ l := by
  have hL : ∀ {text : Str} {ls : List Str}, Lines text ls → ∀ l ∈ ls, '\n' ∉ l := by
    intro text ls h
    induction h with
    | done => simp
    | last _ h2 => intro l hl; rw [List.mem_singleton.1 hl]; exact h2
    | lf h1 _ _ ih =>
      intro l hl
      rcases List.mem_cons.1 hl with rfl | hl
      · exact h1
      · exact ih l hl
    | crlf h1 _ ih =>
      intro l hl
      rcases List.mem_cons.1 hl with rfl | hl
      · exact h1
      · exact ih l hl
  rcases C81_inputs bytes with ⟨text, ls, rfl, h⟩ | ⟨text, ls, bad, rest, rfl, h, h1, h2, h3, h4⟩
  · rw [C81_lines text ls h]; exact hL h
  · rw [C81_stops text ls h h1 bad rest h2 h3 h4]; exact hL h

theorem client_loop (hE : Tidy E) (e : ε) (stdin : List UInt8) :
    ∃ text, (runStdio dbg E e stdin).1 = utf8 text ∧ Lines text (loop dbg E (lines stdin) e (Session.new E e)).1 := by
  have h : ∀ r ∈ (loop dbg E (lines stdin) e (Session.new E e)).1, Clean r := loop_clean hE (inv_new hE e) (lines_noNewline stdin)
  unfold runStdio
  simp only
  generalize (loop dbg E (lines stdin) e (Session.new E e)).1 = out at h
  induction out with
  | nil => exact ⟨[], rfl, .done⟩
  | cons r out ih =>
    obtain ⟨text, h1, h2⟩ := ih fun x hx => h x (by simp [hx])
    refine ⟨r ++ '\n' :: text, ?_, .lf (h r (by simp)).1 (h r (by simp)).2 h2⟩
    rw [List.flatMap_cons, h1, utf8_append, reply, List.append_assoc]
    rfl

/-- **C81** If the engine's own texts are single lines, a client that reads standard output line by line sees exactly the replies, whatever bytes came in: the output is the UTF-8 of
a text whose lines are the replies of the session, or of the part of it before the line that panics. -/
theorem C81_client (hE : Tidy E) (e : ε) (stdin : List UInt8) : ∃ text A T e' s, (runStdio dbg E e stdin).1 = utf8 text ∧ Lines text (T.flatMap Prod.snd) ∧
    run dbg E e A = some (T, e', s) ∧ (if (runStdio dbg E e stdin).2 then ∃ l B, lines stdin = A ++ l :: B ∧ run dbg E e (A ++ [l]) = none else lines stdin = A) := by
  obtain ⟨text, h1, h2⟩ := client_loop (dbg := dbg) hE e stdin
  cases hr : run dbg E e (lines stdin) with
  | some r =>
    obtain ⟨T, e', s⟩ := r
    have hl := loop_some (e := e) (s := Session.new E e) hr
    rw [hl] at h2
    refine ⟨text, lines stdin, T, e', s, h1, h2, hr, ?_⟩
    have : (runStdio dbg E e stdin).2 = false := by unfold runStdio; simp only; rw [hl]
    rw [this]; simp
  | none =>
    obtain ⟨A, l, B, T, e', s, h3, h4, h5, h6⟩ := loop_panic (e := e) (s := Session.new E e) hr
    rw [h6] at h2
    refine ⟨text, A, T, e', s, h1, h2, h4, ?_⟩
    have : (runStdio dbg E e stdin).2 = true := by unfold runStdio; simp only; rw [h6]
    rw [this, if_pos rfl]
    exact ⟨l, B, h3, h5⟩

/-- **C81** The same text with `\r\n` for `\n`, or without a final newline, makes no difference: only the lines count. -/
theorem C81_only_lines (e : ε) (text text' : Str) (ls : List Str) (h : Lines text ls) (h' : Lines text' ls) :
    runStdio dbg E e (utf8 text) = runStdio dbg E e (utf8 text') := by
  unfold runStdio
  rw [C81_lines text ls h, C81_lines text' ls h']

/-! ## Cases -/

/-- The engine of the sample session is tidy. -/
theorem tidy_demo : Tidy demo where
  name _ := by
    show OneLine "demo".toList
    unfold OneLine; decide
  version _ := by
    show OneLine "1".toList
    unfold OneLine; decide
  options _ o ho := by
    rw [List.mem_singleton.1 ho]
    unfold OneLine
    decide +kernel
  get _ _ _ h := by cases h
  onReady _ _ h := by cases h
  set _ _ _ _ h := by cases h
  chooseMove _ _ _ _ h := by cases h

theorem demo_input : Lines "dice 6 1\r\n\ngo\nquit\nkeys".toList ["dice 6 1".toList, [], "go".toList, "quit".toList, "keys".toList] :=
  (Corpus.lines_iff _ _).1 (by decide +kernel)

example : (runStdio true demo 0 (utf8 "dice 6 1\r\n\ngo\nquit\nkeys".toList)) = (utf8 "bestmove 24/18\n".toList, false) := by
  unfold runStdio
  rw [C81_lines _ _ demo_input]
  decide +kernel
example := C81_client (dbg := true) tidy_demo 0 (utf8 "dice 6 1\r\n\ngo\nquit\nkeys".toList)
example := C81_only_lines (dbg := true) (E := demo) 0 _ "dice 6 1\n\r\ngo\nquit\nkeys\n".toList _ demo_input
  ((Corpus.lines_iff _ _).1 (by decide +kernel))
/-- A byte that no text has. -/
theorem bad_byte : ¬ ∃ t, [(0xFF : UInt8)] = utf8 t := by
  rintro ⟨t, h⟩
  have := (C81_utf8 _ t).2 h
  have h0 : fromUtf8 [0xFF] = none := by decide +kernel
  rw [h0] at this
  cases this
example : lines (utf8 "dice 6 1\ngo\n".toList ++ [0xFF] ++ 10 :: utf8 "keys".toList) = ["dice 6 1".toList, "go".toList] :=
  C81_stops _ _ ((Corpus.lines_iff _ _).1 (by decide +kernel)) (Or.inr (by decide)) _ _ (by decide) bad_byte (Or.inr rfl)
/-- A session that panics after an answer: an id with more checkers than a side has (C23). The answer has been written. -/
example : runStdio true demo 0 (utf8 "dice 6 1\ngo\nposition gnubgid /////////////w\nkeys\n".toList) = (utf8 "bestmove 24/18\n".toList, true) := by
  unfold runStdio
  rw [C81_lines _ ["dice 6 1".toList, "go".toList, "position gnubgid /////////////w".toList, "keys".toList] ((Corpus.lines_iff _ _).1 (by decide +kernel))]
  decide +kernel

end Session
end Stdin
end Bkgm
