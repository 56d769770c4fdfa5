import Verif.Model.MoveText
import Verif.Proofs.Str
/-!
Helper lemmas about the text part of `move_text.rs`.
-/

namespace Bkgm

theorem splitChar_append_sep (c : Char) (s t : Str) : splitChar c (s ++ c :: t) = splitChar c s ++ splitChar c t := by
  induction s with
  | nil => simp [splitChar]
  | cons x s ih =>
    rw [List.cons_append, splitChar, splitChar, ih]
    split_ifs with h
    · rfl
    · cases e : splitChar c s with
      | nil => exact absurd e (splitChar_ne_nil c s)
      | cons u us => rfl

theorem splitWsAux_all_ws {s : Str} (h : splitWsAux s [] = []) : ∀ c ∈ s, isWs c = true := by
  induction s with
  | nil => simp
  | cons x s ih =>
    unfold splitWsAux at h
    split_ifs at h with h1
    · intro c hc
      rcases List.mem_cons.1 hc with rfl | hc
      · exact h1
      · exact ih h c hc
    · exfalso
      have key : ∀ (s acc : Str), acc ≠ [] → splitWsAux s acc ≠ [] := by
        intro s
        induction s with
        | nil => intro acc ha; simp [splitWsAux, ha]
        | cons y s ih =>
          intro acc ha
          unfold splitWsAux
          split_ifs with a b
          · simp at b; exact absurd b ha
          · simp
          · exact ih _ (by simp)
      exact key s _ (by simp) h

theorem splitWsAux_one {s : Str} : ∀ {acc w : Str}, acc ≠ [] → splitWsAux s acc = [w] →
    ∃ tok ws, s = tok ++ ws ∧ w = acc ++ tok ∧ ∀ c ∈ ws, isWs c = true := by
  induction s with
  | nil =>
    intro acc w ha h
    simp [splitWsAux, ha] at h
    exact ⟨[], [], rfl, by simp [h], by simp⟩
  | cons x s ih =>
    intro acc w ha h
    unfold splitWsAux at h
    split_ifs at h with h1 h2
    · simp at h2; exact absurd h2 ha
    · rw [List.cons.injEq] at h
      refine ⟨[], x :: s, rfl, by simp [h.1], ?_⟩
      intro c hc
      rcases List.mem_cons.1 hc with rfl | hc
      · exact h1
      · exact splitWsAux_all_ws h.2 c hc
    · obtain ⟨tok, ws, e1, e2, e3⟩ := ih (by simp) h
      exact ⟨x :: tok, ws, by simp [e1], by simp [e2], e3⟩

theorem splitWs_one {s w : Str} (h : splitWs s = [w]) :
    ∃ ws ws', s = ws ++ w ++ ws' ∧ (∀ c ∈ ws, isWs c = true) ∧ ∀ c ∈ ws', isWs c = true := by
  unfold splitWs at h
  induction s with
  | nil => simp [splitWsAux] at h
  | cons x s ih =>
    unfold splitWsAux at h
    split_ifs at h with h1 h2
    · obtain ⟨a, b, e, ha, hb⟩ := ih h
      refine ⟨x :: a, b, by simp [e], ?_, hb⟩
      intro c hc
      rcases List.mem_cons.1 hc with rfl | hc
      · exact h1
      · exact ha c hc
    · simp at h2
    · obtain ⟨tok, ws, e1, e2, e3⟩ := splitWsAux_one (by simp) h
      exact ⟨[], ws, by simp [e1, e2], by simp, e3⟩

/-- Trimming a text of one token gives that token. -/
theorem trim_of_splitWs_one {s w : Str} (h : splitWs s = [w]) : trim s = w := by
  obtain ⟨ws, ws', e, h1, h2⟩ := splitWs_one h
  have hw := (splitWs_token (s := s) (t := w) (by simp [h])).2
  rw [e, trim_surround h1 h2 (trimmed_of_no_ws hw)]

theorem splitWsAux_append_ws {w : Str} (hw : ∀ c ∈ w, isWs c = true) (s : Str) : ∀ acc,
    splitWsAux (s ++ w) acc = splitWsAux s acc := by
  induction s with
  | nil =>
    intro acc
    cases w with
    | nil => rfl
    | cons x w =>
      by_cases ha : acc = []
      · subst ha
        have := splitWs_ws_append (s := []) hw
        unfold splitWs at this
        simpa using this
      · rw [List.nil_append, splitWsAux_ws (hw x (by simp)) ha]
        have := splitWs_ws_append (s := []) (w := w) fun c hc => hw c (List.mem_cons_of_mem _ hc)
        rw [List.append_nil] at this
        rw [this]
        simp [splitWs, splitWsAux, ha]
  | cons x s ih =>
    intro acc
    rw [List.cons_append, splitWsAux, splitWsAux, ih, ih]

theorem splitWs_trim (s : Str) : splitWs (trim s) = splitWs s := by
  obtain ⟨w, w', h1, h2, e⟩ := trim_split s
  conv_rhs => rw [e]
  unfold splitWs
  rw [splitWsAux_append_ws h2]
  exact (splitWs_ws_append h1).symm

namespace MoveText

/-- A step between points of the board: from the bar (25) or a point, to a point or off the board (0). -/
def Step.Ok (s : Step) : Prop := 1 ≤ s.src ∧ s.src ≤ 25 ∧ s.dst ≤ 24

instance (s : Step) : Decidable s.Ok := by unfold Step.Ok; infer_instance

theorem parseFrom_pointText : ∀ n, 1 ≤ n → n ≤ 25 → parseFrom (pointText n) = some n := by
  have : ∀ n < 26, 1 ≤ n → parseFrom (pointText n) = some n := by decide +kernel
  intro n h1 h2
  exact this n (by omega) h1

theorem parseTo_pointText : ∀ n, n ≤ 24 → parseTo (pointText n) = some n := by
  have : ∀ n < 25, parseTo (pointText n) = some n := by decide +kernel
  intro n h1
  exact this n (by omega)

theorem pointText_chars : ∀ n, n ≤ 25 → ∀ c ∈ pointText n, c ≠ '/' ∧ isWs c = false ∧ (c == '*' || c == ',') = false := by
  have : ∀ n < 26, ∀ c ∈ pointText n, c ≠ '/' ∧ isWs c = false ∧ (c == '*' || c == ',') = false := by decide +kernel
  intro n h1
  exact this n (by omega)

theorem stepText_chars {s : Step} (h : s.Ok) : ∀ c ∈ stepText s, isWs c = false ∧ (c == '*' || c == ',') = false := by
  intro c hc
  unfold stepText at hc
  rcases List.mem_append.1 hc with hc | hc
  · exact (pointText_chars _ h.2.1 c hc).2
  · rcases List.mem_cons.1 hc with rfl | hc
    · decide
    · exact (pointText_chars _ (by have := h.2.2; omega) c hc).2

theorem slash_mem_stepText (s : Step) : '/' ∈ stepText s := by simp [stepText]

theorem clean_of {t : Str} (h : ∀ c ∈ t, (c == '*' || c == ',') = false) : clean t = t := by
  unfold clean
  rw [List.filter_eq_self]
  intro c hc
  rw [h c hc]
  rfl

theorem clean_clean (t : Str) : clean (clean t) = clean t := by
  unfold clean
  rw [List.filter_filter]
  simp

theorem parsePath_stepText {s : Step} (h : s.Ok) : parsePath (splitChar '/' (stepText s)) = some [s.src, s.dst] := by
  unfold stepText
  rw [splitChar_append fun hm => (pointText_chars _ h.2.1 _ hm).1 rfl,
    splitChar_of_not_mem fun hm => (pointText_chars _ (by have := h.2.2; omega) _ hm).1 rfl]
  simp [parsePath, parseRest, parseFrom_pointText _ h.1 h.2.1, parseTo_pointText _ h.2.2]

theorem normTokens_stepTexts {l : List Step} (h : ∀ s ∈ l, s.Ok) : normTokens (l.map stepText) = some (l.map stepText) := by
  induction l with
  | nil => rfl
  | cons s l ih =>
    have hs := h s (by simp)
    rw [List.map_cons, normTokens, clean_of fun c hc => (stepText_chars hs c hc).2, parsePath_stepText hs,
      ih fun s hs => h s (List.mem_cons_of_mem _ hs)]
    simp [pairs]

theorem parseTokens_stepTexts {l : List Step} (h : ∀ s ∈ l, s.Ok) : parseTokens (l.map stepText) = some l := by
  induction l with
  | nil => rfl
  | cons s l ih =>
    have hs := h s (by simp)
    rw [List.map_cons, parseTokens]
    unfold stepText
    rw [splitOnce_append fun hm => (pointText_chars _ hs.2.1 _ hm).1 rfl]
    have h1 : ((pointText s.dst).contains '/') = false := by
      rw [Bool.eq_false_iff, ne_eq, List.contains_iff_mem]
      exact fun hm => (pointText_chars _ (by have := hs.2.2; omega) _ hm).1 rfl
    simp only [Option.bind_some, h1, Bool.false_eq_true, if_false, parseFrom_pointText _ hs.1 hs.2.1, parseTo_pointText _ hs.2.2]
    have := ih fun s hs => h s (List.mem_cons_of_mem _ hs)
    unfold stepText at this
    rw [this]
    rfl

theorem mem_lower_slash {s : Str} (h : '/' ∈ s) : '/' ∈ lower s := by
  unfold lower
  exact List.mem_map.2 ⟨'/', h, by decide⟩

theorem isPass_slash {s : Str} (h : '/' ∈ s) : isPass s = false := by
  unfold isPass eqIgnoreCase
  rw [beq_eq_false_iff_ne]
  intro e
  have := mem_lower_slash ((mem_trim (by decide)).2 h)
  rw [e] at this
  revert this
  decide

theorem isPass_iff {s : Str} : isPass s = true ↔ ∃ w, splitWs s = [w] ∧ lower w = "pass".toList := by
  unfold isPass eqIgnoreCase
  have e : lower "pass".toList = "pass".toList := by decide
  rw [beq_iff_eq, e]
  constructor
  · intro h
    have hno : ∀ c ∈ trim s, isWs c = false := by
      intro c hc
      by_contra hw
      have hl : lowerC c ∈ lower (trim s) := by unfold lower; exact List.mem_map.2 ⟨c, hc, rfl⟩
      rw [h] at hl
      have hlc : lowerC c = c := by
        unfold lowerC
        rw [if_neg]
        rintro ⟨h1, h2⟩
        have h1' : 65 ≤ c.toNat := h1
        have h2' : c.toNat ≤ 90 := h2
        apply hw
        unfold isWs
        simp
        omega
      rw [hlc] at hl
      apply hw
      have : ∀ c ∈ "pass".toList, isWs c = false := by decide
      exact this c hl
    have hne : trim s ≠ [] := by
      intro e0; rw [e0] at h; revert h; decide
    refine ⟨trim s, ?_, h⟩
    rw [← splitWs_trim, splitWs_single hno hne]
  · rintro ⟨w, hw, h⟩
    rw [trim_of_splitWs_one hw, h]

theorem isPass_congr {s t : Str} (h : splitWs s = splitWs t) : isPass s = isPass t := by
  rw [Bool.eq_iff_iff, isPass_iff, isPass_iff, h]

theorem parseMid_range {t : Str} {n : Nat} (h : parseMid t = some n) : 1 ≤ n ∧ n ≤ 24 := by
  unfold parseMid at h
  cases e : parseNat usizeMax (lower (trim t)) with
  | none => rw [e] at h; simp at h
  | some m =>
    rw [e] at h
    simp only [Option.bind_some] at h
    split_ifs at h with h1
    cases h
    exact h1

theorem parseFrom_range {t : Str} {n : Nat} (h : parseFrom t = some n) : 1 ≤ n ∧ n ≤ 25 := by
  unfold parseFrom at h
  split_ifs at h
  · cases h; omega
  · have := parseMid_range h; omega

theorem parseTo_range {t : Str} {n : Nat} (h : parseTo t = some n) : n ≤ 24 := by
  unfold parseTo at h
  split_ifs at h
  · cases h; omega
  · have := parseMid_range h; omega

theorem parseRest_ok : ∀ {l : List Str} {r : List Nat}, parseRest l = some r → ∀ n, 1 ≤ n → n ≤ 25 →
    ∀ s ∈ pairs (n :: r), s.Ok
  | [], r, h, n, h1, h2 => by simp [parseRest] at h; subst h; simp [pairs]
  | [t], r, h, n, h1, h2 => by
    simp [parseRest] at h
    obtain ⟨m, hm, rfl⟩ := h
    have := parseTo_range hm
    simp [pairs, Step.Ok, h1, h2, this]
  | t :: u :: l, r, h, n, h1, h2 => by
    rw [parseRest] at h
    cases e : parseMid t with
    | none => rw [e] at h; simp at h
    | some m =>
      rw [e] at h
      cases e' : parseRest (u :: l) with
      | none => rw [e'] at h; simp at h
      | some r' =>
        rw [e'] at h
        simp at h
        subst h
        have hm := parseMid_range e
        intro s hs
        rw [pairs] at hs
        rcases List.mem_cons.1 hs with rfl | hs
        · exact ⟨h1, h2, hm.2⟩
        · exact parseRest_ok e' m hm.1 (by omega) s hs

theorem parsePath_ok {l : List Str} {r : List Nat} (h : parsePath l = some r) : ∀ s ∈ pairs r, s.Ok := by
  cases l with
  | nil => simp [parsePath] at h
  | cons t l =>
    rw [parsePath] at h
    cases e : parseFrom t with
    | none => rw [e] at h; simp at h
    | some n =>
      rw [e] at h
      cases e' : parseRest l with
      | none => rw [e'] at h; simp at h
      | some r' =>
        rw [e'] at h
        simp at h
        obtain ⟨_, rfl⟩ := h
        have := parseFrom_range e
        exact parseRest_ok e' n this.1 this.2

theorem normTokens_ok : ∀ {ts : List Str} {r : List Str}, normTokens ts = some r → ∃ l : List Step, (∀ s ∈ l, s.Ok) ∧ r = l.map stepText
  | [], r, h => by simp [normTokens] at h; exact ⟨[], by simp, by simp [h]⟩
  | t :: ts, r, h => by
    rw [normTokens] at h
    cases e : parsePath (splitChar '/' (clean t)) with
    | none => rw [e] at h; simp at h
    | some pts =>
      rw [e] at h
      cases e' : normTokens ts with
      | none => rw [e'] at h; simp at h
      | some r' =>
        rw [e'] at h
        simp at h
        obtain ⟨l, hl, rfl⟩ := normTokens_ok e'
        refine ⟨pairs pts ++ l, ?_, by simp [← h]⟩
        intro s hs
        rcases List.mem_append.1 hs with hs | hs
        · exact parsePath_ok e s hs
        · exact hl s hs

theorem splitWs_stepTexts {l : List Step} (h : ∀ s ∈ l, s.Ok) : splitWs (join [' '] (l.map stepText)) = l.map stepText := by
  apply splitWs_join
  intro t ht
  obtain ⟨s, hs, rfl⟩ := List.mem_map.1 ht
  exact ⟨by simp [stepText], fun c hc => (stepText_chars (h s hs) c hc).1⟩

theorem isPass_format {l : List Step} (hl : l ≠ []) : isPass (join [' '] (l.map stepText)) = false := by
  apply isPass_slash
  cases l with
  | nil => exact absurd rfl hl
  | cons s l =>
    cases l with
    | nil => simpa [join] using slash_mem_stepText s
    | cons u l => simp [join, slash_mem_stepText s]

/-- What `normalize` returns is the text of some list of steps. -/
theorem normalize_some {t u : Str} (h : normalize t = some u) : ∃ l : List Step, (∀ s ∈ l, s.Ok) ∧ u = formatSteps l := by
  unfold normalize at h
  split_ifs at h with h1
  · cases h
    exact ⟨[], by simp, rfl⟩
  · cases e : normTokens (splitWs t) with
    | none => rw [e] at h; simp at h
    | some r =>
      rw [e] at h
      simp only [Option.bind_some] at h
      split_ifs at h with h2
      cases h
      obtain ⟨l, hl, rfl⟩ := normTokens_ok e
      refine ⟨l, hl, ?_⟩
      unfold formatSteps
      rw [if_neg]
      rintro rfl
      exact h2 rfl

theorem normalize_format {l : List Step} (h : ∀ s ∈ l, s.Ok) : normalize (formatSteps l) = some (formatSteps l) := by
  unfold formatSteps
  split_ifs with h0
  · decide
  · unfold normalize
    rw [isPass_format h0, splitWs_stepTexts h, normTokens_stepTexts h]
    simp [h0]

theorem parseSteps_format {l : List Step} (h : ∀ s ∈ l, s.Ok) : parseSteps (formatSteps l) = some l := by
  unfold formatSteps
  split_ifs with h0
  · subst h0; decide
  · unfold parseSteps
    rw [isPass_format h0, splitWs_stepTexts h, parseTokens_stepTexts h]
    simp

/-! ## Marks and chains -/

theorem normalize_congr {s t : Str} (h : splitWs s = splitWs t) : normalize s = normalize t := by
  unfold normalize
  rw [isPass_congr h, h]

theorem clean_append (s t : Str) : clean (s ++ t) = clean s ++ clean t := by simp [clean]

theorem splitWsAux_clean (s : Str) : ∀ acc, splitWsAux (clean s) (clean acc) = ((splitWsAux s acc).map clean).filter (fun t => !t.isEmpty) := by
  induction s with
  | nil =>
    intro acc
    have c0 : clean [] = [] := rfl
    rw [c0, splitWsAux, splitWsAux]
    by_cases ha : acc = []
    · simp [ha, c0]
    · simp only [List.isEmpty_iff, ha, if_false]
      split_ifs with h <;> simp [h]
  | cons x s ih =>
    intro acc
    by_cases hx : (x == '*' || x == ',') = true
    · have e : clean (x :: s) = clean s := by
        have hh : (!(x == '*' || x == ',')) = false := by rw [hx]; rfl
        unfold clean
        rw [List.filter_cons, hh]
        rfl
      have hws : isWs x = false := by
        rcases Bool.or_eq_true_iff.1 hx with h | h <;> (rw [beq_iff_eq] at h; subst h; decide)
      rw [e, splitWsAux, hws]
      simp only [Bool.false_eq_true, if_false]
      rw [← ih, clean_append]
      have : clean [x] = [] := by
        have hh : (!(x == '*' || x == ',')) = false := by rw [hx]; rfl
        unfold clean
        rw [List.filter_cons, hh]
        rfl
      rw [this, List.append_nil]
    · have hx' : (!(x == '*' || x == ',')) = true := by rw [Bool.not_eq_true] at hx; rw [hx]; rfl
      have e : clean (x :: s) = x :: clean s := by unfold clean; rw [List.filter_cons, hx']; rfl
      have e1 : clean [x] = [x] := by unfold clean; rw [List.filter_cons, hx']; rfl
      rw [e, splitWsAux, splitWsAux]
      by_cases hw : isWs x = true
      · simp only [hw, if_true]
        have h0 := ih []
        have c0 : clean [] = [] := rfl
        rw [c0] at h0
        by_cases ha : acc = []
        · subst ha
          simpa [c0] using h0
        · rw [h0]
          simp only [List.isEmpty_iff, ha, if_false]
          split_ifs with h <;> simp [h]
      · simp only [hw, Bool.false_eq_true, if_false]
        rw [← ih, clean_append, e1]

theorem splitWs_clean (s : Str) : splitWs (clean s) = ((splitWs s).map clean).filter (fun t => !t.isEmpty) := by
  have := splitWsAux_clean s []
  exact this

theorem slash_mem_clean {t : Str} (h : '/' ∈ t) : '/' ∈ clean t := by
  unfold clean
  exact List.mem_filter.2 ⟨h, by decide⟩

theorem normTokens_clean (ts : List Str) : normTokens (ts.map clean) = normTokens ts := by
  induction ts with
  | nil => rfl
  | cons t ts ih => rw [List.map_cons, normTokens, normTokens, clean_clean, ih]

theorem normTokens_append (a b : List Str) : normTokens (a ++ b) = (normTokens a).bind fun x => (normTokens b).map fun y => x ++ y := by
  induction a with
  | nil => simp [normTokens]
  | cons t a ih =>
    rw [List.cons_append, normTokens, normTokens, ih]
    cases parsePath (splitChar '/' (clean t)) with
    | none => rfl
    | some pts =>
      cases normTokens a with
      | none => rfl
      | some x =>
        cases normTokens b with
        | none => rfl
        | some y => simp

theorem parseMid_iff {b : Str} : parseMid b = (parseTo b).bind fun _ => parseFrom b := by
  have hoff : parseNat usizeMax "off".toList = none := by decide +kernel
  have hbar : parseNat usizeMax "bar".toList = none := by decide +kernel
  unfold parseTo parseFrom
  by_cases h1 : lower (trim b) = "off".toList
  · rw [if_pos h1, if_neg (by rw [h1]; decide)]
    rfl
  · rw [if_neg h1]
    by_cases h2 : lower (trim b) = "bar".toList
    · have e : parseMid b = none := by unfold parseMid; rw [h2, hbar]; rfl
      rw [e]; rfl
    · rw [if_neg h2]
      cases parseMid b <;> rfl

theorem parseTo_eq_from {b : Str} {n m : Nat} (h1 : parseTo b = some n) (h2 : parseFrom b = some m) : n = m ∧ parseMid b = some n := by
  have h : parseMid b = some m := by rw [parseMid_iff, h1, h2]; rfl
  have h' : parseTo b = some m := by
    unfold parseTo at h1 ⊢
    split_ifs at h1 ⊢ with h0
    · exfalso
      unfold parseMid at h
      rw [h0] at h
      have hoff : parseNat usizeMax "off".toList = none := by decide +kernel
      rw [hoff] at h
      cases h
    · exact h
  rw [h1] at h'
  cases h'
  exact ⟨rfl, h⟩

/-- Points after the first one: splitting at `b`. -/
theorem parseRest_chain {b : Str} {r : List Str} (hr : r ≠ []) : ∀ l : List Str,
    parseRest (l ++ b :: r) = (parseRest (l ++ [b])).bind fun p1 => (parseFrom b).bind fun _ => (parseRest r).map fun p2 => p1 ++ p2
  | [] => by
    obtain ⟨u, r', rfl⟩ := List.exists_cons_of_ne_nil hr
    rw [List.nil_append, List.nil_append, parseRest, parseRest, parseMid_iff]
    cases e1 : parseTo b with
    | none => rfl
    | some n =>
      simp only [Option.bind_some, Option.map_some]
      cases e2 : parseFrom b with
      | none => rfl
      | some m =>
        obtain ⟨rfl, _⟩ := parseTo_eq_from e1 e2
        rfl
  | [t] => by
    rw [List.cons_append, List.cons_append, List.nil_append, List.nil_append, parseRest, parseRest]
    cases parseMid t with
    | none => rfl
    | some n =>
      have := parseRest_chain (b := b) hr []
      rw [List.nil_append, List.nil_append] at this
      simp only [Option.bind_some]
      rw [this]
      cases parseRest [b] with
      | none => rfl
      | some p1 =>
        cases parseFrom b with
        | none => rfl
        | some _ => cases parseRest r <;> rfl
  | t :: u :: l => by
    rw [List.cons_append, List.cons_append, List.cons_append, List.cons_append, parseRest, parseRest]
    cases parseMid t with
    | none => rfl
    | some n =>
      have := parseRest_chain (b := b) hr (u :: l)
      rw [List.cons_append, List.cons_append] at this
      simp only [Option.bind_some]
      rw [this]
      cases parseRest (u :: (l ++ [b])) with
      | none => rfl
      | some p1 =>
        cases parseFrom b with
        | none => rfl
        | some _ => cases parseRest r <;> rfl

theorem parseRest_last {b : Str} : ∀ (l : List Str) {p : List Nat}, parseRest (l ++ [b]) = some p →
    ∃ p0 n, p = p0 ++ [n] ∧ parseTo b = some n
  | [], p, h => by
    simp [parseRest] at h
    obtain ⟨n, hn, rfl⟩ := h
    exact ⟨[], n, rfl, hn⟩
  | t :: l, p, h => by
    have : ∃ p', p = (p.head!) :: p' ∧ parseRest (l ++ [b]) = some p' := by
      cases l with
      | nil =>
        rw [List.cons_append, List.nil_append, parseRest] at h
        cases e : parseMid t with
        | none => rw [e] at h; simp at h
        | some m =>
          rw [e] at h
          simp only [Option.bind_some] at h
          cases e' : parseRest [b] with
          | none => rw [e'] at h; cases h
          | some r => rw [e'] at h; cases h; exact ⟨r, rfl, by simpa using e'⟩
      | cons u l =>
        rw [List.cons_append, List.cons_append, parseRest] at h
        cases e : parseMid t with
        | none => rw [e] at h; simp at h
        | some m =>
          rw [e] at h
          simp only [Option.bind_some] at h
          cases e' : parseRest (u :: (l ++ [b])) with
          | none => rw [e'] at h; cases h
          | some r => rw [e'] at h; cases h; exact ⟨r, rfl, by simpa using e'⟩
    obtain ⟨p', e, h'⟩ := this
    obtain ⟨p0, n, rfl, hn⟩ := parseRest_last l h'
    exact ⟨p.head! :: p0, n, by rw [List.cons_append]; exact e, hn⟩

theorem pairs_append : ∀ (p : List Nat) (n : Nat) (q : List Nat), pairs (p ++ n :: q) = pairs (p ++ [n]) ++ pairs (n :: q)
  | [], n, q => by simp [pairs]
  | [a], n, q => by simp [pairs]
  | a :: b :: p, n, q => by
    have := pairs_append (b :: p) n q
    simp only [List.cons_append] at this ⊢
    rw [pairs, pairs, this]
    rfl

/-- A chain is the same as its two parts. -/
theorem parsePath_chain {l r : List Str} {b : Str} (hl : l ≠ []) (hr : r ≠ []) :
    (parsePath (l ++ b :: r)).map pairs =
      (parsePath (l ++ [b])).bind fun p1 => (parsePath (b :: r)).map fun p2 => pairs p1 ++ pairs p2 := by
  obtain ⟨t, l', rfl⟩ := List.exists_cons_of_ne_nil hl
  rw [List.cons_append, List.cons_append, parsePath, parsePath, parsePath]
  cases parseFrom t with
  | none => rfl
  | some n =>
    simp only [Option.bind_some]
    rw [parseRest_chain hr]
    simp only [hr, List.append_eq_nil_iff, reduceCtorEq, and_false, if_false]
    cases e1 : parseRest (l' ++ [b]) with
    | none => rfl
    | some p1 =>
      simp only [Option.bind_some]
      cases e2 : parseFrom b with
      | none => rfl
      | some m =>
        simp only [Option.bind_some]
        cases e3 : parseRest r with
        | none => rfl
        | some p2 =>
          simp only [Option.map_some, Option.bind_some]
          obtain ⟨p0, k, rfl, hk⟩ := parseRest_last _ e1
          obtain ⟨rfl, _⟩ := parseTo_eq_from hk e2
          have := pairs_append (n :: p0) k p2
          simp only [List.cons_append] at this
          simp [this]

theorem normTokens_chain {x b y : Str} :
    normTokens [x ++ '/' :: (b ++ '/' :: y)] = normTokens [x ++ '/' :: b, b ++ '/' :: y] ∨ '/' ∈ b := by
  by_cases hb : '/' ∈ b
  · exact Or.inr hb
  · left
    have hb' : '/' ∉ clean b := fun h => hb ((List.mem_filter.1 h).1)
    have cl : ∀ s t : Str, clean (s ++ '/' :: t) = clean s ++ '/' :: clean t := by
      intro s t; unfold clean; rw [List.filter_append, List.filter_cons]; rfl
    have e1 : splitChar '/' (clean (x ++ '/' :: (b ++ '/' :: y))) = splitChar '/' (clean x) ++ clean b :: splitChar '/' (clean y) := by
      rw [cl, cl, splitChar_append_sep, splitChar_append hb']
    have e2 : splitChar '/' (clean (x ++ '/' :: b)) = splitChar '/' (clean x) ++ [clean b] := by
      rw [cl, splitChar_append_sep, splitChar_of_not_mem hb']
    have e3 : splitChar '/' (clean (b ++ '/' :: y)) = clean b :: splitChar '/' (clean y) := by
      rw [cl, splitChar_append hb']
    have key := parsePath_chain (l := splitChar '/' (clean x)) (b := clean b) (r := splitChar '/' (clean y))
      (splitChar_ne_nil _ _) (splitChar_ne_nil _ _)
    simp only [normTokens]
    rw [e1, e2, e3]
    cases f1 : parsePath (splitChar '/' (clean x) ++ clean b :: splitChar '/' (clean y)) with
    | none =>
      rw [f1] at key
      cases f2 : parsePath (splitChar '/' (clean x) ++ [clean b]) with
      | none => rfl
      | some p1 =>
        rw [f2] at key
        cases f3 : parsePath (clean b :: splitChar '/' (clean y)) with
        | none => rfl
        | some p2 => rw [f3] at key; cases key
    | some p =>
      rw [f1] at key
      cases f2 : parsePath (splitChar '/' (clean x) ++ [clean b]) with
      | none => rw [f2] at key; cases key
      | some p1 =>
        rw [f2] at key
        cases f3 : parsePath (clean b :: splitChar '/' (clean y)) with
        | none => rw [f3] at key; cases key
        | some p2 =>
          rw [f3] at key
          simp only [Option.map_some, Option.bind_some, Option.some.injEq] at key
          simp [key]

end MoveText
end Bkgm
