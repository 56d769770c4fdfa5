import Verif.Spec.MoveText
import Verif.Props.XgidLine
import Verif.Props.MoveEncode
/-!
# C77: move texts against an independent grammar
-/
namespace Bkgm
namespace MoveText
open Spec.Fibs (Pieces Unsigned)
open Spec.MoveText (Start End Path hops unmarked Word Pass Says Strict name text)
variable {N : Nat}

/-- A step as a hop. -/
def Step.hop (s : Step) : Nat × Nat := (s.src, s.dst)

theorem lowerC_digit {c : Char} {d : Char} (hd : d.toNat < 65) (h : lowerC c = d) : c = d := by
  unfold lowerC at h
  split_ifs at h with hc
  · obtain ⟨h1, h2⟩ := hc
    have h1 : 65 ≤ c.toNat := h1
    have h2 : c.toNat ≤ 90 := h2
    subst h
    exfalso
    have : (Char.ofNat (c.toNat + 32)).toNat = c.toNat + 32 := by
      generalize c.toNat = k at *
      interval_cases k <;> rfl
    omega
  · exact h

theorem digitChar_lt {d : Nat} (h : d < 10) : (Nat.digitChar d).toNat < 65 := by
  interval_cases d <;> decide

theorem lowerC_of_lt {d : Char} (hd : d.toNat < 65) : lowerC d = d := by
  unfold lowerC
  rw [if_neg]
  rintro ⟨h1, _⟩
  have h1 : 65 ≤ d.toNat := h1
  omega

theorem lower_eq_of_lt {s t : Str} (ht : ∀ c ∈ t, c.toNat < 65) : lower s = t ↔ s = t := by
  unfold lower
  induction t generalizing s with
  | nil => simp
  | cons d t ih =>
    cases s with
    | nil => simp
    | cons c s =>
      simp only [List.map_cons, List.cons.injEq]
      rw [ih (fun c hc => ht c (List.mem_cons_of_mem _ hc))]
      have hd := ht d (by simp)
      constructor
      · rintro ⟨h1, rfl⟩
        exact ⟨lowerC_digit hd h1, rfl⟩
      · rintro ⟨rfl, rfl⟩
        exact ⟨lowerC_of_lt hd, rfl⟩

theorem unsigned_lower {s : Str} {n : Nat} : Unsigned (lower s) n ↔ Unsigned s n := by
  unfold Unsigned
  have e : ∀ ds : List Nat, (∀ d ∈ ds, d < 10) → ∀ c ∈ ds.map Nat.digitChar, c.toNat < 65 := by
    intro ds h c hc
    obtain ⟨d, hd, rfl⟩ := List.mem_map.1 hc
    exact digitChar_lt (h d hd)
  constructor <;> rintro ⟨ds, h1, h2, h3, h4⟩ <;> refine ⟨ds, h1, h2, h3, ?_⟩
  all_goals
    have e1 := e ds h2
    have e2 : ∀ c ∈ '+' :: ds.map Nat.digitChar, c.toNat < 65 := by
      intro c hc
      rcases List.mem_cons.1 hc with rfl | hc
      · decide
      · exact e1 c hc
    rw [lower_eq_of_lt e1, lower_eq_of_lt e2] at *
    exact h4

theorem parseMid_spec {t : Str} (hw : ∀ c ∈ t, isWs c = false) (n : Nat) : parseMid t = some n ↔ Spec.MoveText.Point t n := by
  unfold parseMid
  rw [trim_of_trimmed (trimmed_of_no_ws hw)]
  rw [Option.bind_eq_some_iff]
  unfold Spec.MoveText.Point
  rw [← unsigned_lower]
  constructor
  · rintro ⟨m, h1, h2⟩
    split_ifs at h2 with h3
    cases h2
    exact ⟨h3.1, h3.2, ((Str_parse_unsigned ..).1 h1).2⟩
  · rintro ⟨h1, h2, h3⟩
    refine ⟨n, (Str_parse_unsigned ..).2 ⟨by unfold usizeMax; omega, h3⟩, ?_⟩
    rw [if_pos ⟨h1, h2⟩]

theorem point_not_letters {t w : Str} {n : Nat} (hw : w ≠ []) (hl : ∀ c ∈ w, 65 ≤ c.toNat) (h : lower t = w) : ¬ Spec.MoveText.Point t n := by
  rintro ⟨_, _, hu⟩
  rw [← unsigned_lower, h] at hu
  obtain ⟨ds, h1, h2, _, h4⟩ := hu
  cases ds with
  | nil => exact h1 rfl
  | cons d ds =>
    rcases h4 with rfl | rfl
    · have := hl (Nat.digitChar d) (by simp)
      have := digitChar_lt (h2 d (by simp))
      omega
    · have := hl '+' (by simp)
      revert this; decide

theorem parseFrom_spec {t : Str} (hw : ∀ c ∈ t, isWs c = false) (n : Nat) : parseFrom t = some n ↔ Start t n := by
  unfold parseFrom Start
  rw [trim_of_trimmed (trimmed_of_no_ws hw)]
  split_ifs with h
  · have := point_not_letters (n := n) (by decide) (by decide) h
    simp [h, this, eq_comm]
  · rw [parseMid_spec hw, or_iff_right (fun h' => h h'.1)]

theorem parseTo_spec {t : Str} (hw : ∀ c ∈ t, isWs c = false) (n : Nat) : parseTo t = some n ↔ End t n := by
  unfold parseTo End
  rw [trim_of_trimmed (trimmed_of_no_ws hw)]
  split_ifs with h
  · have := point_not_letters (n := n) (by decide) (by decide) h
    simp [h, this, eq_comm]
  · rw [parseMid_spec hw, or_iff_right (fun h' => h h'.1)]

theorem parseRest_spec : ∀ {l : List Str} (_ : l ≠ []) (_ : ∀ t ∈ l, ∀ c ∈ t, isWs c = false) (r : List Nat),
    parseRest l = some r ↔ ∃ tm tb mid b, l = tm ++ [tb] ∧ List.Forall₂ Spec.MoveText.Point tm mid ∧ End tb b ∧ r = mid ++ [b]
  | [], h, _, _ => absurd rfl h
  | [t], _, hw, r => by
    rw [parseRest, Option.map_eq_some_iff]
    simp only [parseTo_spec (hw t (by simp))]
    constructor
    · rintro ⟨b, h, rfl⟩
      exact ⟨[], t, [], b, rfl, .nil, h, rfl⟩
    · rintro ⟨tm, tb, mid, b, h1, h2, h3, rfl⟩
      cases tm with
      | nil =>
        cases h2
        simp only [List.nil_append, List.cons.injEq, and_true] at h1
        exact ⟨b, h1 ▸ h3, rfl⟩
      | cons x tm => simp at h1
  | t :: u :: l, _, hw, r => by
    rw [parseRest, Option.bind_eq_some_iff]
    simp only [Option.map_eq_some_iff, parseMid_spec (hw t (by simp)),
      parseRest_spec (l := u :: l) (by simp) (fun t ht => hw t (List.mem_cons_of_mem _ ht))]
    constructor
    · rintro ⟨n, hn, r', ⟨tm, tb, mid, b, h1, h2, h3, rfl⟩, rfl⟩
      exact ⟨t :: tm, tb, n :: mid, b, by rw [h1]; rfl, .cons hn h2, h3, rfl⟩
    · rintro ⟨tm, tb, mid, b, h1, h2, h3, rfl⟩
      cases h2 with
      | nil => simp at h1
      | cons hn h2 =>
        simp only [List.cons_append, List.cons.injEq] at h1
        obtain ⟨rfl, h1⟩ := h1
        exact ⟨_, hn, _, ⟨_, _, _, _, h1, h2, h3, rfl⟩, rfl⟩

theorem parsePath_spec {l : List Str} (hw : ∀ t ∈ l, ∀ c ∈ t, isWs c = false) (pts : List Nat) : parsePath l = some pts ↔
    ∃ ta tm tb a mid b, l = ta :: tm ++ [tb] ∧ Start ta a ∧ List.Forall₂ Spec.MoveText.Point tm mid ∧ End tb b ∧ pts = a :: mid ++ [b] := by
  cases l with
  | nil => simp [parsePath]
  | cons t l =>
    rw [parsePath]
    by_cases hl : l = []
    · subst hl
      simp [parseRest]
    · simp only [Option.bind_eq_some_iff, hl, if_false, parseFrom_spec (hw t (by simp)),
        parseRest_spec hl (fun t ht => hw t (List.mem_cons_of_mem _ ht))]
      constructor
      · rintro ⟨a, ha, r, ⟨tm, tb, mid, b, rfl, h2, h3, rfl⟩, e⟩
        cases e
        exact ⟨t, tm, tb, a, mid, b, rfl, ha, h2, h3, rfl⟩
      · rintro ⟨ta, tm, tb, a, mid, b, h1, ha, h2, h3, rfl⟩
        simp only [List.cons_append, List.cons.injEq] at h1
        obtain ⟨rfl, rfl⟩ := h1
        exact ⟨a, ha, _, ⟨tm, tb, mid, b, rfl, h2, h3, rfl⟩, rfl⟩

theorem pairs_hops (a : Nat) (l : List Nat) : (pairs (a :: l)).map Step.hop = hops a l := by
  induction l generalizing a with
  | nil => rfl
  | cons b l ih =>
    rw [pairs, List.map_cons, ih]
    rfl

theorem clean_unmarked (w : Str) : clean w = unmarked w := by
  unfold clean unmarked
  congr 1
  funext c
  rw [Bool.eq_iff_iff]
  simp

theorem hop_injective {l l' : List Step} (h : l.map Step.hop = l'.map Step.hop) : l = l' := by
  apply List.map_injective_iff.2 _ h
  rintro ⟨a, b⟩ ⟨c, d⟩ e
  simpa [Step.hop] using e

theorem name_eq (n : Nat) : name n = pointText n := by
  unfold name pointText showNat
  rfl

theorem text_eq (l : List Step) : text (l.map Step.hop) = formatSteps l := by
  unfold text formatSteps
  cases l with
  | nil => rfl
  | cons s l =>
    simp only [List.map_cons, reduceCtorEq, if_false, List.map_map]
    have e : ∀ s : Step, name s.hop.1 ++ '/' :: name s.hop.2 = stepText s := fun s => by simp [Step.hop, stepText, name_eq]
    simp [Function.comp_def, e]

theorem mem_join_of_mem {sep t : Str} {c : Char} : ∀ {l : List Str}, t ∈ l → c ∈ t → c ∈ join sep l
  | [u], h, hc => by simp at h; subst h; simpa [join] using hc
  | u :: v :: l, h, hc => by
    rw [join]
    rcases List.mem_cons.1 h with rfl | h
    · simp [hc]
    · simp [mem_join_of_mem h hc]

/-- One word. -/
theorem word_spec {w : Str} (hw : ∀ c ∈ w, isWs c = false) (l : List (Nat × Nat)) :
    Word w l ↔ ∃ pts, parsePath (splitChar '/' (clean w)) = some pts ∧ l = (pairs pts).map Step.hop := by
  have hc : ∀ t ∈ splitChar '/' (clean w), ∀ c ∈ t, isWs c = false := by
    intro t ht c hc
    have h1 : c ∈ clean w := by
      rw [← join_splitChar '/' (clean w)]
      exact mem_join_of_mem ht hc
    exact hw c (List.mem_of_mem_filter h1)
  simp only [parsePath_spec hc, Word, Path, ← XgidLine.pieces_iff, ← clean_unmarked]
  constructor
  · rintro ⟨a, mid, b, ⟨ta, tm, tb, h1, h2, h3, h4⟩, rfl⟩
    exact ⟨_, ⟨ta, tm, tb, a, mid, b, h1, h2, h3, h4, rfl⟩, (pairs_hops ..).symm⟩
  · rintro ⟨pts, ⟨ta, tm, tb, a, mid, b, h1, h2, h3, h4, rfl⟩, rfl⟩
    exact ⟨a, mid, b, ⟨ta, tm, tb, h1, h2, h3, h4⟩, pairs_hops ..⟩

theorem words_spec {ts : List Str} (hw : ∀ t ∈ ts, ∀ c ∈ t, isWs c = false) (r : List Str) : normTokens ts = some r ↔
    ∃ ls, List.Forall₂ Word ts ls ∧ ∃ l : List Step, ls.flatten = l.map Step.hop ∧ r = l.map stepText := by
  induction ts generalizing r with
  | nil =>
    simp only [normTokens, Option.some.injEq, List.forall₂_nil_left_iff]
    constructor
    · rintro rfl
      exact ⟨[], rfl, [], rfl, rfl⟩
    · rintro ⟨ls, rfl, l, h1, rfl⟩
      cases l with
      | nil => rfl
      | cons => simp at h1
  | cons t ts ih =>
    rw [normTokens]
    simp only [Option.bind_eq_some_iff, Option.map_eq_some_iff, ih (fun t ht => hw t (List.mem_cons_of_mem _ ht))]
    constructor
    · rintro ⟨pts, h1, r', ⟨ls, h2, l, h3, rfl⟩, rfl⟩
      exact ⟨(pairs pts).map Step.hop :: ls, .cons ((word_spec (hw t (by simp)) _).2 ⟨pts, h1, rfl⟩) h2, pairs pts ++ l, by simp [h3], by simp⟩
    · rintro ⟨ls, h1, l, h2, rfl⟩
      cases h1 with
      | cons h h1 =>
        obtain ⟨pts, hp, rfl⟩ := (word_spec (hw t (by simp)) _).1 h
        rename_i ls
        have : ∃ l' : List Step, ls.flatten = l'.map Step.hop := ⟨l.drop (pairs pts).length, by
          rw [List.map_drop, ← h2]; simp⟩
        obtain ⟨l', hl'⟩ := this
        have e : l = pairs pts ++ l' := hop_injective (by rw [← h2, List.flatten_cons, hl', List.map_append])
        exact ⟨pts, hp, _, ⟨ls, h1, l', hl', rfl⟩, by rw [e, List.map_append]⟩

theorem isPass_spec (t : Str) : isPass t = true ↔ Pass t := isPass_iff

/-- A word has at least one hop. -/
theorem word_ne {w : Str} {l : List (Nat × Nat)} (h : Word w l) : l ≠ [] := by
  obtain ⟨a, mid, b, _, rfl⟩ := h
  cases mid <;> simp [hops]

/-- `pass` is not a word of hops. -/
theorem not_word_pass {w : Str} {l : List (Nat × Nat)} (h : lower w = "pass".toList) : ¬ Word w l := by
  rintro ⟨a, mid, b, ⟨ta, tm, tb, ⟨_, _, h1⟩, _⟩, _⟩
  have hs : '/' ∈ unmarked w := by
    rw [h1]
    cases tm <;> simp [join]
  have := mem_lower_slash (List.mem_of_mem_filter hs)
  rw [h] at this
  revert this; decide

theorem pass_not_words {t : Str} (h : Pass t) (ls : List (List (Nat × Nat))) : ¬ List.Forall₂ Word (splitWs t) ls := by
  obtain ⟨w, h1, h2⟩ := h
  rw [h1]
  intro hf
  cases hf with
  | cons h _ => exact not_word_pass h2 h

theorem hops_range {a : Nat} {mid : List Nat} {b : Nat} (ha : 1 ≤ a ∧ a ≤ 25) (hm : ∀ n ∈ mid, 1 ≤ n ∧ n ≤ 24) (hb : b ≤ 24) :
    ∀ h ∈ hops a (mid ++ [b]), 1 ≤ h.1 ∧ h.1 ≤ 25 ∧ h.2 ≤ 24 := by
  induction mid generalizing a with
  | nil => simp [hops]; omega
  | cons n mid ih =>
    intro h hh
    rw [List.cons_append, hops] at hh
    have hn := hm n (by simp)
    rcases List.mem_cons.1 hh with rfl | hh
    · exact ⟨ha.1, ha.2, hn.2⟩
    · exact ih ⟨hn.1, by omega⟩ (fun n h => hm n (List.mem_cons_of_mem _ h)) h hh

theorem word_range {w : Str} {l : List (Nat × Nat)} (h : Word w l) : ∀ h ∈ l, 1 ≤ h.1 ∧ h.1 ≤ 25 ∧ h.2 ≤ 24 := by
  obtain ⟨a, mid, b, ⟨ta, tm, tb, _, h1, h2, h3⟩, rfl⟩ := h
  apply hops_range
  · rcases h1 with ⟨_, rfl⟩ | h1
    · omega
    · exact ⟨h1.1, by have := h1.2.1; omega⟩
  · intro n hn
    clear * - h2 hn
    induction h2 with
    | nil => simp at hn
    | cons h _ ih =>
      rcases List.mem_cons.1 hn with rfl | hn
      · exact ⟨h.1, h.2.1⟩
      · exact ih hn
  · rcases h3 with ⟨_, rfl⟩ | h3
    · omega
    · exact h3.2.1

theorem says_range {t : Str} {l : List (Nat × Nat)} (h : Says t l) : ∀ h ∈ l, 1 ≤ h.1 ∧ h.1 ≤ 25 ∧ h.2 ≤ 24 := by
  rcases h with ⟨_, rfl⟩ | ⟨_, ls, h, rfl⟩
  · simp
  · generalize splitWs t = ts at h
    induction h with
    | nil => simp
    | cons h _ ih =>
      intro x hx
      rw [List.flatten_cons] at hx
      rcases List.mem_append.1 hx with hx | hx
      · exact word_range h x hx
      · exact ih x hx

theorem map_hop_surj (l : List (Nat × Nat)) : ∃ s : List Step, s.map Step.hop = l :=
  ⟨l.map fun h => ⟨h.1, h.2⟩, by rw [List.map_map]; exact (List.map_congr_left fun _ _ => rfl).trans (List.map_id _)⟩

end MoveText

open MoveText
open Spec.MoveText (Start End Path hops unmarked Word Pass Says Strict name text)
open Spec.Fibs (Pieces Unsigned)
variable {N : Nat}

/-- **C77** `normalize_move` accepts exactly the texts of the grammar, and gives the normal text of the hops they say. -/
theorem C77_normalize_iff (t u : Str) : normalize t = some u ↔ ∃ l, Says t l ∧ u = text l := by
  unfold normalize
  by_cases hp : isPass t = true
  · rw [if_pos hp]
    have hpass := (isPass_spec t).1 hp
    constructor
    · intro h
      cases h
      exact ⟨[], .inl ⟨hpass, rfl⟩, rfl⟩
    · rintro ⟨l, ⟨_, rfl⟩ | ⟨_, ls, h, _⟩, rfl⟩
      · rfl
      · exact absurd h (pass_not_words hpass ls)
  · rw [if_neg hp]
    have hpass : ¬ Pass t := fun h => hp ((isPass_spec t).2 h)
    simp only [Option.bind_eq_some_iff, words_spec (fun w hw => (splitWs_token hw).2)]
    constructor
    · rintro ⟨r, ⟨ls, h1, l, h2, rfl⟩, h3⟩
      split_ifs at h3 with hl
      cases h3
      have hl : l ≠ [] := by simpa using hl
      refine ⟨l.map Step.hop, .inr ⟨?_, ls, h1, h2.symm⟩, ?_⟩
      · intro e
        rw [e] at h1
        cases h1
        cases l with
        | nil => exact hl rfl
        | cons => simp at h2
      · rw [text_eq]; unfold formatSteps; rw [if_neg hl]
    · rintro ⟨l, ⟨h, _⟩ | ⟨h0, ls, h1, rfl⟩, rfl⟩
      · exact absurd h hpass
      · obtain ⟨s, hs⟩ := map_hop_surj ls.flatten
        have hne : s ≠ [] := by
          rintro rfl
          generalize splitWs t = ts at h0 h1
          cases h1 with
          | nil => exact h0 rfl
          | cons h _ =>
            have := word_ne h
            simp at hs
            exact this hs.1
        refine ⟨s.map stepText, ⟨ls, h1, s, hs.symm, rfl⟩, ?_⟩
        rw [if_neg (by simpa using hne), ← hs, text_eq]
        unfold formatSteps
        rw [if_neg hne]

theorem MoveText.normalize_says {t : Str} {s : List Step} (hs : ∀ x ∈ s, x.Ok) : normalize t = some (formatSteps s) ↔ Says t (s.map Step.hop) := by
  rw [C77_normalize_iff]
  constructor
  · rintro ⟨l, h1, h2⟩
    obtain ⟨s', rfl⟩ := map_hop_surj l
    have hs' : ∀ x ∈ s', x.Ok := fun x hx => says_range h1 _ (List.mem_map_of_mem hx)
    rw [text_eq] at h2
    have := parseSteps_format hs
    rw [h2, parseSteps_format hs'] at this
    cases this
    exact h1
  · intro h
    exact ⟨_, h, (text_eq s).symm⟩

/-- A text says at most one thing. -/
theorem C77_unambiguous (t : Str) (l l' : List (Nat × Nat)) (h : Says t l) (h' : Says t l') : l = l' := by
  obtain ⟨s, rfl⟩ := map_hop_surj l
  obtain ⟨s', rfl⟩ := map_hop_surj l'
  have hs : ∀ x ∈ s, x.Ok := fun x hx => says_range h _ (List.mem_map_of_mem hx)
  have hs' : ∀ x ∈ s', x.Ok := fun x hx => says_range h' _ (List.mem_map_of_mem hx)
  have e := (normalize_says hs).2 h
  rw [(normalize_says hs').2 h'] at e
  have e := Option.some.inj e
  have := parseSteps_format hs
  rw [← e, parseSteps_format hs'] at this
  cases this
  rfl

theorem MoveText.parseTokens_spec {ts : List Str} (hw : ∀ t ∈ ts, ∀ c ∈ t, isWs c = false) (l : List Step) : parseTokens ts = some l ↔
    List.Forall₂ (fun w h => ∃ ta tb, w = ta ++ '/' :: tb ∧ Start ta h.1 ∧ End tb h.2) ts (l.map Step.hop) := by
  induction ts generalizing l with
  | nil => simp [parseTokens, eq_comm]
  | cons t ts ih =>
    have ht := hw t (by simp)
    rw [parseTokens]
    simp only [Option.bind_eq_some_iff, Prod.exists]
    constructor
    · rintro ⟨a, b, h1, h2⟩
      obtain ⟨h1, ha⟩ := splitOnce_some.1 h1
      split_ifs at h2 with hb
      simp only [Option.bind_eq_some_iff, Option.map_eq_some_iff, ih (fun t ht => hw t (List.mem_cons_of_mem _ ht))] at h2
      obtain ⟨src, h3, dst, h4, r, h5, rfl⟩ := h2
      rw [parseFrom_spec (fun c hc => ht c (by simp [h1, hc]))] at h3
      rw [parseTo_spec (fun c hc => ht c (by simp [h1, hc]))] at h4
      exact .cons ⟨a, b, h1, h3, h4⟩ h5
    · intro h
      cases l with
      | nil => cases h
      | cons s l =>
        obtain ⟨⟨a, b, h1, h2, h3⟩, h⟩ := List.forall₂_cons.1 h
        have noslash : ∀ w : Str, ∀ n, (w = "bar".toList ∨ w = "off".toList ∨ Unsigned w n) → '/' ∉ w := by
          rintro w n (rfl | rfl | ⟨ds, _, h2, _, rfl | rfl⟩)
          · decide
          · decide
          all_goals
            intro hm
            simp only [List.mem_cons, List.mem_map] at hm
            have key : ∀ d ∈ ds, Nat.digitChar d ≠ '/' := by
              intro d hd
              have := h2 d hd
              interval_cases d <;> decide
            grind
        have ha : '/' ∉ a := fun hm => by
          rcases h2 with ⟨h2, _⟩ | h2
          · exact noslash _ 0 (.inl h2) (mem_lower_slash hm)
          · exact noslash a _ (.inr (.inr h2.2.2)) hm
        have hb : '/' ∉ b := fun hm => by
          rcases h3 with ⟨h3, _⟩ | h3
          · exact noslash _ 0 (.inr (.inl h3)) (mem_lower_slash hm)
          · exact noslash b _ (.inr (.inr h3.2.2)) hm
        refine ⟨a, b, splitOnce_some.2 ⟨h1, ha⟩, ?_⟩
        rw [if_neg (by simpa using hb)]
        simp only [Option.bind_eq_some_iff, Option.map_eq_some_iff, ih (fun t ht => hw t (List.mem_cons_of_mem _ ht)),
          parseFrom_spec (t := a) (fun c hc => ht c (by simp [h1, hc])), parseTo_spec (t := b) (fun c hc => ht c (by simp [h1, hc]))]
        exact ⟨_, h2, _, h3, l, h, rfl⟩

/-- **C77** `parse_move_steps` accepts exactly the strict texts. -/
theorem C77_parse_iff (t : Str) (l : List Step) : parseSteps t = some l ↔ Strict t (l.map Step.hop) := by
  unfold parseSteps Strict
  have hw : ∀ w ∈ splitWs t, ∀ c ∈ w, isWs c = false := fun w hw => (splitWs_token hw).2
  split_ifs with hp
  · have hpass := (isPass_spec t).1 hp
    constructor
    · intro h
      cases h
      exact .inl ⟨hpass, rfl⟩
    · rintro (⟨_, h⟩ | h)
      · rw [List.map_eq_nil_iff] at h; rw [h]
      · exfalso
        obtain ⟨w, h1, h2⟩ := hpass
        rw [h1] at h
        cases l with
        | nil => cases h
        | cons s l =>
          obtain ⟨⟨a, b, rfl, _⟩, _⟩ := List.forall₂_cons.1 h
          have := mem_lower_slash (s := a ++ '/' :: b) (by simp)
          rw [h2] at this
          revert this; decide
  · rw [parseTokens_spec hw, or_iff_right]
    rintro ⟨h, _⟩
    exact hp ((isPass_spec t).2 h)

/-- The hops of single-checker moves `(from, die)`. -/
def Spec.hopsOf (ms : List (Nat × Nat)) : List (Nat × Nat) := ms.map fun m => (m.1, m.1 - m.2)

theorem hopsOf_steps (ms : List (Nat × Nat)) : (Spec.stepsOf ms).map Step.hop = Spec.hopsOf ms := by
  unfold Spec.stepsOf Spec.hopsOf
  rw [List.map_map]
  rfl

/-- **C77** `apply_move` accepts a text exactly if it says single-checker moves with the dice, each legal where it is made, after which no unused die can be played; the
result is the board they lead to with the turn passed. -/
theorem C77_apply_iff (p c : Pos N) (hb : p.BarsOK) (dice : Dice) (hv : dice.Valid) (t : Str) :
    applyFor p dice t = some c ↔ c.turn = !p.turn ∧ ∃ ms : List (Nat × Nat), Says t (Spec.hopsOf ms) ∧ Spec.Uses (Spec.faces dice) (ms.map Prod.snd) ∧
      Spec.Moves p.view ms c.flip.view ∧ ∀ die src, (ms.map Prod.snd).count die < (Spec.faces dice).count die → ¬ Spec.CanStep c.flip.view src die := by
  rw [C70_accept_iff p c hb dice hv t]
  refine and_congr_right fun _ => exists_congr fun ms => ?_
  constructor
  · rintro ⟨h1, h2, h3, h4⟩
    refine ⟨?_, h2, h3, h4⟩
    rw [← hopsOf_steps, ← normalize_says (stepsOf_ok h3 (Pos.uses_pos hv h2))]
    exact h1
  · rintro ⟨h1, h2, h3, h4⟩
    refine ⟨?_, h2, h3, h4⟩
    rw [← hopsOf_steps, ← normalize_says (stepsOf_ok h3 (Pos.uses_pos hv h2))] at h1
    exact h1

/-- The same for a position of any variant. -/
theorem C77_variant_apply_iff (q c : VPos) (hx : q.view.x 0 = 0) (ho : q.view.o 25 = 0) (dice : Dice) (hv : dice.Valid) (t : Str) :
    applyV q dice t = some c ↔ c.variant = q.variant ∧ c.turn = (!q.turn) ∧ ∃ ms : List (Nat × Nat), Says t (Spec.hopsOf ms) ∧
      Spec.Uses (Spec.faces dice) (ms.map Prod.snd) ∧ Spec.Moves q.view ms c.view.mirror ∧
      ∀ die src, (ms.map Prod.snd).count die < (Spec.faces dice).count die → ¬ Spec.CanStep c.view.mirror src die := by
  rw [C70_variant_accept_iff q c hx ho dice hv t]
  refine and_congr_right fun _ => and_congr_right fun _ => exists_congr fun ms => ?_
  constructor
  · rintro ⟨h1, h2, h3, h4⟩
    refine ⟨?_, h2, h3, h4⟩
    rw [← hopsOf_steps, ← normalize_says (stepsOf_ok h3 (Pos.uses_pos hv h2))]
    exact h1
  · rintro ⟨h1, h2, h3, h4⟩
    refine ⟨?_, h2, h3, h4⟩
    rw [← hopsOf_steps, ← normalize_says (stepsOf_ok h3 (Pos.uses_pos hv h2))] at h1
    exact h1

/-- A text with hit marks, commas and a path of several hops, in the grammar. -/
example : normalize " Bar/20*/18,  6/OFF ".toList = some "bar/20 20/18 6/off".toList ∧
    Says " Bar/20*/18,  6/OFF ".toList [(25, 20), (20, 18), (6, 0)] ∧ text [(25, 20), (20, 18), (6, 0)] = "bar/20 20/18 6/off".toList := by
  have e : normalize " Bar/20*/18,  6/OFF ".toList = some (formatSteps [⟨25, 20⟩, ⟨20, 18⟩, ⟨6, 0⟩]) := by decide +kernel
  exact ⟨by decide +kernel, (normalize_says (by decide)).1 e, by decide +kernel⟩

/-- Texts outside the grammar: `off` in the middle, `bar` at the end, point 25, an empty text, a mark alone. -/
example : (∀ l, ¬ Says "6/off/3".toList l) ∧ (∀ l, ¬ Says "6/bar".toList l) ∧ (∀ l, ¬ Says "25/20".toList l) ∧ (∀ l, ¬ Says [] l) ∧
    ∀ l, ¬ Says "8/5 *".toList l := by
  have no : ∀ t, normalize t = none → ∀ l, ¬ Says t l := by
    intro t h l hl
    have := (C77_normalize_iff t _).2 ⟨l, hl, rfl⟩
    rw [h] at this
    cases this
  exact ⟨no _ (by decide +kernel), no _ (by decide +kernel), no _ (by decide +kernel), no _ (by decide +kernel), no _ (by decide +kernel)⟩

/-- A text of the strict form. -/
example : Strict "BAR/20 +6/off".toList [(25, 20), (6, 0)] :=
  (C77_parse_iff _ [⟨25, 20⟩, ⟨6, 0⟩]).1 (by decide +kernel)

end Bkgm
