import Verif.Proofs.MoveText
import Verif.Spec.Examples
/-!
# Properties of move texts: C37, C38, C39

`Step.Ok s` (Proofs/MoveText.lean): `s` goes from 1..25 to 0..24.
-/

namespace Bkgm
open MoveText

/-- **C37** Parsing the text of a list of steps gives the steps back. -/
theorem C37_parse_format (l : List Step) (h : ∀ s ∈ l, 1 ≤ s.src ∧ s.src ≤ 25 ∧ s.dst ≤ 24) :
    parseSteps (formatSteps l) = some l :=
  parseSteps_format h

example := C37_parse_format [⟨25, 20⟩, ⟨6, 0⟩] (by decide)

/-- **C37** ... and that text is already normal. -/
theorem C37_normalize_format (l : List Step) (h : ∀ s ∈ l, 1 ≤ s.src ∧ s.src ≤ 25 ∧ s.dst ≤ 24) :
    normalize (formatSteps l) = some (formatSteps l) :=
  normalize_format h

example : (∀ s ∈ ([⟨25, 20⟩, ⟨13, 8⟩, ⟨3, 0⟩] : List Step), 1 ≤ s.src ∧ s.src ≤ 25 ∧ s.dst ≤ 24) ∧
    formatSteps [⟨25, 20⟩, ⟨13, 8⟩, ⟨3, 0⟩] = "bar/20 13/8 3/off".toList ∧ formatSteps [] = "pass".toList := by decide

/-- **C37** Different lists of steps have different texts. -/
theorem C37_format_injective (l l' : List Step) (h : ∀ s ∈ l, 1 ≤ s.src ∧ s.src ≤ 25 ∧ s.dst ≤ 24)
    (h' : ∀ s ∈ l', 1 ≤ s.src ∧ s.src ≤ 25 ∧ s.dst ≤ 24) (e : formatSteps l = formatSteps l') : l = l' := by
  have h1 := C37_parse_format l h
  rw [e, C37_parse_format l' h'] at h1
  exact (Option.some.inj h1).symm

example : formatSteps [⟨24, 1⟩] ≠ formatSteps [⟨2, 4⟩] := by decide

/-- The range of C37 is needed: step sources 26, ... are not accepted back. -/
example : parseSteps (formatSteps [⟨26, 20⟩]) = none := by decide +kernel

/-- **C38** What `normalize` returns is a fixed point of `normalize`, parses, and is the text of the steps it parses to. -/
theorem C38_normalize_idempotent (t u : Str) (h : normalize t = some u) :
    normalize u = some u ∧ ∃ l, parseSteps u = some l ∧ (∀ s ∈ l, 1 ≤ s.src ∧ s.src ≤ 25 ∧ s.dst ≤ 24) ∧ formatSteps l = u := by
  obtain ⟨l, hl, rfl⟩ := normalize_some h
  exact ⟨normalize_format hl, l, parseSteps_format hl, hl, rfl⟩

example : normalize " bar/22*, 6/OFF  13/8/5 ".toList = some "bar/22 6/off 13/8 8/5".toList := by decide +kernel
example : normalize "25/22".toList = none ∧ normalize "6/0".toList = none ∧ normalize [] = none := by decide +kernel

/-- **C39** Only the tokens of the text matter, not the white space around them. -/
theorem C39_whitespace (q : VPos) (d : Dice) (t t' : Str) (h : splitWs t = splitWs t') :
    normalize t = normalize t' ∧ applyV q d t = applyV q d t' := by
  have e := normalize_congr h
  refine ⟨e, ?_⟩
  cases q <;> simp only [applyV, applyFor, e]

example : splitWs " 8/5\t6/5 ".toList = splitWs "8/5   6/5".toList ∧ " 8/5\t6/5 ".toList ≠ "8/5   6/5".toList := by decide

/-- **C39** Removing every `*` and `,` from a text changes nothing, if every token has a `/`. -/
theorem C39_marks (q : VPos) (d : Dice) (t : Str) (h : ∀ tok ∈ splitWs t, '/' ∈ tok) :
    normalize (t.filter fun c => c ≠ '*' ∧ c ≠ ',') = normalize t ∧
    applyV q d (t.filter fun c => c ≠ '*' ∧ c ≠ ',') = applyV q d t := by
  have e0 : (t.filter fun c => decide (c ≠ '*' ∧ c ≠ ',')) = clean t := by
    unfold clean
    congr 1
    funext c
    by_cases h1 : c = '*' <;> by_cases h2 : c = ',' <;> simp [h1, h2]
  have hne : ∀ tok ∈ splitWs t, clean tok ≠ [] := fun tok ht e => by
    have := slash_mem_clean (h tok ht)
    rw [e] at this
    cases this
  have e1 : splitWs (clean t) = (splitWs t).map clean := by
    rw [splitWs_clean, List.filter_eq_self]
    intro s hs
    obtain ⟨tok, ht, rfl⟩ := List.mem_map.1 hs
    simp [hne tok ht]
  have hp : ∀ {s : Str}, (∀ tok ∈ splitWs s, '/' ∈ tok) → isPass s = false := by
    intro s hs
    by_contra hc
    rw [Bool.not_eq_false] at hc
    obtain ⟨w, hw, hl⟩ := isPass_iff.1 hc
    have := mem_lower_slash (hs w (by simp [hw]))
    rw [hl] at this
    revert this
    decide
  have hs' : ∀ tok ∈ splitWs (clean t), '/' ∈ tok := by
    rw [e1]
    intro s hs
    obtain ⟨tok, ht, rfl⟩ := List.mem_map.1 hs
    exact slash_mem_clean (h tok ht)
  have e : normalize (clean t) = normalize t := by
    unfold normalize
    rw [hp h, hp hs', e1, normTokens_clean]
  rw [e0]
  refine ⟨e, ?_⟩
  cases q <;> simp only [applyV, applyFor, e]

example : (∀ tok ∈ splitWs "8/5*, 6/5".toList, '/' ∈ tok) ∧
    normalize "8/5*, 6/5".toList = some "8/5 6/5".toList ∧ normalize "8/5 6/5".toList = some "8/5 6/5".toList := by decide +kernel

/-- The condition of C39 is needed: a mark standing alone, or after `pass`, makes the text invalid. -/
theorem C39_marks_alone : normalize "8/5 *".toList = none ∧ normalize "8/5 ".toList = some "8/5".toList ∧
    normalize "pass*".toList = none ∧ normalize "pass".toList = some "pass".toList := by decide +kernel

/-- **C39** A chained token `x/b/y` (with `b` a single part) means `x/b b/y`, wherever it stands in the text; chains of any length
follow by repetition. -/
theorem C39_chain (q : VPos) (d : Dice) (t t' : Str) (before after : List Str) (x b y : Str) (hb : '/' ∉ b)
    (ht : splitWs t = before ++ [x ++ '/' :: (b ++ '/' :: y)] ++ after)
    (ht' : splitWs t' = before ++ [x ++ '/' :: b, b ++ '/' :: y] ++ after) :
    normalize t = normalize t' ∧ applyV q d t = applyV q d t' := by
  have hp : ∀ {s tok : Str}, tok ∈ splitWs s → '/' ∈ tok → isPass s = false := by
    intro s tok hs hm
    by_contra hc
    rw [Bool.not_eq_false] at hc
    obtain ⟨w, hw, hl⟩ := isPass_iff.1 hc
    rw [hw, List.mem_singleton] at hs
    subst hs
    have := mem_lower_slash hm
    rw [hl] at this
    revert this
    decide
  have h1 : isPass t = false := hp (tok := x ++ '/' :: (b ++ '/' :: y)) (by rw [ht]; simp) (by simp)
  have h2 : isPass t' = false := hp (tok := x ++ '/' :: b) (by rw [ht']; simp) (by simp)
  have e : normalize t = normalize t' := by
    unfold normalize
    rw [h1, h2, ht, ht', List.append_assoc, List.append_assoc, normTokens_append, normTokens_append, normTokens_append,
      normTokens_append (b := after), (normTokens_chain (x := x) (b := b) (y := y)).resolve_right hb]
  refine ⟨e, ?_⟩
  cases q <;> simp only [applyV, applyFor, e]

example : '/' ∉ "8".toList ∧ splitWs "6/5 13/8/5".toList = ["6/5".toList] ++ ["13".toList ++ '/' :: ("8".toList ++ '/' :: "5".toList)] ++ [] ∧
    splitWs "6/5 13/8 8/5".toList = ["6/5".toList] ++ ["13".toList ++ '/' :: "8".toList, "8".toList ++ '/' :: "5".toList] ++ [] ∧
    normalize "6/5 13/8/5".toList = some "6/5 13/8 8/5".toList := by decide +kernel

end Bkgm
