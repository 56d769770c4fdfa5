import Verif.Spec.EngineSpec
import Verif.Props.XgidLine
import Verif.Props.EngineSpec
/-!
# C78: engine specs against an independent grammar
-/
namespace Bkgm
namespace EngineSpec
open Spec.Fibs (Pieces)
open Spec.Engine (Halves Name Full Setting nonblank Overrides LastFor Says NoName BadOverride Short shownOrder Text)

theorem strLt_iff : ∀ s t : Str, strLt s t = true ↔ s < t
  | s, [] => by cases s <;> simp [strLt]
  | [], b :: t => by simp [strLt]
  | a :: s, b :: t => by
    rw [strLt, List.cons_lt_cons_iff]
    have hlt : ∀ a b : Char, a < b ↔ a.toNat < b.toNat := fun a b => Iff.rfl
    have heq : ∀ a b : Char, a = b ↔ a.toNat = b.toNat := fun a b => ⟨fun h => h ▸ rfl, fun h => Char.toNat_inj.1 h⟩
    split_ifs with h1 h2
    · simp [hlt, h1]
    · have : ¬ (a < b) := by rw [hlt]; omega
      have : a ≠ b := by rw [Ne, heq]; omega
      simp_all
    · have : ¬ (a < b) := by rw [hlt]; omega
      have : a = b := by rw [heq]; omega
      simp [*, strLt_iff s t]

/-- A text after the first `:`. -/
def specTail (s : Str) : Str := (s.dropWhile (· ≠ ':')).drop 1

theorem halves_iff {s h o : Str} : Halves s h o ↔ h = specHead s ∧ o = specTail s := by
  constructor
  · rintro ⟨h1, rfl | ⟨rfl, rfl⟩⟩
    · obtain ⟨e1, e2⟩ := takeWhile_split (b := o) h1
      exact ⟨e1.symm, e2.symm⟩
    · obtain ⟨e1, e2⟩ := takeWhile_nosplit h1
      exact ⟨e1.symm, e2.symm⟩
  · rintro ⟨rfl, rfl⟩
    refine ⟨not_mem_takeWhile, ?_⟩
    by_cases hc : ':' ∈ s
    · left
      obtain ⟨a, b, rfl, ha⟩ : ∃ a b, s = a ++ ':' :: b ∧ ':' ∉ a := by
        cases hs : splitOnce ':' s with
        | none => exact absurd hc (splitOnce_none.1 hs)
        | some ab => exact ⟨ab.1, ab.2, splitOnce_some.1 hs⟩
      obtain ⟨e1, e2⟩ := takeWhile_split (b := b) ha
      unfold specHead specTail
      rw [e1, e2]
    · right
      obtain ⟨e1, e2⟩ := takeWhile_nosplit hc
      exact ⟨e1.symm, e2⟩

theorem trimStart_append {x y : Str} {c : Char} (hc : isWs c = false) : trimStart (x ++ c :: y) = trimStart x ++ c :: y := by
  unfold trimStart
  induction x with
  | nil => simp [hc]
  | cons a x ih =>
    rw [List.cons_append, List.dropWhile_cons, List.dropWhile_cons]
    split_ifs
    · exact ih
    · rfl

theorem trimEnd_append {x y : Str} {c : Char} (hc : isWs c = false) : trimEnd (x ++ c :: y) = x ++ c :: trimEnd y := by
  have e := trimStart_append (x := y.reverse) (y := x.reverse) hc
  unfold trimStart at e
  unfold trimEnd
  rw [List.reverse_append, List.reverse_cons, List.append_assoc, List.singleton_append, e]
  simp

theorem trim_mid {x y : Str} {c : Char} (hc : isWs c = false) : trim (x ++ c :: y) = trimStart x ++ c :: trimEnd y := by
  unfold trim
  rw [trimStart_append hc, trimEnd_append hc]

theorem trim_trimStart (x : Str) : trim (trimStart x) = trim x := by
  have : trimStart (trimStart x) = trimStart x := by
    unfold trimStart
    induction x with
    | nil => rfl
    | cons a x ih =>
      rw [List.dropWhile_cons]
      split_ifs with h
      · exact ih
      · rw [List.dropWhile_cons, if_neg h]
  unfold trim
  rw [this]

theorem trim_trimEnd (x : Str) : trim (trimEnd x) = trim x := by
  obtain ⟨w, h1, h2⟩ : ∃ w, (∀ c ∈ w, isWs c = true) ∧ x = trimEnd x ++ w := by
    unfold trimEnd
    obtain ⟨w, h1, h2⟩ := dropWhile_split x.reverse
    refine ⟨w.reverse, by simpa using h1, ?_⟩
    rw [← List.reverse_append, ← h2, List.reverse_reverse]
  obtain ⟨u, u', h3, h4, h5⟩ := trim_split (trimEnd x)
  have : x = u ++ trim (trimEnd x) ++ (u' ++ w) := by
    conv_lhs => rw [h2, h5]
    simp
  conv_rhs => rw [this]
  rw [trim_surround h3 _ (trim_trimmed _)]
  intro c hc
  rcases List.mem_append.1 hc with hc | hc
  · exact h4 c hc
  · exact h1 c hc

theorem mem_trimStart {x : Str} {c : Char} (hc : isWs c = false) : c ∈ trimStart x ↔ c ∈ x := by
  rw [← mem_trim hc, trim_trimStart, mem_trim hc]

theorem name_iff {h a : Str} {v : Option Str} : Name h a v ↔ parseAliasVersion (trim h) = (a, v) := by
  unfold Name parseAliasVersion
  cases hs : splitOnce '@' h with
  | none =>
    have hn := splitOnce_none.1 hs
    have hn' : splitOnce '@' (trim h) = none := splitOnce_none.2 fun hm => hn ((mem_trim (by decide)).1 hm)
    rw [hn']
    simp only [trim_trim, Prod.mk.injEq]
    constructor
    · rintro (⟨x, y, rfl, _⟩ | ⟨_, rfl, rfl⟩)
      · simp at hn
      · exact ⟨rfl, rfl⟩
    · rintro ⟨rfl, rfl⟩
      exact .inr ⟨fun x y e => by simp [e] at hn, rfl, rfl⟩
  | some xy =>
    obtain ⟨x, y⟩ := xy
    obtain ⟨rfl, hx⟩ := splitOnce_some.1 hs
    have uniq : ∀ x' y', x ++ '@' :: y = x' ++ '@' :: y' → '@' ∉ x' → x' = x ∧ y' = y := by
      intro x' y' e h'
      have : splitOnce '@' (x' ++ '@' :: y') = some (x', y') := splitOnce_some.2 ⟨rfl, h'⟩
      rw [← e, hs] at this
      injection this with this
      injection this with h1 h2
      exact ⟨h1.symm, h2.symm⟩
    have hs' : splitOnce '@' (trim (x ++ '@' :: y)) = some (trimStart x, trimEnd y) :=
      splitOnce_some.2 ⟨trim_mid (by decide), fun hm => hx ((mem_trimStart (by decide)).1 hm)⟩
    rw [hs']
    simp only [trim_trimEnd, trim_trimStart, trim_trim]
    constructor
    · rintro (⟨x', y', e, h1, h2, rfl, rfl⟩ | ⟨h1, rfl, rfl⟩)
      · obtain ⟨rfl, rfl⟩ := uniq x' y' e h1
        rw [if_neg h2]
      · rw [if_pos (h1 x y rfl hx)]
    · intro h
      split_ifs at h with hy
      · injection h with h1 h2
        subst h1 h2
        refine .inr ⟨fun x' y' e h' => ?_, rfl, rfl⟩
        obtain ⟨rfl, rfl⟩ := uniq x' y' e h'
        exact hy
      · injection h with h1 h2
        subst h1 h2
        exact .inl ⟨x, y, rfl, hx, hy, rfl, rfl⟩

theorem setting_iff {q : Str} {kv : Str × Str} : Setting q kv ↔ '=' ∈ q ∧ kv = (overrideKey (trim q), overrideValue (trim q)) := by
  have key : ∀ x y, '=' ∉ x → (Full (trim x) (overrideKey (trim (x ++ '=' :: y))) ∧
      (∀ k, Full (trim x) k → k = overrideKey (trim (x ++ '=' :: y))) ∧ overrideValue (trim (x ++ '=' :: y)) = trim y) := by
    intro x y hx
    obtain ⟨e1, e2⟩ := takeWhile_split (c := '=') (a := trimStart x) (b := trimEnd y) (fun hm => hx ((mem_trimStart (by decide)).1 hm))
    unfold overrideKey overrideValue Full
    rw [trim_mid (by decide), e1, e2, trim_trimStart, trim_trimEnd]
    refine ⟨?_, ?_, rfl⟩
    · split_ifs with h
      · exact .inl ⟨h, rfl⟩
      · exact .inr ⟨h, rfl⟩
    · rintro k (⟨h, rfl⟩ | ⟨h, rfl⟩)
      · rw [if_pos h]
      · rw [if_neg h]
  constructor
  · rintro ⟨x, y, rfl, hx, h1, h2⟩
    obtain ⟨k1, k2, k3⟩ := key x y hx
    refine ⟨by simp, Prod.ext (k2 _ h1) ?_⟩
    rw [h2, k3]
  · rintro ⟨h, rfl⟩
    cases hs : splitOnce '=' q with
    | none => exact absurd h (splitOnce_none.1 hs)
    | some xy =>
      obtain ⟨x, y⟩ := xy
      obtain ⟨rfl, hx⟩ := splitOnce_some.1 hs
      obtain ⟨k1, k2, k3⟩ := key x y hx
      exact ⟨x, y, rfl, hx, k1, k3⟩

theorem splitChar_prefix {c : Char} : ∀ {w : Str} (_ : c ∉ w) (t : Str), ∃ a l, splitChar c t = a :: l ∧ splitChar c (w ++ t) = (w ++ a) :: l := by
  intro w hw t
  cases e : splitChar c t with
  | nil => exact absurd e (splitChar_ne_nil c t)
  | cons a l =>
    refine ⟨a, l, rfl, ?_⟩
    rw [XgidLine.pieces_iff] at e ⊢
    obtain ⟨h1, h2, h3⟩ := e
    refine ⟨by simp, ?_, ?_⟩
    · intro u hu
      rcases List.mem_cons.1 hu with rfl | hu
      · have := h2 a (by simp)
        simp [hw, this]
      · exact h2 u (by simp [hu])
    · rw [h3]
      cases l <;> simp [join]

theorem join_snoc (sep : Str) (l : List Str) (a w : Str) : join sep (l ++ [a ++ w]) = join sep (l ++ [a]) ++ w := by
  induction l with
  | nil => simp [join]
  | cons b l ih =>
    cases l with
    | nil => simp [join]
    | cons d l => simp only [List.cons_append, join] at ih ⊢; rw [ih]; simp

theorem splitChar_suffix {c : Char} {w : Str} (hw : c ∉ w) (t : Str) : ∃ a l, splitChar c t = l ++ [a] ∧ splitChar c (t ++ w) = l ++ [a ++ w] := by
  obtain ⟨l, a, e⟩ : ∃ l a, splitChar c t = l ++ [a] := by
    rcases List.eq_nil_or_concat (splitChar c t) with h | ⟨l, a, h⟩
    · exact absurd h (splitChar_ne_nil c t)
    · exact ⟨l, a, by simpa using h⟩
  refine ⟨a, l, e, ?_⟩
  rw [XgidLine.pieces_iff] at e ⊢
  obtain ⟨h1, h2, h3⟩ := e
  refine ⟨by simp, ?_, ?_⟩
  · intro u hu
    rcases List.mem_append.1 hu with hu | hu
    · exact h2 u (by simp [hu])
    · rw [List.mem_singleton] at hu
      subst hu
      have := h2 a (by simp)
      simp [hw, this]
  · rw [h3, join_snoc]

theorem trim_ws_append {w x : Str} (hw : ∀ c ∈ w, isWs c = true) : trim (w ++ x) = trim x := by
  unfold trim trimStart
  rw [dropWhile_append_ws hw]

theorem trim_append_ws {w x : Str} (hw : ∀ c ∈ w, isWs c = true) : trim (x ++ w) = trim x := by
  have : trimEnd (x ++ w) = trimEnd x := by
    unfold trimEnd
    rw [List.reverse_append, dropWhile_append_ws (by simpa using hw)]
  rw [← trim_trimEnd, this, trim_trimEnd]

/-- Trimming the whole makes no difference if the pieces are trimmed. -/
theorem map_trim_splitChar {c : Char} (hc : isWs c = false) (s : Str) : (splitChar c (trim s)).map trim = (splitChar c s).map trim := by
  obtain ⟨w, w', h1, h2, h3⟩ := trim_split s
  have n1 : c ∉ w := fun h => by rw [h1 c h] at hc; cases hc
  have n2 : c ∉ w' := fun h => by rw [h2 c h] at hc; cases hc
  obtain ⟨a, l, e1, e2⟩ := splitChar_prefix n1 (trim s)
  obtain ⟨b, m, e3, e4⟩ := splitChar_suffix n2 (w ++ trim s)
  conv_rhs => rw [h3, e4, List.map_append, List.map_cons, List.map_nil, trim_append_ws h2]
  have : m.map trim ++ [trim b] = (m ++ [b]).map trim := by simp
  rw [this, ← e3, e2, e1, List.map_cons, List.map_cons, trim_ws_append h1]

/-- The overrides that are not blank, trimmed. -/
theorem specOverrides_eq (s : Str) : specOverrides s = (nonblank (splitChar ',' (specTail s))).map trim := by
  unfold specOverrides nonblank
  rw [map_trim_splitChar (by decide)]
  rw [List.filter_map]
  rfl

theorem forall₂_setting {ps : List Str} {sets : List (Str × Str)} : List.Forall₂ Setting ps sets ↔
    (∀ p ∈ ps, '=' ∈ p) ∧ sets = (ps.map trim).map fun p => (overrideKey p, overrideValue p) := by
  induction ps generalizing sets with
  | nil => simp [eq_comm]
  | cons p ps ih =>
    cases sets with
    | nil => simp
    | cons kv sets =>
      rw [List.forall₂_cons, ih, setting_iff]
      simp only [List.mem_cons, forall_eq_or_imp, List.map_cons, List.cons.injEq]
      tauto

theorem overrides_iff {s : Str} {sets : List (Str × Str)} : Overrides (specTail s) sets ↔
    (∀ p ∈ specOverrides s, '=' ∈ p) ∧ sets = (specOverrides s).map fun p => (overrideKey p, overrideValue p) := by
  unfold Overrides
  simp only [← XgidLine.pieces_iff, specOverrides_eq]
  rw [exists_eq_left', forall₂_setting]
  simp only [List.mem_map, forall_exists_index, and_imp, forall_apply_eq_imp_iff₂]
  have : ∀ p : Str, '=' ∈ trim p ↔ '=' ∈ p := fun p => mem_trim (by decide)
  simp only [this]

theorem lastFor_iff {sets : List (Str × Str)} {k v : Str} : LastFor sets k v ↔ lastValue k sets = some v := by
  unfold LastFor lastValue
  constructor
  · rintro ⟨pre, post, rfl, h⟩
    rw [List.reverse_append, List.reverse_cons, List.append_assoc, List.find?_append, List.find?_eq_none.2]
    · simp
    · intro g hg
      have := h g (by simpa using hg)
      simpa using this
  · intro h
    obtain ⟨e, h1, rfl⟩ := Option.map_eq_some_iff.1 h
    obtain ⟨h2, as, bs, h3, h4⟩ := List.find?_eq_some_iff_append.1 h1
    have h2 : e.1 = k := by simpa using h2
    refine ⟨bs.reverse, as.reverse, ?_, ?_⟩
    · have := congrArg List.reverse h3
      rw [List.reverse_reverse] at this
      rw [this, ← h2]
      simp
    · intro g hg
      have := h4 g (by simpa using hg)
      simpa using this

theorem pairwise_iff (m : Options) : (m.Pairwise fun a b => a.1 < b.1) ↔ Sorted m := by
  unfold Sorted
  simp only [strLt_iff]

theorem parse_pieces (s : Str) : EngineSpec.parse s =
    if (parseAliasVersion (trim (specHead s))).1 = [] then .error (.invalidSpec s)
    else if ∀ p ∈ specOverrides s, '=' ∈ p then
      .ok ⟨(parseAliasVersion (trim (specHead s))).1, (parseAliasVersion (trim (specHead s))).2,
        ((specOverrides s).map fun p => (overrideKey p, overrideValue p)).foldl (fun m e => insert e.1 e.2 m) []⟩
    else .error (.invalidOverride (((specOverrides s).find? fun p => !p.contains '=').getD []) s) := by
  rw [parse_eq, parseOverrides_eq]
  split_ifs with h1 h2 <;> unfold specOverrides at * <;> simp_all

theorem options_iff {m : Options} {sets : List (Str × Str)} : (Sorted m ∧ ∀ k v, (k, v) ∈ m ↔ LastFor sets k v) ↔
    m = sets.foldl (fun m e => insert e.1 e.2 m) [] := by
  have hs := foldl_sorted sets [] List.Pairwise.nil
  have hg : ∀ k v, (k, v) ∈ sets.foldl (fun m e => insert e.1 e.2 m) [] ↔ LastFor sets k v := by
    intro k v
    rw [lastFor_iff]
    have := get_foldl k sets []
    simp only [get, Option.or_none] at this
    rw [← this]
    exact ⟨get_of_mem hs, get_mem⟩
  constructor
  · rintro ⟨h1, h2⟩
    apply sorted_ext h1 hs
    intro k
    apply Option.ext
    intro v
    constructor
    · intro h
      exact get_of_mem hs ((hg k v).2 ((h2 k v).1 (get_mem h)))
    · intro h
      exact get_of_mem h1 ((h2 k v).2 ((hg k v).1 (get_mem h)))
  · rintro rfl
    exact ⟨hs, hg⟩

end EngineSpec

open EngineSpec
open Spec.Fibs (Pieces)
open Spec.Engine (Halves Name Full Setting nonblank Overrides LastFor Says NoName BadOverride Short shownOrder Text)

/-- **C78** `parse_engine_spec` accepts a text with a result exactly if the text says it. -/
theorem C78_accept_iff (s : Str) (e : EngineSpec.Spec) : EngineSpec.parse s = .ok e ↔ Says s e := by
  have hsays : Says s e ↔ parseAliasVersion (trim (specHead s)) = (e.aliasName, e.version) ∧ e.aliasName ≠ [] ∧
      (∀ p ∈ specOverrides s, '=' ∈ p) ∧ e.options = ((specOverrides s).map fun p => (overrideKey p, overrideValue p)).foldl (fun m e => insert e.1 e.2 m) [] := by
    unfold Says
    simp only [halves_iff, pairwise_iff]
    constructor
    · rintro ⟨h, o, sets, ⟨rfl, rfl⟩, h1, h2, h3, h4⟩
      obtain ⟨h5, rfl⟩ := overrides_iff.1 h3
      exact ⟨name_iff.1 h1, h2, h5, options_iff.1 h4⟩
    · rintro ⟨h1, h2, h3, h4⟩
      exact ⟨_, _, _, ⟨rfl, rfl⟩, name_iff.2 h1, h2, overrides_iff.2 ⟨h3, rfl⟩, options_iff.2 h4⟩
  rw [hsays, parse_pieces]
  obtain ⟨a, v, m⟩ := e
  cases hp : parseAliasVersion (trim (specHead s)) with
  | mk a' v' =>
    simp only [Prod.mk.injEq]
    split_ifs with h1 h2
    · simp only [reduceCtorEq, false_iff]
      rintro ⟨⟨rfl, _⟩, h, _⟩
      exact h h1
    · simp only [Except.ok.injEq, EngineSpec.Spec.mk.injEq]
      constructor
      · rintro ⟨rfl, rfl, rfl⟩
        exact ⟨⟨rfl, rfl⟩, h1, h2, rfl⟩
      · rintro ⟨⟨rfl, rfl⟩, _, _, rfl⟩
        exact ⟨rfl, rfl, rfl⟩
    · simp only [reduceCtorEq, false_iff]
      rintro ⟨_, _, h, _⟩
      exact h2 h

/-- **C78** The errors, exactly: a missing name, or the first override without `=`. -/
theorem C78_error_iff (s : Str) (x : EngineSpec.Error) : EngineSpec.parse s = .error x ↔
    x = .invalidSpec s ∧ NoName s ∨ ∃ p, x = .invalidOverride p s ∧ BadOverride s p := by
  have hno : NoName s ↔ (parseAliasVersion (trim (specHead s))).1 = [] := by
    unfold NoName
    simp only [halves_iff, name_iff]
    constructor
    · rintro ⟨h, o, v, ⟨rfl, rfl⟩, h1⟩
      rw [h1]
    · intro h
      exact ⟨_, _, (parseAliasVersion (trim (specHead s))).2, ⟨rfl, rfl⟩, Prod.ext h rfl⟩
  have hbad : ∀ p, BadOverride s p ↔ (parseAliasVersion (trim (specHead s))).1 ≠ [] ∧ (specOverrides s).find? (fun p => !p.contains '=') = some p := by
    intro p
    unfold BadOverride
    simp only [halves_iff, name_iff, ← XgidLine.pieces_iff]
    have hm : ∀ p : Str, '=' ∈ trim p ↔ '=' ∈ p := fun p => mem_trim (by decide)
    rw [specOverrides_eq]
    constructor
    · rintro ⟨h, o, a, v, ⟨rfl, rfl⟩, h1, h2, pre, q, post, h3, rfl, h5, h6, h7⟩
      refine ⟨by rw [h1]; exact h2, ?_⟩
      rw [h3]
      unfold nonblank
      rw [List.filter_append, List.filter_cons, if_pos (by simpa using h5), List.map_append, List.find?_append, List.find?_eq_none.2]
      · simp [hm, h6]
      · intro g hg
        obtain ⟨g, hg', rfl⟩ := List.mem_map.1 hg
        obtain ⟨hg', hne⟩ := List.mem_filter.1 hg'
        have hne : trim g ≠ [] := by simpa using hne
        rcases h7 g hg' with h | h
        · exact absurd h hne
        · simp [hm, h]
    · rintro ⟨h1, h2⟩
      refine ⟨_, _, _, _, ⟨rfl, rfl⟩, rfl, h1, ?_⟩
      generalize splitChar ',' (specTail s) = l at h2
      unfold nonblank at h2
      induction l with
      | nil => simp at h2
      | cons q l ih =>
        by_cases hq : trim q = []
        · rw [List.filter_cons, if_neg (by simpa using hq)] at h2
          obtain ⟨pre, q', post, rfl, e1, e2, e3, e4⟩ := ih h2
          refine ⟨q :: pre, q', post, rfl, e1, e2, e3, ?_⟩
          intro g hg
          rcases List.mem_cons.1 hg with rfl | hg
          · exact .inl hq
          · exact e4 g hg
        · rw [List.filter_cons, if_pos (by simpa using hq), List.map_cons, List.find?_cons] at h2
          by_cases he : '=' ∈ q
          · rw [show (!(trim q).contains '=') = false by simp [hm, he]] at h2
            obtain ⟨pre, q', post, rfl, e1, e2, e3, e4⟩ := ih h2
            refine ⟨q :: pre, q', post, rfl, e1, e2, e3, ?_⟩
            intro g hg
            rcases List.mem_cons.1 hg with rfl | hg
            · exact .inr he
            · exact e4 g hg
          · rw [show (!(trim q).contains '=') = true by simp [hm, he]] at h2
            injection h2 with h2
            exact ⟨[], q, l, rfl, h2.symm, h2 ▸ hq, he, by simp⟩
  rw [parse_pieces]
  simp only [hno, hbad]
  split_ifs with h1 h2
  · simp [h1, eq_comm]
  · simp only [reduceCtorEq, h1, and_false, false_or, false_iff, not_exists, not_and, not_false_eq_true]
    rintro p rfl _ h
    obtain ⟨h3, h4⟩ := List.find?_eq_some_iff_append.1 h
    obtain ⟨as, bs, e, _⟩ := h4
    have := h2 p (by rw [e]; simp)
    simp [this] at h3
  · cases hf : (specOverrides s).find? (fun p => !p.contains '=') with
    | none =>
      exfalso
      apply h2
      intro p hp
      have := List.find?_eq_none.1 hf p hp
      simpa using this
    | some p =>
      simp only [Option.getD_some, Except.error.injEq, h1, and_false, false_or]
      constructor
      · rintro rfl
        exact ⟨p, rfl, h1, rfl⟩
      · rintro ⟨p', rfl, _, h⟩
        injection h with h
        rw [h]

theorem EngineSpec.shortKey_short (k : Str) : Short k (shortKey k) := by
  unfold shortKey
  have : ∀ n (k : Str), k.length ≤ n → Short k (stripAll n k) := by
    intro n
    induction n with
    | zero =>
      intro k hk
      have : k = [] := List.length_eq_zero_iff.1 (by omega)
      subst this
      exact ⟨0, by simp [stripAll], by decide⟩
    | succ n ih =>
      intro k hk
      rw [stripAll]
      cases hs : stripPrefix enginePrefix k with
      | none => exact ⟨0, by simp, stripPrefix_none.1 hs⟩
      | some r =>
        have e := stripPrefix_some.1 hs
        have hl : enginePrefix.length = 7 := by decide
        obtain ⟨m, h1, h2⟩ := ih r (by rw [e, List.length_append] at hk; omega)
        refine ⟨m + 1, ?_, h2⟩
        rw [List.replicate_succ, List.flatten_cons, List.append_assoc, ← h1]
        exact e
  exact this _ k le_rfl

theorem EngineSpec.short_unique {k r r' : Str} (h : Short k r) (h' : Short k r') : r = r' := by
  obtain ⟨n, h1, h2⟩ := h
  obtain ⟨m, h3, h4⟩ := h'
  induction n generalizing k m with
  | zero =>
    cases m with
    | zero => simp at h1 h3; rw [← h1, ← h3]
    | succ m =>
      exfalso
      apply h2
      refine ⟨(List.replicate m "engine.".toList).flatten ++ r', ?_⟩
      simp only [List.replicate_zero, List.flatten_nil, List.nil_append] at h1
      rw [← h1, h3, List.replicate_succ, List.flatten_cons, List.append_assoc]
  | succ n ih =>
    cases m with
    | zero =>
      exfalso
      apply h4
      refine ⟨(List.replicate n "engine.".toList).flatten ++ r, ?_⟩
      simp only [List.replicate_zero, List.flatten_nil, List.nil_append] at h3
      rw [← h3, h1, List.replicate_succ, List.flatten_cons, List.append_assoc]
    | succ m =>
      rw [h1, List.replicate_succ, List.replicate_succ, List.flatten_cons, List.flatten_cons, List.append_assoc, List.append_assoc] at h3
      exact ih rfl m (List.append_cancel_left h3) 

theorem EngineSpec.filter_key {m : Options} (hs : Sorted m) (k : Str) : (m.filter fun o => o.1 = k) = (match get k m with | some v => [(k, v)] | none => []) := by
  induction m with
  | nil => rfl
  | cons a m ih =>
    obtain ⟨k', v⟩ := a
    obtain ⟨h1, h2⟩ := List.pairwise_cons.1 hs
    rw [List.filter_cons, get]
    by_cases e : k = k'
    · subst e
      rw [if_pos (by simp), if_pos rfl]
      have : m.filter (fun o => decide (o.1 = k)) = [] := by
        rw [List.filter_eq_nil_iff]
        intro o ho
        have := strLt_ne (h1 o ho)
        simpa using Ne.symm this
      rw [this]
    · rw [if_neg (by simpa using Ne.symm e), if_neg e]
      exact ih h2

theorem EngineSpec.shown_order {m : Options} (hs : Sorted m) : shown m = (shownOrder m).map fun o => showOption (shortKey o.1) o.2 := by
  have e1 : shortKey "engine.ply".toList = "ply".toList := by decide
  have e2 : shortKey "engine.top_k".toList = "top_k".toList := by decide
  unfold shown shownOrder
  generalize "engine.ply".toList = a at *
  generalize "engine.top_k".toList = b at *
  rw [filter_key hs, filter_key hs, List.map_append, List.map_append]
  congr 1
  · congr 1
    · cases get a m
      · rfl
      · simp only [List.map_cons, List.map_nil, e1]
    · cases get b m
      · rfl
      · simp only [List.map_cons, List.map_nil, e2]
  · congr 1
    apply List.filter_congr
    intro o _
    rw [Bool.eq_iff_iff]
    simp

/-- **C78** `format_engine_spec` writes exactly the published text: name, version, and the options, first `engine.ply` and `engine.top_k`. -/
theorem C78_format_iff (e : EngineSpec.Spec) (hs : e.options.Pairwise fun a b => a.1 < b.1) (t : Str) : EngineSpec.format e = t ↔ Text e t := by
  rw [pairwise_iff] at hs
  have hshown : ∀ l, List.Forall₂ (fun (o : Str × Str) s => ∃ r, Short o.1 r ∧ s = r ++ '=' :: o.2) (shownOrder e.options) l ↔ l = shown e.options := by
    have hsh := shown_order hs
    rw [hsh]
    intro l
    generalize shownOrder e.options = os
    induction os generalizing l with
    | nil => simp
    | cons o os ih =>
      cases l with
      | nil => simp
      | cons s l =>
        rw [List.forall₂_cons, ih, List.map_cons, List.cons.injEq]
        refine and_congr_left fun _ => ?_
        constructor
        · rintro ⟨r, h1, rfl⟩
          rw [short_unique h1 (shortKey_short _)]
          rfl
        · rintro rfl
          exact ⟨_, shortKey_short _, rfl⟩
  unfold Text
  simp only [hshown]
  rw [exists_eq_left]
  unfold EngineSpec.format base
  rw [eq_comm]
  cases e.version <;> split_ifs <;> simp

/-- A name, a version, white space, a blank override, a key given twice with and without `engine.`. -/
example : Says " hawk @ v1 : ply = 1 ,, engine.ply=2, k = a=b".toList
    ⟨"hawk".toList, some "v1".toList, [("engine.k".toList, "a=b".toList), ("engine.ply".toList, "2".toList)]⟩ :=
  (C78_accept_iff _ _).1 (by rfl)

/-- The first bad override is reported. -/
example : BadOverride "hawk: a=1 , , top , b".toList "top".toList := by
  have := (C78_error_iff "hawk: a=1 , , top , b".toList (.invalidOverride "top".toList "hawk: a=1 , , top , b".toList)).1 (by rfl)
  rcases this with ⟨h, _⟩ | ⟨p, h1, h2⟩
  · cases h
  · injection h1 with h1
    exact h1 ▸ h2

example : Text ⟨"hawk".toList, some "v1".toList, [("engine.engine.a".toList, "1".toList), ("engine.ply".toList, "2".toList)]⟩ "hawk@v1:ply=2,a=1".toList :=
  (C78_format_iff _ (by decide) _).1 (by decide +kernel)

end Bkgm
