import Verif.Spec.KeyLine
import Verif.Props.MoveGrammar
import Verif.Props.Ubgi
/-!
# C79: key lines and move texts of the UBGI protocol against independent grammars
-/
namespace Bkgm
open Ubgi MoveText

theorem Ubgi.looksLike_iff (s : Str) : looksLikeIntDomain s = true ↔ "..".toList <:+: s := by
  induction s with
  | nil => simp [looksLikeIntDomain]
  | cons c s ih =>
    rw [List.infix_cons_iff, ← ih]
    by_cases h : ∃ t, c :: s = '.' :: '.' :: t
    · obtain ⟨t, h⟩ := h
      rw [h]
      simp [looksLikeIntDomain]
    · have e : looksLikeIntDomain (c :: s) = looksLikeIntDomain s := by
        conv_lhs => unfold looksLikeIntDomain
        split
        · rename_i h'; exact absurd ⟨_, h'⟩ h
        · rename_i h'
          injection h' with h1 h2
          rw [h2]
        · rename_i h'; cases h'
      rw [e, or_iff_right]
      rintro ⟨t, ht⟩
      exact h ⟨t, ht.symm⟩

theorem Ubgi.finish_iff (n ty : Str) (d : Option Str) (df : Str) (tail : List Str) (k : KeyLineSpec) : finishKeyLine n ty d df tail = k ↔
    k.name = n ∧ k.keyType = ty ∧ k.domain = d ∧ k.default = df ∧ Spec.KeyLine.Tail k tail := by
  obtain ⟨n', ty', d', df', m', ds'⟩ := k
  unfold Spec.KeyLine.Tail
  cases tail with
  | nil =>
    simp only [finishKeyLine, KeyLineSpec.mk.injEq]
    constructor
    · rintro ⟨rfl, rfl, rfl, rfl, rfl, rfl⟩
      exact ⟨rfl, rfl, rfl, rfl, .inr ⟨rfl, by simp, rfl⟩⟩
    · rintro ⟨rfl, rfl, rfl, rfl, ⟨_, r, h, _⟩ | ⟨rfl, _, rfl⟩⟩
      · cases h
      · exact ⟨rfl, rfl, rfl, rfl, rfl, rfl⟩
  | cons t rest =>
    rw [finishKeyLine]
    split_ifs with ht
    · subst ht
      simp only [KeyLineSpec.mk.injEq]
      constructor
      · rintro ⟨rfl, rfl, rfl, rfl, rfl, rfl⟩
        exact ⟨rfl, rfl, rfl, rfl, .inl ⟨rfl, rest, rfl, rfl⟩⟩
      · rintro ⟨rfl, rfl, rfl, rfl, ⟨rfl, r, h, rfl⟩ | ⟨_, h, _⟩⟩
        · injection h with _ h
          subst h
          exact ⟨rfl, rfl, rfl, rfl, rfl, rfl⟩
        · exact absurd rfl h
    · simp only [KeyLineSpec.mk.injEq]
      constructor
      · rintro ⟨rfl, rfl, rfl, rfl, rfl, rfl⟩
        exact ⟨rfl, rfl, rfl, rfl, .inr ⟨rfl, fun h => ht (by injection h), rfl⟩⟩
      · rintro ⟨rfl, rfl, rfl, rfl, ⟨_, r, h, _⟩ | ⟨rfl, _, rfl⟩⟩
        · injection h with h _
          exact absurd h ht
        · exact ⟨rfl, rfl, rfl, rfl, rfl, rfl⟩

/-- **C79** `parse_key_line` accepts a line with a result exactly if the line says it. -/
theorem C79_key_line_iff (line : Str) (k : KeyLineSpec) : parseKeyLine line = some k ↔ Spec.KeyLine.Says line k := by
  unfold parseKeyLine Spec.KeyLine.Says
  constructor
  · intro h
    split at h
    · rename_i head name ty next rest hw
      split_ifs at h with h1 h2 h3
      · injection h with h
        obtain ⟨rfl, rfl, e1, rfl, e2⟩ := (finish_iff ..).1 h
        refine ⟨[], rest, ?_, .inl ⟨rfl, e1, .inl h2⟩, e2⟩
        rw [hw, not_ne_iff.1 h1]; rfl
      · injection h with h
        obtain ⟨rfl, rfl, e1, rfl, e2⟩ := (finish_iff ..).1 h
        refine ⟨[], rest, ?_, .inl ⟨rfl, e1, .inr ⟨h3.1, ?_⟩⟩, e2⟩
        · rw [hw, not_ne_iff.1 h1]; rfl
        · rw [← looksLike_iff, h3.2]; simp
      · split at h
        · rename_i df rest
          injection h with h
          obtain ⟨rfl, rfl, e1, rfl, e2⟩ := (finish_iff ..).1 h
          refine ⟨[next], rest, ?_, .inr ⟨next, rfl, e1, h2, fun hi => ?_⟩, e2⟩
          · rw [hw, not_ne_iff.1 h1]; rfl
          · rw [← looksLike_iff]
            by_contra hn
            exact h3 ⟨hi, by simpa using hn⟩
        · cases h
    · cases h
  · rintro ⟨dom, tail, hw, hd, ht⟩
    rcases hd with ⟨rfl, e1, hd⟩ | ⟨d, rfl, e1, h2, h3⟩
    · rw [hw]
      simp only [List.cons_append, List.nil_append, ne_eq, not_true_eq_false, if_false]
      have : finishKeyLine k.name k.keyType none k.default tail = k := (finish_iff ..).2 ⟨rfl, rfl, e1, rfl, ht⟩
      rcases hd with hd | ⟨hd, hn⟩
      · rw [if_pos hd, this]
      · rw [← looksLike_iff] at hn
        rw [if_neg (by rw [hd]; decide), if_pos ⟨hd, by simpa using hn⟩, this]
    · rw [hw]
      simp only [List.cons_append, List.nil_append, ne_eq, not_true_eq_false, if_false]
      rw [if_neg h2, if_neg]
      · rw [(finish_iff ..).2 ⟨rfl, rfl, e1, rfl, ht⟩]
      · rintro ⟨hi, hn⟩
        rw [(looksLike_iff d).2 (h3 hi)] at hn
        cases hn

/-- **C79** `parse_ubgi_move` reads a text as steps exactly if the text says these hops; every other text is refused with the same error. -/
theorem C79_move_iff (t : Str) : (∀ mv, parseUbgiMove t = .ok mv ↔ Spec.MoveText.Says t (mv.map Step.hop)) ∧
    ∀ e, parseUbgiMove t = .error e ↔ (∀ l, ¬ Spec.MoveText.Says t l) ∧ e = .badValue "move.invalid".toList := by
  cases hn : normalize t with
  | none =>
    have hno : ∀ l, ¬ Spec.MoveText.Says t l := by
      intro l hl
      have := (C77_normalize_iff t _).2 ⟨l, hl, rfl⟩
      rw [hn] at this
      cases this
    have e : parseUbgiMove t = .error (.badValue "move.invalid".toList) := by
      unfold parseUbgiMove; rw [hn]
    rw [e]
    exact ⟨fun mv => ⟨fun h => (by cases h), fun h => absurd h (hno _)⟩, fun e => ⟨fun h => by injection h with h; exact ⟨hno, h.symm⟩, fun h => by rw [h.2]⟩⟩
  | some u =>
    obtain ⟨l, hl, rfl⟩ := (C77_normalize_iff t u).1 hn
    obtain ⟨s, rfl⟩ := map_hop_surj l
    have hs : ∀ x ∈ s, x.Ok := fun x hx => says_range hl _ (List.mem_map_of_mem hx)
    have e : parseUbgiMove t = .ok s := by
      unfold parseUbgiMove
      rw [hn, text_eq]
      simp only [parseSteps_format hs]
    rw [e]
    refine ⟨fun mv => ⟨fun h => by injection h with h; exact h ▸ hl, fun h => ?_⟩, fun e => ⟨fun h => (by cases h), fun h => absurd hl (h.1 _)⟩⟩
    rw [hop_injective (C77_unambiguous t _ _ hl h)]

/-- A line with a domain, a minor mark and a description; the same type without a domain. -/
example : Spec.KeyLine.Says " key  engine.ply int 0..5 2 ! search  depth ".toList
      ⟨"engine.ply".toList, "int".toList, some "0..5".toList, "2".toList, true, "search depth".toList⟩ ∧
    Spec.KeyLine.Says "key seed int 0 from 1..9".toList ⟨"seed".toList, "int".toList, none, "0".toList, false, "from 1..9".toList⟩ :=
  ⟨(C79_key_line_iff ..).1 (by decide +kernel), (C79_key_line_iff ..).1 (by decide +kernel)⟩

/-- Lines that say nothing: no default after the domain, another first word, too few words. -/
example : (∀ k, ¬ Spec.KeyLine.Says "key k string *".toList k) ∧ (∀ k, ¬ Spec.KeyLine.Says "keys k bool true".toList k) ∧ ∀ k, ¬ Spec.KeyLine.Says "key k bool".toList k := by
  have no : ∀ t, parseKeyLine t = none → ∀ k, ¬ Spec.KeyLine.Says t k := fun t h k hk => by
    rw [← C79_key_line_iff, h] at hk; cases hk
  exact ⟨no _ (by decide +kernel), no _ (by decide +kernel), no _ (by decide +kernel)⟩

end Bkgm
