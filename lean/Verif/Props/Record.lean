import Verif.Spec.Record
import Verif.Props.MoveApply
import Verif.Props.MoveEncode
import Verif.Props.Game
/-!
# C105: game records
-/

namespace Bkgm
open MoveText Spec.Record

theorem validFor_bars {v : Variant} {q : VPos} (hq : VPos.ValidFor v q) : q.view.x 0 = 0 ∧ q.view.o 25 = 0 := ⟨hq.2.xBar, hq.2.oBar⟩

/-- A text with the same normal form does the same. -/
theorem applyV_normal {v : Variant} {q : VPos} (hq : VPos.ValidFor v q) {d : Dice} (hd : d.Valid) {t t' : Str} (h : normalize t = normalize t') (c : VPos) :
    applyV q d t' = some c ↔ applyV q d t = some c := by
  obtain ⟨hx, ho⟩ := validFor_bars hq
  rw [C70_variant_accept_iff q c hx ho d hd t, C70_variant_accept_iff q c hx ho d hd t', h]

/-- **C105** Every line of play from a valid position has exactly one record, and that record replays to the line and to nothing else; so does every record
that has the same rolls and texts with the same normal forms (other spacing, commas, hit marks, ...). -/
theorem C105_record (v : Variant) (q : VPos) (hq : VPos.ValidFor v q) (plies : List (Dice × VPos)) (h : Line q plies) :
    ∃ rec, Writes q plies rec ∧ (∀ rec', Writes q plies rec' → rec' = rec) ∧
      ∀ rec', List.Forall₂ (fun a b : Dice × Str => a.1 = b.1 ∧ normalize a.2 = normalize b.2) rec rec' →
        ∀ plies', Replays q rec' plies' ↔ plies' = plies := by
  induction h with
  | nil q =>
    refine ⟨[], .nil q, fun rec' h => by cases h; rfl, fun rec' h plies' => ?_⟩
    cases h
    exact ⟨fun h => by cases h; rfl, fun h => h ▸ .nil q⟩
  | @cons q c d rest hd hc _ ih =>
    obtain ⟨hx, ho⟩ := validFor_bars hq
    obtain ⟨rec, h1, h2, h3⟩ := ih (classic_child hq hd hc)
    obtain ⟨t, ht, ha⟩ := C33_variant_encode_apply q c hx ho d hd hc
    refine ⟨(d, t) :: rec, .cons ht h1, fun rec' h => ?_, fun rec' h plies' => ?_⟩
    · cases h with
      | cons h4 h5 =>
        rw [ht] at h4
        rw [← Except.ok.inj h4, h2 _ h5]
    · cases h with
      | @cons _ b _ rec' hb hr =>
        obtain ⟨d', t'⟩ := b
        obtain ⟨rfl, hn⟩ := hb
        have ha' := (applyV_normal hq hd hn c).2 ha
        constructor
        · intro h
          cases h with
          | cons h4 h5 =>
            simp only at h4 ha'
            rw [ha'] at h4
            obtain rfl := Option.some.inj h4
            rw [(h3 _ hr _).1 h5]
        · rintro rfl
          exact .cons ha' ((h3 _ hr _).2 rfl)

/-- **C105** Two lines of play with the same record are the same. -/
theorem C105_injective (v : Variant) (q : VPos) (hq : VPos.ValidFor v q) (plies plies' : List (Dice × VPos)) (h : Line q plies) (h' : Line q plies')
    (rec : List (Dice × Str)) (hw : Writes q plies rec) (hw' : Writes q plies' rec) : plies = plies' := by
  obtain ⟨r, h1, h2, h3⟩ := C105_record v q hq plies h
  obtain ⟨r', h1', h2', h3'⟩ := C105_record v q hq plies' h'
  obtain rfl := h2 rec hw
  obtain rfl := h2' rec hw'
  have same : List.Forall₂ (fun a b : Dice × Str => a.1 = b.1 ∧ normalize a.2 = normalize b.2) rec rec := by
    clear * -
    induction rec with
    | nil => exact .nil
    | cons a l ih => exact .cons ⟨rfl, rfl⟩ ih
  exact (h3' rec same plies).1 ((h3 rec same plies).2 rfl)

/-- A hypergammon game of two plies and its record. -/
theorem C105_example : ∃ c c', Line Variant.hypergammon.startPosition [(.mixed 2 1, c), (.double 6, c')] ∧
    Writes Variant.hypergammon.startPosition [(.mixed 2 1, c), (.double 6, c')]
      [(.mixed 2 1, "23/21 24/23".toList), (.double 6, "22/16 16/10 10/4 23/17".toList)] := by
  have h : ((classicRules Variant.hypergammon.startPosition (.mixed 2 1))[0]?.bind fun c => (classicRules c (.double 6))[0]?.map fun c' =>
      ((encodeV Variant.hypergammon.startPosition c (.mixed 2 1)).toOption, (encodeV c c' (.double 6)).toOption)) =
      some (some "23/21 24/23".toList, some "22/16 16/10 10/4 23/17".toList) := by decide +kernel
  simp only [Option.bind_eq_some_iff, Option.map_eq_some_iff, Prod.mk.injEq] at h
  obtain ⟨c, h1, c', h2, h3, h4⟩ := h
  have ok : ∀ {e : Except Error Str} {t : Str}, e.toOption = some t → e = .ok t := by
    intro e t h
    cases e <;> simp [Except.toOption] at h
    rw [h]
  exact ⟨c, c', .cons (by decide) (List.mem_of_getElem? h1) (.cons (by decide) (List.mem_of_getElem? h2) (.nil _)),
    .cons (ok h3) (.cons (ok h4) (.nil _))⟩

/-- The same game from a record as a person might write it. -/
example : ∃ c c', Replays Variant.hypergammon.startPosition
    [(.mixed 2 1, "23/21,  24/23".toList), (.double 6, " 22/16/10/4* 23/17".toList)] [(.mixed 2 1, c), (.double 6, c')] := by
  obtain ⟨c, c', hl, hw⟩ := C105_example
  obtain ⟨rec, -, h2, h3⟩ := C105_record .hypergammon _ (C41_start_position .hypergammon).1 _ hl
  obtain rfl := h2 _ hw
  refine ⟨c, c', (h3 _ ?_ _).2 rfl⟩
  exact .cons ⟨rfl, by decide +kernel⟩ (.cons ⟨rfl, by decide +kernel⟩ .nil)
example : ∃ plies rec, ∀ plies', Line Variant.hypergammon.startPosition plies' → Writes Variant.hypergammon.startPosition plies' rec → plies = plies' := by
  obtain ⟨c, c', hl, hw⟩ := C105_example
  exact ⟨_, _, fun plies' hl' hw' => C105_injective .hypergammon _ (C41_start_position .hypergammon).1 _ _ hl hl' _ hw hw'⟩

end Bkgm
