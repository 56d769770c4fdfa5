import Verif.Proofs.MoveApply
import Verif.Spec.Examples
import Verif.Spec.Game
/-!
# Properties of encoding and applying moves: C33, C34
-/

namespace Bkgm
open Pos MoveText
variable {N : Nat}

/-- **C33** Every legal child can be encoded, and applying the text with the same dice gives exactly that child. -/
theorem C33_encode_apply (p c : Pos N) (hb : p.BarsOK) (dice : Dice) (hv : dice.Valid) (hc : c ∈ p.legalPositions dice) :
    ∃ l, encodeFor p c dice = .ok l ∧ applyFor p dice (formatSteps l) = some c := by
  obtain ⟨l, h1, o, ho, hl⟩ := encode_legal hb hv hc
  have := apply_leaf hb hv ho hl (by rw [Pos.flip_flip]; exact hc)
  rw [Pos.flip_flip] at this
  exact ⟨l, h1, this⟩

example := C33_encode_apply Ex.barPos ((Ex.barPos.mv 25 5).mv 20 6).flip (by decide) (.mixed 6 5) (by decide) (by decide +kernel)

/-- **C33** The same for positions of every variant (`encode_move`, `apply_move`). -/
theorem C33_variant_encode_apply (q c : VPos) (hx : q.view.x 0 = 0) (ho : q.view.o 25 = 0) (dice : Dice) (hv : dice.Valid)
    (hc : c ∈ classicRules q dice) : ∃ t, encodeV q c dice = .ok t ∧ applyV q dice t = some c := by
  have key : ∀ {N : Nat} (p d : Pos N), p.view.x 0 = 0 → p.view.o 25 = 0 → d ∈ p.legalPositions dice →
      ∃ l, encodeFor p d dice = .ok l ∧ applyFor p dice (formatSteps l) = some d := by
    intro N p d h1 h2 hd
    refine C33_encode_apply p d ⟨?_, ?_⟩ dice hv hd
    · simp only [view] at h1; omega
    · simp only [view] at h2; omega
  cases q <;> simp only [classicRules, List.mem_map] at hc <;> obtain ⟨d, hd, rfl⟩ := hc <;>
    obtain ⟨l, e1, e2⟩ := key _ d hx ho hd <;>
    exact ⟨formatSteps l, by simp [encodeV, encodeStepsV, e1, Except.map], by simp [applyV, e2]⟩

/-- A bear-off play where one text step can be made with either die, and a play from the bar. -/
example : Ex.barPos.BarsOK ∧ (Dice.mixed 5 2).Valid ∧
    ((Ex.barPos.mv 25 5).mv 6 2).flip ∈ Ex.barPos.legalPositions (.mixed 5 2) ∧
    (encodeFor Ex.barPos ((Ex.barPos.mv 25 5).mv 6 2).flip (.mixed 5 2)).toOption = some [⟨25, 20⟩, ⟨6, 4⟩] := by decide +kernel

example : ∃ c ∈ classicRules (.backgammon Ex.start) (.double 6), encodeV (.backgammon Ex.start) c (.double 6) = .ok "13/7 13/7 24/18 24/18".toList := by
  refine ⟨.backgammon ((((Ex.start.mv 24 6).mv 24 6).mv 13 6).mv 13 6).flip, ?_, ?_⟩
  · simp only [classicRules, List.mem_map]
    exact ⟨_, by decide +kernel, rfl⟩
  · have h : (encodeStepsV (.backgammon Ex.start) (.backgammon ((((Ex.start.mv 24 6).mv 24 6).mv 13 6).mv 13 6).flip) (.double 6)).toOption
        = some [⟨13, 7⟩, ⟨13, 7⟩, ⟨24, 18⟩, ⟨24, 18⟩] := by decide +kernel
    unfold encodeV
    cases e : encodeStepsV (.backgammon Ex.start) (.backgammon ((((Ex.start.mv 24 6).mv 24 6).mv 13 6).mv 13 6).flip) (.double 6) with
    | error x => rw [e] at h; simp [Except.toOption] at h
    | ok l =>
      rw [e] at h
      simp only [Except.toOption, Option.some.injEq] at h
      subst h
      decide

/-! ## C34 -/

theorem Assign.moves {dice : List Nat} (hd : Dies dice) {l : List Step} {p : Pos N} {used used' : List Nat} (hb : p.BarsOK)
    (h : MoveText.Assign dice l p used used') : ∃ (ms : List (Nat × Nat)) (idxs : List Nat), used' = idxs.reverse ++ used ∧ ms.map Prod.snd = idxs.map (fun i => dice.getD i 0) ∧
      l = ms.map (fun m => ⟨m.1, m.1 - m.2⟩) ∧ Spec.Moves p.view ms (l.foldl stepMv p).view := by
  induction h with
  | nil => exact ⟨[], [], rfl, rfl, rfl, .nil _⟩
  | @cons s l p used used' i hi hu hm hc _ ih =>
    obtain ⟨h1, h6⟩ := getD_dies hd hi
    have hb' := barsOK_mv hb h1 hc
    have hav := after_view hb h1 hc
    rw [mv_stepMv hm] at hb' hav
    obtain ⟨ms, idxs, e1, e2, e3, hms⟩ := ih hb'
    refine ⟨(s.src, dice.getD i 0) :: ms, i :: idxs, by simp [e1], by simp [e2], ?_, ?_⟩
    · rw [List.map_cons, ← e3]
      congr 1
      cases s with
      | mk a b =>
        simp only [Step.mk.injEq, true_and]
        unfold stepMatches at hm
        simp only at hm
        split_ifs at hm with h0
        · have : a ≤ dice.getD i 0 := by simpa using hm
          omega
        · have : dice.getD i 0 < a ∧ a - dice.getD i 0 = b := by simpa using hm
          omega
    · refine .cons (canStep_iff.2 hc) ?_
      rw [hav]
      exact hms

theorem diceBuf_eq_faces (dice : Dice) : diceBuf dice = Spec.faces dice := by cases dice <;> rfl

/-- **C34, what always holds.** If `apply_move` accepts a text, then the steps of its normal form are single-checker moves allowed by the
rules, each made with its own die of the roll, leading to the returned child with the turn passed; and no die left over can be played
after them. -/
theorem C34_accepted_partial (p c : Pos N) (hb : p.BarsOK) (dice : Dice) (hv : dice.Valid) (t : Str) (h : applyFor p dice t = some c) :
    c.turn = !p.turn ∧ ∃ ms : List (Nat × Nat), normalize t = some (formatSteps (ms.map fun m => ⟨m.1, m.1 - m.2⟩)) ∧
      Spec.Uses (Spec.faces dice) (ms.map Prod.snd) ∧ Spec.Moves p.view ms c.flip.view ∧
      ∀ die src, (ms.map Prod.snd).count die < (Spec.faces dice).count die → ¬ Spec.CanStep c.flip.view src die := by
  have hdd := diceBuf_dies hv
  unfold applyFor at h
  cases e1 : normalize t with
  | none => rw [e1] at h; simp at h
  | some u =>
    obtain ⟨l, hl, rfl⟩ := normalize_some e1
    rw [e1, Option.bind_some, parseSteps_format hl, Option.bind_some] at h
    cases e2 : applySteps (diceBuf dice) l p [] with
    | none => rw [e2] at h; simp at h
    | some r =>
      obtain ⟨q, used⟩ := r
      rw [e2, Option.bind_some] at h
      simp only at h
      split_ifs at h with hun
      cases h
      obtain ⟨ha, hq⟩ := applySteps_some hdd hb hl e2
      obtain ⟨ms, idxs, f1, f2, f3, hms⟩ := Assign.moves hdd hb ha
      obtain ⟨hnd, hlt⟩ := ha.nodup List.nodup_nil (by simp)
      rw [List.append_nil] at f1
      subst f1
      rw [List.nodup_reverse] at hnd
      have hlt' : ∀ i ∈ idxs, i < (diceBuf dice).length := fun i hi => hlt i (List.mem_reverse.2 hi)
      rw [← hq] at hms
      have hqb : q.BarsOK := by
        obtain ⟨r, e, hr⟩ := (play_iff (l := ms.map Prod.snd) (by
          rw [f2]; intro d hd
          obtain ⟨i, hi, rfl⟩ := List.mem_map.1 hd
          exact (getD_dies hdd (hlt' i hi)).1) hb).1 hms.play
        have hrb := hr.barsOK (by
          rw [f2]; intro d hd
          obtain ⟨i, hi, rfl⟩ := List.mem_map.1 hd
          exact (getD_dies hdd (hlt' i hi)).1) hb
        have a1 := congrFun (congrArg Spec.Board.x e) 0
        have a2 := congrFun (congrArg Spec.Board.o e) 25
        simp only [view] at a1 a2
        obtain ⟨b1, b2⟩ := hrb
        exact ⟨by omega, by omega⟩
      rw [Bool.not_eq_true, unusedPlayable_false hdd hqb] at hun
      have hturn : q.turn = p.turn := by
        rw [hq]
        clear hq hms e2 ha f3 hl e1 hqb
        induction l generalizing p with
        | nil => rfl
        | cons s l ih =>
          rw [List.foldl_cons]
          have : (stepMv p s).turn = p.turn := by unfold stepMv; simp
          have hh : ∀ (l : List Step) (p : Pos N), (l.foldl stepMv p).turn = p.turn := by
            intro l
            induction l with
            | nil => intro p; rfl
            | cons s l ih => intro p; rw [List.foldl_cons, ih]; unfold stepMv; simp
          rw [hh, this]
      refine ⟨by rw [turn_flip, hturn], ms, by rw [f3], ?_, by rw [Pos.flip_flip]; exact hms, ?_⟩
      · intro v
        rw [f2, ← diceBuf_eq_faces]
        have e : diceBuf dice = (List.range (diceBuf dice).length).map fun i => (diceBuf dice).getD i 0 := by
          apply List.ext_getElem
          · simp
          · intro i h1 h2
            simp [List.getElem?_eq_getElem h1]
        conv_rhs => rw [e]
        have hsub : idxs.Subperm (List.range (diceBuf dice).length) :=
          List.subperm_of_subset hnd fun i hi => List.mem_range.2 (hlt' i hi)
        obtain ⟨l', hp, hs⟩ := hsub
        rw [← (hp.map _).count_eq v]
        exact (hs.map _).count_le v
      · intro die src hcnt hcan
        rw [Pos.flip_flip] at hcan
        rw [f2, ← diceBuf_eq_faces] at hcnt
        have : ∃ i, i < (diceBuf dice).length ∧ i ∉ idxs ∧ (diceBuf dice).getD i 0 = die := by
          by_contra hno
          have hno : ∀ i, i < (diceBuf dice).length → (diceBuf dice).getD i 0 = die → i ∈ idxs := by
            intro i h1 h2
            by_contra h3
            exact hno ⟨i, h1, h3, h2⟩
          have e : diceBuf dice = (List.range (diceBuf dice).length).map fun i => (diceBuf dice).getD i 0 := by
            apply List.ext_getElem
            · simp
            · intro i h1 h2
              simp [List.getElem?_eq_getElem h1]
          have hle : (diceBuf dice).count die ≤ (idxs.map fun i => (diceBuf dice).getD i 0).count die := by
            conv_lhs => rw [e]
            rw [List.count_eq_countP, List.count_eq_countP, List.countP_map, List.countP_map, List.countP_eq_length_filter,
              List.countP_eq_length_filter]
            apply List.Subperm.length_le
            apply List.subperm_of_subset
            · exact List.nodup_range.filter _
            · intro i hi
              obtain ⟨h1, h2⟩ := List.mem_filter.1 hi
              exact List.mem_filter.2 ⟨hno i (List.mem_range.1 h1) (by simpa using h2), h2⟩
          omega
        obtain ⟨i, h1, h2, h3⟩ := this
        have := hun i h1 (by simpa using h2)
        rw [h3] at this
        exact this src (canStep_iff.1 hcan)

example : applyFor Ex.start (.mixed 6 1) "13/7*, 8/7".toList ≠ none := by decide +kernel

/-- **C34, where it holds.** An accepted text is a legal play unless the roll is mixed and the text has exactly one step. -/
theorem C34_legal_partial (p c : Pos N) (hb : p.BarsOK) (dice : Dice) (hv : dice.Valid) (t : Str) (h : applyFor p dice t = some c) :
    c ∈ p.legalPositions dice ∨
      ((∃ big small, dice = .mixed big small) ∧ ∃ s, normalize t = some (formatSteps [s])) := by
  obtain ⟨ht, ms, hn, hu, hm, hun⟩ := C34_accepted_partial p c hb dice hv t h
  rw [mem_legal hb hv]
  by_cases hfull : (ms.map Prod.snd).length = (Spec.faces dice).length
  · left
    refine ⟨ht, ms.map Prod.snd, hu, hm.play, fun u _ hu' _ => ?_, fun d d' b e _ _ => ?_⟩
    · have := uses_length hu'; omega
    · exfalso
      rw [e] at hfull
      cases dice <;> simp [Spec.faces] at hfull
  · by_cases h0 : ms = []
    · left
      subst h0
      refine ⟨ht, [], hu, hm.play, fun u b hu' hp => ?_, fun d d' b e => by simp at e⟩
      cases hp with
      | nil => simp
      | @cons _ _ src die rest hc hp =>
        exfalso
        generalize c.flip.view = B at hm hun
        cases hm
        have h1 := hu' die
        rw [List.count_cons_self] at h1
        exact hun die src (by simp only [List.map_nil, List.count_nil]; omega) hc
    · cases dice with
      | double d =>
        left
        refine ⟨ht, ?_⟩
        obtain ⟨h1, h2⟩ : 1 ≤ d ∧ d ≤ 6 := hv
        have htt : c.flip.turn = p.turn := by rw [turn_flip, ht, Bool.not_not]
        simp only [Spec.faces] at hu ⊢
        rw [legal_double hb htt h1]
        obtain ⟨n, hn4, en⟩ := uses_double.1 hu
        have hlen : n < 4 := by
          have := congrArg List.length en
          rw [List.length_replicate] at this
          rw [this] at hfull
          simp [Spec.faces] at hfull
          omega
        have hst : Stuck d c.flip := by
          intro f hc
          refine hun d f ?_ (canStep_iff.2 hc)
          rw [en, List.count_replicate_self]
          simp [Spec.faces]
          omega
        have hp := hm.play
        rw [en] at hp
        obtain ⟨q, e, hr⟩ := (play_iff (by intro x hx; rw [(List.mem_replicate.1 hx).2]; exact h1) hb).1 hp
        have eq : c.flip = q := view_inj (by rw [htt, hr.turn]) e
        rw [← eq] at hr
        rw [run_replicate] at hr
        refine ⟨n, hn4, hr, fun m r _ hm' => ?_⟩
        obtain ⟨k, hk, _⟩ := descent h1 h2 hm' hr hst
        omega
      | mixed big small =>
        right
        refine ⟨⟨big, small, rfl⟩, ?_⟩
        have := uses_length hu
        match ms, h0, hfull, this, hn with
        | [m], _, _, _, hn => exact ⟨_, hn⟩
        | [_, _], _, hf, _, _ => simp [Spec.faces] at hf
        | _ :: _ :: _ :: _, _, _, hl, _ => simp [Spec.faces] at hl

example := C34_legal_partial Ex.barPos ((Ex.barPos.mv 25 5).mv 20 6).flip (by decide) (.mixed 6 5) (by decide) "bar/20 20/14".toList (by decide +kernel)

/-- x: 8 (two borne off); o: 5, 4, 4. -/
def Ex.onlyOne : Pos 3 := Ex.cells 3 [0, 0, 0, 0, -2, -1, 0, 0, 1, 0, 0, 0, 0, 0, 0, 0, 0, 0, 0, 0, 0, 0, 0, 0, 0, 0] 2 0

/-- **C34 is false of the code**: with 3-1 only one die can be played and the rules demand the 3 (8/5, hitting), but `8/7` is accepted. -/
theorem C34_counterexample : ∃ c, Ex.onlyOne.Valid ∧ applyFor Ex.onlyOne (.mixed 3 1) "8/7".toList = some c ∧
    c ∉ Ex.onlyOne.legalPositions (.mixed 3 1) ∧ Ex.onlyOne.legalPositions (.mixed 3 1) = [(Ex.onlyOne.mv 8 3).flip] :=
  ⟨(Ex.onlyOne.mv 8 1).flip, by decide +kernel, by decide +kernel, by decide +kernel, by decide +kernel⟩

/-- x: 6 (two borne off); o: 4, 21 (one borne off). -/
def Ex.dodge : Pos 3 := Ex.cells 3 [0, 0, 0, 0, -1, 0, 1, 0, 0, 0, 0, 0, 0, 0, 0, 0, 0, 0, 0, 0, 0, -1, 0, 0, 0, 0] 2 1

/-- The other kind of failure: with 6-2 the rules demand both dice (6/4, hitting, then off), but `6/off` is accepted. -/
theorem C34_counterexample_two_dice : ∃ c, Ex.dodge.Valid ∧ applyFor Ex.dodge (.mixed 6 2) "6/off".toList = some c ∧
    c ∉ Ex.dodge.legalPositions (.mixed 6 2) ∧ Ex.dodge.legalPositions (.mixed 6 2) = [((Ex.dodge.mv 6 2).mv 4 6).flip] :=
  ⟨(Ex.dodge.mv 6 6).flip, by decide +kernel, by decide +kernel, by decide +kernel, by decide +kernel⟩

end Bkgm
