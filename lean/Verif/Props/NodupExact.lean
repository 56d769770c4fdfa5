import Verif.Props.Nodup
import Verif.Props.MoveGen
/-!
# C03: what the duplicates are
-/

namespace Bkgm
open Pos
variable {N : Nat}

/-- With every checker of `x` at or below `a ≤ die`, only the checkers on the highest occupied point can move: they are borne off. -/
theorem bear_top {B : Spec.Board} {a src die : Nat} (ha : 1 ≤ B.x a) (had : a ≤ die) (htop : ∀ i, a < i → B.x i = 0) (h : Spec.CanStep B src die) :
    src = a ∧ Spec.after B src die = { B with x := Spec.upd B.x a (B.x a - 1), xOff := B.xOff + 1 } := by
  have ho := h.own
  have h1 : src ≤ a := by
    by_contra hn
    have := htop src (by omega)
    omega
  have h2 : src = a := by
    by_contra hn
    have := h.noneBehind (by omega) a (by omega)
    omega
  subst h2
  refine ⟨rfl, ?_⟩
  unfold Spec.after
  rw [if_pos had]

/-- **C03** What a duplicate looks like: if the mover has nothing on the bar, its highest checker stands alone on a point `a` not larger than the small die and
it has another checker, then the list consists of one position, twice: the highest checker and one of the next occupied point `b` are borne off. -/
theorem C03_twice_partial (p : Pos N) (hb : p.BarsOK) (big small : Nat) (hv : (Dice.mixed big small).Valid) (a b : Nat) (h25 : p.view.x 25 = 0)
    (ha : a ≤ small) (hxa : p.view.x a = 1) (htop : ∀ i, a < i → p.view.x i = 0) (hb1 : 1 ≤ b) (hba : b < a) (hxb : 1 ≤ p.view.x b)
    (hmid : ∀ i, b < i → i < a → p.view.x i = 0) :
    ∃ c, p.legalPositions (.mixed big small) = [c, c] ∧ c.turn = !p.turn ∧
      c.flip.view = { p.view with x := Spec.upd (Spec.upd p.view.x a 0) b (p.view.x b - 1), xOff := p.view.xOff + 2 } := by
  obtain ⟨h1, h2, h3⟩ : 1 ≤ small ∧ small < big ∧ big ≤ 6 := id hv
  have mid : ∀ i, b < i → Spec.upd p.view.x a (p.view.x a - 1) i = 0 := by
    intro i hi
    unfold Spec.upd
    split_ifs with e
    · omega
    · rcases Nat.lt_or_gt_of_ne e with g | g
      · exact hmid i hi g
      · exact htop i g
  have midb : Spec.upd p.view.x a (p.view.x a - 1) b = p.view.x b := by
    unfold Spec.upd
    rw [if_neg (by omega)]
  have s1 : Spec.CanStep p.view a small :=
    ⟨by omega, by omega, by omega, fun h => by omega, fun _ i hi => htop i (by omega), fun _ i hi => htop i hi⟩
  have e1 := (bear_top (by omega) ha htop s1).2
  have s2 : Spec.CanStep (Spec.after p.view a small) b big := by
    rw [e1]
    refine ⟨by omega, ?_, fun h => ?_, fun h => by omega, fun _ i hi => mid i (by omega), fun _ i hi => mid i hi⟩
    · show 1 ≤ Spec.upd _ _ _ b
      rw [midb]; exact hxb
    · have := mid 25 (by omega)
      have h' : 1 ≤ Spec.upd p.view.x a (p.view.x a - 1) 25 := h
      omega
  have two : ∀ d1 d2 : Nat, small ≤ d1 → small ≤ d2 → ∀ B, Spec.Play p.view [d1, d2] B →
      B = { p.view with x := Spec.upd (Spec.upd p.view.x a 0) b (p.view.x b - 1), xOff := p.view.xOff + 2 } := by
    intro d1 d2 hd1 hd2 B hB
    cases hB with
    | cons c1 r1 =>
      cases r1 with
      | cons c2 r2 =>
        cases r2
        obtain ⟨-, f1⟩ := bear_top (by omega) (by omega) htop c1
        rw [f1] at c2 ⊢
        obtain ⟨-, f2⟩ := bear_top (a := b) (by show 1 ≤ Spec.upd _ _ _ b; rw [midb]; exact hxb) (by omega) mid c2
        rw [f2]
        show ({ x := Spec.upd (Spec.upd p.view.x a (p.view.x a - 1)) b (Spec.upd p.view.x a (p.view.x a - 1) b - 1), o := p.view.o, xOff := p.view.xOff + 1 + 1, oOff := p.view.oOff } : Spec.Board) = _
        rw [midb, hxa]
  have all : ∀ c ∈ p.legalPositions (.mixed big small), c.turn = !p.turn ∧
      c.flip.view = { p.view with x := Spec.upd (Spec.upd p.view.x a 0) b (p.view.x b - 1), xOff := p.view.xOff + 2 } := by
    intro c hc
    obtain ⟨t, used, hu, hplay, hmax, -⟩ := (C01_legal_positions_iff p c hb _ hv).1 hc
    refine ⟨t, ?_⟩
    have hl : used.length ≤ 2 := uses_length hu
    have hg : 2 ≤ used.length := by
      refine hmax [small, big] _ ?_ (.cons s1 (.cons s2 (.nil _)))
      exact (uses_mixed (by omega)).2 (by simp)
    rcases (uses_mixed (by omega)).1 hu with h | h | h | h | h
    all_goals (subst h; first | exact two _ _ (by omega) (by omega) _ hplay | (simp at hg))
  have same : ∀ c ∈ p.legalPositions (.mixed big small), ∀ d ∈ p.legalPositions (.mixed big small), c = d := by
    intro c hc d hd
    obtain ⟨t1, v1⟩ := all c hc
    obtain ⟨t2, v2⟩ := all d hd
    have e : c.flip = d.flip := view_inj (by show (!c.turn) = !d.turn; rw [t1, t2]) (by rw [v1, v2])
    rw [← Pos.flip_flip c, e, Pos.flip_flip]
  have hn : ¬ (p.legalPositions (.mixed big small)).Nodup := by
    rw [C03_mixed_nodup_iff_partial p hb big small hv]
    exact not_not.2 ⟨h25, a, b, ha, hxa, htop, hb1, hba, hxb⟩
  have hpip : p.pip 25 = 0 := by
    have := hb.2
    have h : (p.pip 25).toNat = 0 := h25
    omega
  have hform : (p.smallFirst big small ++ p.bigFirst big small).map flip = p.legalPositions (.mixed big small) := by
    unfold legalPositions
    simp only [playedPositions]
    unfold mixedMoves
    rw [if_pos hpip]
    have hnd : ¬ (p.mixed0 big small).Nodup := by
      intro h
      refine hn ?_
      unfold legalPositions
      rw [List.nodup_map_iff flip_injective]
      simp only [playedPositions]
      unfold mixedMoves
      rw [if_pos hpip]
      exact h
    unfold mixed0 at hnd ⊢
    simp only at hnd ⊢
    by_cases he : (p.smallFirst big small ++ p.bigFirst big small).isEmpty = true
    · rw [if_pos he] at hnd
      exfalso
      apply hnd
      split_ifs
      · simp
      · exact nodup_oneChecker hb (by omega) h1 (by omega)
      · exact nodup_oneChecker hb (by omega) (by omega) h3
    · rw [if_neg he]
  have half : ∀ l : List (Pos N), l.Nodup → (∀ q ∈ l, q.flip ∈ p.legalPositions (.mixed big small)) → l.length ≤ 1 := by
    intro l hl hm
    rcases l with _ | ⟨x, _ | ⟨y, l⟩⟩
    · simp
    · simp
    · exfalso
      have : x = y := flip_injective (same _ (hm x (by simp)) _ (hm y (by simp)))
      simp [this] at hl
  have l1 := half _ (nodup_smallFirst hb (by omega) h1 h2 h3) fun q hq => by
    rw [← hform]; exact List.mem_map_of_mem (List.mem_append_left _ hq)
  have l2 := half _ (nodup_bigFirst hb (by omega) h1 h2 h3) fun q hq => by
    rw [← hform]; exact List.mem_map_of_mem (List.mem_append_right _ hq)
  have hlen : (p.legalPositions (.mixed big small)).length ≤ 2 := by
    rw [← hform, List.length_map, List.length_append]; omega
  rcases hl : p.legalPositions (.mixed big small) with _ | ⟨x, _ | ⟨y, _ | ⟨z, l⟩⟩⟩
  · rw [hl] at hn; simp at hn
  · rw [hl] at hn; simp at hn
  · rw [hl] at all same
    have : x = y := same x (by simp) y (by simp)
    subst this
    exact ⟨x, rfl, all x (by simp)⟩
  · rw [hl] at hlen; simp at hlen

example : Ex.bearPos.BarsOK ∧ Ex.bearPos.view.x 25 = 0 ∧ Ex.bearPos.view.x 3 = 1 ∧ 1 ≤ Ex.bearPos.view.x 2 := by decide

/-- **C03** So every list of legal positions is free of duplicates or is one position twice; in particular every index is
as good as any other: a uniformly chosen index is a uniformly chosen position. -/
theorem C03_duplicates_partial (p : Pos N) (hb : p.BarsOK) (dice : Dice) (hv : dice.Valid) :
    (p.legalPositions dice).Nodup ∨ ∃ c, p.legalPositions dice = [c, c] := by
  cases dice with
  | double d => exact Or.inl (C03_doubles_nodup p hb d hv)
  | mixed big small =>
    by_cases hn : (p.legalPositions (.mixed big small)).Nodup
    · exact Or.inl hn
    · right
      rw [C03_mixed_nodup_iff_partial p hb big small hv, not_not] at hn
      obtain ⟨h25, a, b, ha, hxa, htop, hb1, hba, hxb⟩ := hn
      -- the highest occupied point below `a`
      obtain ⟨k, hk, hmax⟩ : ∃ k, (1 ≤ k ∧ k < a ∧ 1 ≤ p.view.x k) ∧ ∀ i, k < i → i < a → p.view.x i = 0 := by
        have : ∀ n b, b + n = a → 1 ≤ b → b < a → 1 ≤ p.view.x b → ∃ k, (1 ≤ k ∧ k < a ∧ 1 ≤ p.view.x k) ∧ ∀ i, k < i → i < a → p.view.x i = 0 := by
          intro n
          induction n using Nat.strong_induction_on with
          | _ n ih =>
            intro b hn h1 h2 h3
            by_cases hz : ∀ i, b < i → i < a → p.view.x i = 0
            · exact ⟨b, ⟨h1, h2, h3⟩, hz⟩
            · push Not at hz
              obtain ⟨i, hi1, hi2, hi3⟩ := hz
              exact ih (a - i) (by omega) i (by omega) (by omega) hi2 (by omega)
        exact this (a - b) b (by omega) hb1 hba hxb
      obtain ⟨c, hc, -⟩ := C03_twice_partial p hb big small hv a k h25 ha hxa htop hk.1 hk.2.1 hk.2.2 hmax
      exact ⟨c, hc⟩

example : Ex.bearPos.BarsOK ∧ (Dice.mixed 6 4).Valid ∧ (Ex.bearPos.legalPositions (.mixed 6 4)).length = 2 := by decide

/-- **C03** Every position in the list is there equally often: choosing an index uniformly chooses a position uniformly, duplicates or not. -/
theorem C03_uniform (p : Pos N) (hb : p.BarsOK) (dice : Dice) (hv : dice.Valid) (c d : Pos N) (hc : c ∈ p.legalPositions dice)
    (hd : d ∈ p.legalPositions dice) : (p.legalPositions dice).count c = (p.legalPositions dice).count d := by
  rcases C03_duplicates_partial p hb dice hv with h | ⟨e, h⟩
  · rw [List.count_eq_one_of_mem h hc, List.count_eq_one_of_mem h hd]
  · rw [h] at hc hd
    have h1 : c = e := by simpa using hc
    have h2 : d = e := by simpa using hd
    rw [h1, h2]

example : 2 ≤ (Ex.start.legalPositions (.mixed 6 4)).length ∧ Ex.start.BarsOK := by decide

end Bkgm
