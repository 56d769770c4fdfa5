import Verif.Proofs.TextDupArith
import Verif.Props.MoveAccept
import Verif.Props.MoveLegalExact
/-!
Helper lemmas for C100: when two entries of `legal_moves` have the same steps.
-/

namespace Bkgm
open Pos
variable {N : Nat}

namespace MoveText

/-- A text recorded from the player's own paths is right. -/
theorem own_right {p c : Pos N} {b s : Nat} (hb : p.BarsOK) (hv : (Dice.mixed b s).Valid) (hc : c ∈ p.legalPositions (.mixed b s)) {o : List Nat}
    (ho : o ∈ orders (.mixed b s)) {r : Pos N × List Step} (hr : r ∈ records (paths o p)) (he : c.eqv r.1 = true) :
    applyFor p (.mixed b s) (formatSteps r.2) = some c := by
  obtain ⟨q, hq, hx⟩ := mem_records.1 hr
  obtain ⟨o1, ho1, l1, hl1⟩ := legal_leaf (q := c.flip) hb hv (by rw [Pos.flip_flip]; exact hc)
  have hl := paths_leaf hb hv ho hq
  rcases hx with hx | hx <;> rw [hx] at he
  · exact apply_good hb hv hc ho hl he
  · have := mixed_mirror hb hv ho ho1 hl hl1 (by rw [Pos.flip_flip]; exact eqv_symm he)
    refine apply_good hb hv hc ho hl (eqv_symm ?_)
    have := eqv_flip this
    rwa [Pos.flip_flip] at this

/-- A wrong text is recorded from the opponent's paths with the larger die first, before any path of the player's reaches the child. -/
theorem entry_wrong {p c : Pos N} {b s : Nat} (hb : p.BarsOK) (hv : (Dice.mixed b s).Valid) {l : List Step} (h : (l, c) ∈ legalFor p (.mixed b s))
    (hne : applyFor p (.mixed b s) (formatSteps l) ≠ some c) :
    (∃ q, Leaf [b, s] p.flip l q ∧ q.eqv c.flip = true) ∧ (∀ l', ¬ Leaf [b, s] p l' c.flip) ∧ ¬ p.eqv p.flip = true := by
  obtain ⟨hc, x, hx⟩ := legalFor_entry hb hv h
  have h1 : [b, s] ∈ orders (.mixed b s) := by simp [orders]
  have h2 : [s, b] ∈ orders (.mixed b s) := by simp [orders]
  have hal : allLeaves p (.mixed b s) = paths [b, s] p ++ (paths [b, s] p.flip ++ (paths [s, b] p ++ paths [s, b] p.flip)) := by
    simp [allLeaves, orders]
  rw [hal, records_append, records_append, records_append, List.find?_append, List.find?_append, List.find?_append] at hx
  cases e1 : (records (paths [b, s] p)).find? fun r => c.eqv r.1 with
  | some r =>
    rw [e1, Option.some_or] at hx
    cases hx
    exact absurd (own_right hb hv hc h1 (List.mem_of_find?_eq_some e1) (by simpa using List.find?_some e1)) hne
  | none =>
    rw [e1, Option.none_or] at hx
    have hno : ∀ l', ¬ Leaf [b, s] p l' c.flip := by
      intro l' hl'
      rw [List.find?_eq_none] at e1
      refine e1 (c, l') (mem_records.2 ⟨c.flip, (mem_paths hb (orders_dies hv _ h1)).2 hl', Or.inl ?_⟩) (eqv_refl _)
      rw [Pos.flip_flip]
    cases e2 : (records (paths [b, s] p.flip)).find? fun r => c.eqv r.1 with
    | some r =>
      rw [e2, Option.some_or] at hx
      cases hx
      have he := List.find?_some e2
      obtain ⟨q, hq, hx⟩ := mem_records.1 (List.mem_of_find?_eq_some e2)
      have hl := paths_leaf (barsOK_flip hb) hv h1 hq
      simp only at he hx hl
      rcases hx with rfl | rfl
      · have hqc : q.eqv c.flip = true := eqv_symm (by rw [← Pos.flip_flip q]; exact eqv_flip he)
        exact ⟨⟨q, hl, hqc⟩, hno, fun hs => hne (entry_symmetric hb hv hc h1 hl hqc hs)⟩
      · obtain ⟨o1, ho1, l1, hl1⟩ := legal_leaf (q := c.flip) hb hv (by rw [Pos.flip_flip]; exact hc)
        obtain ⟨rfl, rfl⟩ := opponent_same hb (orders_dies hv _ h1) (orders_dies hv _ ho1) hl hl1 (by rw [Pos.flip_flip]; exact eqv_symm he)
        exact absurd (apply_good hb hv hc ho1 hl1 (by rw [Pos.flip_flip]; exact eqv_refl _)) hne
    | none =>
      rw [e2, Option.none_or] at hx
      obtain ⟨o1, ho1, l1, hl1⟩ := legal_record hb hv hc
      have ho1' : o1 = [b, s] ∨ o1 = [s, b] := by simpa [orders] using ho1
      rcases ho1' with rfl | rfl
      · rw [List.find?_eq_none] at e1
        exact absurd (eqv_refl c) (e1 _ hl1)
      · cases e3 : (records (paths [s, b] p)).find? fun r => c.eqv r.1 with
        | some r =>
          rw [e3, Option.some_or] at hx
          cases hx
          exact absurd (own_right hb hv hc h2 (List.mem_of_find?_eq_some e3) (by simpa using List.find?_some e3)) hne
        | none =>
          rw [List.find?_eq_none] at e3
          exact absurd (eqv_refl c) (e3 _ hl1)

/-- The child of a wrong text is reached only with the smaller die first. -/
theorem entry_wrong_two {p c : Pos N} {b s : Nat} (hb : p.BarsOK) (hv : (Dice.mixed b s).Valid) (hc : c ∈ p.legalPositions (.mixed b s))
    (hno : ∀ l', ¬ Leaf [b, s] p l' c.flip) : p.Two s b c.flip ∧ ¬ p.Two b s c.flip := by
  obtain ⟨h1, h2, h3⟩ : 1 ≤ s ∧ s < b ∧ b ≤ 6 := hv
  have hleg : p.MixedLegal b s c.flip := by
    have := hc
    unfold legalPositions playedPositions at this
    rw [mem_map_flip] at this
    exact (mem_mixedMoves hb h1 h2 h3).1 this
  have hn2 : ¬ p.Two b s c.flip := by
    rintro ⟨x, y, hx, hy, e⟩
    rw [e] at hno
    exact hno _ (.move hx (.move hy (.nil _)))
  rcases hleg with (h | h) | ⟨hn, ⟨x, hx, e⟩ | ⟨hnb, ⟨x, hx, e⟩ | ⟨hns, e⟩⟩⟩
  · exact absurd h hn2
  · exact ⟨h, hn2⟩
  · rw [e] at hno
    exact absurd (.move hx (.skip (fun f hf => hn _ (Or.inl ⟨x, f, hx, hf, rfl⟩)) (.nil _))) (hno _)
  · rw [e] at hno
    exact absurd (.skip (fun f hf => hnb _ ⟨f, hf, rfl⟩) (.move hx (.nil _))) (hno _)
  · rw [e] at hno
    exact absurd (.skip (fun f hf => hnb _ ⟨f, hf, rfl⟩) (.skip (fun f hf => hns _ ⟨f, hf, rfl⟩) (.nil _))) (hno _)

/-- A play of two moves that bears off: everything was near home, and a hit is a hit in the home board. -/
theorem bear_two {p : Pos N} {x y d e : Nat} (hd : 1 ≤ d) (hd6 : d ≤ 6) (he : 1 ≤ e) (hx : p.Can x d) (hy : (p.mv x d).Can y e)
    (hoff : ¬ (d < x ∧ e < y)) : (∀ i, 13 ≤ i → p.pip i ≤ 0) ∧
    (((p.mv x d).mv y e).pip 0 ≠ p.pip 0 → ∃ i, 1 ≤ i ∧ i ≤ 6 ∧ p.pip i ≤ -1) := by
  have hA := pip_mv p hx.hi hd
  have hB := pip_mv (p.mv x d) hy.hi he
  have x1 := hx.lo
  have y1 := hy.lo
  have xo := hx.own
  have yo := hy.own
  by_cases hdx : d < x
  · have hey : y ≤ e := by omega
    have hh := hy.home hey
    have hl : 1 ≤ (p.mv x d).pip (x - d) := by
      rw [hA, if_pos hdx, if_neg (by omega), if_pos rfl]
      have := hx.free hdx
      split_ifs <;> omega
    have hx6 : x - d ≤ 6 := by
      by_contra hc
      have := hh (x - d) (by omega)
      omega
    refine ⟨fun i hi => ?_, fun hne => ?_⟩
    · have := hh i (by omega)
      rw [hA, if_pos hdx, if_neg (by omega), if_neg (by omega), if_neg (by omega)] at this
      exact this
    · refine ⟨x - d, by omega, hx6, ?_⟩
      by_contra hc
      apply hne
      rw [hB, if_neg (by omega), if_neg (by omega), hA, if_pos hdx, if_neg (by omega), if_neg (by omega), if_neg (by omega)]
  · have hh := hx.home (by omega)
    refine ⟨fun i hi => hh i (by omega), fun hne => ?_⟩
    have h0 : (p.mv x d).pip 0 = p.pip 0 := by rw [hA, if_neg hdx, if_neg (by omega)]
    have hA' : ∀ i, i ≠ x → (p.mv x d).pip i = p.pip i := fun i hi => by rw [hA, if_neg hdx, if_neg hi]
    have hAx : (p.mv x d).pip x = p.pip x - 1 := by rw [hA, if_neg hdx, if_pos rfl]
    by_cases hey : e < y
    · have hy6 : y ≤ 6 := by
        by_contra hc
        have := hh y (by omega)
        by_cases hyx : y = x
        · subst hyx; omega
        · rw [hA' y hyx] at yo; omega
      have hm : (p.mv x d).pip (y - e) = -1 := by
        by_contra hc
        apply hne
        rw [hB, if_pos hey, if_neg (by omega), if_neg (by omega), if_neg (by rintro ⟨_, h⟩; exact hc h), h0]
      refine ⟨y - e, by omega, by omega, ?_⟩
      by_cases hyx : y - e = x
      · rw [hyx, hAx] at hm; omega
      · rw [hA' _ hyx] at hm; omega
    · exact absurd (by rw [hB, if_neg hey, if_neg (by omega), h0]) hne

/-- The same for a path. -/
theorem leaf_bear {p q : Pos N} {d e : Nat} {l : List Step} (hd : 1 ≤ d) (hd6 : d ≤ 6) (he : 1 ≤ e) (h : Leaf [d, e] p l q)
    (hoff : q.xOff ≠ p.xOff) : (∀ i, 13 ≤ i → p.pip i ≤ 0) ∧ (q.pip 0 ≠ p.pip 0 → ∃ i, 1 ≤ i ∧ i ≤ 6 ∧ p.pip i ≤ -1) := by
  have one : ∀ {u a : Nat}, 1 ≤ a → p.Can u a → (p.mv u a).xOff ≠ p.xOff →
      (∀ i, 13 ≤ i → p.pip i ≤ 0) ∧ ((p.mv u a).pip 0 ≠ p.pip 0 → ∃ i, 1 ≤ i ∧ i ≤ 6 ∧ p.pip i ≤ -1) := by
    intro u a ha hu ho
    have hau : ¬ a < u := by intro hc; rw [xOff_mv, if_pos hc] at ho; exact ho rfl
    refine ⟨fun i hi => hu.home (by omega) i (by omega), fun hne => absurd ?_ hne⟩
    have := hu.lo
    rw [pip_mv p hu.hi ha, if_neg hau, if_neg (by omega)]
  cases h with
  | @move _ _ f _ _ l' hc h =>
    cases h with
    | @move _ _ f' _ _ l'' hc' h =>
      cases h
      refine bear_two hd hd6 he hc hc' fun ⟨h1, h2⟩ => hoff ?_
      rw [xOff_mv, xOff_mv, if_pos h1, if_pos h2]
    | skip hs h => cases h; exact one hd hc hoff
  | skip hs h =>
    cases h with
    | @move _ _ f' _ _ l'' hc' h => cases h; exact one he hc' hoff
    | skip hs' h => cases h; exact absurd rfl hoff

/-- If the opponent's path to the child bears off, the position is its own mirror image. -/
theorem symmetric_of_bear {p q g : Pos N} (hb : p.BarsOK) {b s : Nat} (hv : (Dice.mixed b s).Valid) {l l' : List Step}
    (hq : Leaf [b, s] p.flip l q) (hg : Leaf [s, b] p l' g) (he : q.eqv g = true) (hoff : g.xOff ≠ p.xOff) : p.eqv p.flip = true := by
  obtain ⟨h1, h2, h3⟩ : 1 ≤ s ∧ s < b ∧ b ≤ 6 := hv
  have hd : Dies [b, s] := by intro d hd; simp at hd; omega
  have hd' : Dies [s, b] := by intro d hd; simp at hd; omega
  obtain ⟨e1, e2, e3⟩ := eqv_iff.1 he
  have a1 := (hq.o hd (barsOK_flip hb)).1
  have a2 := (hg.o hd' hb).1
  have f1 : p.flip.oOff = p.xOff := rfl
  have f2 : p.flip.xOff = p.oOff := rfl
  obtain ⟨g1, g2⟩ := leaf_bear h1 (by omega) (by omega) hg hoff
  obtain ⟨q1, q2⟩ := leaf_bear (by omega) h3 h1 hq (by omega)
  refine symmetric_of_no_hit hb hd hd' hq hg he ?_ ?_
  · by_contra hc
    obtain ⟨i, i1, i6, hi⟩ := g2 hc
    have := q1 (25 - i) (by omega)
    rw [pip_flip p (by omega), show 25 - (25 - i) = i by omega] at this
    omega
  · by_contra hc
    obtain ⟨i, i1, i6, hi⟩ := q2 hc
    have := g1 (25 - i) (by omega)
    rw [pip_flip p (by omega)] at hi
    omega

/-- The cells after one move: what changes for the mover and for the opponent. -/
theorem mv_parts {p : Pos N} (hb : p.BarsOK) {f d : Nat} (hd : 1 ≤ d) (hc : p.Can f d) (hdf : d < f) (i : Nat) :
    max ((p.mv f d).pip i) 0 = max (p.pip i) 0 - (dl f i : Int) + (dl (f - d) i : Int) ∧
    min ((p.mv f d).pip i) 0 = min (p.pip i) 0 + (if p.pip (f - d) = -1 then (dl (f - d) i : Int) - (dl 0 i : Int) else 0) := by
  have hA := pip_mv p hc.hi hd i
  have h1 := hc.own
  have h2 := hc.free hdf
  have h0 := hb.1
  rw [hA, if_pos hdf]
  unfold dl
  by_cases e1 : i = f
  · have n2 : ¬ (i = f - d) := by omega
    have n3 : ¬ (i = 0) := by omega
    rw [e1] at n2 n3 ⊢
    simp only [n2, n3, if_true, if_false, Nat.cast_zero, Nat.cast_one, sub_self, ite_self]
    omega
  · by_cases e2 : i = f - d
    · have n3 : ¬ (i = 0) := by omega
      simp only [e1, n3, if_false, Nat.cast_zero]
      rw [if_pos e2, if_pos e2, e2]
      simp only [Nat.cast_one]
      split_ifs with h <;> omega
    · by_cases e3 : i = 0
      · rw [e3] at e1 e2 ⊢
        simp only [e1, e2, if_true, if_false, Nat.cast_zero, Nat.cast_one, true_and]
        split_ifs with h <;> omega
      · simp [e1, e2, e3]

theorem symmetric_of_min {p : Pos N} (hoff : p.xOff = p.oOff) (hcell : ∀ i, min (p.flip.pip i) 0 = min (p.pip i) 0) : p.eqv p.flip = true := by
  refine eqv_iff.2 ⟨?_, hoff, hoff.symm⟩
  funext i
  have e : ∀ s : Pos N, s.pips i = s.pip i.val := fun s => by simp [pip, i.isLt]
  rw [e, e]
  have c1 := hcell i.val
  have c2 := hcell (25 - i.val)
  rw [pip_flip p i.isLt] at c1 ⊢
  rw [pip_flip p (by omega), show 25 - (25 - i.val) = i.val by omega] at c2
  omega

set_option maxHeartbeats 2000000 in
/-- Two moves of the player's and two of the opponent's that end on the same board, the opponent's being playable by the player too: only from the bar. -/
theorem dup_core {p : Pos N} (hb : p.BarsOK) {b s : Nat} (h1 : 1 ≤ s) (h2 : s < b) (h3 : b ≤ 6) {x y f f' : Nat}
    (hx : p.Can x s) (hy : (p.mv x s).Can y b) (hsx : s < x) (hby : b < y)
    (hf : p.flip.Can f b) (hf' : (p.flip.mv f b).Can f' s) (hbf : b < f) (hsf : s < f')
    (ho : p.Can f b) (ho' : (p.mv f b).Can f' s)
    (heq : ((p.flip.mv f b).mv f' s).eqv ((p.mv x s).mv y b) = true)
    (hn : ¬ p.Two b s ((p.mv x s).mv y b)) (hsym : ¬ p.eqv p.flip = true) : f = 25 := by
  by_contra h25
  have hbF := barsOK_flip hb
  have hb1 : 1 ≤ b := by omega
  have p25 : p.pip 25 = 0 := by have := ho.bar h25; have := hb.2; omega
  have p0 : p.pip 0 = 0 := by
    have := hf.bar h25
    rw [pip_flip p (by omega)] at this
    have := hb.1
    simp only [Nat.sub_self] at *
    omega
  have F0 : p.flip.pip 0 = 0 := by rw [pip_flip p (by omega)]; simp [p25]
  have F25 : p.flip.pip 25 = 0 := by rw [pip_flip p (by omega)]; simp [p0]
  obtain ⟨q1, q2, q3⟩ := eqv_iff.1 heq
  have hoff : p.xOff = p.oOff := by
    simp only [oOff_mv] at q3
    exact q3
  have hcell : ∀ i, ((p.flip.mv f b).mv f' s).pip i = ((p.mv x s).mv y b).pip i := fun i => by unfold pip; rw [q1]
  -- pips
  obtain ⟨u1, u2⟩ := pips_mv hb h1 hx
  obtain ⟨u3, u4⟩ := pips_mv (barsOK_mv hb h1 hx) hb1 hy
  obtain ⟨w1, w2⟩ := pips_mv hbF hb1 hf
  obtain ⟨w3, w4⟩ := pips_mv (barsOK_mv hbF hb1 hf) h1 hf'
  have hvw := eqv_view heq
  rw [hvw] at w3 w4
  have fX : p.flip.view.pipsX = p.view.pipsO := by rw [view_flip, (pips_mirror _).1]
  have fO : p.flip.view.pipsO = p.view.pipsX := by rw [view_flip, (pips_mirror _).2]
  -- parts
  have A1 := mv_parts hb h1 hx hsx
  have A2 := mv_parts (barsOK_mv hb h1 hx) hb1 hy hby
  have K1 := mv_parts hbF hb1 hf hbf
  have K2 := mv_parts (barsOK_mv hbF hb1 hf) h1 hf' hsf
  simp only [hsx, hby, hbf, hsf, true_and] at u2 u4 w2 w4
  have x1 := hx.hi
  have xo := hx.own
  have x25 : x ≠ 25 := by rintro rfl; omega
  have y1 := hy.hi
  have f1 := hf.hi
  have f1' := hf'.hi
  have hpip : (if p.pip (x - s) = -1 then x - s else 0) + (if (p.mv x s).pip (y - b) = -1 then y - b else 0) =
      (if p.flip.pip (f - b) = -1 then f - b else 0) + (if (p.flip.mv f b).pip (f' - s) = -1 then f' - s else 0) := by
    rw [min_eq_right (by omega)] at u1 u3 w1 w3
    clear A1 A2 K1 K2 hcell
    generalize (if p.pip (x - s) = -1 then x - s else 0) = i1 at *
    generalize (if (p.mv x s).pip (y - b) = -1 then y - b else 0) = i2 at *
    generalize (if p.flip.pip (f - b) = -1 then f - b else 0) = i3 at *
    generalize (if (p.flip.mv f b).pip (f' - s) = -1 then f' - s else 0) = i4 at *
    omega
  have d0 : ∀ z, 1 ≤ z → dl z 0 = 0 := fun z hz => by unfold dl; rw [if_neg (by omega)]
  have d00 : dl 0 0 = 1 := rfl
  have hcnt : (if p.pip (x - s) = -1 then 1 else 0) + (if (p.mv x s).pip (y - b) = -1 then 1 else 0) =
      (if p.flip.pip (f - b) = -1 then 1 else 0) + (if (p.flip.mv f b).pip (f' - s) = -1 then (1 : Int) else 0) := by
    have a10 := (A1 0).2
    have a20 := (A2 0).2
    have k10 := (K1 0).2
    have k20 := (K2 0).2
    rw [d0 _ (by omega), d00, Nat.cast_zero, Nat.cast_one, zero_sub] at a10 a20 k10 k20
    rw [hcell 0, k10] at k20
    rw [a10] at a20
    rw [a20, p0, F0] at k20
    clear A1 A2 K1 K2 hcell u1 u2 u3 u4 w1 w2 w3 w4 hpip a10 a20 k10
    split_ifs at k20 ⊢ <;> omega
  have hmin : ∀ i, min (p.flip.pip i) 0 + (if p.flip.pip (f - b) = -1 then (dl (f - b) i : Int) - (dl 0 i : Int) else 0) +
      (if (p.flip.mv f b).pip (f' - s) = -1 then (dl (f' - s) i : Int) - (dl 0 i : Int) else 0) =
      min (p.pip i) 0 + (if p.pip (x - s) = -1 then (dl (x - s) i : Int) - (dl 0 i : Int) else 0) +
      (if (p.mv x s).pip (y - b) = -1 then (dl (y - b) i : Int) - (dl 0 i : Int) else 0) := by
    intro i
    rw [← (K1 i).2, ← (K2 i).2, ← (A1 i).2, ← (A2 i).2, hcell]
  have hmax : ∀ i, max (p.flip.pip i) 0 - (dl f i : Int) + (dl (f - b) i : Int) - (dl f' i : Int) + (dl (f' - s) i : Int) =
      max (p.pip i) 0 - (dl x i : Int) + (dl (x - s) i : Int) - (dl y i : Int) + (dl (y - b) i : Int) := by
    intro i
    have := (K2 i).1
    rw [(K1 i).1, hcell, (A2 i).1, (A1 i).1] at this
    exact this.symm
  clear A1 A2 K1 K2 u1 u2 u3 u4 w1 w2 w3 w4 fX fO hvw
  have sym : (∀ i, min (p.flip.pip i) 0 = min (p.pip i) 0) → False := fun h => hsym (symmetric_of_min hoff h)
  by_cases hall : p.pip (x - s) = -1 ∧ (p.mv x s).pip (y - b) = -1 ∧ p.flip.pip (f - b) = -1 ∧ (p.flip.mv f b).pip (f' - s) = -1
  · obtain ⟨c1, c2, c3, c4⟩ := hall
    simp only [c1, c2, c3, c4, if_true] at hpip hmin
    have F : ∀ i, i < 26 → p.flip.pip i = - p.pip (25 - i) := fun i hi => pip_flip p hi
    have pA := fun i => pip_mv p hx.hi h1 i
    have v0 : p.pip (y - b) = -1 := by
      have k := c2
      rw [pA, if_pos hsx] at k
      split_ifs at k <;> omega
    have uv : y - b ≠ x - s := by
      intro e
      rw [e, pA, if_pos hsx, if_neg (by omega), if_pos rfl, if_pos c1] at c2
      omega
    by_cases hch : y = x - s
    · -- one checker hits twice
      have yo := hy.own
      have f25 : f' ≠ 25 := by
        intro e
        have k := hf'.own
        rw [e, pip_mv _ hf.hi hb1, if_pos hbf, if_neg (by omega), if_neg (by omega), if_neg (by omega)] at k
        omega
      have key := chain_arith (x := x) (f := f) (g := f') h3 h2 h1 (by omega) (by omega) hbf (by omega) hsf (by omega) (by omega) (by
        intro i hi
        have m1 := hmin i
        have m2 := hmax i
        have n1 := hmin (25 - i)
        have n2 := hmax (25 - i)
        rw [F i hi] at m1 m2
        rw [F (25 - i) (by omega), show 25 - (25 - i) = i by omega] at n1 n2
        rw [hch] at m1 m2 n1 n2
        unfold ChainCell
        have s1 : ∀ z : Int, max z 0 + min z 0 = z := fun z => by omega
        have r1 := s1 (- p.pip (25 - i))
        have r2 := s1 (p.pip i)
        have r3 := s1 (- p.pip i)
        have r4 := s1 (p.pip (25 - i))
        clear hmin hmax hcell pA F s1
        generalize max (- p.pip (25 - i)) 0 = a1 at *
        generalize min (- p.pip (25 - i)) 0 = a2 at *
        generalize max (p.pip i) 0 = a3 at *
        generalize min (p.pip i) 0 = a4 at *
        generalize max (- p.pip i) 0 = a5 at *
        generalize min (- p.pip i) 0 = a6 at *
        generalize max (p.pip (25 - i)) 0 = a7 at *
        generalize min (p.pip (25 - i)) 0 = a8 at *
        omega)
      have oA := pip_mv p ho.hi hb1 f'
      rw [if_pos hbf] at oA
      have oo := ho.own
      have oo' := ho'.own
      rcases key with e | ⟨e, e'⟩ | ⟨e, e'⟩
      · rw [e] at oo; omega
      · rw [← e] at c1
        rw [if_neg (by rintro rfl; omega), if_neg (by omega), if_neg (by omega)] at oA
        omega
      · have k := hf.own
        rw [F f (by omega), show 25 - f = f' by omega] at k
        rw [if_neg (by rintro rfl; omega), if_neg (by omega), if_neg (by omega)] at oA
        omega
    · -- two checkers hit, and the other order is possible too
      have yA := hy.own
      have py : 1 ≤ p.pip y ∧ (y = x → 2 ≤ p.pip y) := by
        rw [pA, if_pos hsx] at yA
        split_ifs at yA with g1 g2 g3
        · rw [g1]; omega
        · omega
        · constructor
          · exact yA
          · intro h; exact absurd h g1
      have y25 : y ≠ 25 := by rintro rfl; omega
      have cy : p.Can y b := ⟨hy.lo, hy.hi, py.1, fun _ => by omega, fun _ => by omega, by omega, by omega⟩
      have pB := fun i => pip_mv p hy.hi hb1 i
      have cx : (p.mv y b).Can x s := by
        refine ⟨hx.lo, hx.hi, ?_, fun _ => ?_, fun _ => ?_, by omega, by omega⟩
        · rw [pB, if_pos hby]
          split_ifs with g1 g2 g3
          · have := py.2 g1.symm; omega
          · omega
          · omega
          · exact xo
        · rw [pB, if_pos hby, if_neg (by omega), if_neg (by omega), if_neg (by omega)]; omega
        · rw [pB, if_pos hby, if_neg (by intro e; rw [e] at c1; omega), if_neg (by omega), if_neg (by omega)]; omega
      refine hn ⟨y, x, cy, cx, ?_⟩
      rcases Nat.le_total x y with hxy | hxy
      · exact (swap h1 hb1 h3 hx hy hxy).2.2
      · exact ((swap hb1 h1 (by omega) cy cx hxy).2.2).symm
  · apply sym
    intro i
    have hm := hmin i
    have same : ∀ z w, z = w → (dl z i : Int) = dl w i := fun z w e => by rw [e]
    have e1 := same (x - s) (f - b)
    have e2 := same (x - s) (f' - s)
    have e3 := same (y - b) (f - b)
    have e4 := same (y - b) (f' - s)
    clear hmin hmax same hcell
    by_cases c1 : p.pip (x - s) = -1 <;> by_cases c2 : (p.mv x s).pip (y - b) = -1 <;>
      by_cases c3 : p.flip.pip (f - b) = -1 <;> by_cases c4 : (p.flip.mv f b).pip (f' - s) = -1 <;>
      simp only [c1, c2, c3, c4, if_true, if_false, and_self, and_true, and_false, not_true_eq_false, not_false_eq_true] at hpip hcnt hm hall <;>
      first
      | (exfalso; omega)
      | (generalize min (p.flip.pip i) 0 = m1 at *; generalize min (p.pip i) 0 = m2 at *
         first
         | omega
         | (have := e1 (by omega); omega)
         | (have := e2 (by omega); omega)
         | (have := e3 (by omega); omega)
         | (have := e4 (by omega); omega))

/-- The steps of a right text, when both dice can be played: two moves of the player's, or one checker borne off. -/
theorem right_shape {p c : Pos N} {b s : Nat} (hb : p.BarsOK) (hv : (Dice.mixed b s).Valid) {l : List Step} (h : (l, c) ∈ legalFor p (.mixed b s))
    (hr : applyFor p (.mixed b s) (formatSteps l) = some c) (h2 : ∃ r, p.Two b s r ∨ p.Two s b r) :
    (∃ f, l = [⟨f, 0⟩]) ∨ ∃ f a f' a', l = [⟨f, f - a⟩, ⟨f', f' - a'⟩] ∧ 1 ≤ a ∧ 1 ≤ a' ∧ p.Can f a ∧ (p.mv f a).Can f' a' := by
  obtain ⟨ms, rfl, hu, hm⟩ := (C36_exact_partial p c hb _ hv l h).1 hr
  obtain ⟨hc, -⟩ := legalFor_entry hb hv h
  have hturn := legal_turn hb hv hc
  have hv' := hv
  obtain ⟨g1, g2, g3⟩ : 1 ≤ s ∧ s < b ∧ b ≤ 6 := hv'
  have hleg : p.MixedLegal b s c.flip := by
    have := hc
    unfold legalPositions playedPositions at this
    rw [mem_map_flip] at this
    exact (mem_mixedMoves hb g1 g2 g3).1 this
  have htwo : p.Two b s c.flip ∨ p.Two s b c.flip := by
    rcases hleg with h | ⟨h, -⟩
    · exact h
    · obtain ⟨r, hr⟩ := h2; exact absurd hr (h r)
  have hpos := uses_pos hv hu
  have lenle := uses_length hu
  match ms, hm, hu, hpos, lenle with
  | [], hm, hu, hpos, _ =>
    exfalso
    have e : c.flip = p := by
      generalize e0 : c.flip.view = B at hm
      cases hm
      exact view_inj (by rw [turn_flip, hturn, Bool.not_not]) e0
    rw [e] at htwo
    have two : ∀ a a', 1 ≤ a → 1 ≤ a' → ¬ p.Two a a' p := by
      rintro a a' ha ha' ⟨m, g, hm, hg, e⟩
      have k1 := pipsX_mv hb ha hm
      have k2 := pipsX_mv (barsOK_mv hb ha hm) ha' hg
      rw [← e] at k2
      have := hm.lo
      omega
    rcases htwo with k | k
    · exact two _ _ (by omega) (by omega) k
    · exact two _ _ (by omega) (by omega) k
  | [(f, u)], hm, hu, hpos, _ =>
    left
    have hu1 : 1 ≤ u := hpos _ (by simp)
    have hcan : p.Can f u ∧ c.flip = p.mv f u := by
      generalize e0 : c.flip.view = B at hm
      cases hm with
      | cons hc hm =>
        have hcan := canStep_iff.1 hc
        rw [after_view hb hu1 hcan] at hm
        cases hm
        exact ⟨hcan, view_inj (by rw [turn_flip, hturn, Bool.not_not, turn_mv]) e0⟩
    obtain ⟨hcan, ec⟩ := hcan
    rw [ec] at htwo
    have hbs : b ≠ s := by omega
    have hfu : f ≤ u := by
      rcases (uses_mixed hbs).1 hu with e | e | e | e | e <;> simp at e <;> subst e
      · exact (one_two hb hu1 g1 hcan htwo).1
      · exact (one_two hb hu1 (by omega) hcan htwo.symm).1
    exact ⟨f, by simp [Spec.stepsOf]; omega⟩
  | [(f, u), (f', u')], hm, hu, hpos, _ =>
    right
    have hu1 : 1 ≤ u := hpos u (by simp)
    have hu2 : 1 ≤ u' := hpos u' (by simp)
    generalize e0 : c.flip.view = B at hm
    cases hm with
    | cons hc hm =>
      have hcan := canStep_iff.1 hc
      rw [after_view hb hu1 hcan] at hm
      cases hm with
      | cons hc' hm =>
        exact ⟨f, u, f', u', rfl, hu1, hu2, hcan, canStep_iff.1 hc'⟩
  | _ :: _ :: _ :: _, _, _, _, hl => simp [Spec.faces] at hl

/-- Two entries with the same steps, one right and one wrong: both sides have a checker on the bar. -/
theorem dup_bars {p c c' : Pos N} {b s : Nat} (hb : p.BarsOK) (hv : (Dice.mixed b s).Valid) {l : List Step} (h : (l, c) ∈ legalFor p (.mixed b s))
    (h' : (l, c') ∈ legalFor p (.mixed b s)) (hr : applyFor p (.mixed b s) (formatSteps l) = some c)
    (hw : applyFor p (.mixed b s) (formatSteps l) ≠ some c') : 1 ≤ p.pip 25 ∧ p.pip 0 ≤ -1 := by
  obtain ⟨⟨q, hq, he⟩, hno, hsym⟩ := entry_wrong hb hv h' hw
  have hc' := (legalFor_entry hb hv h').1
  obtain ⟨ht, hn⟩ := entry_wrong_two hb hv hc' hno
  have hshape := right_shape hb hv h hr ⟨_, Or.inr ht⟩
  have hv' := hv
  obtain ⟨g1, g2, g3⟩ : 1 ≤ s ∧ s < b ∧ b ≤ 6 := hv'
  have hd : Dies [b, s] := orders_dies hv _ (by simp [orders])
  have hd' : Dies [s, b] := orders_dies hv _ (by simp [orders])
  obtain ⟨x, y, hx, hy, eg⟩ := ht
  have hg : Leaf [s, b] p [⟨x, x - s⟩, ⟨y, y - b⟩] c'.flip := by rw [eg]; exact .move hx (.move hy (.nil _))
  have hoff : c'.flip.xOff = p.xOff := by
    by_contra hc
    exact hsym (symmetric_of_bear hb hv hq hg he hc)
  obtain ⟨e1, e2, e3⟩ := eqv_iff.1 he
  have a1 := (hq.o hd (barsOK_flip hb)).1
  have a2 := (hg.o hd' hb).1
  have f1 : p.flip.oOff = p.xOff := rfl
  have f2 : p.flip.xOff = p.oOff := rfl
  have hoffq : q.xOff = p.flip.xOff := by omega
  have fin : ∀ f, p.Can f b → p.flip.Can f b → f = 25 → 1 ≤ p.pip 25 ∧ p.pip 0 ≤ -1 := by
    rintro f k1 k2 rfl
    have := k1.own
    have k := k2.own
    rw [pip_flip p (by omega)] at k
    simp only [Nat.sub_self] at k
    omega
  cases hq with
  | @move _ _ f _ _ l' hc1 hq =>
    cases hq with
    | @move _ _ f' _ _ l'' hc2 hq =>
      cases hq
      rw [xOff_mv, xOff_mv] at hoffq
      have hbf : b < f := by by_contra hh; rw [if_neg hh] at hoffq; split_ifs at hoffq <;> omega
      have hsf : s < f' := by by_contra hh; rw [if_neg hh] at hoffq; split_ifs at hoffq <;> omega
      rw [eg, xOff_mv, xOff_mv] at hoff
      have hsx : s < x := by by_contra hh; rw [if_neg hh] at hoff; split_ifs at hoff <;> omega
      have hby : b < y := by by_contra hh; rw [if_neg hh] at hoff; split_ifs at hoff <;> omega
      rcases hshape with ⟨_, k⟩ | ⟨r, a, r', a', k, ha, ha', k1, k2⟩
      · simp at k
      · simp only [List.cons.injEq, Step.mk.injEq, and_true] at k
        obtain ⟨⟨rfl, ka⟩, rfl, ka'⟩ := k
        have : a = b := by omega
        have : a' = s := by omega
        subst_vars
        refine fin f k1 hc1 (dup_core hb g1 g2 g3 hx hy hsx hby hc1 hc2 hbf hsf k1 k2 ?_ (by rw [← eg]; exact hn) hsym)
        rw [← eg]; exact he
    | skip hs hq =>
      cases hq
      rw [xOff_mv] at hoffq
      have hbf : b < f := by by_contra hh; rw [if_neg hh] at hoffq; omega
      rcases hshape with ⟨_, k⟩ | ⟨r, a, r', a', k, -⟩
      · simp only [List.cons.injEq, Step.mk.injEq, and_true] at k; omega
      · simp at k
  | skip hs hq =>
    cases hq with
    | @move _ _ f' _ _ l'' hc2 hq =>
      cases hq
      rw [xOff_mv] at hoffq
      have hsf : s < f' := by by_contra hh; rw [if_neg hh] at hoffq; omega
      rcases hshape with ⟨_, k⟩ | ⟨r, a, r', a', k, -⟩
      · simp only [List.cons.injEq, Step.mk.injEq, and_true] at k; omega
      · simp at k
    | skip hs' hq =>
      cases hq
      rcases hshape with ⟨_, k⟩ | ⟨r, a, r', a', k, -⟩ <;> simp at k

end MoveText
end Bkgm
