import Verif.Model.Checked
import Verif.Proofs.Boards
import Verif.Proofs.Mixed
import Verif.Proofs.Double
import Mathlib.Algebra.Order.BigOperators.Group.Finset
/-!
# The checked move generator never reports a panic (lemmas for C16)
-/

namespace Bkgm
namespace Chk
open Pos
variable {N : Nat}

/-- At most 127 checkers per side on the board and off it. -/
structure Bd (p : Pos N) : Prop where
  x : (∑ i ∈ Finset.range 26, (p.pip i).toNat) + p.xOff ≤ 127
  o : (∑ i ∈ Finset.range 26, (-p.pip i).toNat) + p.oOff ≤ 127

theorem Bd.of_valid {p : Pos N} (h : p.Valid) (hN : N ≤ 127) : Bd p :=
  ⟨le_trans (le_of_eq h.sumX) hN, le_trans (le_of_eq h.sumO) hN⟩

theorem Bd.pip_le {p : Pos N} (h : Bd p) {i : Nat} (hi : i < 26) : -127 ≤ p.pip i ∧ p.pip i ≤ 127 := by
  have h1 : (p.pip i).toNat ≤ ∑ i ∈ Finset.range 26, (p.pip i).toNat :=
    Finset.single_le_sum (f := fun i => (p.pip i).toNat) (fun _ _ => Nat.zero_le _) (Finset.mem_range.2 hi)
  have h2 : (-p.pip i).toNat ≤ ∑ i ∈ Finset.range 26, (-p.pip i).toNat :=
    Finset.single_le_sum (f := fun i => (-p.pip i).toNat) (fun _ _ => Nat.zero_le _) (Finset.mem_range.2 hi)
  have := h.x; have := h.o
  omega

/-- Two different points together. -/
theorem Bd.two_le {p : Pos N} (h : Bd p) {i j : Nat} (hi : i < 26) (hj : j < 26) (hij : i ≠ j) :
    (p.pip i).toNat + (p.pip j).toNat ≤ 127 := by
  have h1 : ∑ k ∈ {i, j}, (p.pip k).toNat ≤ ∑ k ∈ Finset.range 26, (p.pip k).toNat :=
    Finset.sum_le_sum_of_subset (by intro k hk; simp only [Finset.mem_insert, Finset.mem_singleton] at hk; simp; omega)
  rw [Finset.sum_pair hij] at h1
  have := h.x
  omega

theorem sum_set (g : Int → Nat) (p : Pos N) {i : Nat} (hi : i < 26) (v : Int) :
    (∑ j ∈ Finset.range 26, g ((p.set i v).pip j)) + g (p.pip i) = (∑ j ∈ Finset.range 26, g (p.pip j)) + g v := by
  have hm : i ∈ Finset.range 26 := Finset.mem_range.2 hi
  rw [← Finset.add_sum_erase _ _ hm, ← Finset.add_sum_erase _ (fun j => g (p.pip j)) hm]
  have e : ∑ j ∈ (Finset.range 26).erase i, g ((p.set i v).pip j) = ∑ j ∈ (Finset.range 26).erase i, g (p.pip j) := by
    refine Finset.sum_congr rfl fun j hj => ?_
    rw [pip_set p hi, if_neg (Finset.ne_of_mem_erase hj)]
  rw [e, pip_set p hi, if_pos rfl]
  omega

theorem x_set (p : Pos N) {i : Nat} (hi : i < 26) (v : Int) :
    (∑ j ∈ Finset.range 26, ((p.set i v).pip j).toNat) + (p.pip i).toNat = (∑ j ∈ Finset.range 26, (p.pip j).toNat) + v.toNat :=
  sum_set Int.toNat p hi v
theorem o_set (p : Pos N) {i : Nat} (hi : i < 26) (v : Int) :
    (∑ j ∈ Finset.range 26, (-(p.set i v).pip j).toNat) + (-p.pip i).toNat = (∑ j ∈ Finset.range 26, (-p.pip j).toNat) + (-v).toNat :=
  sum_set (fun v => (-v).toNat) p hi v

@[simp] theorem get_ok (p : Pos N) {i : Nat} (h : i < 26) : get p i = some (p.pip i) := if_pos h
@[simp] theorem put_ok (p : Pos N) {i : Nat} (h : i < 26) (v : Int) : put p i v = some (p.set i v) := if_pos h
theorem i8_ok {v : Int} (h : -128 ≤ v ∧ v ≤ 127) : i8 v = some v := if_pos h
theorem sub_ok {a b : Nat} (h : b ≤ a) : sub a b = some (a - b) := if_pos h
theorem u8_ok {v : Nat} (h : v ≤ 255) : u8 v = some v := if_pos h
theorem assert_ok {c : Bool} (h : c = true) : assert c = some () := if_pos h

theorem collect_ok {α : Type} {f : Nat → Option (List α)} {g : Nat → List α} : ∀ {l : List Nat}, (∀ i ∈ l, f i = some (g i)) →
    collect f l = some (l.flatMap g)
  | [], _ => rfl
  | i :: l, h => by
    rw [collect, h i (by simp), collect_ok (l := l) fun j hj => h j (by simp [hj])]
    rfl

theorem bd_mv {p : Pos N} (h : Bd p) {f d : Nat} (hf : f < 26) (hd : 1 ≤ d) (hp : 1 ≤ p.pip f)
    (ht : d < f → p.pip (f - d) > -2) : Bd (p.mv f d) := by
  have a1 := x_set p hf (p.pip f - 1)
  have a2 := o_set p hf (p.pip f - 1)
  have hx := h.x; have ho := h.o
  unfold Pos.mv
  simp only
  split_ifs with h1 h2
  · have h2' : p.pip (f - d) = -1 := by rwa [pip_set p hf, if_neg (by omega)] at h2
    have b1 := x_set (p.set f (p.pip f - 1)) (i := f - d) (by omega) 1
    have b2 := o_set (p.set f (p.pip f - 1)) (i := f - d) (by omega) 1
    have c1 := x_set ((p.set f (p.pip f - 1)).set (f - d) 1) (i := 0) (by omega) (((p.set f (p.pip f - 1)).set (f - d) 1).pip 0 - 1)
    have c2 := o_set ((p.set f (p.pip f - 1)).set (f - d) 1) (i := 0) (by omega) (((p.set f (p.pip f - 1)).set (f - d) 1).pip 0 - 1)
    rw [h2] at b1 b2
    constructor
    · simp only [xOff_set]; omega
    · simp only [oOff_set]; omega
  · have b1 := x_set (p.set f (p.pip f - 1)) (i := f - d) (by omega) ((p.set f (p.pip f - 1)).pip (f - d) + 1)
    have b2 := o_set (p.set f (p.pip f - 1)) (i := f - d) (by omega) ((p.set f (p.pip f - 1)).pip (f - d) + 1)
    constructor
    · simp only [xOff_set]; omega
    · simp only [oOff_set]; omega
  · constructor
    · simp only [pip_xOff, xOff_set]; omega
    · simp only [pip_xOff]
      change _ + p.oOff ≤ _
      omega

theorem mv_ok {p : Pos N} (h : Bd p) {f d : Nat} (hf : f < 26) (hd : 1 ≤ d) (hp : 1 ≤ p.pip f) :
    mv p f d = some (p.mv f d) := by
  have hb := h.pip_le hf
  have hx := h.x
  unfold mv Pos.mv
  simp only [get_ok p hf, Option.bind_eq_bind, Option.bind_some, i8_ok (v := p.pip f - 1) ⟨by omega, by omega⟩, put_ok p hf]
  split_ifs with h1 h2
  · simp only [sub_ok (Nat.le_of_lt h1), Option.bind_some, get_ok _ (show f - d < 26 by omega), put_ok _ (show f - d < 26 by omega), h2,
      if_true, get_ok _ (show 0 < 26 by omega), put_ok _ (show 0 < 26 by omega)]
    have h0 : -127 ≤ ((p.set f (p.pip f - 1)).set (f - d) 1).pip 0 ∧ ((p.set f (p.pip f - 1)).set (f - d) 1).pip 0 ≤ 127 := by
      have := h.pip_le (show 0 < 26 by omega)
      rw [pip_set _ (by omega), pip_set _ hf]
      split_ifs <;> omega
    rw [i8_ok ⟨by omega, by omega⟩]
    rfl
  · simp only [sub_ok (Nat.le_of_lt h1), Option.bind_some, get_ok _ (show f - d < 26 by omega), put_ok _ (show f - d < 26 by omega), h2,
      if_false]
    have h3 := h.two_le hf (show f - d < 26 by omega) (by omega)
    have h4 := h.pip_le (show f - d < 26 by omega)
    have h5 : (p.set f (p.pip f - 1)).pip (f - d) = p.pip (f - d) := by rw [pip_set p hf, if_neg (by omega)]
    rw [h5, i8_ok ⟨by omega, by omega⟩]
    rfl
  · rw [u8_ok (by simp only [xOff_set]; omega)]
    rfl

theorem canMoveB_ok (p : Pos N) {f d : Nat} (hf : f < 26) : canMoveB p f d = some (p.canMoveB f d) := by
  unfold canMoveB Pos.canMoveB
  simp only [get_ok p hf, Option.bind_eq_bind, Option.bind_some]
  split_ifs with h1 h2
  · rfl
  · simp only [sub_ok (Nat.le_of_lt h2), get_ok p (show f - d < 26 by omega), Option.bind_some]
    rfl
  · rfl

theorem canMoveB_true {p : Pos N} {f d : Nat} (h : p.canMoveB f d = true) : 1 ≤ p.pip f ∧ (d < f → p.pip (f - d) > -2) := by
  unfold Pos.canMoveB at h
  split_ifs at h with h1 h2
  · exact ⟨by omega, fun _ => by simpa using h⟩
  · exact ⟨by omega, fun h' => absurd h' h2⟩

theorem bd_mvB {p : Pos N} (h : Bd p) {f d : Nat} (hf : f < 26) (hd : 1 ≤ d) (hc : p.canMoveB f d = true) : Bd (p.mv f d) :=
  bd_mv h hf hd (canMoveB_true hc).1 (canMoveB_true hc).2

theorem step_ok {α : Type} {p : Pos N} (h : Bd p) {f d : Nat} (hf : f < 26) (hd : 1 ≤ d) {k : Pos N → Option (List α)} {m : Pos N → List α}
    (hk : p.canMoveB f d = true → k (p.mv f d) = some (m (p.mv f d))) :
    (do
      let c ← canMoveB p f d
      if c then
        let q ← mv p f d
        k q
      else pure []) = some (if p.canMoveB f d then m (p.mv f d) else []) := by
  simp only [canMoveB_ok p hf, Option.bind_eq_bind, Option.bind_some]
  split_ifs with hc
  · rw [mv_ok h hf hd (canMoveB_true hc).1, Option.bind_some, hk hc]
  · rfl

theorem movesFrom_ok {p : Pos N} (h : Bd p) {d : Nat} (hd : 1 ≤ d) {r : List Nat} (hr : ∀ i ∈ r, i < 26) :
    movesFrom p d r = some (p.movesFrom d r) :=
  collect_ok fun i hi => step_ok (k := fun q => pure [q]) (m := fun q => [q]) h (hr i hi) hd fun _ => rfl

theorem rng_lt {a b : Nat} (hb : b ≤ 26) : ∀ i ∈ rng a b, i < 26 := fun i hi => by have := mem_rng.1 hi; omega

/-! ## Doubles -/

theorem afterEntering_ok {p : Pos N} (h : Bd p) (h25 : 0 ≤ p.pip 25) {d : Nat} (hd : 1 ≤ d) (hd6 : d ≤ 6)
    (ht : p.pip 25 > 0 → p.pip (25 - d) > -2) : afterEntering p d = some (p.afterEntering d) ∧ Bd (p.afterEntering d).1 := by
  have hx := h.x; have ho := h.o
  have b25 := h.pip_le (show 25 < 26 by omega)
  have bt := h.pip_le (show 25 - d < 26 by omega)
  have b0 := h.pip_le (show 0 < 26 by omega)
  have b2 := h.two_le (show 25 < 26 by omega) (show 25 - d < 26 by omega) (by omega)
  unfold afterEntering Pos.afterEntering
  simp only [get_ok p (show 25 < 26 by omega), Option.bind_eq_bind, Option.bind_some]
  by_cases e0 : p.pip 25 = 0
  · simp only [e0, if_true]
    exact ⟨rfl, h⟩
  · have hgt : p.pip (25 - d) > -2 := ht (by omega)
    have hn : min 4 (p.pip 25) > 0 := by omega
    generalize hm : min 4 (p.pip 25) = n at hn ⊢
    have hn1 : n ≤ p.pip 25 := by omega
    have e1 : 25 - d ≠ 25 := by omega
    have e2 : (25 : Nat) - d ≠ 0 := by omega
    simp only [e0, if_false, sub_ok (show d ≤ 25 by omega), Option.bind_some, get_ok p (show 25 - d < 26 by omega), hn, if_true,
      assert_ok (decide_eq_true hgt), get_ok p (show 25 < 26 by omega), i8_ok (v := p.pip 25 - n) ⟨by omega, by omega⟩,
      put_ok p (show 25 < 26 by omega)]
    have a1 := x_set p (show 25 < 26 by omega) (p.pip 25 - n)
    have a2 := o_set p (show 25 < 26 by omega) (p.pip 25 - n)
    by_cases hit : p.pip (25 - d) = -1
    · simp only [hit, if_true, get_ok _ (show 0 < 26 by omega), Option.bind_some, put_ok _ (show 0 < 26 by omega),
        put_ok _ (show 25 - d < 26 by omega)]
      have q0 : (p.set 25 (p.pip 25 - n)).pip 0 = p.pip 0 := by rw [pip_set _ (by omega), if_neg (by omega)]
      rw [q0, i8_ok ⟨by omega, by omega⟩]
      refine ⟨rfl, ?_⟩
      have c1 := x_set (p.set 25 (p.pip 25 - n)) (show 0 < 26 by omega) (p.pip 0 - 1)
      have c2 := o_set (p.set 25 (p.pip 25 - n)) (show 0 < 26 by omega) (p.pip 0 - 1)
      have d1 := x_set ((p.set 25 (p.pip 25 - n)).set 0 (p.pip 0 - 1)) (show 25 - d < 26 by omega) n
      have d2 := o_set ((p.set 25 (p.pip 25 - n)).set 0 (p.pip 0 - 1)) (show 25 - d < 26 by omega) n
      have qt : ((p.set 25 (p.pip 25 - n)).set 0 (p.pip 0 - 1)).pip (25 - d) = -1 := by
        rw [pip_set _ (by omega), if_neg e2, pip_set _ (by omega), if_neg e1, hit]
      rw [q0] at c1 c2
      rw [qt] at d1 d2
      constructor
      · simp only [xOff_set]; omega
      · simp only [oOff_set]; omega
    · have qt : (p.set 25 (p.pip 25 - n)).pip (25 - d) = p.pip (25 - d) := by rw [pip_set _ (by omega), if_neg e1]
      simp only [hit, if_false, get_ok _ (show 25 - d < 26 by omega), Option.bind_some, put_ok _ (show 25 - d < 26 by omega), qt]
      rw [i8_ok ⟨by omega, by omega⟩]
      refine ⟨rfl, ?_⟩
      have c1 := x_set (p.set 25 (p.pip 25 - n)) (show 25 - d < 26 by omega) (p.pip (25 - d) + n)
      have c2 := o_set (p.set 25 (p.pip 25 - n)) (show 25 - d < 26 by omega) (p.pip (25 - d) + n)
      rw [qt] at c1 c2
      constructor
      · simp only [xOff_set]; omega
      · simp only [oOff_set]; omega

theorem movableLoop_ok {d M : Nat} (hd : 1 ≤ d) (pip : Nat) : ∀ (c : Nat) (p : Pos N), pip ≤ 24 → Bd p →
    movableLoop d M pip c p = some (Pos.movableLoop d M pip c p) ∧ Bd (Pos.movableLoop d M pip c p).2 := by
  induction pip with
  | zero => intro c p _ h; exact ⟨rfl, h⟩
  | succ n ih =>
    intro c p hn h
    rw [movableLoop, Pos.movableLoop]
    by_cases hc : c < M ∧ n + 1 > d
    · rw [if_pos hc, if_pos hc, canMoveB_ok p (by omega)]
      simp only [Option.bind_eq_bind, Option.bind_some]
      by_cases hb : p.canMoveB (n + 1) d = true
      · rw [if_pos hb, if_pos hb]
        obtain ⟨hp1, hp2⟩ := canMoveB_true hb
        have hp2 := hp2 hc.2
        have h3 := h.two_le (show n + 1 < 26 by omega) (show n + 1 - d < 26 by omega) (by omega)
        have h4 := h.pip_le (show n + 1 - d < 26 by omega)
        have hx := h.x; have ho := h.o
        have qt : (p.set (n + 1) 0).pip (n + 1 - d) = p.pip (n + 1 - d) := by rw [pip_set _ (by omega), if_neg (by omega)]
        simp only [get_ok _ (show n + 1 < 26 by omega), put_ok _ (show n + 1 < 26 by omega), Option.bind_some,
          sub_ok (show d ≤ n + 1 by omega), get_ok _ (show n + 1 - d < 26 by omega), put_ok _ (show n + 1 - d < 26 by omega), qt]
        have a1 := x_set p (show n + 1 < 26 by omega) 0
        have a2 := o_set p (show n + 1 < 26 by omega) 0
        by_cases hit : p.pip (n + 1 - d) = -1
        · rw [if_pos hit, if_pos hit]
          have b1 := x_set (p.set (n + 1) 0) (show n + 1 - d < 26 by omega) (p.pip (n + 1))
          have b2 := o_set (p.set (n + 1) 0) (show n + 1 - d < 26 by omega) (p.pip (n + 1))
          rw [qt] at b1 b2
          exact ih _ _ (by omega) ⟨by simp only [xOff_set]; omega, by simp only [oOff_set]; omega⟩
        · rw [if_neg hit, if_neg hit, i8_ok ⟨by omega, by omega⟩]
          simp only [Option.bind_some]
          have b1 := x_set (p.set (n + 1) 0) (show n + 1 - d < 26 by omega) (p.pip (n + 1 - d) + p.pip (n + 1))
          have b2 := o_set (p.set (n + 1) 0) (show n + 1 - d < 26 by omega) (p.pip (n + 1 - d) + p.pip (n + 1))
          rw [qt] at b1 b2
          exact ih _ _ (by omega) ⟨by simp only [xOff_set]; omega, by simp only [oOff_set]; omega⟩
      · rw [if_neg hb, if_neg hb]
        exact ih _ _ (by omega) h
    · rw [if_neg hc, if_neg hc]
      exact ⟨rfl, h⟩

theorem sumI8_ok : ∀ (l : List Int) (acc : Int), 0 ≤ acc → (∀ v ∈ l, 0 < v) → acc + l.sum ≤ 127 → sumI8 l acc = some (acc + l.sum)
  | [], acc, _, _, _ => by simp [sumI8]
  | v :: l, acc, h0, hv, hs => by
    have hpos : 0 ≤ l.sum := List.sum_nonneg fun w hw => (hv w (by simp [hw])).le
    have hv0 := hv v (by simp)
    rw [List.sum_cons] at hs ⊢
    rw [sumI8, i8_ok ⟨by omega, by omega⟩]
    simp only [Option.bind_eq_bind, Option.bind_some]
    rw [sumI8_ok l (acc + v) (by omega) (fun w hw => hv w (by simp [hw])) (by omega), add_assoc]

theorem bearoff_sum_le {p : Pos N} (h : Bd p) {d : Nat} (hd : d ≤ 6) :
    (((rng 1 (d + 1)).map p.pip).filter fun v => decide (v > 0)).sum ≤ 127 := by
  rw [filter_pos_sum, List.map_map]
  have e : ((rng 1 (d + 1)).map ((fun v => max v 0) ∘ p.pip)).sum = ((∑ i ∈ (rng 1 (d + 1)).toFinset, (p.pip i).toNat : Nat) : Int) := by
    rw [Nat.cast_sum, List.sum_toFinset _ (nodup_rng _ _)]
    congr 1
    refine List.map_congr_left fun i _ => ?_
    simp only [Function.comp_apply]
    omega
  rw [e]
  have : ∑ i ∈ (rng 1 (d + 1)).toFinset, (p.pip i).toNat ≤ ∑ i ∈ Finset.range 26, (p.pip i).toNat :=
    Finset.sum_le_sum_of_subset fun i hi => by
      have := mem_rng.1 (List.mem_toFinset.1 hi)
      exact Finset.mem_range.2 (by omega)
  have := h.x
  omega

theorem numberOfMovable_ok {p : Pos N} (h : Bd p) {d entered : Nat} (hd : 1 ≤ d) (hd6 : d ≤ 6) (he : entered ≤ 4) :
    numberOfMovable p d entered = some (p.numberOfMovable d entered) := by
  obtain ⟨h1, h2⟩ := movableLoop_ok (M := 4 - entered) hd 24 0 p (by omega) h
  unfold numberOfMovable Pos.numberOfMovable
  simp only [sub_ok he, Option.bind_eq_bind, Option.bind_some, h1]
  generalize Pos.movableLoop d (4 - entered) 24 0 p = r at h2
  obtain ⟨c, q⟩ := r
  simp only at h2 ⊢
  split_ifs with hc
  · rfl
  · cases hq : q.rposX with
    | none => rfl
    | some b =>
      simp only
      by_cases c1 : b > 6
      · simp only [c1, if_true]; rfl
      · by_cases c2 : b > d
        · simp only [c1, c2, if_true, if_false, get_ok q (show d < 26 by omega), Option.bind_some]; rfl
        · simp only [c1, c2, if_false]
          rw [assert_ok (decide_eq_true ⟨by omega, by omega⟩), Option.bind_some, sumI8_ok _ 0 (by omega)]
          · simp only [Option.bind_some, zero_add]
            rfl
          · intro v hv
            exact of_decide_eq_true (List.mem_filter.1 hv).2
          · rw [zero_add]; exact bearoff_sum_le h2 hd6

theorem doubleAfterEntering_ok {p : Pos N} (h : Bd p) {d entered : Nat} (hd : 1 ≤ d) (hd6 : d ≤ 6) (he : entered ≤ 4) :
    doubleAfterEntering p d entered = some (p.doubleAfterEntering d entered) := by
  unfold doubleAfterEntering Pos.doubleAfterEntering
  simp only [numberOfMovable_ok h hd hd6 he, Option.bind_eq_bind, Option.bind_some]
  generalize p.numberOfMovable d entered = nr
  by_cases h0 : nr = 0
  · rw [if_pos h0, if_pos h0]; rfl
  rw [if_neg h0, if_neg h0]
  refine collect_ok fun i1 hi1 => ?_
  have l1 := rng_lt (by omega) i1 hi1
  refine step_ok (k := fun p1 => _) (m := fun p1 => if nr = 1 then [p1] else _) h l1 hd fun c1 => ?_
  have b1 := bd_mvB h l1 hd c1
  by_cases n1 : nr = 1
  · simp only [n1, if_true]; rfl
  simp only [n1, if_false]
  refine collect_ok fun i2 hi2 => ?_
  have m1 := mem_rng.1 hi1
  have m2 := mem_rng.1 hi2
  have l2 : i2 < 26 := by omega
  refine step_ok (k := fun p2 => _) (m := fun p2 => if nr = 2 then [p2] else _) b1 l2 hd fun c2 => ?_
  have b2 := bd_mvB b1 l2 hd c2
  by_cases n2 : nr = 2
  · simp only [n2, if_true]; rfl
  simp only [n2, if_false]
  refine collect_ok fun i3 hi3 => ?_
  have m3 := mem_rng.1 hi3
  have l3 : i3 < 26 := by omega
  refine step_ok (k := fun p3 => _) (m := fun p3 => if nr = 3 then [p3] else _) b2 l3 hd fun c3 => ?_
  have b3 := bd_mvB b2 l3 hd c3
  by_cases n3 : nr = 3
  · simp only [n3, if_true]; rfl
  simp only [n3, if_false]
  exact movesFrom_ok b3 hd (rng_lt (by omega))

theorem doubleMoves_ok {p : Pos N} (h : Bd p) (hb : p.BarsOK) {d : Nat} (hd : 1 ≤ d) (hd6 : d ≤ 6) (hne : p.doubleMoves d ≠ []) :
    doubleMoves p d = some (p.doubleMoves d) := by
  unfold Pos.doubleMoves at hne
  unfold doubleMoves Pos.doubleMoves
  simp only [get_ok p (show 25 < 26 by omega), sub_ok (show d ≤ 25 by omega), get_ok p (show 25 - d < 26 by omega), Option.bind_eq_bind,
    Option.bind_some]
  by_cases hc : p.pip 25 > 0 ∧ p.pip (25 - d) < -1
  · rw [if_pos hc, if_pos hc]; rfl
  · rw [if_neg hc] at hne ⊢
    rw [if_neg hc]
    obtain ⟨h1, h2⟩ := afterEntering_ok h hb.2 hd hd6 fun h' => by omega
    rw [h1]
    have he : (p.afterEntering d).2 ≤ 4 := by
      unfold Pos.afterEntering
      by_cases e0 : p.pip 25 = 0
      · rw [if_pos e0]; simp
      · rw [if_neg e0]
        change (min 4 (p.pip 25)).toNat ≤ 4
        omega
    generalize p.afterEntering d = r at h2 he hne ⊢
    obtain ⟨q, e⟩ := r
    simp only [Option.bind_some] at h2 he hne ⊢
    by_cases e4 : e = 4
    · rw [if_pos e4, if_pos e4]; rfl
    · rw [if_neg e4] at hne ⊢
      rw [if_neg e4, doubleAfterEntering_ok h2 hd hd6 he, Option.bind_some, assert_ok (by simpa using hne)]
      rfl

/-! ## Mixed rolls -/

theorem canEnter_ok {p : Pos N} (h25 : 0 < p.pip 25) {d : Nat} (hd : d ≤ 6) : canEnter p d = some (p.canEnter d) := by
  unfold canEnter Pos.canEnter
  simp only [get_ok p (show 25 < 26 by omega), sub_ok (show d ≤ 25 by omega), get_ok p (show 25 - d < 26 by omega), Option.bind_eq_bind,
    Option.bind_some, assert_ok (decide_eq_true h25)]
  rfl

theorem enter_ok {p : Pos N} (h : Bd p) (h25 : 0 < p.pip 25) {d : Nat} (hd : 1 ≤ d) (hd6 : d ≤ 6) (hc : p.canEnter d = true) :
    enter p d = some (p.enter d) ∧ Bd (p.enter d) := by
  have hgt : p.pip (25 - d) > -2 := of_decide_eq_true hc
  have hm := mv_ok h (show 25 < 26 by omega) hd (by omega)
  have hbd : Bd (p.enter d) := by rw [enter_eq_mv p hd6]; exact bd_mv h (by omega) hd (by omega) fun _ => hgt
  refine ⟨?_, hbd⟩
  rw [enter_eq_mv p hd6, ← hm]
  unfold enter mv
  simp only [get_ok p (show 25 < 26 by omega), sub_ok (show d ≤ 25 by omega), get_ok p (show 25 - d < 26 by omega), Option.bind_eq_bind,
    Option.bind_some, assert_ok (decide_eq_true h25), assert_ok (decide_eq_true hgt), if_pos (show 25 > d by omega)]

theorem mixed2_ok {p : Pos N} (h : Bd p) (h25 : 1 < p.pip 25) {big small : Nat} (h1 : 1 ≤ small) (h2 : small < big) (h3 : big ≤ 6) :
    mixed2 p big small = some (p.mixed2 big small) := by
  unfold mixed2 Pos.mixed2
  simp only [get_ok p (show 25 < 26 by omega), Option.bind_eq_bind, Option.bind_some, assert_ok (decide_eq_true h25),
    canEnter_ok (show 0 < p.pip 25 by omega) h3]
  have key : ∀ q : Pos N, Bd q → 0 < q.pip 25 →
      ((canEnter q small).bind fun c => if c = true then (enter q small).bind fun q => pure [q] else (pure q : Option (Pos N)).bind fun q => pure [q]) =
        some [if q.canEnter small = true then q.enter small else q] := by
    intro q hq h25q
    rw [canEnter_ok h25q (by omega), Option.bind_some]
    by_cases hc : q.canEnter small = true
    · rw [if_pos hc, if_pos hc, (enter_ok hq h25q h1 (by omega) hc).1]; rfl
    · rw [if_neg hc, if_neg hc]; rfl
  by_cases hc : p.canEnter big = true
  · obtain ⟨e1, e2⟩ := enter_ok h (by omega) (by omega) h3 hc
    rw [if_pos hc, if_pos hc, e1, Option.bind_some]
    refine key _ e2 ?_
    rw [enter_eq_mv p h3, pip_mv p (by omega) (by omega)]
    split_ifs <;> omega
  · rw [if_neg hc, if_neg hc]
    exact key p h (by omega)

theorem mixed1_ok {p : Pos N} (h : Bd p) (h25 : p.pip 25 = 1) {big small : Nat} (h1 : 1 ≤ small) (h2 : small < big) (h3 : big ≤ 6) :
    mixed1 p big small = some (p.mixed1 big small) := by
  have hp : 0 < p.pip 25 := by omega
  unfold mixed1 Pos.mixed1
  simp only [get_ok p (show 25 < 26 by omega), Option.bind_eq_bind, Option.bind_some, assert_ok (decide_eq_true h25), canEnter_ok hp h3,
    canEnter_ok hp (show small ≤ 6 by omega), sub_ok (show big ≤ 25 by omega), sub_ok (show small ≤ 25 by omega),
    get_ok p (show 25 - big < 26 by omega), get_ok p (show 25 - small < 26 by omega)]
  have eb : (if p.canEnter big = true then (enter p big).bind fun q => pure (some q) else pure none : Option (Option (Pos N))) =
      some (if p.canEnter big = true then some (p.enter big) else none) := by
    by_cases hc : p.canEnter big = true
    · rw [if_pos hc, if_pos hc, (enter_ok h hp (by omega) h3 hc).1]; rfl
    · rw [if_neg hc, if_neg hc]; rfl
  have es : (if p.canEnter small = true then (enter p small).bind fun q => pure (some q) else pure none : Option (Option (Pos N))) =
      some (if p.canEnter small = true then some (p.enter small) else none) := by
    by_cases hc : p.canEnter small = true
    · rw [if_pos hc, if_pos hc, (enter_ok h hp h1 (by omega) hc).1]; rfl
    · rw [if_neg hc, if_neg hc]; rfl
  have bb : ∀ q, (if p.canEnter big = true then some (p.enter big) else none) = some q → Bd q := by
    intro q hq
    by_cases hc : p.canEnter big = true
    · rw [if_pos hc] at hq; obtain rfl := Option.some.inj hq; exact (enter_ok h hp (by omega) h3 hc).2
    · rw [if_neg hc] at hq; cases hq
  have bs : ∀ q, (if p.canEnter small = true then some (p.enter small) else none) = some q → Bd q := by
    intro q hq
    by_cases hc : p.canEnter small = true
    · rw [if_pos hc] at hq; obtain rfl := Option.some.inj hq; exact (enter_ok h hp h1 (by omega) hc).2
    · rw [if_neg hc] at hq; cases hq
  have ed : (if p.pip (25 - big) < 0 then pure true else pure (decide (p.pip (25 - small) < 0)) : Option Bool) =
      some (decide (p.pip (25 - big) < 0) || decide (p.pip (25 - small) < 0)) := by
    by_cases hc : p.pip (25 - big) < 0
    · rw [if_pos hc, decide_eq_true hc]; rfl
    · rw [if_neg hc, decide_eq_false hc]; rfl
  rw [eb, es, ed]
  generalize (if p.canEnter big = true then some (p.enter big) else none) = oB at bb
  generalize (if p.canEnter small = true then some (p.enter small) else none) = oS at bs
  generalize (decide (p.pip (25 - big) < 0) || decide (p.pip (25 - small) < 0)) = dif
  simp only [Option.bind_some]
  have r1 : ∀ i ∈ rng (small + 1) 25, i < 26 := rng_lt (by omega)
  have r2 : ∀ i ∈ (if dif = true then rng (big + 1) 25 else rng (big + 1) (25 - small) ++ rng (25 - small + 1) 25), i < 26 := by
    intro i hi
    split_ifs at hi
    · exact rng_lt (by omega) i hi
    · rcases List.mem_append.1 hi with hi | hi
      · exact rng_lt (by omega) i hi
      · exact rng_lt (by omega) i hi
  cases oB with
  | none =>
    cases oS with
    | none => rfl
    | some qs =>
      simp only [movesFrom_ok (bs qs rfl) (show 1 ≤ big by omega) r2, Option.bind_some, Option.pure_def]
      split_ifs <;> rfl
  | some qb =>
    cases oS with
    | none =>
      simp only [movesFrom_ok (bb qb rfl) h1 r1, Option.bind_some, Option.pure_def]
      split_ifs <;> rfl
    | some qs =>
      simp only [movesFrom_ok (bb qb rfl) h1 r1, movesFrom_ok (bs qs rfl) (show 1 ≤ big by omega) r2, Option.bind_some, Option.pure_def]
      split_ifs <;> rfl

theorem oneChecker_ok {p : Pos N} (h : Bd p) (h25 : p.pip 25 = 0) {d : Nat} (hd : 1 ≤ d) :
    oneCheckerMoves p d = some (p.oneCheckerMoves d) := by
  unfold oneCheckerMoves Pos.oneCheckerMoves
  simp only [get_ok p (show 25 < 26 by omega), Option.bind_eq_bind, Option.bind_some, assert_ok (decide_eq_true h25)]
  exact movesFrom_ok h hd (rng_lt (by omega))

theorem smallFirst_ok {p : Pos N} (h : Bd p) {big small : Nat} (h1 : 1 ≤ small) (h2 : small < big) :
    smallFirst p big small = some (p.smallFirst big small) := by
  refine collect_ok fun i hi => ?_
  have m := mem_rng.1 (List.mem_reverse.1 hi)
  refine step_ok (k := fun q => _) (m := fun q => _) h (by omega) h1 fun c => ?_
  exact movesFrom_ok (bd_mvB h (by omega) h1 c) (by omega) fun j hj => rng_lt (by omega) j (List.mem_reverse.1 hj)

theorem bigFirst_ok {p : Pos N} (h : Bd p) {big small : Nat} (h1 : 1 ≤ small) (h2 : small < big) :
    bigFirst p big small = some (p.bigFirst big small) := by
  refine collect_ok fun i hi => ?_
  have m := mem_rng.1 hi
  refine step_ok (k := fun q => _) (m := fun q => _) h (by omega) (by omega) fun c => ?_
  have ed : (if i ≥ big then (sub i big).bind fun t => (get p t).bind fun v => if v < 0 then pure true else
        (sub i small).bind fun t => (get p t).bind fun v => pure (decide (v < 0)) else pure false : Option Bool) =
      some (decide (i ≥ big) && (decide (p.pip (i - big) < 0) || decide (p.pip (i - small) < 0))) := by
    by_cases hge : i ≥ big
    · rw [if_pos hge, sub_ok hge, sub_ok (show small ≤ i by omega), decide_eq_true hge]
      simp only [Option.bind_some, get_ok p (show i - big < 26 by omega), get_ok p (show i - small < 26 by omega)]
      by_cases hc : p.pip (i - big) < 0
      · rw [if_pos hc, decide_eq_true hc]; rfl
      · rw [if_neg hc, decide_eq_false hc]; rfl
    · rw [if_neg hge, decide_eq_false hge]; rfl
  simp only [Option.bind_eq_bind]
  rw [ed, Option.bind_some]
  refine movesFrom_ok (bd_mvB h (by omega) (by omega) c) h1 fun j hj => ?_
  split_ifs at hj
  · exact rng_lt (by omega) j hj
  · rcases List.mem_append.1 hj with hj | hj
    · exact rng_lt (by omega) j hj
    · exact rng_lt (by omega) j hj

theorem mixed0_ok {p : Pos N} (h : Bd p) (h25 : p.pip 25 = 0) {big small : Nat} (h1 : 1 ≤ small) (h2 : small < big) :
    mixed0 p big small = some (p.mixed0 big small) := by
  unfold mixed0 Pos.mixed0 twoCheckerMoves
  simp only [get_ok p (show 25 < 26 by omega), Option.bind_eq_bind, Option.bind_some, assert_ok (decide_eq_true h25),
    smallFirst_ok h h1 h2, bigFirst_ok h h1 h2, oneChecker_ok h h25 h1, oneChecker_ok h h25 (show 1 ≤ big by omega), Option.pure_def]
  split_ifs <;> rfl

theorem mixedMoves_ok {p : Pos N} (h : Bd p) (hb : p.BarsOK) {big small : Nat} (h1 : 1 ≤ small) (h2 : small < big) (h3 : big ≤ 6) :
    mixedMoves p big small = some (p.mixedMoves big small) := by
  have h25 := hb.2
  unfold mixedMoves Pos.mixedMoves
  simp only [get_ok p (show 25 < 26 by omega), Option.bind_eq_bind, Option.bind_some, assert_ok (decide_eq_true (show big > small from h2))]
  split_ifs with e0 e1
  · exact mixed0_ok h e0 h1 h2
  · exact mixed1_ok h e1 h1 h2 h3
  · exact mixed2_ok h (by omega) h1 h2 h3

theorem flipAll_ok : ∀ {l : List (Pos N)}, (∀ q ∈ l, ∀ i : Fin 26, -127 ≤ q.pips i ∧ q.pips i ≤ 127) → flipAll l = some (l.map Pos.flip)
  | [], _ => rfl
  | q :: l, h => by
    have hq : flip q = some q.flip := if_pos fun i => by have := h q (by simp) i; omega
    rw [flipAll, hq, flipAll_ok (l := l) fun r hr => h r (by simp [hr])]
    rfl

end Chk
end Bkgm
