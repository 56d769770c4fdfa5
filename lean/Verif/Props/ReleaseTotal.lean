import Verif.Props.ReleaseGen
/-!
# C95: a release build's generator never panics, whatever the board
-/

namespace Bkgm
open Pos
variable {N : Nat}

namespace Rel

/-- The run returns. -/
def Ok {α : Type} (x : Option α) : Prop := ∃ a, x = some a

namespace Ok
variable {α β : Type}

theorem some (a : α) : Ok (Option.some a) := ⟨a, rfl⟩
theorem pure (a : α) : Ok (Pure.pure a : Option α) := ⟨a, rfl⟩

theorem bind {x : Option α} {k : α → Option β} (h : Ok x) (hk : ∀ a, x = Option.some a → Ok (k a)) : Ok (x >>= k) := by
  obtain ⟨a, rfl⟩ := h
  exact hk a rfl

theorem ite {c : Prop} [Decidable c] {x y : Option α} (h1 : c → Ok x) (h2 : ¬ c → Ok y) : Ok (if c then x else y) := by
  split_ifs with h
  · exact h1 h
  · exact h2 h

theorem get (p : Pos N) {i : Nat} (h : i < 26) : Ok (Chk.get p i) := ⟨_, if_pos h⟩
theorem put (p : Pos N) {i : Nat} (h : i < 26) (v : Int) : Ok (Chk.put p i v) := ⟨_, if_pos h⟩
theorem assert {c : Bool} (h : c = true) : Ok (Chk.assert c) := ⟨(), by rw [h]; rfl⟩

theorem collect {k : Nat → Option (List α)} : ∀ {l : List Nat}, (∀ i ∈ l, Ok (k i)) → Ok (Chk.collect k l)
  | [], _ => ⟨[], rfl⟩
  | i :: l, h => bind (h i (by simp)) fun _ _ => bind (collect (l := l) fun j hj => h j (by simp [hj])) fun _ _ => pure _

end Ok

theorem sub_lt {a b : Nat} (h : b ≤ a) (ha : a < 26) : sub a b < 26 := by unfold sub; omega

theorem mv_okR (p : Pos N) {f : Nat} (d : Nat) (hf : f < 26) : Ok (mv p f d) := by
  unfold mv
  refine .bind (.get p hf) fun v _ => .bind (.put p hf _) fun q _ => .ite (fun h => ?_) fun _ => .pure _
  have hs := sub_lt (a := f) (b := d) (by omega) hf
  refine .bind (.get q hs) fun w _ => .ite (fun _ => ?_) fun _ => .put q hs _
  exact .bind (.put q hs _) fun r _ => .bind (.get r (by decide)) fun b _ => .put r (by decide) _

theorem canMoveB_okR (p : Pos N) {f : Nat} (d : Nat) (hf : f < 26) : Ok (canMoveB p f d) := by
  unfold canMoveB
  refine .bind (.get p hf) fun v _ => .ite (fun _ => .pure _) fun _ => .ite (fun h => ?_) fun _ => .pure _
  exact .bind (.get p (sub_lt (by omega) hf)) fun w _ => .pure _

theorem step_okR {α : Type} (p : Pos N) {f : Nat} (d : Nat) (hf : f < 26) {k : Pos N → Option (List α)} (hk : ∀ q, Ok (k q)) :
    Ok (do
      let c ← canMoveB p f d
      if c then
        let q ← mv p f d
        k q
      else Pure.pure []) :=
  .bind (canMoveB_okR p d hf) fun _ _ => .ite (fun _ => .bind (mv_okR p d hf) fun q _ => hk q) fun _ => .pure _

theorem movesFrom_okR (p : Pos N) (d : Nat) {r : List Nat} (hr : ∀ i ∈ r, i < 26) : Ok (movesFrom p d r) :=
  .collect fun i hi => step_okR p d (hr i hi) fun q => .pure [q]

theorem afterEntering_okR (p : Pos N) {d : Nat} (hd : d ≤ 6) : Ok (afterEntering p d) := by
  have hs := sub_lt (a := X_BAR) (b := d) (by omega) (by decide)
  unfold afterEntering
  refine .bind (.get p (by decide)) fun bar _ => .ite (fun _ => .pure _) fun _ => .ite (fun _ => ?_) fun _ => .pure _
  refine .bind (.get p (by decide)) fun b _ => .bind (.put p (by decide) _) fun q _ => .bind (.get p hs) fun w _ => .ite (fun _ => ?_) fun _ => ?_
  · exact .bind (.get q (by decide)) fun o _ => .bind (.put q (by decide) _) fun q _ => .bind (.put q hs _) fun q _ => .pure _
  · exact .bind (.get q hs) fun v _ => .bind (.put q hs _) fun q _ => .pure _

theorem movableLoop_okR (d m : Nat) : ∀ (n c : Nat) (p : Pos N), n ≤ 24 → Ok (movableLoop d m n c p)
  | 0, c, p, _ => .some _
  | n + 1, c, p, h => by
    unfold movableLoop
    refine .ite (fun hc => ?_) fun _ => .some _
    have hs := sub_lt (a := n + 1) (b := d) (by omega) (by omega)
    refine .bind (canMoveB_okR p d (by omega)) fun ok _ => .ite (fun _ => ?_) fun _ => movableLoop_okR d m n c p (by omega)
    refine .bind (.get p (by omega)) fun k _ => .bind (.put p (by omega) _) fun q _ => .bind (.get q hs) fun w _ => ?_
    have next : ∀ q' : Pos N, Ok (movableLoop d m n (c + k.toNat) q') := fun q' => movableLoop_okR d m n _ q' (by omega)
    exact .ite (fun _ => .bind (.put q hs _) fun q' _ => next q') fun _ => .bind (.put q hs _) fun q' _ => next q'

theorem numberOfMovable_okR (p : Pos N) {d : Nat} (hd : d ≤ 6) (e : Nat) : Ok (numberOfMovable p d e) := by
  unfold numberOfMovable
  refine .bind (movableLoop_okR d _ 24 0 p (le_refl _)) fun r _ => ?_
  simp only []
  refine .ite (fun _ => .pure _) fun _ => ?_
  cases r.2.rposX with
  | none => exact .pure _
  | some b =>
    refine .bind (.ite (fun _ => .pure _) fun _ => .ite (fun _ => .bind (.get _ (by omega)) fun v _ => .pure _) fun _ => ?_) fun t _ => .pure _
    exact .bind (.assert (decide_eq_true ⟨by omega, by omega⟩)) fun _ _ => .pure _

theorem doubleAfterEntering_okR (p : Pos N) {d : Nat} (hd : d ≤ 6) (e : Nat) : Ok (doubleAfterEntering p d e) := by
  unfold doubleAfterEntering
  refine .bind (numberOfMovable_okR p hd e) fun nr _ => .ite (fun _ => .pure _) fun _ => .collect fun i1 h1 => ?_
  have h1 : i1 < 25 := (mem_rng.1 h1).2
  refine step_okR p d (by omega) fun p1 => .ite (fun _ => .pure _) fun _ => .collect fun i2 h2 => ?_
  have h2 : i2 < i1 + 1 := (mem_rng.1 h2).2
  refine step_okR p1 d (by omega) fun p2 => .ite (fun _ => .pure _) fun _ => .collect fun i3 h3 => ?_
  have h3 : i3 < i2 + 1 := (mem_rng.1 h3).2
  refine step_okR p2 d (by omega) fun p3 => .ite (fun _ => .pure _) fun _ => movesFrom_okR p3 d fun i hi => ?_
  have := (mem_rng.1 hi).2
  omega

theorem doubleMoves_okR (p : Pos N) {d : Nat} (hd : d ≤ 6) : Ok (doubleMoves p d) := by
  unfold doubleMoves
  refine .bind (.get p (by decide)) fun b _ => .bind (.get p (sub_lt (by omega) (by decide))) fun w _ => .ite (fun _ => .pure _) fun _ => ?_
  exact .bind (afterEntering_okR p hd) fun r _ => .ite (fun _ => .pure _) fun _ => doubleAfterEntering_okR r.1 hd r.2

theorem canEnter_okR (p : Pos N) {d : Nat} (hd : d ≤ 6) : Ok (canEnter p d) :=
  .bind (.get p (sub_lt (by omega) (by decide))) fun _ _ => .pure _

theorem enter_okR (p : Pos N) {d : Nat} (hd : d ≤ 6) : Ok (enter p d) := by
  have hs := sub_lt (a := X_BAR) (b := d) (by omega) (by decide)
  unfold enter
  refine .bind (.get p (by decide)) fun b _ => .bind (.put p (by decide) _) fun q _ => .bind (.get q hs) fun w _ => .ite (fun _ => ?_) fun _ => .put q hs _
  exact .bind (.put q hs _) fun r _ => .bind (.get r (by decide)) fun o _ => .put r (by decide) _

theorem rngLt {a b : Nat} (hb : b ≤ 25) : ∀ i ∈ rng a b, i < 26 := fun i hi => by have := (mem_rng.1 hi).2; omega

theorem mixed1_okR (p : Pos N) {b s : Nat} (hb : b ≤ 6) (hs : s ≤ 6) : Ok (mixed1 p b s) := by
  have eb := sub_lt (a := X_BAR) (b := b) (by omega) (by decide)
  have es := sub_lt (a := X_BAR) (b := s) (by omega) (by decide)
  unfold mixed1
  refine .bind (canEnter_okR p hb) fun cb _ => .bind (.ite (fun _ => .bind (enter_okR p hb) fun q _ => .pure _) fun _ => .pure _) fun enterBig _ => ?_
  rcases enterBig with _ | qb
  on_goal 1 => refine .bind (.pure []) fun mB _ => ?_
  on_goal 2 => refine .bind (movesFrom_okR qb s (rngLt (le_refl _))) fun mB _ => ?_
  all_goals
    refine .bind (.get p eb) fun vb _ => ?_
    refine .bind (Ok.ite (c := vb < 0) (fun _ => .pure _) fun _ => .bind (.get p es) fun vs _ => .pure _) fun diff _ => ?_
    refine .bind (canEnter_okR p hs) fun cs _ => .bind (.ite (fun _ => .bind (enter_okR p hs) fun q _ => .pure _) fun _ => .pure _) fun enterSmall _ => ?_
    rcases enterSmall with _ | qs
    · exact .bind (.pure []) fun mS _ => .ite (fun _ => .pure _) fun _ => .pure _
    · refine .bind (movesFrom_okR qs b ?_) fun mS _ => .ite (fun _ => .pure _) fun _ => .pure _
      intro i hi
      split_ifs at hi with hd
      · exact rngLt (le_refl _) i hi
      · rcases List.mem_append.1 hi with hi | hi
        · have := (mem_rng.1 hi).2; omega
        · exact rngLt (le_refl _) i hi

theorem bigFirst_okR (p : Pos N) {b s : Nat} (hs : s < b) : Ok (bigFirst p b s) := by
  refine .collect fun i hi => ?_
  have hi : i < 25 := (mem_rng.1 hi).2
  refine step_okR p b (by omega) fun q => ?_
  refine .bind (.ite (fun h => ?_) fun _ => .pure _) fun diff _ => movesFrom_okR q s ?_
  · exact .bind (.get p (sub_lt (by omega) (by omega))) fun v _ => .ite (fun _ => .pure _) fun _ => .bind (.get p (sub_lt (by omega) (by omega))) fun v _ => .pure _
  · intro j hj
    split_ifs at hj with hd
    · have := (mem_rng.1 hj).2; omega
    · rcases List.mem_append.1 hj with hj | hj <;> have := (mem_rng.1 hj).2 <;> omega

theorem mixed0_okR (p : Pos N) {b s : Nat} (hs : s < b) : Ok (mixed0 p b s) := by
  unfold mixed0 twoCheckerMoves
  refine .bind (.bind ?_ fun l _ => .bind (bigFirst_okR p hs) fun m _ => .pure _) fun two _ => .ite (fun _ => ?_) fun _ => .pure _
  · refine .collect fun i hi => ?_
    have hi : i < 25 := (mem_rng.1 (List.mem_reverse.1 hi)).2
    refine step_okR p s (by omega) fun q => movesFrom_okR q b fun j hj => ?_
    have := (mem_rng.1 (List.mem_reverse.1 hj)).2
    omega
  · refine .bind (movesFrom_okR p b (rngLt (le_refl _))) fun one _ => .ite (fun _ => ?_) fun _ => .pure _
    exact .bind (movesFrom_okR p s (rngLt (le_refl _))) fun one _ => .ite (fun _ => .pure _) fun _ => .pure _

theorem mixed2_okR (p : Pos N) {b s : Nat} (hb : b ≤ 6) (hs : s ≤ 6) : Ok (mixed2 p b s) := by
  unfold mixed2
  have fin : ∀ q : Pos N, Ok (do
      let c ← canEnter q s
      let q ← if c then enter q s else Pure.pure q
      Pure.pure [q]) := fun q =>
    .bind (canEnter_okR q hs) fun c _ => .ite (fun _ => .bind (enter_okR q hs) fun q _ => .pure _) fun _ => .bind (.pure q) fun q _ => .pure _
  exact .bind (canEnter_okR p hb) fun c _ => .ite (fun _ => .bind (enter_okR p hb) fun q _ => fin q) fun _ => .bind (.pure p) fun q _ => fin q

end Rel

/-- **C95** A release build's generator never panics, whatever is on the board: not even with checkers on the wrong bar or absurd numbers of them. -/
theorem C95_never_panics (p : Pos N) (dice : Dice) (hv : dice.Valid) : Rel.legalPositions p dice ≠ none := by
  have : Rel.Ok (Rel.played p dice) := by
    cases dice with
    | double d =>
      obtain ⟨-, h⟩ : 1 ≤ d ∧ d ≤ 6 := hv
      exact Rel.doubleMoves_okR p h
    | mixed big small =>
      obtain ⟨-, h2, h3⟩ : 1 ≤ small ∧ small < big ∧ big ≤ 6 := hv
      refine .bind (.get p (by decide)) fun b _ => .ite (fun _ => Rel.mixed0_okR p h2) fun _ => .ite (fun _ => ?_) fun _ => ?_
      · exact Rel.mixed1_okR p h3 (by omega)
      · exact Rel.mixed2_okR p h3 (by omega)
  obtain ⟨l, hl⟩ := this
  rw [Rel.legal_eq, hl]
  simp

/-- A board with checkers of `x` on the wrong bar and -128 checkers on its own. -/
example : (Dice.double 3).Valid ∧ (Dice.mixed 6 1).Valid ∧ Chk.legalPositions (Ex.cells 15 [7, 120, 127, 127, -128, 127, 127, 0, 0, 0, 0, 0, 0, 0, 0, 0, 0, 0, 0, 0, 0, 0, 0, 0, 0, -128] 0 0) (.mixed 6 1) = none ∧
    (Rel.legalPositions (Ex.cells 15 [7, 120, 127, 127, -128, 127, 127, 0, 0, 0, 0, 0, 0, 0, 0, 0, 0, 0, 0, 0, 0, 0, 0, 0, 0, -128] 0 0) (.mixed 6 1)).isSome = true := by decide +kernel

/-- **C95** When `try_move_single_checker` panics in a release build: exactly for a source that is no point or bar, while `x` has nothing on the bar. -/
theorem C95_try_move_panics_iff (p : Pos N) (src die : Nat) (h1 : 1 ≤ die) (h6 : die ≤ 6) :
    Rel.tryMove p src die = none ↔ 26 ≤ src ∧ p.pip 25 ≤ 0 := by
  by_cases hs : src < 26
  · have : Rel.Ok (Rel.tryMove p src die) := by
      unfold Rel.tryMove Rel.canMove Rel.canMoveInternally
      refine .bind (.bind (.get p (by decide)) fun b _ => .ite (fun _ => ?_) fun _ => .pure _) fun c _ => .ite (fun _ => .bind (Rel.mv_okR p die hs) fun q _ => .pure _) fun _ => .pure _
      refine .bind (.get p hs) fun v _ => .ite (fun _ => .pure _) fun _ => .ite (fun _ => ?_) fun _ => .ite (fun _ => .pure _) fun _ => ?_
      · exact .bind (.get p (Rel.sub_lt (by omega) hs)) fun w _ => .pure _
      · exact .bind (.assert (decide_eq_true (by omega))) fun _ _ => .pure _
    obtain ⟨a, ha⟩ := this
    rw [ha]
    simp only [reduceCtorEq, false_iff]
    omega
  · have hg : Chk.get p src = none := if_neg hs
    have hne : (src == X_BAR) = false := by simp; omega
    unfold Rel.tryMove Rel.canMove Rel.canMoveInternally
    rw [hg, hne, show Chk.get p X_BAR = some (p.pip 25) from rfl]
    by_cases hb : p.pip 25 > 0
    · simp only [Option.bind_eq_bind, Option.bind_some, hb, decide_true, Bool.false_beq, Bool.not_true, Bool.false_eq_true, if_false, Option.pure_def]
      simp
      omega
    · simp only [Option.bind_eq_bind, Option.bind_some, hb, decide_false, BEq.rfl, if_true, Option.bind_none, true_iff]
      omega

example : Rel.tryMove Ex.start 26 3 = none ∧ Rel.tryMove Ex.barPos 26 3 = some none := by decide +kernel

/-- **C95** Taking the other side twice gives the position back in a release build for every board of bytes, though a cell of -128 has no negative. -/
theorem C95_flip (p : Pos N) (h : ∀ i < 26, -128 ≤ p.pip i ∧ p.pip i ≤ 127) : Rel.flip (Rel.flip p) = p := by
  refine ext_pip ?_ rfl rfl fun i hi => ?_
  · show (!!p.turn) = p.turn
    cases p.turn <;> rfl
  · have e : ∀ (q : Pos N) j, j < 26 → (Rel.flip q).pip j = wrap8 (-q.pip (25 - j)) := by
      intro q j hj
      unfold Rel.flip pip
      simp only [hj, show 25 - j < 26 by omega, dif_pos]
    have := h i hi
    rw [e _ _ hi, e _ _ (by omega), show 25 - (25 - i) = i by omega]
    unfold wrap8
    omega

example : (Rel.flip (Ex.cells 15 [0, -128, 7] 0 0)).pip 24 = -128 ∧ (Rel.flip (Ex.cells 15 [0, -128, 7] 0 0)).pip 23 = -7 := by decide +kernel

/-- **C16** When `flip` panics in a debug build: exactly when a cell is -128. -/
theorem C16_flip_panics_iff (p : Pos N) (h : ∀ i < 26, -128 ≤ p.pip i ∧ p.pip i ≤ 127) :
    (Chk.flip p = none ↔ ∃ i < 26, p.pip i = -128) ∧ (Chk.flip p ≠ none → Chk.flip p = some p.flip) := by
  have key : (∀ i : Fin 26, -128 ≤ -p.pips i ∧ -p.pips i ≤ 127) ↔ ¬ ∃ i < 26, p.pip i = -128 := by
    constructor
    · rintro hc ⟨i, hi, e⟩
      have := hc ⟨i, hi⟩
      simp only [pip, hi, dif_pos] at e
      omega
    · intro hc i
      have a := h i.val i.isLt
      have b : p.pip i.val ≠ -128 := fun e => hc ⟨i.val, i.isLt, e⟩
      simp only [pip, i.isLt, dif_pos, Fin.eta] at a b
      omega
  unfold Chk.flip
  rw [if_congr key rfl rfl]
  split_ifs with hc
  · exact ⟨⟨fun _ => hc, fun _ => rfl⟩, fun h => absurd rfl h⟩
  · exact ⟨⟨fun h => absurd h (by simp), fun h => absurd h hc⟩, fun _ => rfl⟩

example : Chk.flip (Ex.cells 15 [0, -128, 7] 0 0) = none ∧ (Chk.flip (Ex.cells 15 [0, -127, 7] 0 0)).isSome = true := by decide +kernel

end Bkgm
