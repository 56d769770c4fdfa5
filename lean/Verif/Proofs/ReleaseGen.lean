import Verif.Model.ReleaseGen
import Verif.Proofs.Checked
/-!
# A run of the checked generator without a panic is the run of the release generator (lemmas for C95)
-/

namespace Bkgm
namespace Rel
open Pos
variable {M N : Nat}

/-- If the checked run `x` returns, the release run `y` returns the same up to `f`. -/
def Sim {α β : Type} (x : Option α) (f : α → β) (y : Option β) : Prop := ∀ a, x = some a → y = some (f a)

namespace Sim
variable {α β γ δ : Type}

theorem bind {x : Option α} {f : α → β} {y : Option β} {k : α → Option γ} {g : γ → δ} {k' : β → Option δ}
    (h : Sim x f y) (hk : ∀ a, x = some a → Sim (k a) g (k' (f a))) : Sim (x.bind k) g (y.bind k') := by
  intro c hc
  obtain ⟨a, ha, hc⟩ := Option.bind_eq_some_iff.1 hc
  rw [h a ha, Option.bind_some]
  exact hk a ha c hc

theorem pure {a : α} {f : α → β} {b : β} (h : b = f a) : Sim (some a) f (some b) := by
  intro c hc
  obtain rfl := Option.some.inj hc
  rw [h]

theorem ite {c : Prop} [Decidable c] {x y : Option α} {f : α → β} {x' y' : Option β} (h1 : c → Sim x f x') (h2 : ¬ c → Sim y f y') :
    Sim (if c then x else y) f (if c then x' else y') := by
  split_ifs with h
  · exact h1 h
  · exact h2 h

theorem i8 {v : Int} {k : Int → Option α} {f : α → β} {y : Option β} (h : wrap8 v = v → Sim (k v) f y) : Sim ((Chk.i8 v).bind k) f y := by
  intro a ha
  unfold Chk.i8 at ha
  split_ifs at ha with hv
  · exact h (by unfold wrap8; omega) a ha
  · cases ha

theorem assert {c : Bool} {k : Unit → Option α} {f : α → β} {y : Option β} (h : c = true → Sim (k ()) f y) : Sim ((Chk.assert c).bind k) f y := by
  intro a ha
  unfold Chk.assert at ha
  split_ifs at ha with hv
  · exact h hv a ha
  · cases ha

theorem sub {a b : Nat} {k : Nat → Option α} {f : α → β} {y : Option β} (ha : a < 2 ^ 64) (h : Rel.sub a b = a - b → Sim (k (a - b)) f y) :
    Sim ((Chk.sub a b).bind k) f y := by
  intro c hc
  unfold Chk.sub at hc
  split_ifs at hc with hv
  · refine h ?_ c hc
    unfold Rel.sub
    omega
  · cases hc

theorem get {p : Pos M} {i : Nat} {k : Int → Option α} {f : α → β} {y : Option β} (h : i < 26 → Sim (k (p.pip i)) f y) :
    Sim ((Chk.get p i).bind k) f y := by
  intro a ha
  unfold Chk.get at ha
  split_ifs at ha with hv
  · exact h hv a ha
  · cases ha

theorem put {p : Pos M} {i : Nat} {v : Int} {k : Pos M → Option α} {f : α → β} {y : Option β} (h : i < 26 → Sim (k (p.set i v)) f y) :
    Sim ((Chk.put p i v).bind k) f y := by
  intro a ha
  unfold Chk.put at ha
  split_ifs at ha with hv
  · exact h hv a ha
  · cases ha

theorem collect {k : Nat → Option (List α)} {k' : Nat → Option (List β)} {f : α → β} : ∀ {l : List Nat}, (∀ i ∈ l, Sim (k i) (List.map f) (k' i)) →
    Sim (Chk.collect k l) (List.map f) (Chk.collect k' l)
  | [], _ => pure rfl
  | i :: l, h => by
    unfold Chk.collect
    refine bind (h i (by simp)) fun a _ => bind (collect (l := l) fun j hj => h j (by simp [hj])) fun b _ => pure ?_
    rw [List.map_append]

end Sim

/-- The same board, with `a` and `b` more checkers off, counted modulo 256. -/
def shift (N a b : Nat) (p : Pos M) : Pos N := ⟨p.turn, p.pips, (p.xOff + a) % 256, (p.oOff + b) % 256⟩

variable {a b : Nat}

theorem get_shift (p : Pos M) {i : Nat} (h : i < 26) : Chk.get (shift N a b p) i = some (p.pip i) := if_pos h
theorem put_shift (p : Pos M) {i : Nat} (h : i < 26) (v : Int) : Chk.put (shift N a b p) i v = some (shift N a b (p.set i v)) := if_pos h
theorem smallestPip_shift (p : Pos M) (d : Nat) : (shift N a b p).smallestPip d = p.smallestPip d := rfl
theorem rposX_shift (p : Pos M) : (shift N a b p).rposX = p.rposX := rfl
theorem pip_shift (p : Pos M) (i : Nat) : (shift N a b p).pip i = p.pip i := rfl
theorem anyX_shift (p : Pos M) (i j : Nat) : (shift N a b p).anyX i j = p.anyX i j := rfl

theorem put_sim (p : Pos M) (i : Nat) (v : Int) : Sim (Chk.put p i v) (shift N a b) (Chk.put (shift N a b p) i v) := by
  intro q hq
  unfold Chk.put at hq
  split_ifs at hq with h
  obtain rfl := Option.some.inj hq
  exact put_shift p h v

theorem mv_sim (p : Pos M) (f d : Nat) : Sim (Chk.mv p f d) (shift N a b) (mv (shift N a b p) f d) := by
  unfold Chk.mv mv
  refine Sim.get fun h1 => Sim.i8 fun h2 => Sim.put fun _ => ?_
  simp only [get_shift p h1, h2, put_shift p h1, Option.bind_eq_bind, Option.bind_some]
  refine Sim.ite (fun h3 => ?_) fun h3 => ?_
  · refine Sim.sub (by omega) fun h4 => Sim.get fun h5 => ?_
    rw [h4]
    simp only [get_shift _ h5, Option.bind_some]
    refine Sim.ite (fun h6 => ?_) fun h6 => ?_
    · refine Sim.put fun _ => Sim.get fun h7 => Sim.i8 fun h8 => ?_
      simp only [put_shift _ h5, get_shift _ h7, Option.bind_some, h8]
      exact put_sim _ _ _
    · refine Sim.i8 fun h7 => ?_
      rw [h7]
      exact put_sim _ _ _
  · unfold Chk.u8
    intro q hq
    split_ifs at hq with h4
    · obtain rfl := Option.some.inj hq
      refine congrArg some ?_
      simp only [shift, Pos.set, Pos.mk.injEq, true_and, and_true]
      omega
    · cases hq

theorem canMoveB_sim (p : Pos M) (f d : Nat) : Sim (Chk.canMoveB p f d) id (canMoveB (shift N a b p) f d) := by
  unfold Chk.canMoveB canMoveB
  refine Sim.get fun h1 => ?_
  simp only [get_shift p h1, Option.bind_eq_bind, Option.bind_some]
  refine Sim.ite (fun _ => Sim.pure rfl) fun _ => Sim.ite (fun h3 => ?_) fun _ => Sim.pure rfl
  refine Sim.sub (by omega) fun h4 => Sim.get fun h5 => ?_
  rw [h4, get_shift p h5]
  exact Sim.pure rfl

theorem canMoveInternally_sim (p : Pos M) (f d : Nat) : Sim (Chk.canMoveInternally p f d) id (canMoveInternally (shift N a b p) f d) := by
  unfold Chk.canMoveInternally canMoveInternally
  refine Sim.get fun h1 => ?_
  simp only [get_shift p h1, Option.bind_eq_bind, Option.bind_some, anyX_shift]
  refine Sim.ite (fun _ => Sim.pure rfl) fun _ => Sim.ite (fun h3 => ?_) fun _ => Sim.ite (fun _ => Sim.pure rfl) fun _ => ?_
  · refine Sim.sub (by omega) fun h4 => Sim.get fun h5 => ?_
    rw [h4, get_shift p h5]
    exact Sim.pure rfl
  · refine Sim.assert fun h => ?_
    rw [Chk.assert_ok h]
    exact Sim.pure rfl

theorem canMove_sim (p : Pos M) (f d : Nat) : Sim (Chk.canMove p f d) id (canMove (shift N a b p) f d) := by
  unfold Chk.canMove canMove
  refine Sim.get fun h1 => ?_
  simp only [get_shift p h1, Option.bind_eq_bind, Option.bind_some]
  exact Sim.ite (fun _ => canMoveInternally_sim p f d) fun _ => Sim.pure rfl

theorem tryMove_sim (p : Pos M) (f d : Nat) : Sim (Chk.tryMove p f d) (Option.map (shift N a b)) (tryMove (shift N a b p) f d) := by
  unfold Chk.tryMove tryMove
  refine Sim.bind (canMove_sim p f d) fun c _ => Sim.ite (fun _ => ?_) fun _ => Sim.pure rfl
  exact Sim.bind (mv_sim p f d) fun q _ => Sim.pure rfl

theorem step_sim {p : Pos M} {f d : Nat} {k : Pos M → Option (List (Pos M))} {k' : Pos N → Option (List (Pos N))}
    (hk : ∀ q, Sim (k q) (List.map (shift N a b)) (k' (shift N a b q))) :
    Sim (do
      let c ← Chk.canMoveB p f d
      if c then
        let q ← Chk.mv p f d
        k q
      else pure []) (List.map (shift N a b)) (do
      let c ← canMoveB (shift N a b p) f d
      if c then
        let q ← mv (shift N a b p) f d
        k' q
      else pure []) :=
  Sim.bind (canMoveB_sim p f d) fun _ _ => Sim.ite (fun _ => Sim.bind (mv_sim p f d) fun q _ => hk q) fun _ => Sim.pure rfl

theorem movesFrom_sim (p : Pos M) (d : Nat) (r : List Nat) : Sim (Chk.movesFrom p d r) (List.map (shift N a b)) (movesFrom (shift N a b p) d r) :=
  Sim.collect fun i _ => step_sim (k := fun q => pure [q]) (k' := fun q => pure [q]) fun _ => Sim.pure rfl

/-! ## Doubles -/

theorem afterEntering_sim (p : Pos M) (hp : 0 ≤ p.pip 25) {d : Nat} : Sim (Chk.afterEntering p d) (fun r => (shift N a b r.1, r.2)) (afterEntering (shift N a b p) d) := by
  unfold Chk.afterEntering afterEntering
  refine Sim.get fun h1 => ?_
  simp only [get_shift p h1, Option.bind_eq_bind, Option.bind_some]
  refine Sim.ite (fun _ => Sim.pure rfl) fun h0 => Sim.sub (by omega) fun h2 => Sim.get fun h3 => Sim.assert fun _ => ?_
  have hn : asU32 (min 4 (p.pip 25)) = (min 4 (p.pip 25)).toNat := by unfold asU32; omega
  rw [h2, hn]
  refine Sim.ite (fun _ => ?_) fun _ => Sim.pure rfl
  refine Sim.get fun _ => Sim.i8 fun h4 => Sim.put fun _ => ?_
  simp only [get_shift p h3, Option.bind_some, h4, put_shift p h1]
  refine Sim.ite (fun _ => ?_) fun _ => ?_
  · refine Sim.get fun h5 => Sim.i8 fun h6 => Sim.put fun _ => Sim.put fun _ => ?_
    simp only [get_shift _ h5, Option.bind_some, h6, put_shift _ h5, put_shift _ h3]
    exact Sim.pure rfl
  · refine Sim.get fun _ => Sim.i8 fun h6 => Sim.put fun _ => ?_
    simp only [get_shift _ h3, Option.bind_some, h6, put_shift _ h3]
    exact Sim.pure rfl

theorem movableLoop_sim (d m : Nat) : ∀ (n c : Nat) (p : Pos M), n ≤ 24 →
    Sim (Chk.movableLoop d m n c p) (fun r => (r.1, shift N a b r.2)) (movableLoop d m n c (shift N a b p))
  | 0, c, p, _ => Sim.pure rfl
  | n + 1, c, p, hn => by
    unfold Chk.movableLoop movableLoop
    refine Sim.ite (fun _ => ?_) fun _ => Sim.pure rfl
    refine Sim.bind (canMoveB_sim p _ d) fun ok _ => Sim.ite (fun _ => ?_) fun _ => movableLoop_sim d m n c p (by omega)
    refine Sim.get fun h1 => Sim.put fun _ => Sim.sub (by omega) fun h2 => Sim.get fun h3 => ?_
    rw [h2]
    simp only [get_shift _ h1, Option.bind_eq_bind, Option.bind_some, put_shift _ h1, get_shift _ h3]
    refine Sim.ite (fun _ => Sim.bind (put_sim _ _ _) fun q _ => movableLoop_sim d m n _ q (by omega)) fun _ => Sim.i8 fun h4 => ?_
    rw [h4]
    exact Sim.bind (put_sim _ _ _) fun q _ => movableLoop_sim d m n _ q (by omega)

theorem sumI8_fold : ∀ (l : List Int) (acc s : Int), Chk.sumI8 l acc = some s → l.foldl (fun acc v => wrap8 (acc + v)) acc = s
  | [], acc, s, h => Option.some.inj h
  | v :: l, acc, s, h => by
    unfold Chk.sumI8 at h
    obtain ⟨x, hx, h⟩ := Option.bind_eq_some_iff.1 h
    unfold Chk.i8 at hx
    split_ifs at hx with hv
    obtain rfl := Option.some.inj hx
    have e : wrap8 (acc + v) = acc + v := by unfold wrap8; omega
    rw [List.foldl_cons, e]
    exact sumI8_fold l _ s h

theorem sumI8_range : ∀ (l : List Int) (acc s : Int), 0 ≤ acc → acc ≤ 127 → (∀ v ∈ l, 0 < v) → Chk.sumI8 l acc = some s → 0 ≤ s ∧ s ≤ 127
  | [], acc, s, h0, h1, _, h => by obtain rfl := Option.some.inj h; exact ⟨h0, h1⟩
  | v :: l, acc, s, h0, h1, hl, h => by
    unfold Chk.sumI8 at h
    obtain ⟨x, hx, h⟩ := Option.bind_eq_some_iff.1 h
    unfold Chk.i8 at hx
    split_ifs at hx with hv
    obtain rfl := Option.some.inj hx
    have := hl v (by simp)
    exact sumI8_range l _ s (by omega) (by omega) (fun w hw => hl w (by simp [hw])) h

theorem numberOfMovable_sim (p : Pos M) (d e : Nat) : Sim (Chk.numberOfMovable p d e) id (numberOfMovable (shift N a b p) d e) := by
  unfold Chk.numberOfMovable numberOfMovable
  intro r hr
  by_cases he : e ≤ 4
  · rw [Chk.sub_ok he] at hr
    have h4 : (4 + 2 ^ 32 - e) % 2 ^ 32 = 4 - e := by omega
    rw [h4]
    refine Sim.bind (movableLoop_sim d (4 - e) 24 0 p (by omega)) (fun r _ => ?_) r hr
    obtain ⟨c, q⟩ := r
    simp only
    refine Sim.ite (fun _ => Sim.pure rfl) fun hc => ?_
    rw [rposX_shift]
    cases q.rposX with
    | none => exact Sim.pure rfl
    | some g =>
      simp only [Option.bind_eq_bind]
      refine Sim.bind (f := fun k => c + k) ?_ fun k _ => Sim.pure rfl
      refine Sim.ite (fun _ => Sim.pure rfl) fun _ => Sim.ite (fun _ => ?_) fun _ => ?_
      · refine Sim.get fun h1 => ?_
        rw [get_shift _ h1]
        exact Sim.pure rfl
      · refine Sim.assert fun h1 => ?_
        rw [Chk.assert_ok h1]
        intro k hk
        obtain ⟨s, hs, hk⟩ := Option.bind_eq_some_iff.1 hk
        obtain rfl := Option.some.inj hk
        obtain ⟨s0, s1⟩ := sumI8_range _ 0 s (by omega) (by omega) (fun v hv => of_decide_eq_true (List.mem_filter.1 hv).2) hs
        simp only [Option.bind_some, Option.pure_def]
        have e1 : (rng 1 (d + 1)).map (shift N a b q).pip = (rng 1 (d + 1)).map q.pip := rfl
        rw [e1, sumI8_fold _ _ _ hs]
        unfold asU32
        congr 1
        omega
  · unfold Chk.sub at hr
    rw [if_neg he] at hr
    cases hr

theorem doubleAfterEntering_sim (p : Pos M) (d e : Nat) : Sim (Chk.doubleAfterEntering p d e) (List.map (shift N a b)) (doubleAfterEntering (shift N a b p) d e) := by
  unfold Chk.doubleAfterEntering doubleAfterEntering
  refine Sim.bind (numberOfMovable_sim p d e) fun nr _ => ?_
  refine Sim.ite (fun _ => Sim.pure rfl) fun _ => ?_
  refine Sim.collect fun i1 _ => step_sim (k := fun p1 => _) (k' := fun p1 => _) fun p1 => ?_
  refine Sim.ite (fun _ => Sim.pure rfl) fun _ => ?_
  refine Sim.collect fun i2 _ => step_sim (k := fun p1 => _) (k' := fun p1 => _) fun p2 => ?_
  refine Sim.ite (fun _ => Sim.pure rfl) fun _ => ?_
  refine Sim.collect fun i3 _ => step_sim (k := fun p1 => _) (k' := fun p1 => _) fun p3 => ?_
  refine Sim.ite (fun _ => Sim.pure rfl) fun _ => ?_
  exact movesFrom_sim p3 d _

theorem doubleMoves_sim (p : Pos M) (hp : 0 ≤ p.pip 25) (d : Nat) : Sim (Chk.doubleMoves p d) (List.map (shift N a b)) (doubleMoves (shift N a b p) d) := by
  unfold Chk.doubleMoves doubleMoves
  refine Sim.get fun h1 => Sim.sub (by omega) fun h2 => Sim.get fun h3 => ?_
  rw [h2]
  simp only [get_shift p h1, get_shift p h3, Option.bind_eq_bind, Option.bind_some]
  refine Sim.ite (fun _ => Sim.pure rfl) fun _ => Sim.bind (afterEntering_sim p hp) fun r _ => ?_
  refine Sim.ite (fun _ => Sim.pure rfl) fun _ => ?_
  intro l hl
  obtain ⟨m, hm, hl⟩ := Option.bind_eq_some_iff.1 hl
  have e : m = l := by
    obtain ⟨-, -, hl⟩ := Option.bind_eq_some_iff.1 hl
    exact Option.some.inj hl
  subst e
  exact doubleAfterEntering_sim r.1 d r.2 m hm

/-! ## Mixed rolls -/

theorem canEnter_sim (p : Pos M) (d : Nat) : Sim (Chk.canEnter p d) id (canEnter (shift N a b p) d) := by
  unfold Chk.canEnter canEnter
  refine Sim.get fun h1 => Sim.assert fun _ => Sim.sub (by omega) fun h2 => Sim.get fun h3 => ?_
  rw [h2, get_shift p h3]
  exact Sim.pure rfl

theorem enter_sim (p : Pos M) (d : Nat) : Sim (Chk.enter p d) (shift N a b) (enter (shift N a b p) d) := by
  unfold Chk.enter enter
  refine Sim.get fun h1 => Sim.assert fun _ => Sim.sub (by omega) fun h2 => Sim.get fun h3 => Sim.assert fun _ => Sim.i8 fun h4 =>
    Sim.put fun _ => Sim.get fun _ => ?_
  rw [h2]
  simp only [get_shift _ h1, get_shift _ h3, h4, put_shift _ h1, Option.bind_eq_bind, Option.bind_some]
  refine Sim.ite (fun _ => ?_) fun _ => ?_
  · refine Sim.put fun _ => Sim.get fun h5 => Sim.i8 fun h6 => ?_
    simp only [put_shift _ h3, get_shift _ h5, h6, Option.bind_some]
    exact put_sim _ _ _
  · refine Sim.i8 fun h5 => ?_
    rw [h5]
    exact put_sim _ _ _

theorem mixed1_sim (p : Pos M) (big small : Nat) : Sim (Chk.mixed1 p big small) (List.map (shift N a b)) (mixed1 (shift N a b p) big small) := by
  unfold Chk.mixed1 mixed1
  refine Sim.get fun h1 => Sim.assert fun _ => Sim.bind (canEnter_sim p big) fun cb _ => ?_
  refine Sim.bind (f := Option.map (shift N a b)) (Sim.ite (fun _ => Sim.bind (enter_sim p big) fun q _ => Sim.pure rfl) fun _ => Sim.pure rfl) fun oB _ => ?_
  rcases oB with _ | qb
  on_goal 1 => refine Sim.bind (f := List.map (shift N a b)) (Sim.pure (a := []) rfl) fun mB _ => ?_
  on_goal 2 => refine Sim.bind (movesFrom_sim qb _ _) fun mB _ => ?_
  all_goals
    refine Sim.sub (by omega) fun h2 => Sim.get fun h3 => ?_
    rw [h2, get_shift p h3]
    refine Sim.bind (f := id) ?_ fun dif _ => ?_
    · refine Sim.ite (fun _ => Sim.pure rfl) fun _ => Sim.sub (by omega) fun h4 => Sim.get fun h5 => ?_
      rw [h4, get_shift p h5]
      exact Sim.pure rfl
    refine Sim.bind (canEnter_sim p small) fun cs _ => ?_
    refine Sim.bind (f := Option.map (shift N a b)) (Sim.ite (fun _ => Sim.bind (enter_sim p small) fun q _ => Sim.pure rfl) fun _ => Sim.pure rfl) fun oS _ => ?_
    have fin : ∀ (mS : List (Pos M)) (x : Pos M), Sim (if (mB ++ mS).isEmpty = true then some [x] else some (mB ++ mS)) (List.map (shift N a b))
        (if (mB.map (shift N a b) ++ mS.map (shift N a b)).isEmpty = true then some [shift N a b x] else some (mB.map (shift N a b) ++ mS.map (shift N a b))) := by
      intro mS x
      have e : (mB.map (shift N a b) ++ mS.map (shift N a b)).isEmpty = (mB ++ mS).isEmpty := by cases mB <;> cases mS <;> rfl
      rw [e]
      exact Sim.ite (fun _ => Sim.pure rfl) fun _ => Sim.pure (by rw [List.map_append])
    rcases oS with _ | qs
    · exact Sim.bind (f := List.map (shift N a b)) (Sim.pure (a := []) rfl) fun mS _ => fin mS _
    · refine Sim.sub (by omega) fun h4 => ?_
      simp only [Option.map_some, h4]
      exact Sim.bind (movesFrom_sim qs _ _) fun mS _ => fin mS _

theorem oneChecker_sim (p : Pos M) (d : Nat) : Sim (Chk.oneCheckerMoves p d) (List.map (shift N a b)) (oneCheckerMoves (shift N a b p) d) := by
  unfold Chk.oneCheckerMoves oneCheckerMoves
  exact Sim.get fun _ => Sim.assert fun _ => movesFrom_sim p d _

theorem smallFirst_sim (p : Pos M) (big small : Nat) : Sim (Chk.smallFirst p big small) (List.map (shift N a b)) (smallFirst (shift N a b p) big small) :=
  Sim.collect fun i _ => step_sim (k := fun q => _) (k' := fun q => _) fun q => movesFrom_sim q big _

theorem bigFirst_sim (p : Pos M) (big small : Nat) : Sim (Chk.bigFirst p big small) (List.map (shift N a b)) (bigFirst (shift N a b p) big small) := by
  refine Sim.collect fun i hi => step_sim (k := fun q => _) (k' := fun q => _) fun q => ?_
  have hi := mem_rng.1 hi
  refine Sim.bind (f := id) ?_ fun dif _ => movesFrom_sim q small _
  refine Sim.ite (fun _ => ?_) fun _ => Sim.pure rfl
  refine Sim.sub (by omega) fun h1 => Sim.get fun h2 => ?_
  rw [h1, get_shift p h2]
  refine Sim.ite (fun _ => Sim.pure rfl) fun _ => Sim.sub (by omega) fun h3 => Sim.get fun h4 => ?_
  rw [h3, get_shift p h4]
  exact Sim.pure rfl

theorem mixed0_sim (p : Pos M) (big small : Nat) : Sim (Chk.mixed0 p big small) (List.map (shift N a b)) (mixed0 (shift N a b p) big small) := by
  have hem : ∀ l : List (Pos M), (l.map (shift N a b)).isEmpty = l.isEmpty := fun l => by simp
  unfold Chk.mixed0 mixed0 Chk.twoCheckerMoves twoCheckerMoves
  refine Sim.get fun _ => Sim.assert fun _ => Sim.bind (f := List.map (shift N a b)) ?_ fun two _ => ?_
  · refine Sim.get fun _ => Sim.assert fun _ => Sim.bind (smallFirst_sim p big small) fun l _ => Sim.bind (bigFirst_sim p big small) fun m _ => Sim.pure ?_
    rw [List.map_append]
  · rw [hem]
    refine Sim.ite (fun _ => Sim.bind (oneChecker_sim p big) fun one _ => ?_) fun _ => Sim.pure rfl
    rw [hem]
    refine Sim.ite (fun _ => Sim.bind (oneChecker_sim p small) fun one _ => ?_) fun _ => Sim.pure rfl
    rw [hem]
    exact Sim.ite (fun _ => Sim.pure rfl) fun _ => Sim.pure rfl

theorem mixed2_sim (p : Pos M) (big small : Nat) : Sim (Chk.mixed2 p big small) (List.map (shift N a b)) (mixed2 (shift N a b p) big small) := by
  unfold Chk.mixed2 mixed2
  refine Sim.get fun _ => Sim.assert fun _ => Sim.bind (canEnter_sim p big) fun c _ => ?_
  have key : ∀ q : Pos M, Sim (do
      let c ← Chk.canEnter q small
      let q ← if c then Chk.enter q small else pure q
      pure [q]) (List.map (shift N a b)) (do
      let c ← canEnter (shift N a b q) small
      let q ← if c then enter (shift N a b q) small else pure (shift N a b q)
      pure [q]) := fun q =>
    Sim.bind (canEnter_sim q small) fun c _ => Sim.ite (c := c = true) (fun _ => Sim.bind (enter_sim q small) fun q _ => Sim.pure rfl)
      fun _ => Sim.bind (f := shift N a b) (Sim.pure (a := q) rfl) fun q _ => Sim.pure rfl
  exact Sim.ite (c := c = true) (fun _ => Sim.bind (enter_sim p big) fun q _ => key q) fun _ => Sim.bind (f := shift N a b) (Sim.pure (a := p) rfl) fun q _ => key q

theorem mixedMoves_sim (p : Pos M) (big small : Nat) : Sim (Chk.mixedMoves p big small) (List.map (shift N a b)) (mixedMoves (shift N a b p) big small) := by
  unfold Chk.mixedMoves mixedMoves
  refine Sim.assert fun _ => Sim.get fun h1 => ?_
  simp only [get_shift p h1, Option.bind_eq_bind, Option.bind_some]
  exact Sim.ite (fun _ => mixed0_sim p big small) fun _ => Sim.ite (fun _ => mixed1_sim p big small) fun _ => mixed2_sim p big small

end Rel
end Bkgm
