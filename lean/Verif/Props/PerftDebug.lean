import Verif.Model.PerftCli
import Verif.Props.Perft
import Verif.Props.Race
import Verif.Props.Checked
/-!
# C62: perft in a debug build
-/

namespace Bkgm
open Pos
variable {N : Nat}

namespace Perft

/-- Number of lines of play (spec of both modes). -/
def cntW (w : Bool) (d : Nat) (p : Pos N) : Nat := if w then cnt next36 d p else cnt next21 d p

theorem cntW_succ (w : Bool) (d : Nat) (p : Pos N) : cntW w (d + 1) p =
    (all21.map fun dc => (if w then dc.2 else 1) * ((p.legalPositions dc.1).map (cntW w d)).sum).sum := by
  cases w
  · simp only [cntW, Bool.false_eq_true, if_false, cnt21_succ, Nat.one_mul]; rfl
  · simp only [cntW, if_true, cnt36_succ]; rfl

theorem foldlM_inner (M mult : Nat) (hm : 1 ≤ mult) (f : Pos N → Option Nat) (g : Pos N → Nat) (P : Pos N → Prop)
    (l : List (Pos N)) (hf : ∀ c ∈ l, ∀ s, f c = some s ↔ P c ∧ s = g c ∧ s < M) (n : Nat) : ∀ t, t < M →
    (l.foldlM (fun t c => (f c).bind fun s => if mult * s < M ∧ t + mult * s < M then some (t + mult * s) else none) t = some n ↔
      (∀ c ∈ l, P c) ∧ n = t + mult * (l.map g).sum ∧ n < M) := by
  induction l with
  | nil => intro t ht; simp only [List.foldlM_nil, Option.pure_def, Option.some.injEq, List.map_nil, List.sum_nil]
           constructor
           · rintro rfl; exact ⟨by simp, by simp, ht⟩
           · rintro ⟨-, h, -⟩; omega
  | cons c l ih =>
    intro t ht
    have ih := ih fun x hx => hf x (List.mem_cons_of_mem _ hx)
    have hfc := hf c (by simp)
    rw [List.foldlM_cons]
    simp only [Option.bind_eq_bind, List.map_cons, List.sum_cons]
    have hle : g c ≤ mult * g c := Nat.le_mul_of_pos_left _ hm
    have hadd : mult * (g c + (l.map g).sum) = mult * g c + mult * (l.map g).sum := by ring
    by_cases hP : P c ∧ g c < M
    · rw [(hfc (g c)).2 ⟨hP.1, rfl, hP.2⟩, Option.bind_some]
      split_ifs with h
      · rw [Option.bind_some, ih _ h.2]
        constructor
        · rintro ⟨a, b, c'⟩
          refine ⟨fun x hx => ?_, by omega, c'⟩
          rcases List.mem_cons.1 hx with rfl | hx
          · exact hP.1
          · exact a x hx
        · rintro ⟨a, b, c'⟩
          exact ⟨fun x hx => a x (List.mem_cons_of_mem _ hx), by omega, c'⟩
      · rw [Option.bind_none]
        constructor
        · intro h; cases h
        · rintro ⟨-, b, c'⟩
          exact absurd ⟨by omega, by omega⟩ h
    · cases hfv : f c with
      | some s =>
        obtain ⟨a, b, c'⟩ := (hfc s).1 hfv
        exact absurd ⟨a, b ▸ c'⟩ hP
      | none =>
        rw [Option.bind_none, Option.bind_none]
        constructor
        · intro h; cases h
        · rintro ⟨a, b, c'⟩
          exact absurd ⟨a c (by simp), by omega⟩ hP

theorem foldlM_outer (M : Nat) (w : Bool) (f : Pos N → Option Nat) (g : Pos N → Nat) (P : Pos N → Prop)
    (kids : Dice → List (Pos N)) (L : List (Dice × Nat)) (hL : ∀ dc ∈ L, 1 ≤ dc.2)
    (hf : ∀ dc ∈ L, ∀ c ∈ kids dc.1, ∀ s, f c = some s ↔ P c ∧ s = g c ∧ s < M) (n : Nat) : ∀ t, t < M →
    (L.foldlM (fun t dc => (kids dc.1).foldlM (fun t c => (f c).bind fun s =>
        if (if w then dc.2 else 1) * s < M ∧ t + (if w then dc.2 else 1) * s < M then some (t + (if w then dc.2 else 1) * s) else none) t) t
      = some n ↔
      (∀ dc ∈ L, ∀ c ∈ kids dc.1, P c) ∧ n = t + (L.map fun dc => (if w then dc.2 else 1) * ((kids dc.1).map g).sum).sum ∧ n < M) := by
  induction L with
  | nil => intro t ht; simp only [List.foldlM_nil, Option.pure_def, Option.some.injEq, List.map_nil, List.sum_nil]
           constructor
           · rintro rfl; exact ⟨by simp, by simp, ht⟩
           · rintro ⟨-, h, -⟩; omega
  | cons dc L ih =>
    intro t ht
    have ih := ih (fun x hx => hL x (List.mem_cons_of_mem _ hx)) fun x hx => hf x (List.mem_cons_of_mem _ hx)
    have hm : 1 ≤ (if w then dc.2 else 1) := by split_ifs; exact hL dc (by simp); exact Nat.le_refl _
    have hin := fun n => foldlM_inner M _ hm f g P (kids dc.1) (hf dc (by simp)) n t ht
    rw [List.foldlM_cons]
    simp only [Option.bind_eq_bind, List.map_cons, List.sum_cons]
    rw [Option.bind_eq_some_iff]
    constructor
    · rintro ⟨a, ha, hb⟩
      obtain ⟨h1, h2, h3⟩ := (hin a).1 ha
      obtain ⟨k1, k2, k3⟩ := (ih a h3).1 hb
      refine ⟨fun x hx => ?_, by omega, k3⟩
      rcases List.mem_cons.1 hx with rfl | hx
      · exact h1
      · exact k1 x hx
    · rintro ⟨h1, h2, h3⟩
      have hlt : t + (if w then dc.2 else 1) * ((kids dc.1).map g).sum < M := by omega
      exact ⟨_, (hin _).2 ⟨h1 dc (by simp), rfl, hlt⟩, (ih _ hlt).2 ⟨fun x hx => h1 x (List.mem_cons_of_mem _ hx), by omega, h3⟩⟩

end Perft

theorem ongoing_iff {p : Pos N} : p.gameState = .ongoing ↔ p.xOff ≠ N ∧ p.oOff ≠ N := by
  unfold gameState
  split_ifs <;> simp_all

open Perft in
theorem chk_perft_iff (w : Bool) (hN : N ≤ 127) (d : Nat) : ∀ (p : Pos N), p.Valid → ∀ n,
    (Chk.perft w d p = some n ↔ (∀ k q, k < d → PlyLine p k q → q.gameState = .ongoing) ∧ n = cntW w d p ∧ n < 2 ^ 128) := by
  induction d with
  | zero =>
    intro p _ n
    have : cntW w 0 p = 1 := by unfold cntW; split_ifs <;> rfl
    rw [Chk.perft, this]
    simp only [Option.some.injEq]
    constructor
    · rintro rfl; exact ⟨fun k q h => by omega, rfl, by decide⟩
    · rintro ⟨-, h, -⟩; exact h.symm
  | succ d ih =>
    intro p hp n
    have hX := hp.sumX
    have hO := hp.sumO
    have x0 : p.view.xOff = p.xOff := rfl
    have o0 : p.view.oOff = p.oOff := rfl
    by_cases hg : p.gameState = .ongoing
    · obtain ⟨gx, go⟩ := ongoing_iff.1 hg
      have hvalid : ∀ dc ∈ all21, dc.1.Valid := fun dc h => (C42_all_21.2.2.1 dc.1).2 (List.mem_map_of_mem h)
      have e : Chk.perft w (d + 1) p = all21.foldlM (fun t dc => (p.legalPositions dc.1).foldlM (fun t c => (Chk.perft w d c).bind fun s =>
          if (if w then dc.2 else 1) * s < 2 ^ 128 ∧ t + (if w then dc.2 else 1) * s < 2 ^ 128 then some (t + (if w then dc.2 else 1) * s)
          else none) t) 0 := by
        rw [Chk.perft]
        have : ∀ L : List (Dice × Nat), (∀ dc ∈ L, dc.1.Valid) → ∀ t, L.foldlM (fun total dc =>
            (Chk.legalPositions p dc.1).bind fun legal => legal.foldlM (fun total next => (Chk.perft w d next).bind fun sub =>
              if (if w then dc.2 else 1) * sub < 2 ^ 128 ∧ total + (if w then dc.2 else 1) * sub < 2 ^ 128 then
                some (total + (if w then dc.2 else 1) * sub) else none) total) t =
            L.foldlM (fun t dc => (p.legalPositions dc.1).foldlM (fun t c => (Chk.perft w d c).bind fun s =>
          if (if w then dc.2 else 1) * s < 2 ^ 128 ∧ t + (if w then dc.2 else 1) * s < 2 ^ 128 then some (t + (if w then dc.2 else 1) * s)
          else none) t) t := by
          intro L
          induction L with
          | nil => intro _ t; rfl
          | cons dc L ihL =>
            intro hL t
            rw [List.foldlM_cons, List.foldlM_cons, C16_no_panic p hp hN (by omega) (by omega) dc.1 (hL dc (by simp)), Option.bind_some]
            congr 1
            funext t'
            exact ihL (fun x hx => hL x (List.mem_cons_of_mem _ hx)) t'
        exact this all21 hvalid 0
      rw [e, foldlM_outer (2 ^ 128) w (Chk.perft w d) (cntW w d) (fun c => ∀ k q, k < d → PlyLine c k q → q.gameState = .ongoing)
        p.legalPositions all21 (by decide) (fun dc hdc c hc s => ih c (C04_children_valid p c hp dc.1 (hvalid dc hdc) hc) s) n 0 (by decide),
        Nat.zero_add, ← cntW_succ]
      refine and_congr_left fun _ => ⟨fun h k q hk hl => ?_, fun h dc hdc c hc k q hk hl => ?_⟩
      · cases hl with
        | nil => exact hg
        | @cons _ c _ k dice _ hd hc hl =>
          obtain ⟨dc, hdc, rfl⟩ := List.mem_map.1 ((C42_all_21.2.2.1 dice).1 hd)
          exact h dc hdc c hc _ q (by omega) hl
      · exact h (k + 1) q (by omega) (.cons hg (hvalid dc hdc) hc hl)
    · have hnone : Chk.perft w (d + 1) p = none := by
        rw [Chk.perft]
        obtain ⟨dc, L, hL⟩ : ∃ dc L, all21 = dc :: L := ⟨_, _, rfl⟩
        rw [hL, List.foldlM_cons, C16_finished_panics p dc.1 (by
          by_contra hc
          exact hg (ongoing_iff.2 ⟨by omega, by omega⟩))]
        rfl
      rw [hnone]
      constructor
      · intro h; cases h
      · rintro ⟨h, -⟩
        exact absurd (h 0 p (by omega) (.nil p)) hg

/-- **C62** A debug build of `perft` returns a number on a valid position iff no line of play ends the game in fewer than `depth` plies (the
generator asserts that the game is not over) and the count fits 128 bits; and then the number is the number of lines of play. -/
theorem C62_debug_perft (hN : N ≤ 127) (p : Pos N) (hp : p.Valid) (depth n : Nat) :
    (Chk.perft false depth p = some n ↔ (∀ k q, k < depth → PlyLine p k q → q.gameState = .ongoing) ∧
      n = {l | Line p l ∧ l.length = depth}.ncard ∧ n < 2 ^ 128) ∧
    (Chk.perft true depth p = some n ↔ (∀ k q, k < depth → PlyLine p k q → q.gameState = .ongoing) ∧
      n = {l | OrderedLine p l ∧ l.length = depth}.ncard ∧ n < 2 ^ 128) := by
  have h := Perft.ncard_paths Perft.next21 (fun p => Perft.nodup_keys _ C42_all_21.2.1 p.legalPositions) depth p
  have h' := Perft.ncard_paths Perft.next36
    (fun p : Pos N => Perft.nodup_keys Perft.pairs36 (by decide +kernel) fun ab => p.legalPositions (Dice.new ab.1 ab.2)) depth p
  simp only [Perft.line_iff, Perft.orderedLine_iff] at h h'
  rw [chk_perft_iff false hN depth p hp, chk_perft_iff true hN depth p hp, h.1, h'.1]
  exact ⟨Iff.rfl, Iff.rfl⟩

example := C62_debug_perft (by omega) Ex.start (by decide) 2

/-- **C62** If the debug build returns a number, so does the release build, and it is the same. -/
theorem C62_builds_agree (w : Bool) (hN : N ≤ 127) (p : Pos N) (hp : p.Valid) (depth n : Nat) (h : Chk.perft w depth p = some n) :
    perft w depth p = n := by
  obtain ⟨-, h1, h2⟩ := (chk_perft_iff w hN depth p hp n).1 h
  cases w
  · rw [Perft.perft_cnt21, h1]
    exact Nat.mod_eq_of_lt (by rw [h1] at h2; exact h2)
  · rw [Perft.perft_cnt36, h1]
    exact Nat.mod_eq_of_lt (by rw [h1] at h2; exact h2)

theorem faces_sum {dice : Dice} (hd : dice.Valid) {used : List Nat} (hu : Spec.Uses (Spec.faces dice) used) : used.sum ≤ 24 := by
  have h : used.Subperm (Spec.faces dice) := List.subperm_ext_iff.2 fun x _ => hu x
  obtain ⟨l, hp, hs⟩ := h
  have h1 := hs.sum_le_sum fun _ _ => Nat.zero_le _
  rw [← hp.sum_eq]
  refine Nat.le_trans h1 ?_
  cases dice with
  | double d =>
    obtain ⟨-, h2⟩ : 1 ≤ d ∧ d ≤ 6 := hd
    simp only [Spec.faces, List.sum_cons, List.sum_nil]; omega
  | mixed b s =>
    obtain ⟨-, h2, h3⟩ : 1 ≤ s ∧ s < b ∧ b ≤ 6 := hd
    simp only [Spec.faces, List.sum_cons, List.sum_nil]; omega

/-- A side with pips to go has not finished. -/
theorem pips_ongoing {p : Pos N} (hp : p.Valid) (hx : 0 < p.view.pipsX) (ho : 0 < p.view.pipsO) : p.gameState = .ongoing := by
  refine ongoing_iff.2 ⟨fun h => ?_, fun h => ?_⟩
  · have hs := hp.sumX
    have : p.view.xOff = p.xOff := rfl
    have h0 : p.view.countX = 0 := by omega
    unfold Spec.Board.countX at h0
    rw [Finset.sum_eq_zero_iff] at h0
    refine absurd (Finset.sum_eq_zero fun i hi => ?_) hx.ne'
    rw [h0 i hi, Nat.mul_zero]
  · have hs := hp.sumO
    have : p.view.oOff = p.oOff := rfl
    have h0 : p.view.countO = 0 := by omega
    unfold Spec.Board.countO at h0
    rw [Finset.sum_eq_zero_iff] at h0
    refine absurd (Finset.sum_eq_zero fun i hi => ?_) ho.ne'
    rw [h0 i hi, Nat.mul_zero]

/-- **C62** How early can a game end: as long as the mover has more than 24 pips to go for each of his plies, and the opponent for each of
hers, the game goes on. -/
theorem C62_game_length (p q : Pos N) (hp : p.Valid) (k : Nat) (h : PlyLine p k q) (hx : 24 * ((k + 1) / 2) < p.view.pipsX)
    (ho : 24 * (k / 2) < p.view.pipsO) : q.gameState = .ongoing := by
  induction h with
  | nil => exact pips_ongoing hp (by omega) (by omega)
  | @cons p c q n dice hg hd hc hl ih =>
    obtain ⟨⟨ms, hu, -, -, h1, -⟩, h2⟩ := C06_pip_accounting p c hp.barsOK dice hd hc
    have := faces_sum hd hu
    have hxx : c.view.pipsO = c.flip.view.pipsX := by rw [view_flip, (MoveText.pips_mirror _).1]
    have hoo : c.view.pipsX = c.flip.view.pipsO := by rw [view_flip, (MoveText.pips_mirror _).2]
    exact ih (C04_children_valid p c hp dice hd hc) (by omega) (by omega)

example (q : Pos 15) (h : PlyLine Ex.start 10 q) := C62_game_length Ex.start q (by decide) 10 h (by decide +kernel) (by decide +kernel)

theorem length_flatMap_le {α β : Type} (l : List α) (f : α → List β) (k m : Nat) (hl : l.length ≤ k) (hf : ∀ a ∈ l, (f a).length ≤ m) :
    (l.flatMap f).length ≤ k * m := by
  refine Nat.le_trans ?_ (Nat.mul_le_mul_right m hl)
  clear hl
  induction l with
  | nil => simp
  | cons a l ih =>
    have h1 := hf a (by simp)
    have h2 := ih fun x hx => hf x (by simp [hx])
    simp only [List.flatMap_cons, List.length_append, List.length_cons, Nat.add_mul]
    omega

theorem length_rng_le (a b : Nat) : (rng a b).length ≤ b := by simp [rng]

theorem length_movesFrom (p : Pos N) (die : Nat) (l : List Nat) (k : Nat) (h : l.length ≤ k) : (p.movesFrom die l).length ≤ k := by
  have := length_flatMap_le l (fun i => if p.canMoveB i die then [p.mv i die] else []) k 1 h fun a _ => by split_ifs <;> simp
  simpa [movesFrom] using this

theorem ite_len {α : Type} {c : Prop} [Decidable c] {a b : List α} {m : Nat} (h1 : a.length ≤ m) (h2 : b.length ≤ m) :
    (if c then a else b).length ≤ m := by split_ifs <;> assumption

/-- **C62** The number of legal positions is bounded: at most `25^4` for a double, at most 1875 for two different dice. -/
theorem C62_branching (p : Pos N) (dice : Dice) :
    (p.legalPositions dice).length ≤ (match dice with | .double _ => 390625 | .mixed _ _ => 1875) := by
  rw [legalPositions, List.length_map]
  cases dice with
  | double die =>
    simp only [playedPositions, doubleMoves]
    split_ifs
    · simp
    · simp
    · generalize (p.afterEntering die).1 = p, (p.afterEntering die).2 = e
      simp only [doubleAfterEntering]
      refine ite_len (by simp) ?_
      refine length_flatMap_le _ _ 25 15625 (length_rng_le _ _) fun i1 h1 => ?_
      have h1 := (mem_rng.1 h1).2
      refine ite_len (ite_len (by simp) ?_) (by simp)
      refine length_flatMap_le _ _ 25 625 (Nat.le_trans (length_rng_le _ _) h1) fun i2 h2 => ?_
      have h2 := (mem_rng.1 h2).2
      refine ite_len (ite_len (by simp) ?_) (by simp)
      refine length_flatMap_le _ _ 25 25 (Nat.le_trans (length_rng_le _ _) (by omega)) fun i3 h3 => ?_
      have h3 := (mem_rng.1 h3).2
      refine ite_len (ite_len (by simp) ?_) (by simp)
      refine length_flatMap_le _ _ 25 1 (Nat.le_trans (length_rng_le _ _) (by omega)) fun i4 h4 => ?_
      exact ite_len (by simp) (by simp)
  | mixed b s =>
    simp only [playedPositions, mixedMoves]
    split_ifs
    · have a : (p.smallFirst b s).length ≤ 25 * 25 := length_flatMap_le _ _ 25 25 (by simp [rng]) fun i hi => by
        have hi := (mem_rng.1 (List.mem_reverse.1 hi)).2
        split_ifs
        · exact length_movesFrom _ _ _ _ (by simp [rng]; omega)
        · simp
      have c : (p.bigFirst b s).length ≤ 25 * 50 := length_flatMap_le _ _ 25 50 (length_rng_le _ _) fun i hi => by
        have hi := (mem_rng.1 hi).2
        refine ite_len (length_movesFrom _ _ _ _ (ite_len ?_ ?_)) (by simp)
        · simp [rng]; omega
        · simp [rng]; omega
      have d1 : (p.oneCheckerMoves b).length ≤ 25 := length_movesFrom _ _ _ _ (length_rng_le _ _)
      have d2 : (p.oneCheckerMoves s).length ≤ 25 := length_movesFrom _ _ _ _ (length_rng_le _ _)
      simp only [mixed0]
      split_ifs
      · simp
      · omega
      · omega
      · rw [List.length_append]; omega
    · have a : ∀ q : Pos N, (q.movesFrom s (rng (s + 1) 25)).length ≤ 25 := fun q => length_movesFrom _ _ _ _ (length_rng_le _ _)
      have c : ∀ q : Pos N, ∀ l : List Nat, l.length ≤ 50 → (q.movesFrom b l).length ≤ 50 := fun q l hl => length_movesFrom _ _ _ _ hl
      simp only [mixed1]
      split_ifs <;> first | (simp; done) | skip
      all_goals
        simp only [List.length_append, List.nil_append, List.append_nil, List.length_nil]
        have := a (p.enter b)
        have := c (p.enter s) (rng (b + 1) 25) (by simp [rng]; omega)
        have := c (p.enter s) (rng (b + 1) (25 - s) ++ rng (25 - s + 1) 25) (by simp [rng]; omega)
        omega
    · simp [mixed2]

/-- The number of lines of play grows by a factor of at most `2400000` per ply. -/
theorem cntW_le (w : Bool) (d : Nat) : ∀ p : Pos N, Perft.cntW w d p ≤ 2400000 ^ d := by
  induction d with
  | zero => intro p; unfold Perft.cntW; split_ifs <;> simp [Perft.cnt]
  | succ d ih =>
    intro p
    rw [Perft.cntW_succ]
    have hs : ∀ dice : Dice, ((p.legalPositions dice).map (Perft.cntW w d)).sum ≤
        (match dice with | .double _ => 390625 | .mixed _ _ => 1875) * 2400000 ^ d := fun dice => by
      have h1 : ((p.legalPositions dice).map (Perft.cntW w d)).sum ≤ (p.legalPositions dice).length * 2400000 ^ d := by
        generalize p.legalPositions dice = l
        induction l with
        | nil => simp
        | cons x l ihl =>
          have := ih x
          simp only [List.map_cons, List.sum_cons, List.length_cons, Nat.add_mul]; omega
      exact Nat.le_trans h1 (Nat.mul_le_mul_right _ (C62_branching p dice))
    have h2 : (all21.map fun dc => (if w then dc.2 else 1) * ((p.legalPositions dc.1).map (Perft.cntW w d)).sum).sum ≤
        (all21.map fun dc => dc.2 * ((match dc.1 with | .double _ => 390625 | .mixed _ _ => 1875) * 2400000 ^ d)).sum := by
      have : ∀ L : List (Dice × Nat), (∀ dc ∈ L, 1 ≤ dc.2) →
          (L.map fun dc => (if w then dc.2 else 1) * ((p.legalPositions dc.1).map (Perft.cntW w d)).sum).sum ≤
          (L.map fun dc => dc.2 * ((match dc.1 with | .double _ => 390625 | .mixed _ _ => 1875) * 2400000 ^ d)).sum := by
        intro L
        induction L with
        | nil => intro _; simp
        | cons dc L ihL =>
          intro hL
          have a := ihL fun x hx => hL x (List.mem_cons_of_mem _ hx)
          have b : (if w then dc.2 else 1) ≤ dc.2 := by split_ifs; exact Nat.le_refl _; exact hL dc (by simp)
          have c := Nat.mul_le_mul b (hs dc.1)
          simp only [List.map_cons, List.sum_cons]
          omega
      exact this all21 (by decide)
    refine Nat.le_trans h2 ?_
    have h3 : (all21.map fun dc => dc.2 * ((match dc.1 with | .double _ => 390625 | .mixed _ _ => 1875) * 2400000 ^ d)).sum =
        2400000 * 2400000 ^ d := by
      have e : all21 = [(.double 1, 1), (.mixed 2 1, 2), (.mixed 3 1, 2), (.mixed 4 1, 2), (.mixed 5 1, 2), (.mixed 6 1, 2),
        (.double 2, 1), (.mixed 3 2, 2), (.mixed 4 2, 2), (.mixed 5 2, 2), (.mixed 6 2, 2),
        (.double 3, 1), (.mixed 4 3, 2), (.mixed 5 3, 2), (.mixed 6 3, 2),
        (.double 4, 1), (.mixed 5 4, 2), (.mixed 6 4, 2), (.double 5, 1), (.mixed 6 5, 2), (.double 6, 1)] := by decide
      rw [e]
      simp only [List.map_cons, List.map_nil, List.sum_cons, List.sum_nil]
      ring
    rw [h3, Nat.pow_succ]
    omega

/-- **C62** No panic: with at most six plies, and more pips to go than could be played, a debug build of `perft` returns the number. -/
theorem C62_debug_perft_total (w : Bool) (hN : N ≤ 127) (p : Pos N) (hp : p.Valid) (depth : Nat) (hd : depth ≤ 6)
    (hx : 24 * (depth / 2) < p.view.pipsX) (ho : 24 * (depth / 2) < p.view.pipsO) :
    Chk.perft w depth p = some (perft w depth p) := by
  have h : Chk.perft w depth p = some (Perft.cntW w depth p) := by
    refine (chk_perft_iff w hN depth p hp _).2 ⟨fun k q hk hl => ?_, rfl, ?_⟩
    · exact C62_game_length p q hp k hl (by omega) (by omega)
    · refine Nat.lt_of_le_of_lt (cntW_le w depth p) (Nat.lt_of_le_of_lt (Nat.pow_le_pow_right (by omega) hd) (by decide))
  rw [h, C62_builds_agree w hN p hp depth _ h]

example := C62_builds_agree true (by omega) Ex.start (by decide) 6 _ (C62_debug_perft_total true (by omega) Ex.start (by decide) 6 (by omega) (by decide +kernel) (by decide +kernel))

example := C62_debug_perft_total true (by omega) Ex.start (by decide) 6 (by omega) (by decide +kernel) (by decide +kernel)

/-- **C62** The start positions: three plies are safe in every variant, and six in backgammon, nackgammon, longgammon and the variants with four
and five checkers. -/
theorem C62_start_positions (w : Bool) (v : Variant) (depth : Nat) (hd : depth ≤ 3 ∨ (depth ≤ 6 ∧ v ≠ .hypergammon ∧ v ≠ .hypergammon2)) :
    v.startPosition.encodeWith (fun _ p => Chk.perft w depth p) = some (v.startPosition.encodeWith fun _ p => perft w depth p) := by
  have h1 : 24 * (depth / 2) ≤ 24 ∨ (24 * (depth / 2) ≤ 72 ∧ v ≠ .hypergammon ∧ v ≠ .hypergammon2) := by
    rcases hd with h | ⟨h, h'⟩
    · exact Or.inl (by omega)
    · exact Or.inr ⟨by omega, h'⟩
  have h2 : depth ≤ 6 := by omega
  have key : ∀ {N : Nat} (p : Pos N), N ≤ 15 → p.Valid → ∀ m, 24 * (depth / 2) ≤ m → m < p.view.pipsX → m < p.view.pipsO →
      Chk.perft w depth p = some (perft w depth p) := fun p hN hp m hm hx ho =>
    C62_debug_perft_total w (by omega) p hp depth h2 (by omega) (by omega)
  cases v
  · exact key BACKGAMMON (by omega) (by decide) 72 (by omega) (by decide +kernel) (by decide +kernel)
  · exact key NACKGAMMON (by omega) (by decide) 72 (by omega) (by decide +kernel) (by decide +kernel)
  · exact key LONGGAMMON (by omega) (by decide) 72 (by omega) (by decide +kernel) (by decide +kernel)
  · exact key HYPERGAMMON (by omega) (by decide) 24 (by simp at h1; omega) (by decide +kernel) (by decide +kernel)
  · exact key HYPERGAMMON2 (by omega) (by decide) 24 (by simp at h1; omega) (by decide +kernel) (by decide +kernel)
  · exact key HYPERGAMMON4 (by omega) (by decide) 72 (by omega) (by decide +kernel) (by decide +kernel)
  · exact key HYPERGAMMON5 (by omega) (by decide) 72 (by omega) (by decide +kernel) (by decide +kernel)

/-- A bear-off position: one ply is counted, with two plies the game may be over after one and the debug build panics. -/
example : Ex.bearPos.Valid ∧ Chk.perft false 1 Ex.bearPos = some 42 ∧ Chk.perft false 2 Ex.bearPos = none := by decide +kernel

end Bkgm
