import Verif.Props.ReleaseGame
/-!
# C98: move text in a release build
-/

namespace Bkgm
open Pos MoveText
variable {N : Nat}

section
variable {p : Pos N} (hp : p.Valid) (hN : N ≤ 127)
include hp hN

theorem rel_movable {d : Nat} (hd : 1 ≤ d ∧ d ≤ 6) : Chk.anyM (Rel.movable p d) (rng 1 26) = some ((rng 1 26).any fun src => (p.tryMove src d).isSome) :=
  anyM_ok fun f hf => by
    have := mem_rng.1 hf
    unfold Rel.movable
    rw [C95_try_move p hp hN f d (by omega) hd.1 hd.2]
    rfl
end

theorem rel_findSteps (hN : N ≤ 127) (target : Pos N) : ∀ (o : List Nat), (∀ d ∈ o, 1 ≤ d ∧ d ≤ 6) → ∀ p : Pos N, p.Valid →
    Rel.findSteps target o p = some (findSteps target o p)
  | [], _, p, _ => rfl
  | d :: rest, ho, p, hp => by
    have hd := ho d (by simp)
    have hrest : ∀ d ∈ rest, 1 ≤ d ∧ d ≤ 6 := fun e he => ho e (by simp [he])
    unfold Rel.findSteps findSteps
    rw [findSomeM_ok (g := fun src => (p.tryMove src d).bind fun next => (findSteps target rest next).map fun l => ⟨src, src - d⟩ :: l)]
    · simp only [Option.bind_eq_bind, Option.bind_some]
      cases (rng 1 26).findSome? fun src => (p.tryMove src d).bind fun next => (findSteps target rest next).map fun l => (⟨src, src - d⟩ : Step) :: l with
      | some l => rfl
      | none =>
        simp only [rel_movable hp hN hd, Option.bind_some]
        split_ifs
        · rfl
        · exact rel_findSteps hN target rest hrest p hp
    · intro f hf
      have := mem_rng.1 hf
      simp only [C95_try_move p hp hN f d (by omega) hd.1 hd.2, Option.bind_eq_bind, Option.bind_some]
      cases h : p.tryMove f d with
      | none => rfl
      | some q =>
        simp only [rel_findSteps hN target rest hrest q (tryMove_valid hp (by omega) (by omega) hd h), Option.bind_some]
        rfl

/-- **C98** `encode_move` in a release build: on any two valid positions and any legal dice. -/
theorem C98_encode (hN : N ≤ 127) (start next : Pos N) (hs : start.Valid) (hn : next.Valid) (dice : Dice) (hv : dice.Valid) :
    Rel.encodeFor start next dice = some (encodeFor start next dice) := by
  unfold Rel.encodeFor encodeFor
  rw [Rel.flip_valid next hn hN]
  simp only [Option.bind_eq_bind, Option.bind_some]
  rw [findSomeM_ok fun o ho => rel_findSteps hN next.flip o (orders_dies hv o ho) start hs]
  simp only [Option.bind_some]
  cases (orders dice).findSome? fun o => findSteps next.flip o start <;> rfl

example := C98_encode (by omega) Ex.hitPos (Ex.hitPos.mv 10 5).flip (by decide) (by decide) (.mixed 6 5) (by decide)

theorem rel_applySteps (hN : N ≤ 127) (dice : List Nat) (hd : ∀ d ∈ dice, 1 ≤ d ∧ d ≤ 6) : ∀ (l : List Step), (∀ s ∈ l, 1 ≤ s.src ∧ s.src ≤ 25) →
    ∀ (p : Pos N) (used : List Nat), p.Valid → Rel.applySteps dice l p used = some (applySteps dice l p used)
  | [], _, p, used, _ => rfl
  | s :: l, hl, p, used, hp => by
    have hs := hl s (by simp)
    unfold Rel.applySteps applySteps
    refine findSomeM_ok fun idx hi => ?_
    have hi' : idx < dice.length := by simpa using hi
    have hdi : 1 ≤ dice.getD idx 0 ∧ dice.getD idx 0 ≤ 6 := by
      simp only [List.getD, List.getElem?_eq_getElem hi', Option.getD_some]
      exact hd _ (List.getElem_mem hi')
    split_ifs
    · rfl
    · rfl
    · simp only [C95_try_move p hp hN s.src _ hs.2 hdi.1 hdi.2, Option.bind_eq_bind, Option.bind_some]
      cases h : p.tryMove s.src (dice.getD idx 0) with
      | none => rfl
      | some q =>
        simp only [Option.bind_some]
        exact rel_applySteps hN dice hd l (fun t ht => hl t (by simp [ht])) q _ (tryMove_valid hp hs.1 hs.2 hdi h)

/-- **C98** `apply_move` in a release build: on any valid position, any legal dice and any text whatsoever. -/
theorem C98_apply (hN : N ≤ 127) (p : Pos N) (hp : p.Valid) (dice : Dice) (hv : dice.Valid) (text : Str) :
    Rel.applyFor p dice text = some (applyFor p dice text) := by
  unfold Rel.applyFor applyFor
  cases hn : normalize text with
  | none => rfl
  | some t =>
    simp only [Option.bind_some]
    cases hs : parseSteps t with
    | none => rfl
    | some steps =>
      have hsrc := parsed_sources hs
      have hd : ∀ d ∈ diceBuf dice, 1 ≤ d ∧ d ≤ 6 := diceBuf_dies hv
      simp only [Option.bind_some, Option.bind_eq_bind, rel_applySteps hN _ hd steps hsrc p [] hp]
      cases ha : applySteps (diceBuf dice) steps p [] with
      | none => rfl
      | some r =>
        obtain ⟨cur, used⟩ := r
        have hc : cur.Valid := applySteps_valid _ hd steps hsrc p [] _ hp ha
        simp only [Option.bind_some]
        rw [anyM_ok (g := fun idx => !decide (idx ∈ used) && anyMove cur ((diceBuf dice).getD idx 0))]
        · show ((some (unusedPlayable (diceBuf dice) used cur)).bind fun b => if b = true then pure none else pure (some (Rel.flip cur))) = _
          simp only [Option.bind_some, Rel.flip_valid cur hc hN]
          cases unusedPlayable (diceBuf dice) used cur <;> rfl
        · intro idx hi
          have hi' : idx < (diceBuf dice).length := by simpa using hi
          split_ifs with hu
          · simp [hu]
          · simp only [hu, decide_false, Bool.not_false, Bool.true_and]
            refine rel_movable hc hN ?_
            simp only [List.getD, List.getElem?_eq_getElem hi', Option.getD_some]
            exact hd _ (List.getElem_mem hi')

example := C98_apply (by omega) Ex.hitPos (by decide) (.mixed 6 5) (by decide) "10/5* 8/2 junk".toList

theorem rel_paths (hN : N ≤ 127) : ∀ (o : List Nat), (∀ d ∈ o, 1 ≤ d ∧ d ≤ 6) → ∀ p : Pos N, p.Valid → Rel.paths o p = some (paths o p)
  | [], _, p, hp => by
    unfold Rel.paths paths; rfl
  | d :: rest, ho, p, hp => by
    have hd := ho d (by simp)
    have hrest : ∀ d ∈ rest, 1 ≤ d ∧ d ≤ 6 := fun e he => ho e (by simp [he])
    unfold Rel.paths paths
    rw [Chk.collect_ok (g := fun src => match p.tryMove src d with
        | some next => (paths rest next).map fun (l, q) => (⟨src, src - d⟩ :: l, q)
        | none => [])]
    · simp only [Option.bind_eq_bind, Option.bind_some, rel_movable hp hN hd]
      split_ifs
      · rfl
      · exact rel_paths hN rest hrest p hp
    · intro f hf
      have := mem_rng.1 hf
      simp only [C95_try_move p hp hN f d (by omega) hd.1 hd.2, Option.bind_eq_bind, Option.bind_some]
      cases h : p.tryMove f d with
      | none => rfl
      | some q =>
        simp only [rel_paths hN rest hrest q (tryMove_valid hp (by omega) (by omega) hd h), Option.bind_some]
        rfl


theorem paths_valid : ∀ (o : List Nat), (∀ d ∈ o, 1 ≤ d ∧ d ≤ 6) → ∀ p : Pos N, p.Valid → ∀ x ∈ paths o p, x.2.Valid
  | [], _, p, hp, x, hx => by
    simp only [paths, List.mem_singleton] at hx
    subst hx; exact hp
  | d :: rest, ho, p, hp, x, hx => by
    have hd := ho d (by simp)
    have hrest : ∀ d ∈ rest, 1 ≤ d ∧ d ≤ 6 := fun e he => ho e (by simp [he])
    unfold paths at hx
    simp only at hx
    split_ifs at hx
    · obtain ⟨f, hf, hx⟩ := List.mem_flatMap.1 hx
      have := mem_rng.1 hf
      cases h : p.tryMove f d with
      | none => simp [h] at hx
      | some q =>
        simp only [h] at hx
        obtain ⟨y, hy, rfl⟩ := List.mem_map.1 hx
        exact paths_valid rest hrest q (tryMove_valid hp (by omega) (by omega) hd h) y hy
    · exact paths_valid rest hrest p hp x hx

theorem rel_recordLeaf (legal : List (Pos N)) (hN : N ≤ 127) : ∀ (leaves : List (List Step × Pos N)), (∀ x ∈ leaves, x.2.Valid) →
    ∀ slots, leaves.foldl (Rel.recordLeaf legal) slots = leaves.foldl (recordLeaf legal) slots
  | [], _, slots => rfl
  | x :: l, h, slots => by
    rw [List.foldl_cons, List.foldl_cons, rel_recordLeaf legal hN l fun y hy => h y (by simp [hy])]
    congr 1
    unfold Rel.recordLeaf recordLeaf
    rw [Rel.flip_valid x.2 (h x (by simp)) hN]

/-- **C98** `legal_moves` in a release build: on any valid position, a finished one included. -/
theorem C98_legal (hN : N ≤ 127) (p : Pos N) (hp : p.Valid) (dice : Dice) (hv : dice.Valid) :
    Rel.legalFor p dice = some (legalFor p dice) := by
  unfold Rel.legalFor legalFor
  rw [C95_valid p hp hN dice hv]
  have leaves : ∀ os : List (List Nat), (∀ o ∈ os, ∀ d ∈ o, 1 ≤ d ∧ d ≤ 6) →
      Rel.allLeaves p os = some (os.flatMap fun order => paths order p ++ paths order p.flip) := by
    intro os
    induction os with
    | nil => intro _; rfl
    | cons o os ih =>
      intro h
      unfold Rel.allLeaves
      rw [rel_paths hN o (h o (by simp)) p hp, Rel.flip_valid p hp hN, ih fun o ho => h o (by simp [ho])]
      simp only [Option.bind_eq_bind, Option.bind_some, rel_paths hN o (h o (by simp)) p.flip hp.flip]
      rfl
  have hval : ∀ x ∈ allLeaves p dice, x.2.Valid := by
    intro x hx
    obtain ⟨o, ho, hx⟩ := List.mem_flatMap.1 hx
    rcases List.mem_append.1 hx with hx | hx
    · exact paths_valid o (orders_dies hv o ho) p hp x hx
    · exact paths_valid o (orders_dies hv o ho) p.flip hp.flip x hx
  simp only [Option.bind_eq_bind, Option.bind_some, leaves _ (orders_dies hv)]
  have e : (orders dice).flatMap (fun order => paths order p ++ paths order p.flip) = allLeaves p dice := rfl
  rw [e, rel_recordLeaf _ hN _ hval]
  rfl

/-- A finished position, on which a debug build panics. -/
example := C98_legal (by omega) (Ex.cells 3 [-1, -2] 3 0) (by decide +kernel) (.mixed 6 5) (by decide)

/-! ## No board and no text makes it panic -/

namespace Rel

theorem findSomeM_okR {α β : Type} {f : α → Option (Option β)} : ∀ {l : List α}, (∀ a ∈ l, Ok (f a)) → Ok (Chk.findSomeM f l)
  | [], _ => .some _
  | a :: l, h => .bind (h a (by simp)) fun r _ => by
    cases r with
    | none => exact findSomeM_okR (l := l) fun b hb => h b (by simp [hb])
    | some b => exact .some _

theorem anyM_okR {α : Type} {f : α → Option Bool} : ∀ {l : List α}, (∀ a ∈ l, Ok (f a)) → Ok (Chk.anyM f l)
  | [], _ => .some _
  | a :: l, h => .bind (h a (by simp)) fun r _ => .ite (fun _ => .pure _) fun _ => anyM_okR (l := l) fun b hb => h b (by simp [hb])

theorem tryMove_okR (p : Pos N) {f d : Nat} (hf : f ≤ 25) (hd : 1 ≤ d ∧ d ≤ 6) : Ok (tryMove p f d) := by
  refine Option.ne_none_iff_exists'.1 fun h => ?_
  have := (C95_try_move_panics_iff p f d hd.1 hd.2).1 h
  omega

theorem movable_okR (p : Pos N) {d : Nat} (hd : 1 ≤ d ∧ d ≤ 6) : Ok (Chk.anyM (movable p d) (rng 1 26)) :=
  anyM_okR fun f hf => map_okR _ (tryMove_okR p (by have := (mem_rng.1 hf).2; omega) hd)

theorem findSteps_okR (target : Pos N) : ∀ (o : List Nat), (∀ d ∈ o, 1 ≤ d ∧ d ≤ 6) → ∀ p : Pos N, Ok (findSteps target o p)
  | [], _, p => .some _
  | d :: rest, ho, p => by
    have hd := ho d (by simp)
    have hrest : ∀ d ∈ rest, 1 ≤ d ∧ d ≤ 6 := fun e he => ho e (by simp [he])
    unfold findSteps
    refine .bind (findSomeM_okR fun f hf => .bind (tryMove_okR p (by have := (mem_rng.1 hf).2; omega) hd) fun r _ => ?_) fun r _ => ?_
    · cases r with
      | none => exact .pure _
      | some q => exact .bind (findSteps_okR target rest hrest q) fun _ _ => .pure _
    · cases r with
      | some l => exact .pure _
      | none => exact .bind (movable_okR p hd) fun _ _ => .ite (fun _ => .pure _) fun _ => findSteps_okR target rest hrest p

theorem applySteps_okR (dice : List Nat) (hd : ∀ d ∈ dice, 1 ≤ d ∧ d ≤ 6) : ∀ (l : List Step), (∀ s ∈ l, 1 ≤ s.src ∧ s.src ≤ 25) →
    ∀ (p : Pos N) (used : List Nat), Ok (applySteps dice l p used)
  | [], _, p, used => .some _
  | s :: l, hl, p, used => by
    have hs := hl s (by simp)
    unfold applySteps
    refine findSomeM_okR fun idx hi => .ite (fun _ => .some _) fun _ => .ite (fun _ => .some _) fun _ => ?_
    have hi' : idx < dice.length := by simpa using hi
    have hdi : 1 ≤ dice.getD idx 0 ∧ dice.getD idx 0 ≤ 6 := by
      simp only [List.getD, List.getElem?_eq_getElem hi', Option.getD_some]
      exact hd _ (List.getElem_mem hi')
    refine .bind (tryMove_okR p hs.2 hdi) fun r _ => ?_
    cases r with
    | none => exact .pure _
    | some q => exact applySteps_okR dice hd l (fun t ht => hl t (by simp [ht])) q _

theorem paths_okR : ∀ (o : List Nat), (∀ d ∈ o, 1 ≤ d ∧ d ≤ 6) → ∀ p : Pos N, Ok (paths o p)
  | [], _, p => .some _
  | d :: rest, ho, p => by
    have hd := ho d (by simp)
    have hrest : ∀ d ∈ rest, 1 ≤ d ∧ d ≤ 6 := fun e he => ho e (by simp [he])
    unfold paths
    refine .bind (.collect fun f hf => .bind (tryMove_okR p (by have := (mem_rng.1 hf).2; omega) hd) fun r _ => ?_) fun l _ =>
      .bind (movable_okR p hd) fun _ _ => .ite (fun _ => .pure _) fun _ => paths_okR rest hrest p
    cases r with
    | none => exact .pure _
    | some q => exact .bind (paths_okR rest hrest q) fun _ _ => .pure _

theorem allLeaves_okR (p : Pos N) : ∀ os : List (List Nat), (∀ o ∈ os, ∀ d ∈ o, 1 ≤ d ∧ d ≤ 6) → Ok (allLeaves p os)
  | [], _ => .some _
  | o :: os, h => .bind (paths_okR o (h o (by simp)) p) fun _ _ => .bind (paths_okR o (h o (by simp)) (flip p)) fun _ _ =>
      .bind (allLeaves_okR p os fun o ho => h o (by simp [ho])) fun _ _ => .pure _

end Rel

/-- **C98** In a release build no board and no text makes `encode_move`, `apply_move` or `legal_moves` panic: any positions (not only valid ones) and legal dice. -/
theorem C98_never_panics (p next : Pos N) (dice : Dice) (hv : dice.Valid) (text : Str) :
    Rel.encodeFor p next dice ≠ none ∧ Rel.applyFor p dice text ≠ none ∧ Rel.legalFor p dice ≠ none := by
  refine ⟨Option.ne_none_iff_exists'.2 ?_, Option.ne_none_iff_exists'.2 ?_, Option.ne_none_iff_exists'.2 ?_⟩
  · show Rel.Ok _
    unfold Rel.encodeFor
    refine .bind (Rel.findSomeM_okR fun o ho => Rel.findSteps_okR _ o (orders_dies hv o ho) p) fun r _ => ?_
    cases r <;> exact .pure _
  · show Rel.Ok _
    unfold Rel.applyFor
    cases hn : (normalize text).bind parseSteps with
    | none => exact .some _
    | some steps =>
      obtain ⟨t, -, hs⟩ := Option.bind_eq_some_iff.1 hn
      have hd : ∀ d ∈ diceBuf dice, 1 ≤ d ∧ d ≤ 6 := diceBuf_dies hv
      refine .bind (Rel.applySteps_okR _ hd steps (parsed_sources hs) p []) fun r _ => ?_
      rcases r with _ | ⟨cur, used⟩
      · exact .pure _
      · refine .bind (Rel.anyM_okR fun idx hi => .ite (fun _ => .some _) fun _ => ?_) fun _ _ => .ite (fun _ => .pure _) fun _ => .pure _
        have hi' : idx < (diceBuf dice).length := by simpa using hi
        refine Rel.movable_okR cur ?_
        simp only [List.getD, List.getElem?_eq_getElem hi', Option.getD_some]
        exact hd _ (List.getElem_mem hi')
  · show Rel.Ok _
    unfold Rel.legalFor
    exact .bind (Rel.legal_okR p dice hv) fun _ _ => .bind (Rel.allLeaves_okR p _ (orders_dies hv)) fun _ _ => .pure _

example := C98_never_panics (Ex.cells 15 [7, -128, 127, -128] 200 200) (Ex.cells 15 [-128] 0 0) (.double 3) (by decide) "bar/22 24/off 6/3".toList

end Bkgm
