import Verif.Proofs.Double
import Batteries.Data.List.Perm
/-!
Helper lemmas: the model's single moves are the rules' single moves; plays and legality.
-/

namespace Bkgm
namespace Pos
variable {N : Nat}

theorem canStep_iff {p : Pos N} {f d : Nat} : Spec.CanStep p.view f d ↔ p.Can f d := by
  constructor
  · rintro ⟨h1, h2, h3, h4, h5, h6⟩
    simp only [view] at *
    exact ⟨h1.1, h1.2, by omega, fun h => by by_contra hc; exact h (h3 (by omega)),
      fun h => by have := h4 h; omega, fun h i hi => by have := h5 h i hi; omega,
      fun h i hi => by have := h6 h i hi; omega⟩
  · rintro ⟨h1, h2, h3, h4, h5, h6, h7⟩
    refine ⟨⟨h1, h2⟩, ?_, ?_, ?_, ?_, ?_⟩ <;> simp only [view]
    · omega
    · intro h; by_contra hc; have := h4 hc; omega
    · intro h; have := h5 h; omega
    · intro h i hi; have := h6 h i hi; omega
    · intro h i hi; have := h7 h i hi; omega

theorem after_view {p : Pos N} (hb : p.BarsOK) {f d : Nat} (hd : 1 ≤ d) (hc : p.Can f d) :
    Spec.after p.view f d = (p.mv f d).view := by
  obtain ⟨h1, h2, h3, h4, h5, h6, h7⟩ := hc
  have e := pip_mv p h2 hd
  have h0 := hb.1
  unfold Spec.after
  by_cases hfd : f ≤ d
  · rw [if_pos hfd]
    simp only [if_neg (show ¬ d < f by omega)] at e
    unfold view
    simp only [Spec.Board.mk.injEq, xOff_mv, oOff_mv, if_neg (show ¬ d < f by omega), and_true]
    constructor <;> funext j <;> simp only [e, Spec.upd]
    · split_ifs <;> omega
    · split_ifs with hj
      · subst hj; omega
      · rfl
  · rw [if_neg hfd]
    have hdf : d < f := by omega
    have hfree := h5 hdf
    simp only [if_pos hdf] at e
    have c1 : ¬ (f - d = f) := by omega
    have c2 : ¬ (0 = f) := by omega
    have c3 : ¬ (0 = f - d) := by omega
    by_cases hh : p.pip (f - d) = -1
    · have ho : p.view.o (f - d) = 1 := by simp [view, hh]
      simp only [ho, if_true]
      simp only [hh, and_true, if_true] at e
      unfold view
      simp only [Spec.Board.mk.injEq, xOff_mv, oOff_mv, if_pos hdf, and_true]
      constructor <;> funext j <;> simp only [e, Spec.upd, hh]
      · by_cases j1 : j = f - d
        · subst j1; simp [c1]
        · by_cases j2 : j = f
          · subst j2; simp [j1]
          · by_cases j3 : j = 0
            · subst j3; simp [c2, c3]; omega
            · simp [j1, j2, j3]
      · by_cases j1 : j = f - d
        · subst j1; simp [c1]; intro; omega
        · by_cases j2 : j = f
          · subst j2; simp [j1]; split_ifs <;> omega
          · by_cases j3 : j = 0
            · subst j3; simp [c2, c3]; omega
            · simp [j1, j2, j3]
    · have ho : ¬ p.view.o (f - d) = 1 := by simp only [view]; omega
      simp only [ho, if_false]
      simp only [hh, and_false, if_false] at e
      unfold view
      simp only [Spec.Board.mk.injEq, xOff_mv, oOff_mv, if_pos hdf, and_true]
      constructor <;> funext j <;> simp only [e, Spec.upd]
      · by_cases j1 : j = f - d
        · subst j1; simp [c1]; omega
        · by_cases j2 : j = f
          · subst j2; simp [j1]
          · simp [j1, j2]
      · by_cases j1 : j = f - d
        · subst j1; simp [c1]; omega
        · by_cases j2 : j = f
          · subst j2; simp [j1]; omega
          · simp [j1, j2]

/-- The view determines everything but the turn flag. -/
theorem view_inj {p q : Pos N} (ht : p.turn = q.turn) (h : p.view = q.view) : p = q := by
  have h1 := congrArg Spec.Board.x h
  have h2 := congrArg Spec.Board.o h
  have h3 : p.xOff = q.xOff := congrArg Spec.Board.xOff h
  have h4 : p.oOff = q.oOff := congrArg Spec.Board.oOff h
  apply ext_pip ht h3 h4
  intro i _
  have a := congrFun h1 i
  have b := congrFun h2 i
  simp only [view] at a b
  omega

/-- Single moves with the given dice, in this order. -/
inductive Run : Pos N → List Nat → Pos N → Prop
  | nil (p : Pos N) : Run p [] p
  | cons {p q : Pos N} {f d : Nat} {l : List Nat} : p.Can f d → Run (p.mv f d) l q → Run p (d :: l) q

theorem Run.turn {p q : Pos N} {l : List Nat} (h : Run p l q) : q.turn = p.turn := by
  induction h with
  | nil => rfl
  | cons _ _ ih => rw [ih, turn_mv]

theorem Run.barsOK {p q : Pos N} {l : List Nat} (hl : ∀ d ∈ l, 1 ≤ d) (h : Run p l q) (hb : p.BarsOK) :
    q.BarsOK := by
  induction h with
  | nil => exact hb
  | cons a _ ih => exact ih (fun d hd => hl d (List.mem_cons_of_mem _ hd)) (barsOK_mv hb (hl _ (by simp)) a)

theorem play_iff {l : List Nat} (hl : ∀ d ∈ l, 1 ≤ d) : ∀ {p : Pos N} {b : Spec.Board}, p.BarsOK →
    (Spec.Play p.view l b ↔ ∃ q, b = q.view ∧ Run p l q) := by
  induction l with
  | nil =>
    intro p b _
    constructor
    · intro h; cases h; exact ⟨p, rfl, .nil _⟩
    · rintro ⟨q, rfl, h⟩; cases h; exact .nil _
  | cons d l ih =>
    intro p b hb
    have hd : 1 ≤ d := hl d (by simp)
    have ih' := fun {p : Pos N} {b} => @ih (fun d hd => hl d (List.mem_cons_of_mem _ hd)) p b
    constructor
    · intro h
      cases h with
      | cons h1 h2 =>
        have hc := canStep_iff.1 h1
        rw [after_view hb hd hc] at h2
        obtain ⟨q, e, hr⟩ := (ih' (barsOK_mv hb hd hc)).1 h2
        exact ⟨q, e, .cons hc hr⟩
    · rintro ⟨q, e, hr⟩
      cases hr with
      | cons hc hr =>
        refine .cons (canStep_iff.2 hc) ?_
        rw [after_view hb hd hc]
        exact (ih' (barsOK_mv hb hd hc)).2 ⟨q, e, hr⟩

theorem run_nil {p q : Pos N} : Run p [] q ↔ q = p := by
  constructor
  · intro h; cases h; rfl
  · rintro rfl; exact .nil _

theorem run_one {p q : Pos N} {d : Nat} : Run p [d] q ↔ p.One d q := by
  constructor
  · intro h; cases h with
    | cons a b => cases b; exact ⟨_, a, rfl⟩
  · rintro ⟨a, h, rfl⟩; exact .cons h (.nil _)

theorem run_two {p q : Pos N} {d e : Nat} : Run p [d, e] q ↔ p.Two d e q := by
  constructor
  · intro h; cases h with
    | cons a b => cases b with
      | cons b c => cases c; exact ⟨_, _, a, b, rfl⟩
  · rintro ⟨a, b, h, h', rfl⟩; exact .cons h (.cons h' (.nil _))

theorem run_replicate {p q : Pos N} {d n : Nat} : Run p (List.replicate n d) q ↔ Steps d n p q := by
  induction n generalizing p with
  | zero =>
    rw [List.replicate_zero, run_nil]
    constructor
    · rintro rfl; exact .zero _
    · intro h; cases h; rfl
  | succ n ih =>
    rw [List.replicate_succ]
    constructor
    · intro h; cases h with
      | cons a b => exact .succ a (ih.1 b)
    · intro h; cases h with
      | succ a b => exact .cons a (ih.2 b)

theorem uses_length {dice used : List Nat} (h : Spec.Uses dice used) : used.length ≤ dice.length := by
  have : used.Subperm dice := List.subperm_ext_iff.2 fun v _ => h v
  exact this.length_le

theorem uses_mixed {b s : Nat} (hbs : b ≠ s) {used : List Nat} : Spec.Uses [b, s] used ↔
    used = [] ∨ used = [b] ∨ used = [s] ∨ used = [b, s] ∨ used = [s, b] := by
  constructor
  · intro h
    have hl := uses_length h
    have hm : ∀ v ∈ used, v = b ∨ v = s := by
      intro v hv
      have h1 := List.count_pos_iff.2 hv
      have h2 := h v
      have : v ∈ [b, s] := List.count_pos_iff.1 (by omega)
      simpa using this
    match used, hl, hm, h with
    | [], _, _, _ => simp
    | [v], _, hm, _ => have := hm v (by simp); rcases this with rfl | rfl <;> simp
    | [v, w], _, hm, h =>
      have h1 := hm v (by simp)
      have h2 := hm w (by simp)
      have hb' := h b
      have hs' := h s
      rcases h1 with rfl | rfl <;> rcases h2 with rfl | rfl <;> simp_all
    | _ :: _ :: _ :: _, hl, _, _ => simp at hl
  · have hsb : ¬ s = b := fun e => hbs e.symm
    rintro (rfl | rfl | rfl | rfl | rfl) v <;> simp only [List.count_cons, List.count_nil] <;> omega

theorem uses_double {d : Nat} {used : List Nat} : Spec.Uses [d, d, d, d] used ↔
    ∃ n, n ≤ 4 ∧ used = List.replicate n d := by
  constructor
  · intro h
    have hl := uses_length h
    refine ⟨used.length, by simpa using hl, List.eq_replicate_of_mem ?_⟩
    intro v hv
    have h1 := List.count_pos_iff.2 hv
    have h2 := h v
    have : v ∈ [d, d, d, d] := List.count_pos_iff.1 (by omega)
    simpa using this
  · rintro ⟨n, hn, rfl⟩ v
    rw [show [d, d, d, d] = List.replicate 4 d from rfl, List.count_replicate, List.count_replicate]
    split_ifs <;> omega

theorem legal_mixed {p q : Pos N} (hb : p.BarsOK) (ht : q.turn = p.turn) {big small : Nat}
    (h1 : 1 ≤ small) (h2 : small < big) (_h3 : big ≤ 6) :
    Spec.Legal [big, small] p.view q.view ↔ p.MixedLegal big small q := by
  have hpl : ∀ used b, Spec.Uses [big, small] used → (Spec.Play p.view used b ↔ ∃ q, b = q.view ∧ Run p used q) := by
    intro used b hu
    apply play_iff _ hb
    rw [uses_mixed (by omega)] at hu
    rcases hu with rfl | rfl | rfl | rfl | rfl <;> simp <;> omega
  have hru : ∀ used, Spec.Uses [big, small] used → (Spec.Play p.view used q.view ↔ Run p used q) := by
    intro used hu
    rw [hpl _ _ hu]
    constructor
    · rintro ⟨r, e, hr⟩
      rwa [view_inj (by rw [hr.turn, ht]) e]
    · intro h; exact ⟨q, rfl, h⟩
  have u0 : Spec.Uses [big, small] [] := (uses_mixed (by omega)).2 (by simp)
  have u1 : Spec.Uses [big, small] [big] := (uses_mixed (by omega)).2 (by simp)
  have u2 : Spec.Uses [big, small] [small] := (uses_mixed (by omega)).2 (by simp)
  have u3 : Spec.Uses [big, small] [big, small] := (uses_mixed (by omega)).2 (by simp)
  have u4 : Spec.Uses [big, small] [small, big] := (uses_mixed (by omega)).2 (by simp)
  have rp : ∀ used r, Spec.Uses [big, small] used → Run p used r → Spec.Play p.view used r.view :=
    fun used r hu hr => (hpl _ _ hu).2 ⟨r, rfl, hr⟩
  unfold Spec.Legal MixedLegal
  simp only [← run_one, ← run_two]
  constructor
  · rintro ⟨used, hu, hp, hmax, hbig⟩
    have hr := (hru used hu).1 hp
    have no2 : used.length < 2 → ∀ r, ¬ (Run p [big, small] r ∨ Run p [small, big] r) := by
      rintro hl r (h | h)
      · have := hmax _ _ u3 (rp _ _ u3 h); simp at this; omega
      · have := hmax _ _ u4 (rp _ _ u4 h); simp at this; omega
    have no1 : used.length < 1 → ∀ r, ¬ Run p [big] r ∧ ¬ Run p [small] r := by
      intro hl r
      constructor <;> intro h
      · have := hmax _ _ u1 (rp _ _ u1 h); simp at this; omega
      · have := hmax _ _ u2 (rp _ _ u2 h); simp at this; omega
    rcases (uses_mixed (by omega)).1 hu with rfl | rfl | rfl | rfl | rfl
    · exact Or.inr ⟨no2 (by simp), Or.inr ⟨fun r => (no1 (by simp) r).1, Or.inr ⟨fun r => (no1 (by simp) r).2, run_nil.1 hr⟩⟩⟩
    · exact Or.inr ⟨no2 (by simp), Or.inl hr⟩
    · refine Or.inr ⟨no2 (by simp), Or.inr ⟨fun r h => ?_, Or.inl hr⟩⟩
      have := hbig small big _ rfl u1 (rp _ _ u1 h)
      omega
    · exact Or.inl (Or.inl hr)
    · exact Or.inl (Or.inr hr)
  · have len2 : ∀ used', Spec.Uses [big, small] used' → used'.length ≤ 2 := fun u h => by simpa using uses_length h
    have two : ∀ used' b'', Spec.Uses [big, small] used' → Spec.Play p.view used' b'' →
        (∀ r, ¬ (Run p [big, small] r ∨ Run p [small, big] r)) →
        (used' = [] ∨ (used' = [big] ∧ ∃ r, Run p [big] r) ∨ (used' = [small] ∧ ∃ r, Run p [small] r)) := by
      intro u b'' hu hp hn
      obtain ⟨r, -, hr⟩ := (hpl _ _ hu).1 hp
      rcases (uses_mixed (by omega)).1 hu with rfl | rfl | rfl | rfl | rfl
      · simp
      · exact Or.inr (Or.inl ⟨rfl, r, hr⟩)
      · exact Or.inr (Or.inr ⟨rfl, r, hr⟩)
      · exact absurd (Or.inl hr) (hn r)
      · exact absurd (Or.inr hr) (hn r)
    have one : ∀ d', Spec.Uses [big, small] [d'] → d' = big ∨ d' = small := by
      intro d' h
      rcases (uses_mixed (by omega)).1 h with h | h | h | h | h <;> simp_all
    rintro ((h | h) | ⟨hn, h | ⟨hnb, h | ⟨hns, rfl⟩⟩⟩)
    · exact ⟨[big, small], u3, (hru _ u3).2 h, fun u _ hu _ => len2 u hu, fun _ _ _ h => by simp at h⟩
    · exact ⟨[small, big], u4, (hru _ u4).2 h, fun u _ hu _ => len2 u hu, fun _ _ _ h => by simp at h⟩
    · refine ⟨[big], u1, (hru _ u1).2 h, fun u b hu hp => ?_, fun d d' b e hu _ => ?_⟩
      · rcases two u b hu hp hn with rfl | ⟨rfl, _⟩ | ⟨rfl, _⟩ <;> simp
      · obtain rfl : big = d := by simpa using e
        rcases one d' hu with rfl | rfl <;> omega
    · refine ⟨[small], u2, (hru _ u2).2 h, fun u b hu hp => ?_, fun d d' b e hu hp => ?_⟩
      · rcases two u b hu hp hn with rfl | ⟨rfl, _⟩ | ⟨rfl, _⟩ <;> simp
      · obtain rfl : small = d := by simpa using e
        rcases one d' hu with rfl | rfl
        · obtain ⟨r, -, hr⟩ := (hpl _ _ hu).1 hp
          exact absurd hr (hnb r)
        · omega
    · refine ⟨[], u0, (hru _ u0).2 (.nil _), fun u b hu hp => ?_, fun d d' b e => by simp at e⟩
      rcases two u b hu hp hn with rfl | ⟨rfl, r, h⟩ | ⟨rfl, r, h⟩
      · simp
      · exact absurd h (hnb r)
      · exact absurd h (hns r)

theorem legal_double {p q : Pos N} (hb : p.BarsOK) (ht : q.turn = p.turn) {d : Nat} (hd : 1 ≤ d) :
    Spec.Legal [d, d, d, d] p.view q.view ↔ p.DoubleLegal d q := by
  have hpl : ∀ n b, (Spec.Play p.view (List.replicate n d) b ↔ ∃ q, b = q.view ∧ Steps d n p q) := by
    intro n b
    simp only [← run_replicate]
    apply play_iff _ hb
    intro x hx; rw [(List.mem_replicate.1 hx).2]; exact hd
  unfold Spec.Legal DoubleLegal
  constructor
  · rintro ⟨used, hu, hp, hmax, -⟩
    obtain ⟨n, hn, rfl⟩ := uses_double.1 hu
    obtain ⟨r, e, hr⟩ := (hpl _ _).1 hp
    have := view_inj (by rw [ht, (run_replicate.2 hr).turn]) e
    subst this
    refine ⟨n, hn, hr, fun m r hm hr' => ?_⟩
    have := hmax _ _ (uses_double.2 ⟨m, hm, rfl⟩) ((hpl _ _).2 ⟨r, rfl, hr'⟩)
    simpa using this
  · rintro ⟨n, hn, hr, hmax⟩
    refine ⟨List.replicate n d, uses_double.2 ⟨n, hn, rfl⟩, (hpl _ _).2 ⟨q, rfl, hr⟩, ?_, ?_⟩
    · intro u b hu hp
      obtain ⟨m, hm, rfl⟩ := uses_double.1 hu
      obtain ⟨r, -, hr'⟩ := (hpl _ _).1 hp
      simpa using hmax m r hm hr'
    · intro x y b e hu _
      obtain ⟨m, _, hm⟩ := uses_double.1 hu
      have hx : x ∈ List.replicate n d := by rw [e]; simp
      have hy : y ∈ List.replicate m d := by rw [← hm]; simp
      rw [(List.mem_replicate.1 hx).2, (List.mem_replicate.1 hy).2]

theorem flip_flip (p : Pos N) : p.flip.flip = p := by
  unfold flip
  apply Pos.ext
  · simp
  · funext i
    simp only [neg_neg]
    congr 1
    apply Fin.ext
    simp only; omega
  · rfl
  · rfl

@[simp] theorem turn_flip (p : Pos N) : p.flip.turn = !p.turn := rfl

theorem mem_map_flip {l : List (Pos N)} {c : Pos N} : c ∈ l.map flip ↔ c.flip ∈ l := by
  rw [List.mem_map]
  constructor
  · rintro ⟨a, h, rfl⟩; rwa [flip_flip]
  · intro h; exact ⟨c.flip, h, flip_flip c⟩

theorem mem_legal {p c : Pos N} (hb : p.BarsOK) {dice : Dice} (hv : dice.Valid) :
    c ∈ p.legalPositions dice ↔ (c.turn = !p.turn ∧ Spec.Legal (Spec.faces dice) p.view c.flip.view) := by
  unfold legalPositions playedPositions
  rw [mem_map_flip]
  have tmix : ∀ big small q, p.MixedLegal big small q → q.turn = p.turn := by
    rintro big small q ((⟨a, b, _, _, rfl⟩ | ⟨a, b, _, _, rfl⟩) | ⟨-, ⟨a, _, rfl⟩ | ⟨-, ⟨a, _, rfl⟩ | ⟨-, rfl⟩⟩⟩) <;> simp
  cases dice with
  | mixed big small =>
    obtain ⟨h1, h2, h3⟩ : 1 ≤ small ∧ small < big ∧ big ≤ 6 := hv
    simp only [Spec.faces]
    rw [mem_mixedMoves hb h1 h2 h3]
    constructor
    · intro h
      have ht := tmix _ _ _ h
      refine ⟨?_, (legal_mixed hb ht h1 h2 h3).2 h⟩
      rw [turn_flip] at ht; rw [← ht]; simp
    · rintro ⟨ht, h⟩
      exact (legal_mixed hb (by rw [turn_flip, ht]; simp) h1 h2 h3).1 h
  | double d =>
    obtain ⟨h1, h2⟩ : 1 ≤ d ∧ d ≤ 6 := hv
    simp only [Spec.faces]
    rw [mem_doubleMoves hb h1 h2]
    constructor
    · intro h
      have ht : c.flip.turn = p.turn := by
        obtain ⟨n, _, h, _⟩ := h
        exact (run_replicate.2 h).turn
      refine ⟨?_, (legal_double hb ht h1).2 h⟩
      rw [turn_flip] at ht; rw [← ht]; simp
    · rintro ⟨ht, h⟩
      exact (legal_double hb (by rw [turn_flip, ht]; simp) h1).1 h

end Pos
end Bkgm
