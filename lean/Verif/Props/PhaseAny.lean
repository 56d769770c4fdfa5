import Verif.Props.CodecText
/-!
# C12: `phase` on boards that need not be valid
-/
namespace Bkgm
open Pos
variable {N : Nat}

/-- **C12** On any board whatever: `phase` panics exactly if the game is not over and one side has no checker on the board; the result is `Contact` exactly if the
game is not over and `x` has a checker behind a checker of `o`, and `Race` exactly if it is not over, both have checkers and no checker of `x` is behind one of `o`. -/
theorem C12_any_board (p : Pos N) :
    (p.phase = none ↔ p.xOff ≠ N ∧ p.oOff ≠ N ∧ ((∀ i < 26, p.pip i ≤ 0) ∨ ∀ i < 26, 0 ≤ p.pip i)) ∧
    (∀ r, p.phase = some (.gameOver r) ↔ p.gameState = .gameOver r) ∧
    (p.phase = some (.ongoing .contact) ↔ p.xOff ≠ N ∧ p.oOff ≠ N ∧ ∃ i j, j < i ∧ i < 26 ∧ 0 < p.pip i ∧ p.pip j < 0) ∧
    (p.phase = some (.ongoing .race) ↔ p.xOff ≠ N ∧ p.oOff ≠ N ∧ (∃ i < 26, 0 < p.pip i) ∧ (∃ j < 26, p.pip j < 0) ∧
      ¬ ∃ i j, j < i ∧ i < 26 ∧ 0 < p.pip i ∧ p.pip j < 0) := by
  have e : p.gameState = .ongoing ↔ p.xOff ≠ N ∧ p.oOff ≠ N := by
    unfold gameState
    split_ifs <;> simp_all
  cases hg : p.gameState with
  | gameOver r =>
    have hn : ¬ (p.xOff ≠ N ∧ p.oOff ≠ N) := by rw [← e, hg]; simp
    have hp : p.phase = some (.gameOver r) := by unfold phase; rw [hg]
    rw [hp]
    refine ⟨iff_of_false (by simp) fun h => hn ⟨h.1, h.2.1⟩, fun r' => by simp, iff_of_false (by simp) fun h => hn ⟨h.1, h.2.1⟩,
      iff_of_false (by simp) fun h => hn ⟨h.1, h.2.1⟩⟩
  | ongoing =>
    obtain ⟨n1, n2⟩ := e.1 hg
    simp only [ne_eq, n1, n2, not_false_eq_true, true_and]
    cases h1 : p.rposX with
    | none =>
      have a := rposX_none h1
      have hp : p.phase = none := by unfold phase; rw [hg]; simp only [h1]
      rw [hp]
      refine ⟨iff_of_true rfl (Or.inl fun i _ => a i), by simp, iff_of_false (by simp) ?_, iff_of_false (by simp) ?_⟩
      · rintro ⟨i, j, -, -, h, -⟩; have := a i; omega
      · rintro ⟨⟨i, -, h⟩, -⟩; have := a i; omega
    | some a =>
      obtain ⟨a1, a2, a3⟩ := rposX_some h1
      cases h2 : p.posO with
      | none =>
        have b := posO_none h2
        have hp : p.phase = none := by unfold phase; rw [hg]; simp only [h1, h2]
        rw [hp]
        refine ⟨iff_of_true rfl (Or.inr fun i _ => b i), by simp, iff_of_false (by simp) ?_, iff_of_false (by simp) ?_⟩
        · rintro ⟨i, j, -, -, -, h⟩; have := b j; omega
        · rintro ⟨-, ⟨j, -, h⟩, -⟩; have := b j; omega
      | some b =>
        obtain ⟨b1, b2⟩ := posO_some h2
        have hb : b < 26 := by by_contra hc; rw [pip_ge (by omega)] at b1; omega
        have key : a > b ↔ ∃ i j, j < i ∧ i < 26 ∧ 0 < p.pip i ∧ p.pip j < 0 := by
          constructor
          · intro h; exact ⟨a, b, h, a1, a2, b1⟩
          · rintro ⟨i, j, hij, -, hi, hj⟩
            have c1 : i ≤ a := by by_contra hc; have := a3 i (by omega); omega
            have c2 : b ≤ j := by by_contra hc; have := b2 j (by omega); omega
            omega
        have hp : p.phase = some (.ongoing (if a > b then .contact else .race)) := by unfold phase; rw [hg]; simp only [h1, h2]
        have hnone : ¬ ((∀ i < 26, p.pip i ≤ 0) ∨ ∀ i < 26, 0 ≤ p.pip i) := by
          rintro (h | h)
          · have := h a a1; omega
          · have := h b hb; omega
        rw [hp, ← key]
        refine ⟨iff_of_false (by simp) hnone, by simp, ?_, ?_⟩
        · by_cases hab : a > b <;> simp [hab]
        · have hx : ∃ i < 26, 0 < p.pip i := ⟨a, a1, a2⟩
          have ho : ∃ j < 26, p.pip j < 0 := ⟨b, hb, b1⟩
          by_cases hab : a > b <;> simp [hab, hx, ho]

/-- Checkers on the wrong bars are seen like others. -/
example : (Ex.cells 15 [1, 0, 0, -14] 14 1).phase = some (.ongoing .race) ∧ (Ex.cells 15 [-1, 0, 0, 14] 1 14).phase = some (.ongoing .contact) ∧
    (Ex.cells 15 [0, 0, 0, 14] 1 14).phase = none := by decide

/-- **C12** An id of which the decoder accepts a board on which `phase` panics, in both builds: one checker of each side on the same point. -/
theorem C12_decoded_counterexample (dbg : Bool) :
    ∃ p : Pos 15, GnuId.decode dbg 15 "AACABAAAAAAAAA".toList = some (.ok p) ∧ p.gameState = .ongoing ∧ p.phase = none := by
  refine ⟨Ex.cells 15 [] 14 14, (C23_ok_iff dbg _ _).2 ?_, by decide, by decide⟩
  exact ⟨2 ^ 63 + 2 ^ 50, (List.replicate 23 0 ++ [1, 0, 1] ++ List.replicate 24 0), List.replicate 28 false, by decide, by decide +kernel, by decide, by decide +kernel,
    by decide, by decide +kernel, Or.inl (by decide), Or.inl (by decide)⟩

/-- **C12** The boards read from GNUBG ids on which `phase` panics, in either build. The id gives `ns`, the counts of `o` and of `x` on every point; checkers of both on one
point cancel. It panics exactly if both sides have checkers in the id and one side has none left; so never if no point is shared. -/
theorem C12_decoded (dbg : Bool) (hN : N ≤ 127) (id : Str) (p : Pos N) (h : GnuId.decode dbg N id = some (.ok p)) :
    ∃ K ns z, K < 2 ^ 80 ∧ id = Spec.GnuId.text K ∧ ns.length = 50 ∧ Spec.GnuId.bits K = Spec.GnuId.unary ns ++ z ∧
      (p.phase = none ↔ (ns.take 25).sum ≠ 0 ∧ (ns.drop 25).sum ≠ 0 ∧
        ((∀ i, 1 ≤ i → i ≤ 25 → ns.getD (24 + i) 0 ≤ if i = 25 then 0 else ns.getD (24 - i) 0) ∨
         ∀ i ≤ 24, ns.getD (24 - i) 0 ≤ if i = 0 then 0 else ns.getD (24 + i) 0)) ∧
      ((∀ i, 1 ≤ i → i ≤ 24 → ns.getD (24 + i) 0 = 0 ∨ ns.getD (24 - i) 0 = 0) → p.phase ≠ none) := by
  obtain ⟨K, ns, z, a1, a2, a3, a4, -, hp, a5, a6⟩ := (C23_ok_iff dbg id p).1 h
  have hb := GnuId.sum_bound a3 a4
  have key : p.phase = none ↔ (ns.take 25).sum ≠ 0 ∧ (ns.drop 25).sum ≠ 0 ∧
        ((∀ i, 1 ≤ i → i ≤ 25 → ns.getD (24 + i) 0 ≤ if i = 25 then 0 else ns.getD (24 - i) 0) ∨
         ∀ i ≤ 24, ns.getD (24 - i) 0 ≤ if i = 0 then 0 else ns.getD (24 + i) 0) := by
    rw [(C12_any_board p).1]
    have e1 : p.xOff ≠ N ↔ (ns.drop 25).sum ≠ 0 := by omega
    have e2 : p.oOff ≠ N ↔ (ns.take 25).sum ≠ 0 := by omega
    have e3 : (∀ i < 26, p.pip i ≤ 0) ↔ ∀ i, 1 ≤ i → i ≤ 25 → ns.getD (24 + i) 0 ≤ if i = 25 then 0 else ns.getD (24 - i) 0 := by
      constructor
      · intro h i h1 h2
        have := h i (by omega)
        rw [hp i (by omega)] at this
        split_ifs at this ⊢ <;> omega
      · intro h i hi
        rw [hp i hi]
        by_cases h0 : i = 0
        · subst h0; simp
        · have := h i (by omega) (by omega)
          split_ifs at this ⊢ <;> omega
    have e4 : (∀ i < 26, 0 ≤ p.pip i) ↔ ∀ i ≤ 24, ns.getD (24 - i) 0 ≤ if i = 0 then 0 else ns.getD (24 + i) 0 := by
      constructor
      · intro h i h2
        have := h i (by omega)
        rw [hp i (by omega)] at this
        split_ifs at this ⊢ <;> omega
      · intro h i hi
        rw [hp i hi]
        by_cases h0 : i = 25
        · subst h0; simp
        · have := h i (by omega)
          split_ifs at this ⊢ <;> omega
    rw [e1, e2, e3, e4]
    tauto
  refine ⟨K, ns, z, a1, a2, a3, a4, key, fun hs hn => ?_⟩
  obtain ⟨s1, s2, s3⟩ := key.1 hn
  have ex : ∀ l : List Nat, l.sum ≠ 0 → ∃ j, j < l.length ∧ l.getD j 0 ≠ 0 := by
    intro l hl
    by_contra hc
    push Not at hc
    refine hl (List.sum_eq_zero fun x hx => ?_)
    obtain ⟨j, hj, rfl⟩ := List.getElem_of_mem hx
    have := hc j hj
    simpa [List.getD_eq_getElem?_getD, hj] using this
  obtain ⟨j, hj, hx⟩ := ex _ s2
  obtain ⟨k, hk, ho⟩ := ex _ s1
  have hj : j < 25 := by simp at hj; omega
  have hk : k < 25 := by simp at hk; omega
  rw [List.getD_eq_getElem?_getD, List.getElem?_drop, ← List.getD_eq_getElem?_getD] at hx
  rw [List.getD_eq_getElem?_getD, List.getElem?_take_of_lt hk, ← List.getD_eq_getElem?_getD] at ho
  rcases s3 with s3 | s3
  · have := s3 (j + 1) (by omega) (by omega)
    rw [show 24 + (j + 1) = 25 + j by omega] at this
    by_cases h25 : j + 1 = 25
    · rw [if_pos h25] at this; omega
    · rw [if_neg h25] at this
      have := hs (j + 1) (by omega) (by omega)
      rw [show 24 + (j + 1) = 25 + j by omega] at this
      omega
  · have := s3 (24 - k) (by omega)
    rw [show 24 - (24 - k) = k by omega] at this
    by_cases h0 : 24 - k = 0
    · rw [if_pos h0] at this; omega
    · rw [if_neg h0] at this
      have := hs (24 - k) (by omega) (by omega)
      rw [show 24 - (24 - k) = k by omega] at this
      omega

/-- The start position: nothing shared, no panic. -/
example : ∃ p : Pos 15, GnuId.decode true 15 "4HPwATDgc/ABMA".toList = some (.ok p) := by
  have h : (match GnuId.decode true 15 "4HPwATDgc/ABMA".toList with | some (.ok _) => true | _ => false) = true := by decide +kernel
  split at h
  · exact ⟨_, by assumption⟩
  · cases h

end Bkgm
