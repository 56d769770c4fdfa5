import Verif.Spec.Random
import Verif.Props.Forced
import Verif.Props.Scripted
import Mathlib.Analysis.SpecificLimits.Basic
/-!
# C89: with random dice every game ends with probability one
-/

namespace Bkgm
open MeasureTheory

/-! ## Words that lead to the end, counted -/

section count
variable {S : Type}

/-- The state after the numbers of a word; `none` is the end. -/
def walk (step : S → Fin 36 → Option S) : Option S → List (Fin 36) → Option S
  | s, [] => s
  | s, a :: w => walk step (s.bind (step · a)) w

/-- The number of words of length `n` that do not lead to the end. -/
def bad (step : S → Fin 36 → Option S) : Nat → Option S → Nat
  | 0, s => if s.isNone then 0 else 1
  | n + 1, s => ∑ a : Fin 36, bad step n (s.bind (step · a))

theorem walk_none (step : S → Fin 36 → Option S) : ∀ w, walk step none w = none
  | [] => rfl
  | _ :: w => walk_none step w

theorem walk_append (step : S → Fin 36 → Option S) (s : Option S) (w : List (Fin 36)) (a : Fin 36) :
    walk step s (w ++ [a]) = (walk step s w).bind (step · a) := by
  induction w generalizing s with
  | nil => rfl
  | cons b w ih => exact ih _

theorem bad_none (step : S → Fin 36 → Option S) : ∀ n, bad step n none = 0
  | 0 => rfl
  | n + 1 => Finset.sum_eq_zero fun _ _ => bad_none step n

theorem bad_le (step : S → Fin 36 → Option S) : ∀ n s, bad step n s ≤ 36 ^ n
  | 0, s => by simp only [bad]; split_ifs <;> simp
  | n + 1, s => by
    simp only [bad]
    refine (Finset.sum_le_sum fun a _ => bad_le step n _).trans ?_
    simp [pow_succ, mul_comm]

/-- If some word leads to the end, not all are bad. -/
theorem bad_lt (step : S → Fin 36 → Option S) : ∀ (w : List (Fin 36)) (s : Option S), walk step s w = none → bad step w.length s + 1 ≤ 36 ^ w.length
  | [], s, h => by
    have h : s = none := h
    simp [bad, h]
  | a :: w, s, h => by
    have ih := bad_lt step w _ h
    simp only [bad, List.length_cons]
    rw [← Finset.add_sum_erase _ _ (Finset.mem_univ a)]
    have : ∑ b ∈ Finset.univ.erase a, bad step w.length (s.bind (step · b)) ≤ 35 * 36 ^ w.length := by
      refine (Finset.sum_le_sum fun b _ => bad_le step w.length _).trans ?_
      simp
    rw [pow_succ]
    omega

theorem bad_add (step : S → Fin 36 → Option S) (I : S → Prop) (hI : ∀ s a s', I s → step s a = some s' → I s') (n B : Nat)
    (hB : ∀ s, I s → bad step n (some s) ≤ B) : ∀ k (s : Option S), (∀ x, s = some x → I x) → bad step (k + n) s ≤ bad step k s * B
  | 0, none, _ => by simp [bad_none]
  | 0, some s, h => by simpa [bad] using hB s (h s rfl)
  | k + 1, s, h => by
    rw [show k + 1 + n = k + n + 1 by omega]
    simp only [bad]
    rw [Finset.sum_mul]
    refine Finset.sum_le_sum fun a _ => bad_add step I hI n B hB k _ fun x hx => ?_
    cases s with
    | none => cases hx
    | some s => exact hI s a x (h s rfl) hx

/-- If from every state a word of length `K` leads to the end, the bad words of length `m * K` become rare. -/
theorem bad_pow (step : S → Fin 36 → Option S) (I : S → Prop) (hI : ∀ s a s', I s → step s a = some s' → I s') (K : Nat)
    (hK : ∀ s, I s → ∃ w : List (Fin 36), w.length = K ∧ walk step (some s) w = none) :
    ∀ m s, I s → bad step (m * K) (some s) ≤ (36 ^ K - 1) ^ m
  | 0, s, _ => by simp [bad]
  | m + 1, s, hs => by
    have ih := bad_pow step I hI K hK m
    rw [show (m + 1) * K = K + m * K by rw [Nat.add_mul, Nat.one_mul, Nat.add_comm], pow_succ, Nat.mul_comm ((36 ^ K - 1) ^ m)]
    refine (bad_add step I hI (m * K) _ ih K (some s) fun x hx => by cases hx; exact hs).trans (Nat.mul_le_mul_right _ ?_)
    obtain ⟨w, hw, h⟩ := hK s hs
    have := bad_lt step w _ h
    rw [hw] at this
    omega

/-- The sequences that begin with `w` have probability `36 ^ -w.length`. -/
theorem prefix_measure (w : List (Fin 36)) : uniformRolls {ω | ∀ i (h : i < w.length), ω i = w[i]} = ((36 : ENNReal)⁻¹) ^ w.length := by
  have e : {ω : Nat → Fin 36 | ∀ i (h : i < w.length), ω i = w[i]} =
      Set.pi (Finset.range w.length) fun i => {w.getD i 0} := by
    ext ω
    simp only [Set.mem_setOf_eq, Set.mem_pi, Finset.coe_range, Set.mem_Iio, Set.mem_singleton_iff]
    refine forall_congr' fun i => forall_congr' fun h => ?_
    simp [h]
  rw [e, uniformRolls, Measure.infinitePi_pi _ (fun i _ => measurableSet_singleton _)]
  simp [PMF.toMeasure_apply_singleton, PMF.uniformOfFintype_apply]

/-- The probability that a random word of length `n`, after the word `w`, does not lead to the end. -/
theorem unfinished_measure (step : S → Fin 36 → Option S) (s : S) : ∀ (n : Nat) (w : List (Fin 36)),
    uniformRolls {ω | (∀ i (h : i < w.length), ω i = w[i]) ∧ walk step (some s) (w ++ (List.range n).map fun j => ω (w.length + j)) ≠ none} ≤
      bad step n (walk step (some s) w) * ((36 : ENNReal)⁻¹) ^ (w.length + n)
  | 0, w => by
    simp only [List.range_zero, List.map_nil, List.append_nil, bad, Nat.add_zero]
    cases h : walk step (some s) w with
    | none => simp
    | some x =>
      simp only [ne_eq, reduceCtorEq, not_false_eq_true, and_true, Option.isNone_some, Bool.false_eq_true, if_false, Nat.cast_one, one_mul]
      exact (prefix_measure w).le
  | n + 1, w => by
    have sub : {ω : Nat → Fin 36 | (∀ i (h : i < w.length), ω i = w[i]) ∧
          walk step (some s) (w ++ (List.range (n + 1)).map fun j => ω (w.length + j)) ≠ none} ⊆
        ⋃ a ∈ (Finset.univ : Finset (Fin 36)), {ω | (∀ i (h : i < (w ++ [a]).length), ω i = (w ++ [a])[i]) ∧
          walk step (some s) ((w ++ [a]) ++ (List.range n).map fun j => ω ((w ++ [a]).length + j)) ≠ none} := by
      rintro ω ⟨h1, h2⟩
      refine Set.mem_biUnion (Finset.mem_univ (ω w.length)) ⟨fun i hi => ?_, ?_⟩
      · rw [List.getElem_append]
        split_ifs with h
        · exact h1 i h
        · simp only [List.length_append, List.length_singleton] at hi
          have : i = w.length := by omega
          subst this
          simp
      · rw [List.range_succ_eq_map, List.map_cons, List.map_map] at h2
        rw [List.append_assoc, List.singleton_append]
        refine (Eq.trans_ne ?_ h2)
        congr 3
        refine List.map_congr_left fun j _ => ?_
        simp only [List.length_append, List.length_singleton, Function.comp]
        congr 1
        omega
    refine (measure_mono sub).trans ((measure_biUnion_finset_le _ _).trans ?_)
    simp only [bad, Nat.cast_sum, Finset.sum_mul]
    refine Finset.sum_le_sum fun a _ => ?_
    refine (unfinished_measure step s n (w ++ [a])).trans (le_of_eq ?_)
    rw [walk_append, List.length_append, List.length_singleton, show w.length + 1 + n = w.length + (n + 1) by omega]

end count

/-! ## Episodes -/

/-- One ply of an episode: `none` if it ends the episode. -/
def plyDice {π : Type} (pick : Game.Policy π) (s : VPos × π) (dice : Dice) : Option (VPos × π) :=
  let legal := classicRules s.1 dice
  let c := pick s.2 s.1 dice legal
  if h : c.1 < legal.length then
    if (legal[c.1]'h).gameState = .ongoing then some (legal[c.1]'h, c.2) else none
  else none

/-- The ply with the random number `a`. -/
def plyWith {π : Type} (pick : Game.Policy π) (s : VPos × π) (a : Fin 36) : Option (VPos × π) := plyDice pick s (rollOf a)

theorem roll_valid (a : Fin 36) : (rollOf a).Valid := C43_roll_unbiased.1 a a.2

theorem exists_roll {d : Dice} (hd : d.Valid) : ∃ a : Fin 36, rollOf a = d := by
  have key : ∀ a b, 1 ≤ a → a ≤ 6 → 1 ≤ b → b ≤ 6 → Dice.new a b = d → ∃ a : Fin 36, rollOf a = d := fun a b h1 h2 h3 h4 e => by
    obtain ⟨r, ⟨hr, e', -⟩, -⟩ := C43_roll_unbiased.2.1 a b h1 h2 h3 h4
    exact ⟨⟨r, hr⟩, e'.trans e⟩
  cases d with
  | mixed b s =>
    obtain ⟨h1, h2, h3⟩ : 1 ≤ s ∧ s < b ∧ b ≤ 6 := hd
    refine key b s (by omega) (by omega) (by omega) (by omega) ?_
    rw [Dice.new, if_neg (by omega), mixedNew]
    simp [show b > s from h2]
  | double d =>
    obtain ⟨h1, h2⟩ : 1 ≤ d ∧ d ≤ 6 := hd
    exact key d d h1 h2 h1 h2 (by simp [Dice.new])

/-- The states of an episode that goes on. -/
def Going (v : Variant) {π : Type} (s : VPos × π) : Prop := VPos.ValidFor v s.1 ∧ ¬ Spec.Deadlock s.1.view ∧ s.1.gameState = .ongoing

theorem plyDice_some {π : Type} {pick : Game.Policy π} {s s' : VPos × π} {dice : Dice} (h : plyDice pick s dice = some s') :
    s'.1 ∈ classicRules s.1 dice ∧ s'.1.gameState = .ongoing := by
  unfold plyDice at h
  simp only at h
  split_ifs at h with h1 h2
  cases h
  exact ⟨List.getElem_mem _, h2⟩

theorem going_dice {v : Variant} {π : Type} {pick : Game.Policy π} {s s' : VPos × π} {dice : Dice} (hd : dice.Valid) (h1 : VPos.ValidFor v s.1)
    (h2 : ¬ Spec.Deadlock s.1.view) (h : plyDice pick s dice = some s') : Going v s' := by
  obtain ⟨hc, hg⟩ := plyDice_some h
  exact ⟨classic_child h1 hd hc, fun hd' => h2 ((vpos_deadlock h1 hd hc).1 hd'), hg⟩

theorem going_ply {v : Variant} {π : Type} {pick : Game.Policy π} (s : VPos × π) (a : Fin 36) (s' : VPos × π) (hs : Going v s)
    (h : plyWith pick s a = some s') : Going v s' := going_dice (roll_valid a) hs.1 hs.2.1 h

/-- Where the dice can end the game, some word does. -/
theorem exists_word {π : Type} (pick : Game.Policy π) : ∀ n (s : VPos × π), s.1.gameState = .ongoing → Forced n s.1 →
    ∃ w : List (Fin 36), w.length = n ∧ walk (plyWith pick) (some s) w = none
  | 0, s, hg, h => absurd hg h
  | n + 1, s, hg, h => by
    obtain ⟨d, hd, h⟩ := h.resolve_left fun h => h hg
    obtain ⟨a, rfl⟩ := exists_roll hd
    cases e : plyWith pick s a with
    | none =>
      refine ⟨a :: List.replicate n 0, by simp, ?_⟩
      simp only [walk, Option.bind_some, e]
      exact walk_none _ _
    | some s' =>
      obtain ⟨hc, hg'⟩ := plyDice_some e
      obtain ⟨w, hw, h'⟩ := exists_word pick n s' hg' (h _ hc)
      refine ⟨a :: w, by simp [hw], ?_⟩
      simpa only [walk, Option.bind_some, e] using h'

theorem loop_succ {σ π : Type} (R : VariantRules) (gen : DiceGen σ) (pick : Game.Policy π) (left ply : Nat) (g : Game) (s : σ) (t : π) {dice : Dice}
    {s' : σ} (h : (if ply = 0 then gen.rollMixed s else gen.roll s) = some (dice, s')) :
    Game.playLoop R gen pick (left + 1) ply g s t =
      if (R g.position dice).isEmpty then some ⟨g, s', t, .ok ply⟩
      else if h : (pick t g.position dice (R g.position dice)).1 ≥ (R g.position dice).length then
        some ⟨g, s', (pick t g.position dice (R g.position dice)).2, .error .policyIndexOutOfBounds⟩
      else
        match ((R g.position dice)[(pick t g.position dice (R g.position dice)).1]'(by omega)).gameState with
        | .gameOver _ => some ⟨{ g with position := (R g.position dice)[(pick t g.position dice (R g.position dice)).1]'(by omega) }, s',
            (pick t g.position dice (R g.position dice)).2, .ok (ply + 1)⟩
        | .ongoing => Game.playLoop R gen pick left (ply + 1)
            { g with position := (R g.position dice)[(pick t g.position dice (R g.position dice)).1]'(by omega) } s'
            (pick t g.position dice (R g.position dice)).2 := by
  rw [Game.playLoop, h]
  rfl

theorem ideal_roll (first : Fin 30) (ω : Nat → Fin 36) (k : Nat) : (fastrandDice (idealRng first ω)).roll k = some (rollOf (ω k), k + 1) := by
  simp [fastrandDice, idealRng, Nat.mod_eq_of_lt (ω k).2]
theorem ideal_mixed (first : Fin 30) (ω : Nat → Fin 36) (k : Nat) : (fastrandDice (idealRng first ω)).rollMixed k = some (rollMixedOf first, k) := rfl

/-- An episode that goes on until its plies are used up has walked all the way. -/
theorem walk_of_loop {π : Type} (pick : Game.Policy π) (first : Fin 30) (ω : Nat → Fin 36) : ∀ (left ply : Nat) (g : Game) (k : Nat) (t : π)
    (r : Game.EpisodeResult Nat π), 0 < ply →
    Game.playLoop classicRules (fastrandDice (idealRng first ω)) pick left ply g k t = some r → r.result = .ok (ply + left) →
    r.game.position.gameState = .ongoing → walk (plyWith pick) (some (g.position, t)) ((List.range left).map fun j => ω (k + j)) ≠ none
  | 0, ply, g, k, t, r, _, _, _, _ => by simp [walk]
  | left + 1, ply, g, k, t, r, hp, h, hr, hg => by
    rw [loop_succ _ _ _ _ _ _ _ _ (by rw [if_neg (by omega), ideal_roll])] at h
    split_ifs at h with h1 h2
    · cases h
      simp at hr
    · cases h
      simp at hr
    · have hlt : (pick t g.position (rollOf (ω k)) (classicRules g.position (rollOf (ω k)))).1 < (classicRules g.position (rollOf (ω k))).length := by
        omega
      rw [List.range_succ_eq_map, List.map_cons, List.map_map]
      simp only [walk, Option.bind_some, Nat.add_zero]
      split at h
      · rename_i res e
        cases h
        rw [hg] at e
        cases e
      · rename_i e
        have ih := walk_of_loop pick first ω left (ply + 1) _ (k + 1) _ r (by omega) h (by rw [hr]; congr 1; omega) hg
        have e' : plyWith pick (g.position, t) (ω k) = some
            ((classicRules g.position (rollOf (ω k)))[(pick t g.position (rollOf (ω k)) (classicRules g.position (rollOf (ω k)))).1]'hlt,
            (pick t g.position (rollOf (ω k)) (classicRules g.position (rollOf (ω k)))).2) := by
          unfold plyWith plyDice
          simp only
          rw [dif_pos hlt, if_pos e]
        rw [e']
        refine Eq.trans_ne ?_ ih
        congr 1
        refine List.map_congr_left fun j _ => ?_
        simp only [Function.comp]
        congr 1
        omega

/-- The same for a whole episode, which begins with a mixed roll. -/
theorem walk_of_unfinished {π : Type} {pick : Game.Policy π} {g : Game} {t : π} {first : Fin 30} {n : Nat} {ω : Nat → Fin 36}
    (h : Unfinished pick g t first (n + 1) ω) : ∃ s, plyDice pick (g.position, t) (rollMixedOf first) = some s ∧
      walk (plyWith pick) (some s) ((List.range n).map ω) ≠ none := by
  obtain ⟨r, h, hr, hg⟩ := h
  rw [Game.playEpisode, loop_succ _ _ _ _ _ _ _ _ (by rw [if_pos rfl, ideal_mixed])] at h
  split_ifs at h with h1 h2
  · cases h
    simp at hr
  · cases h
    simp at hr
  · have hlt : (pick t g.position (rollMixedOf first) (classicRules g.position (rollMixedOf first))).1 <
        (classicRules g.position (rollMixedOf first)).length := by omega
    split at h
    · rename_i res e
      cases h
      rw [hg] at e
      cases e
    · rename_i e
      refine ⟨((classicRules g.position (rollMixedOf first))[(pick t g.position (rollMixedOf first) (classicRules g.position (rollMixedOf first))).1]'hlt,
        (pick t g.position (rollMixedOf first) (classicRules g.position (rollMixedOf first))).2), ?_, ?_⟩
      · unfold plyDice
        simp only
        rw [dif_pos hlt, if_pos e]
      · have := walk_of_loop pick first ω n 1 _ 0 _ r (by omega) h (by rw [hr]; congr 1; omega) hg
        simpa using this

theorem mixed_valid (first : Fin 30) : (rollMixedOf first).Valid := (C43_roll_mixed_unbiased.1 first first.2).1

/-- The probability that the walk goes on. -/
theorem walk_tail {v : Variant} {π : Type} (pick : Game.Policy π) (s : VPos × π) (hs : Going v s) (m : Nat) :
    uniformRolls {ω | walk (plyWith pick) (some s) ((List.range (m * (2600 * v.checkers))).map ω) ≠ none} ≤
      (1 - ((36 : ENNReal) ^ (2600 * v.checkers))⁻¹) ^ m := by
  generalize hK : 2600 * v.checkers = K
  have h1 := unfinished_measure (plyWith pick) s (m * K) []
  have h2 := bad_pow (plyWith pick) (Going v) going_ply K (fun s hs => by
    rw [← hK]
    exact exists_word pick _ s hs.2.2 (C88_dice_can_end v s.1 hs.1 hs.2.1)) m s hs
  simp only [List.length_nil, Nat.not_lt_zero, IsEmpty.forall_iff, implies_true, true_and, List.nil_append, Nat.zero_add, walk] at h1
  refine h1.trans ?_
  have h36 : (36 : ENNReal) ^ K ≠ 0 := by simp
  have h36' : (36 : ENNReal) ^ K ≠ ⊤ := by simp
  calc (bad (plyWith pick) (m * K) (some s) : ENNReal) * (36 : ENNReal)⁻¹ ^ (m * K)
      ≤ (((36 ^ K - 1) ^ m : Nat) : ENNReal) * (36 : ENNReal)⁻¹ ^ (m * K) := by gcongr
    _ = (((36 ^ K - 1 : Nat) : ENNReal) * ((36 : ENNReal) ^ K)⁻¹) ^ m := by
        rw [mul_pow, Nat.cast_pow, Nat.mul_comm m K, pow_mul, ENNReal.inv_pow]
    _ = _ := by
        congr 1
        rw [ENNReal.natCast_sub, Nat.cast_pow, Nat.cast_one, ENNReal.sub_mul (fun _ _ => by simp)]
        rw [show ((36 : Nat) : ENNReal) = 36 by norm_num, ENNReal.mul_inv_cancel h36 h36', one_mul]

/-- **C89** Whatever policy is used, and from every valid position that is not a mutual close-out: the probability that the game is still
unfinished after one ply and `m` times 2600 plies per checker is at most `(1 - 36 ^ -K) ^ m` with `K` = 2600 times the number of checkers. -/
theorem C89_tail {π : Type} (pick : Game.Policy π) (g : Game) (hv : VPos.ValidFor g.variant g.position) (hnd : ¬ Spec.Deadlock g.position.view) (t : π)
    (first : Fin 30) (m : Nat) :
    uniformRolls {ω | Unfinished pick g t first (m * (2600 * g.variant.checkers) + 1) ω} ≤
      (1 - ((36 : ENNReal) ^ (2600 * g.variant.checkers))⁻¹) ^ m := by
  cases e : plyDice pick (g.position, t) (rollMixedOf first) with
  | none =>
    have : {ω | Unfinished pick g t first (m * (2600 * g.variant.checkers) + 1) ω} = ∅ := by
      refine Set.eq_empty_of_forall_notMem fun ω h => ?_
      obtain ⟨s, hs, -⟩ := walk_of_unfinished h
      rw [e] at hs
      cases hs
    rw [this]
    simp
  | some s =>
    refine (measure_mono fun ω h => ?_).trans (walk_tail pick s (going_dice (mixed_valid first) hv hnd e) m)
    obtain ⟨s', hs, h⟩ := walk_of_unfinished h
    rw [e] at hs
    cases hs
    exact h

/-- More plies allowed do not change an episode that has ended. -/
theorem loop_more {σ π : Type} (R : VariantRules) (gen : DiceGen σ) (pick : Game.Policy π) (extra : Nat) : ∀ (left ply : Nat) (g : Game) (s : σ) (t : π)
    (r : Game.EpisodeResult σ π), (left = 0 → g.position.gameState = .ongoing) → Game.playLoop R gen pick left ply g s t = some r →
    (r.result = .ok (ply + left) → r.game.position.gameState ≠ .ongoing) → Game.playLoop R gen pick (left + extra) ply g s t = some r
  | 0, ply, g, s, t, r, h0, h, hr => by
    rw [Game.playLoop] at h
    cases h
    exact absurd (h0 rfl) (hr rfl)
  | left + 1, ply, g, s, t, r, h0, h, hr => by
    cases e : (if ply = 0 then gen.rollMixed s else gen.roll s) with
    | none =>
      rw [Game.playLoop, e] at h
      cases h
    | some x =>
      obtain ⟨dice, s'⟩ := x
      rw [loop_succ _ _ _ _ _ _ _ _ e] at h
      rw [show left + 1 + extra = left + extra + 1 by omega, loop_succ _ _ _ _ _ _ _ _ e]
      split_ifs at h ⊢ with h1 h2
      · exact h
      · exact h
      · split at h
        · exact h
        · rename_i e2
          exact loop_more R gen pick extra left (ply + 1) _ _ _ r (fun _ => e2) h (fun h => hr (by rw [h]; congr 1; omega))

theorem ideal_mixed_valid (first : Fin 30) (ω : Nat → Fin 36) :
    ∀ s d s', (fastrandDice (idealRng first ω)).rollMixed s = some (d, s') → d.Valid := fun s d s' h => by
  rw [ideal_mixed] at h
  cases h
  exact mixed_valid first
theorem ideal_roll_valid (first : Fin 30) (ω : Nat → Fin 36) :
    ∀ s d s', (fastrandDice (idealRng first ω)).roll s = some (d, s') → d.Valid := fun s d s' h => by
  rw [ideal_roll] at h
  cases h
  exact roll_valid _

/-- An episode that is not left unfinished has ended, and more plies do not change it. -/
theorem ended_of_not {π : Type} {pick : Game.Policy π} {g : Game} (hv : VPos.ValidFor g.variant g.position) {t : π} {first : Fin 30} {n : Nat}
    {ω : Nat → Fin 36} (h : ¬ Unfinished pick g t first (n + 1) ω) :
    ∃ r, (∀ max, n + 1 ≤ max → Game.playEpisode classicRules (fastrandDice (idealRng first ω)) pick max g 0 t = some r) ∧
      (r.result = .error .policyIndexOutOfBounds ∨ ∃ k res, k ≤ n + 1 ∧ r.result = .ok k ∧ r.game.position.gameState = .gameOver res) := by
  cases e : Game.playEpisode classicRules (fastrandDice (idealRng first ω)) pick (n + 1) g 0 t with
  | none =>
    obtain ⟨l, p', s', t', -, -, -, h4⟩ := (C85_returns_unless _ _ _ _ _ _ _).1 e
    split_ifs at h4
    · rw [ideal_mixed] at h4; cases h4
    · rw [ideal_roll] at h4; cases h4
  | some r =>
    have hno : r.result = .ok (0 + (n + 1)) → r.game.position.gameState ≠ .ongoing := fun h1 h2 => h ⟨r, e, by rw [h1]; congr 1; omega, h2⟩
    refine ⟨r, fun max hm => ?_, ?_⟩
    · obtain ⟨x, rfl⟩ : ∃ x, max = n + 1 + x := ⟨max - (n + 1), by omega⟩
      exact loop_more _ _ _ x (n + 1) 0 g 0 t r (by omega) e hno
    · obtain ⟨-, l, s1, t1, -, hok, herr, -⟩ := C21_play_episode _ _ _ _ _ _ _ _ e
      cases hr : r.result with
      | error x => exact Or.inl (by rw [(herr x hr).1])
      | ok k =>
        refine Or.inr ⟨k, ?_⟩
        have hk := (hok k hr).2.1
        rcases Nat.lt_or_ge k (n + 1) with hlt | hge
        · obtain ⟨res, hres⟩ := (C21_classic_episode _ pick (ideal_mixed_valid first ω) (ideal_roll_valid first ω) _ g hv 0 t r e).2 k hr hlt
          exact ⟨res, hk, rfl, hres⟩
        · have hk : k = n + 1 := by omega
          cases hres : r.game.position.gameState with
          | ongoing => exact absurd hres (hno (by rw [hr, hk]; congr 1; omega))
          | gameOver res => exact ⟨res, by omega, rfl, rfl⟩

/-- **C89** Whatever policy is used, and from every valid position that is not a mutual close-out: with probability one the episode ends after
finitely many plies — with the end of the game, or because the policy chose an index that is out of bounds — and it is the same for every
larger limit on the number of plies. -/
theorem C89_almost_surely {π : Type} (pick : Game.Policy π) (g : Game) (hv : VPos.ValidFor g.variant g.position)
    (hnd : ¬ Spec.Deadlock g.position.view) (t : π) (first : Fin 30) :
    ∀ᵐ ω ∂uniformRolls, ∃ n r, (∀ max, n ≤ max → Game.playEpisode classicRules (fastrandDice (idealRng first ω)) pick max g 0 t = some r) ∧
      (r.result = .error .policyIndexOutOfBounds ∨ ∃ k res, k ≤ n ∧ r.result = .ok k ∧ r.game.position.gameState = .gameOver res) := by
  have hN : 2 ≤ g.variant.checkers := by cases g.variant <;> decide
  have null : uniformRolls {ω | ∀ m, Unfinished pick g t first (m * (2600 * g.variant.checkers) + 1) ω} = 0 := by
    refine le_antisymm ?_ bot_le
    refine ge_of_tendsto' (ENNReal.tendsto_pow_atTop_nhds_zero_of_lt_one (r := 1 - ((36 : ENNReal) ^ (2600 * g.variant.checkers))⁻¹) ?_)
      fun m => (measure_mono fun ω h => ?_).trans (C89_tail pick g hv hnd t first m)
    · refine ENNReal.sub_lt_self (by simp) (by simp) ?_
      simp
    · exact h m
  rw [ae_iff]
  refine measure_mono_null (fun ω h => ?_) null
  intro m
  by_contra hm
  obtain ⟨r, h1, h2⟩ := ended_of_not hv hm
  exact h ⟨_, r, h1, h2⟩

/-- **C89** Every game of every variant, played from the start position with any policy that chooses one of the legal positions, ends with
probability one. -/
theorem C89_every_game {π : Type} (pick : Game.Policy π) (hpick : ∀ t q dice legal, legal ≠ [] → (pick t q dice legal).1 < legal.length) (v : Variant)
    (t : π) (first : Fin 30) :
    ∀ᵐ ω ∂uniformRolls, ∃ n r, (∀ max, n ≤ max → Game.playEpisode classicRules (fastrandDice (idealRng first ω)) pick max (Game.new v) 0 t = some r) ∧
      ∃ k res, k ≤ n ∧ r.result = .ok k ∧ r.game.position.gameState = .gameOver res := by
  have hd := (C82_never_stuck v _ .start).1
  filter_upwards [C89_almost_surely pick (Game.new v) (C41_start_position v).1 hd t first] with ω hω
  obtain ⟨n, r, h1, h2⟩ := hω
  refine ⟨n, r, h1, h2.resolve_left fun he => ?_⟩
  obtain ⟨-, l, s1, t1, -, -, herr, -⟩ := C21_play_episode _ _ _ _ _ _ _ _ (h1 n le_rfl)
  obtain ⟨-, -, dice, i, h3, h4, h5⟩ := herr _ he
  have hq := (C21_classic_episode _ pick (ideal_mixed_valid first ω) (ideal_roll_valid first ω) _ _ (C41_start_position v).1 0 t r (h1 n le_rfl)).1
  have hdv : dice.Valid := by
    split_ifs at h3
    · exact ideal_mixed_valid first ω _ _ _ h3
    · exact ideal_roll_valid first ω _ _ _ h3
  have := hpick t1 r.game.position dice _ (C73_never_empty _ hq.2.xBar hq.2.oBar dice hdv)
  rw [h4] at this
  simp only at this
  omega

/-- An episode that is unfinished at a limit is unfinished at every smaller one. -/
theorem unfinished_anti {π : Type} {pick : Game.Policy π} {g : Game} (hv : VPos.ValidFor g.variant g.position) {t : π} {first : Fin 30} {m n : Nat}
    (hmn : m ≤ n) {ω : Nat → Fin 36} (h : Unfinished pick g t first (n + 1) ω) : Unfinished pick g t first (m + 1) ω := by
  by_contra hm
  obtain ⟨r, h1, h2⟩ := ended_of_not hv hm
  obtain ⟨r', e, hr, hg⟩ := h
  rw [h1 (n + 1) (by omega)] at e
  cases e
  rcases h2 with h2 | ⟨k, res, -, -, h3⟩
  · rw [hr] at h2; cases h2
  · rw [hg] at h3; cases h3

/-- **C89** The expected length is finite: the probabilities that the game is unfinished after 1, 2, 3, ... plies have a finite sum, at most
`K * 36 ^ K`. -/
theorem C89_expected_length {π : Type} (pick : Game.Policy π) (g : Game) (hv : VPos.ValidFor g.variant g.position)
    (hnd : ¬ Spec.Deadlock g.position.view) (t : π) (first : Fin 30) :
    ∑' n, uniformRolls {ω | Unfinished pick g t first (n + 1) ω} ≤ (2600 * g.variant.checkers : Nat) * (36 : ENNReal) ^ (2600 * g.variant.checkers) := by
  have hN : 2 ≤ g.variant.checkers := by cases g.variant <;> decide
  have tail := C89_tail pick g hv hnd t first
  generalize hK : 2600 * g.variant.checkers = K at *
  have : NeZero K := ⟨by omega⟩
  rw [← (Nat.divModEquiv K).symm.tsum_eq, ENNReal.tsum_prod']
  have key : ∀ m : Nat, ∑' j : Fin K, uniformRolls {ω | Unfinished pick g t first ((Nat.divModEquiv K).symm (m, j) + 1) ω} ≤
      K * (1 - ((36 : ENNReal) ^ K)⁻¹) ^ m := fun m => by
    rw [tsum_fintype]
    refine (Finset.sum_le_card_nsmul _ _ ((1 - ((36 : ENNReal) ^ K)⁻¹) ^ m) fun j _ => ?_).trans (by simp)
    refine (measure_mono fun ω h => ?_).trans (tail m)
    refine unfinished_anti hv ?_ h
    simp
  refine (ENNReal.tsum_le_tsum key).trans ?_
  rw [ENNReal.tsum_mul_left, ENNReal.tsum_geometric]
  gcongr
  rw [ENNReal.sub_sub_cancel (by simp) ?_, inv_inv]
  rw [ENNReal.inv_le_one]
  exact one_le_pow₀ (by norm_num)

/-- **C89** From a mutual close-out no episode ever ends the game, whatever the dice. -/
theorem C89_close_out {π : Type} (pick : Game.Policy π) (hpick : ∀ t q dice legal, legal ≠ [] → (pick t q dice legal).1 < legal.length) (g : Game)
    (hv : VPos.ValidFor g.variant g.position) (hd : Spec.Deadlock g.position.view) (t : π) (first : Fin 30) (max : Nat) (ω : Nat → Fin 36) :
    Unfinished pick g t first max ω := by
  cases e : Game.playEpisode classicRules (fastrandDice (idealRng first ω)) pick max g 0 t with
  | none =>
    obtain ⟨l, p', s', t', -, -, -, h4⟩ := (C85_returns_unless _ _ _ _ _ _ _).1 e
    split_ifs at h4
    · rw [ideal_mixed] at h4; cases h4
    · rw [ideal_roll] at h4; cases h4
  | some r =>
    obtain ⟨-, hg, hn⟩ := C82_episode_runs_out _ pick (ideal_mixed_valid first ω) (ideal_roll_valid first ω) max g hv hd 0 t r e
    refine ⟨r, e, ?_, hg⟩
    cases hr : r.result with
    | ok k => rw [hn k hr]
    | error x =>
      obtain ⟨-, l, s1, t1, -, -, herr, -⟩ := C21_play_episode _ _ _ _ _ _ _ _ e
      obtain ⟨-, -, dice, i, h3, h4, h5⟩ := herr _ hr
      have hq := (C21_classic_episode _ pick (ideal_mixed_valid first ω) (ideal_roll_valid first ω) _ _ hv 0 t r e).1
      have hdv : dice.Valid := by
        split_ifs at h3
        · exact ideal_mixed_valid first ω _ _ _ h3
        · exact ideal_roll_valid first ω _ _ _ h3
      have := hpick t1 r.game.position dice _ (C73_never_empty _ hq.2.xBar hq.2.oBar dice hdv)
      rw [h4] at this
      simp only at this
      omega

/-- The hypotheses are met: a policy that always takes the last legal position. -/
example : ∀ (t : Unit) (q : VPos) (dice : Dice) (legal : List VPos), legal ≠ [] →
    ((fun t _ _ legal => (legal.length - 1, t) : Game.Policy Unit) t q dice legal).1 < legal.length := fun _ _ _ legal h => by
  have := List.length_pos_iff.2 h
  show legal.length - 1 < legal.length
  omega

/-- Games do stay unfinished for a while. -/
example : Unfinished (fun t _ _ _ => (0, t)) (Game.new .hypergammon) () 0 3 fun _ => 0 := by
  obtain ⟨r, hr⟩ := Option.isSome_iff_exists.1 (show (Game.playEpisode classicRules (fastrandDice (idealRng 0 fun _ => 0))
    (fun (t : Unit) _ _ _ => (0, t)) 3 (Game.new .hypergammon) 0 ()).isSome by decide +kernel)
  have h1 : (Game.playEpisode classicRules (fastrandDice (idealRng 0 fun _ => 0)) (fun (t : Unit) _ _ _ => (0, t)) 3 (Game.new .hypergammon) 0 ()).map
      (fun r => (r.result.toOption, r.game.position.gameState)) = some (some 3, .ongoing) := by decide +kernel
  rw [hr] at h1
  simp only [Option.map_some, Option.some.injEq, Prod.mk.injEq] at h1
  refine ⟨r, hr, ?_, h1.2⟩
  cases h : r.result with
  | ok k => rw [h] at h1; simpa [Except.toOption] using h1.1
  | error x => rw [h] at h1; simp [Except.toOption] at h1

end Bkgm
