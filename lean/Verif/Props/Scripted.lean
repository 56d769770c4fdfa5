import Verif.Props.Game
import Verif.Props.DiceText
import Verif.Spec.Script
/-!
# C85: an episode with scripted dice plays the script
-/

namespace Bkgm

theorem mock_rollMixed (ds : List Dice) : ∀ (n k : Nat), ds.length - k = n →
    diceGenMock.rollMixed (ds, k) =
      match (ds.drop k).dropWhile (fun d => decide d.IsDouble) with
      | [] => none
      | d :: rest => some (d, (ds, ds.length - rest.length)) := by
  intro n
  induction n with
  | zero =>
    intro k h
    have h1 : ds.drop k = [] := List.drop_eq_nil_of_le (by omega)
    rw [h1]
    show defaultRollMixed _ _ = _
    rw [defaultRollMixed]
    simp [List.getElem?_eq_none (show ds.length ≤ k by omega)]
  | succ n ih =>
    intro k h
    have hk : k < ds.length := by omega
    rw [List.drop_eq_getElem_cons hk]
    show defaultRollMixed _ _ = _
    rw [defaultRollMixed]
    simp only [List.getElem?_eq_getElem hk, Option.map_some, Option.bind_eq_bind, Option.bind_some]
    cases hd : ds[k] with
    | double v =>
      have : (decide (Dice.IsDouble (.double v))) = true := by simp [Dice.IsDouble]
      rw [List.dropWhile_cons_of_pos (by simpa using this)]
      exact ih (k + 1) (by omega)
    | mixed b m =>
      have : (decide (Dice.IsDouble (.mixed b m))) = false := by simp [Dice.IsDouble]
      rw [List.dropWhile_cons_of_neg (by simp [this])]
      simp only [Option.some.injEq, Prod.mk.injEq, true_and, List.length_drop]
      omega

theorem Script.length (ds : List Dice) : Script.skipped ds + (Script.playable ds).length = ds.length := by
  unfold Script.skipped Script.playable
  rw [← List.length_append, List.takeWhile_append_dropWhile]

theorem Script.drop (ds : List Dice) : ds.drop (Script.skipped ds) = Script.playable ds := by
  unfold Script.skipped Script.playable
  conv_lhs => rw [← List.takeWhile_append_dropWhile (p := fun d => decide d.IsDouble) (l := ds)]
  rw [List.drop_left' (by rw [List.takeWhile_append_dropWhile])]

theorem mock_first (ds : List Dice) : diceGenMock.rollMixed (ds, 0) =
    (Script.playable ds).head?.map fun d => (d, (ds, Script.skipped ds + 1)) := by
  rw [mock_rollMixed ds _ 0 rfl]
  have := Script.length ds
  simp only [List.drop_zero]
  change (match Script.playable ds with
      | [] => none
      | d :: rest => some (d, (ds, ds.length - rest.length))) = _
  cases h : Script.playable ds with
  | nil => rfl
  | cons d rest =>
    rw [h] at this
    simp only [List.length_cons] at this
    simp only [List.head?_cons, Option.map_some, Option.some.injEq, Prod.mk.injEq, true_and]
    omega

section
variable {π : Type} {R : VariantRules} {pick : Game.Policy π}

theorem plies_mock_rest {p p' : VPos} {ds : List Dice} {s' : List Dice × Nat} {t t' : π} : ∀ {l : List (Dice × Nat)} {p k t},
    Plies R diceGenMock pick false p (ds, k) t l p' s' t' →
    s' = (ds, k + l.length) ∧ l.map Prod.fst = (ds.drop k).take l.length ∧ k + l.length ≤ max k ds.length := by
  intro l
  induction l with
  | nil =>
    intro p k t h
    cases h
    exact ⟨rfl, rfl, by simp⟩
  | cons x l ih =>
    intro p k t h
    cases h with
    | cons hr _ _ _ h =>
      have hk : k < ds.length := by
        by_contra hc
        simp [diceGenMock, List.getElem?_eq_none (show ds.length ≤ k by omega)] at hr
      simp only [diceGenMock, Bool.false_eq_true, if_false, List.getElem?_eq_getElem hk, Option.map_some, Option.some.injEq,
        Prod.mk.injEq] at hr
      obtain ⟨rfl, rfl⟩ := hr
      obtain ⟨h1, h2, h3⟩ := ih h
      refine ⟨by rw [h1, List.length_cons]; congr 1; omega, ?_, by rw [List.length_cons]; omega⟩
      rw [List.map_cons, h2, List.length_cons, List.drop_eq_getElem_cons hk, List.take_succ_cons]

theorem plies_mock {p p' : VPos} {ds : List Dice} {s' : List Dice × Nat} {t t' : π} {l : List (Dice × Nat)}
    (h : Plies R diceGenMock pick true p (ds, 0) t l p' s' t') :
    l.map Prod.fst = (Script.playable ds).take l.length ∧ l.length ≤ (Script.playable ds).length ∧
    s' = (ds, if l = [] then 0 else Script.skipped ds + l.length) := by
  cases h with
  | nil => exact ⟨rfl, by simp, rfl⟩
  | @cons _ _ _ _ _ _ _ _ _ _ d i l hr _ _ _ h =>
    rw [if_pos rfl, mock_first] at hr
    rw [Option.map_eq_some_iff] at hr
    obtain ⟨d', hd, he⟩ := hr
    simp only [Prod.mk.injEq] at he
    obtain ⟨rfl, rfl⟩ := he
    obtain ⟨h1, h2, h3⟩ := plies_mock_rest (p := p) (t := t) h
    have hl := Script.length ds
    obtain ⟨rest, hrest⟩ := List.head?_eq_some_iff.1 hd
    have hdr : ds.drop (Script.skipped ds + 1) = rest := by
      rw [← List.drop_drop, Script.drop, hrest, List.drop_succ_cons, List.drop_zero]
    rw [hrest] at hl ⊢
    rw [List.length_cons] at hl
    refine ⟨by rw [List.map_cons, h2, hdr, List.length_cons, List.take_succ_cons], by simp only [List.length_cons]; omega, ?_⟩
    rw [h1, if_neg (by simp), List.length_cons]
    congr 1; omega

theorem mock_next_none {ds : List Dice} {n : Nat} (hn : n ≤ (Script.playable ds).length) :
    (if n = 0 then diceGenMock.rollMixed (ds, if n = 0 then 0 else Script.skipped ds + n)
      else diceGenMock.roll (ds, if n = 0 then 0 else Script.skipped ds + n)) = none ↔ n = (Script.playable ds).length := by
  have hl := Script.length ds
  split_ifs with h0
  · subst h0
    rw [mock_first]
    cases Script.playable ds <;> simp
  · show (Option.map _ (ds[_]?)) = none ↔ _
    rw [Option.map_eq_none_iff, List.getElem?_eq_none_iff]
    omega

theorem mock_next_some {ds : List Dice} {n : Nat} {d : Dice} {s : List Dice × Nat}
    (h : (if n = 0 then diceGenMock.rollMixed (ds, if n = 0 then 0 else Script.skipped ds + n)
      else diceGenMock.roll (ds, if n = 0 then 0 else Script.skipped ds + n)) = some (d, s)) :
    (Script.playable ds)[n]? = some d ∧ s = (ds, Script.skipped ds + n + 1) := by
  split_ifs at h with h0
  · subst h0
    rw [mock_first, Option.map_eq_some_iff] at h
    obtain ⟨d', hd, he⟩ := h
    simp only [Prod.mk.injEq] at he
    obtain ⟨rfl, rfl⟩ := he
    exact ⟨by rw [← hd, List.head?_eq_getElem?], rfl⟩
  · simp only [diceGenMock, Option.map_eq_some_iff] at h
    obtain ⟨d', hd, he⟩ := h
    simp only [Prod.mk.injEq] at he
    obtain ⟨rfl, rfl⟩ := he
    refine ⟨?_, rfl⟩
    rw [← Script.drop, List.getElem?_drop]
    exact hd
end

/-- When the loop does not return, for any generator. -/
theorem playLoop_none {σ π : Type} (R : VariantRules) (gen : DiceGen σ) (pick : Game.Policy π) :
    ∀ (left ply : Nat) (g : Game) (s : σ) (t : π),
      Game.playLoop R gen pick left ply g s t = none ↔
      ∃ l p' s' t', Plies R gen pick (decide (ply = 0)) g.position s t l p' s' t' ∧ l.length < left ∧
        (l ≠ [] → p'.gameState = .ongoing) ∧ (if ply + l.length = 0 then gen.rollMixed s' else gen.roll s') = none
  | 0, ply, g, s, t => by simp [Game.playLoop]
  | left + 1, ply, g, s, t => by
    unfold Game.playLoop
    cases hroll : (if ply = 0 then gen.rollMixed s else gen.roll s) with
    | none =>
      simp only [Option.bind_none, true_iff]
      exact ⟨[], g.position, s, t, .nil _ _ _ _, by simp, by simp, by simpa using hroll⟩
    | some r =>
      obtain ⟨dice, s1⟩ := r
      rw [Option.bind_some]
      change (if (R g.position dice).isEmpty then some _ else if h : (pick t g.position dice (R g.position dice)).1 ≥ (R g.position dice).length then _ else _) = none ↔ _
      -- every history starts with this roll
      have hkey : (∃ l p' s' t', Plies R gen pick (decide (ply = 0)) g.position s t l p' s' t' ∧ l.length < left + 1 ∧
          (l ≠ [] → p'.gameState = .ongoing) ∧ (if ply + l.length = 0 then gen.rollMixed s' else gen.roll s') = none) ↔
          ∃ q, (R g.position dice)[(pick t g.position dice (R g.position dice)).1]? = some q ∧ q.gameState = .ongoing ∧
            ∃ l p' s' t', Plies R gen pick false q s1 (pick t g.position dice (R g.position dice)).2 l p' s' t' ∧ l.length < left ∧
              (l ≠ [] → p'.gameState = .ongoing) ∧ gen.roll s' = none := by
        constructor
        · rintro ⟨l, p', s', t', hp, hl, ho, hn⟩
          cases hp with
          | nil => rw [show ply + ([] : List (Dice × Nat)).length = ply from rfl, hroll] at hn; cases hn
          | @cons _ _ q _ _ s1' _ _ t1 _ dice' i l hr hpk hq hlo hrest =>
            have hr' : (if ply = 0 then gen.rollMixed s else gen.roll s) = some (dice', s1') := by simpa using hr
            rw [hroll] at hr'
            simp only [Option.some.injEq, Prod.mk.injEq] at hr'
            obtain ⟨rfl, rfl⟩ := hr'
            rw [hpk]
            refine ⟨q, hq, ?_, l, p', s', t', hrest, by simpa using hl, fun _ => ho (by simp), by simpa using hn⟩
            by_cases h : l = []
            · subst h
              rw [← plies_nil hrest]
              exact ho (by simp)
            · exact hlo h
        · rintro ⟨q, hq, hg, l, p', s', t', hp, hl, ho, hn⟩
          refine ⟨(dice, _) :: l, p', s', t', .cons (by simpa using hroll) rfl hq (fun _ => hg) hp, by simpa using hl, fun _ => ?_, by simpa using hn⟩
          by_cases h : l = []
          · subst h; rw [plies_nil hp]; exact hg
          · exact ho h
      rw [hkey]
      split_ifs with h1 h2
      · simp [List.isEmpty_iff.1 h1]
      · simp [h2]
      · have h3 := List.getElem?_eq_getElem (l := R g.position dice) (i := (pick t g.position dice (R g.position dice)).1) (by omega)
        rw [h3]
        simp only [Option.some.injEq, exists_eq_left']
        split
        · next res hres =>
          simp only [reduceCtorEq, false_iff]
          rintro ⟨h, -⟩
          simp only [Game.legalPositionsWith] at hres
          rw [hres] at h; cases h
        · next hres =>
          rw [playLoop_none R gen pick left]
          simp only [Game.legalPositionsWith] at hres ⊢
          simp [hres]

/-- **C85** With any generator an episode returns, except when it needs a roll that the generator does not deliver: it has made
the plies `l`, fewer than `max`, the game is not over, and the next call of `roll_mixed` (first ply) or `roll` does not return. -/
theorem C85_returns_unless {σ π : Type} (R : VariantRules) (gen : DiceGen σ) (pick : Game.Policy π) (max : Nat) (g : Game)
    (s : σ) (t : π) :
    Game.playEpisode R gen pick max g s t = none ↔
      ∃ l p' s' t', Plies R gen pick true g.position s t l p' s' t' ∧ l.length < max ∧
        (l ≠ [] → p'.gameState = .ongoing) ∧ (if l = [] then gen.rollMixed s' else gen.roll s') = none := by
  unfold Game.playEpisode
  rw [playLoop_none]
  simp only [decide_true, Nat.zero_add, List.length_eq_zero_iff]

/-- **C85** An episode with the scripted dice `ds` plays exactly the script: the dice of its plies are the script, without its leading
doubles, in order and without gaps; and the generator is left having consumed the leading doubles, one roll for each ply and one more
only if the last roll gave no position or the policy's choice for it was refused. -/
theorem C85_scripted {π : Type} (R : VariantRules) (pick : Game.Policy π) (max : Nat) (g : Game) (ds : List Dice) (t : π)
    (r : Game.EpisodeResult (List Dice × Nat) π)
    (h : Game.playEpisode R diceGenMock pick max g (ds, 0) t = some r) :
    ∃ l s1 t1, Plies R diceGenMock pick true g.position (ds, 0) t l r.game.position s1 t1 ∧
      l.map Prod.fst = (Script.playable ds).take l.length ∧ l.length ≤ (Script.playable ds).length ∧ l.length ≤ max ∧
      (r.result = .ok l.length ∧ (l.length = max ∨ l ≠ [] ∧ ∃ res, r.game.position.gameState = .gameOver res) ∧
          r.dice = (ds, if max = 0 then 0 else Script.skipped ds + l.length) ∨
       (∃ d, (Script.playable ds)[l.length]? = some d ∧ l.length < max ∧ (l ≠ [] → r.game.position.gameState = .ongoing) ∧
          r.dice = (ds, Script.skipped ds + l.length + 1) ∧
          (r.result = .ok l.length ∧ R r.game.position d = [] ∨
           r.result = .error .policyIndexOutOfBounds ∧
             (R r.game.position d).length ≤ (pick t1 r.game.position d (R r.game.position d)).1))) := by
  obtain ⟨-, l, s1, t1, hp, hr, ho⟩ := playLoop_spec R diceGenMock pick max 0 g (ds, 0) t r h
  have hp' : Plies R diceGenMock pick true g.position (ds, 0) t l r.game.position s1 t1 := by simpa using hp
  obtain ⟨h1, h2, h3⟩ := plies_mock hp'
  have hls : (ds, if l.length = 0 then 0 else Script.skipped ds + l.length) = s1 := by
    rw [h3]; simp only [List.length_eq_zero_iff]
  have hnext : ∀ {d}, (if decide (0 + l.length = 0) then diceGenMock.rollMixed s1 else diceGenMock.roll s1) = some (d, r.dice) →
      (Script.playable ds)[l.length]? = some d ∧ r.dice = (ds, Script.skipped ds + l.length + 1) := by
    intro d hd
    refine mock_next_some (n := l.length) ?_
    rw [hls]
    simpa using hd
  have hover : (∃ res, r.game.position.gameState = .gameOver res) ∨ r.game.position.gameState = .ongoing := by
    cases r.game.position.gameState <;> simp
  refine ⟨l, s1, t1, hp', h1, h2, ?_, ?_⟩
  · rcases hr with ⟨-, h, -⟩ | ⟨-, h, -⟩ <;> omega
  rcases hr with ⟨ha, hb, hc⟩ | ⟨ha, hb, d, i, hc, hd, he⟩
  · rw [Nat.zero_add] at ha
    have hdice : ∀ (hm : l = [] → max = 0), (l ≠ [] → max ≠ 0) →
        (ds, if l = [] then 0 else Script.skipped ds + l.length) = (ds, if max = 0 then 0 else Script.skipped ds + l.length) := by
      intro hm hm'
      by_cases hl : l = []
      · rw [if_pos hl, if_pos (hm hl)]
      · rw [if_neg hl, if_neg (hm' hl)]
    have hlen : l ≠ [] → max ≠ 0 := fun hl => by have := List.length_pos_iff.2 hl; omega
    rcases hc with ⟨hc, hd, -⟩ | ⟨hc, hd, he, -⟩ | ⟨d, hc, hd, -, he, hf⟩
    · refine Or.inl ⟨ha, Or.inl hc, ?_⟩
      rw [← hd, h3]
      exact hdice (by rintro rfl; exact hc.symm) hlen
    · refine Or.inl ⟨ha, Or.inr ⟨hc, hd⟩, ?_⟩
      rw [← he, h3]
      exact hdice (fun h => absurd h hc) hlen
    · obtain ⟨h4, h5⟩ := hnext hc
      exact Or.inr ⟨d, h4, he, hf, h5, Or.inl ⟨ha, hd⟩⟩
  · obtain ⟨h4, h5⟩ := hnext hc
    refine Or.inr ⟨d, h4, hb, fun hl => ?_, h5, Or.inr ⟨ha, by rw [hd]; exact he⟩⟩
    rcases hover with h | h
    · rw [ho h hl] at ha; cases ha
    · exact h

/-- **C85** The episode panics exactly when the script runs out: the plies so far have used all the playable dice, fewer than `max` plies
were made and the game is not over. -/
theorem C85_panics_iff {π : Type} (R : VariantRules) (pick : Game.Policy π) (max : Nat) (g : Game) (ds : List Dice) (t : π) :
    Game.playEpisode R diceGenMock pick max g (ds, 0) t = none ↔
      ∃ l p' s' t', Plies R diceGenMock pick true g.position (ds, 0) t l p' s' t' ∧ l.map Prod.fst = Script.playable ds ∧
        l.length < max ∧ (l ≠ [] → p'.gameState = .ongoing) := by
  rw [C85_returns_unless]
  constructor
  · rintro ⟨l, p', s', t', hp, hl, ho, hn⟩
    obtain ⟨h1, h2, h3⟩ := plies_mock hp
    refine ⟨l, p', s', t', hp, ?_, hl, ho⟩
    rw [h3] at hn
    simp only [← List.length_eq_zero_iff] at hn
    rw [mock_next_none h2] at hn
    rw [h1, hn, List.take_length]
  · rintro ⟨l, p', s', t', hp, he, hl, ho⟩
    obtain ⟨h1, h2, h3⟩ := plies_mock hp
    refine ⟨l, p', s', t', hp, hl, ho, ?_⟩
    rw [h3]
    simp only [← List.length_eq_zero_iff]
    rw [mock_next_none h2, ← he, List.length_map]

/-- **C85** A script with enough playable dice never panics. -/
theorem C85_enough_dice {π : Type} (R : VariantRules) (pick : Game.Policy π) (max : Nat) (g : Game) (ds : List Dice) (t : π)
    (h : max ≤ (Script.playable ds).length) : Game.playEpisode R diceGenMock pick max g (ds, 0) t ≠ none := by
  rw [Ne, C85_panics_iff]
  rintro ⟨l, -, -, -, -, he, hl, -⟩
  rw [← he, List.length_map] at h
  omega

theorem plies_valid_dice {σ π : Type} {gen : DiceGen σ} {pick : Game.Policy π} {b : Bool} {p p' : VPos} {s s' : σ} {t t' : π}
    {l : List (Dice × Nat)} {v : Variant} (hv : VPos.ValidFor v p) (h : Plies classicRules gen pick b p s t l p' s' t')
    (hd : ∀ d ∈ l.map Prod.fst, d.Valid) : VPos.ValidFor v p' := by
  induction h with
  | nil => exact hv
  | @cons first p q p' s s1 s' t t1 t' dice i l hr _ hq _ _ ih =>
    exact ih (classic_child hv (hd dice (by simp)) (List.mem_of_getElem? hq)) fun d h => hd d (by simp at h ⊢; tauto)

theorem classic_nonempty {v : Variant} {q : VPos} {dice : Dice} (hq : VPos.ValidFor v q) (hd : dice.Valid) : classicRules q dice ≠ [] := by
  have key : ∀ {N : Nat} (p : Pos N), Spec.Valid N p.view → p.legalPositions dice ≠ [] :=
    fun p h => C02_never_empty p (Pos.Valid.barsOK h) dice hd
  obtain ⟨hv, hq⟩ := hq
  subst hv
  cases q <;> exact fun h => key _ hq (List.map_eq_nil_iff.1 h)

/-- **C85** With the classic rules, from a valid position and with legal dice, an episode that returns `Ok(n)`, `n > 0`, has used the
leading doubles of the script and exactly `n` further dice: `assert_all_dice_were_used` passes exactly when `n` is the number of
playable dice. -/
theorem C85_all_dice_used {π : Type} (pick : Game.Policy π) (max : Nat) (g : Game) (ds : List Dice) (t : π)
    (hd : ∀ d ∈ ds, d.Valid) (hv : VPos.ValidFor g.variant g.position) (hmax : 0 < max) (n : Nat)
    (r : Game.EpisodeResult (List Dice × Nat) π)
    (h : Game.playEpisode classicRules diceGenMock pick max g (ds, 0) t = some r) (hn : r.result = .ok n) :
    r.dice = (ds, Script.skipped ds + n) ∧ (mockAllUsed r.dice = some () ↔ n = (Script.playable ds).length) := by
  obtain ⟨l, s1, t1, hp, h1, h2, h3, hr⟩ := C85_scripted classicRules pick max g ds t r h
  have hmem : ∀ d ∈ Script.playable ds, d.Valid := fun d h => hd d (List.dropWhile_subset _ h)
  have hused : r.dice = (ds, Script.skipped ds + n) := by
    rcases hr with ⟨ha, -, hb⟩ | ⟨d, ha, -, -, -, ⟨-, hb⟩ | ⟨hb, -⟩⟩
    · rw [hn] at ha
      injection ha with ha
      rw [hb, if_neg (by omega), ha]
    · refine absurd hb (classic_nonempty (plies_valid_dice hv hp fun d h => ?_) (hmem d (List.mem_of_getElem? ha)))
      rw [h1] at h
      exact hmem d (List.mem_of_mem_take h)
    · rw [hn] at hb; cases hb
  refine ⟨hused, ?_⟩
  have hl := Script.length ds
  rw [hused]
  simp only [mockAllUsed]
  split_ifs with h4
  · simp only [true_iff]; omega
  · simp only [reduceCtorEq, false_iff]; omega

/-- The mock in a form that the kernel can run, for the examples. -/
def mockRun : DiceGen (List Dice × Nat) where
  roll s := s.1[s.2]?.map fun d => (d, (s.1, s.2 + 1))
  rollMixed s := match (s.1.drop s.2).dropWhile (fun d => decide d.IsDouble) with
    | [] => none
    | d :: rest => some (d, (s.1, s.1.length - rest.length))

theorem mockRun_eq : diceGenMock = mockRun := by
  have h : diceGenMock.rollMixed = mockRun.rollMixed := funext fun s => mock_rollMixed s.1 _ s.2 rfl
  have h' : diceGenMock.roll = mockRun.roll := rfl
  calc diceGenMock = ⟨diceGenMock.roll, diceGenMock.rollMixed⟩ := rfl
    _ = mockRun := by rw [h, h']

/-- A script that starts with a double: the 5-5 is skipped, the 6-1 and the 3-3 are played, and all dice were used. -/
example : (Game.playEpisode (π := Unit) classicRules diceGenMock (fun t _ _ _ => (0, t)) 2 (Game.new .hypergammon)
      ([.double 5, .mixed 6 1, .double 3], 0) ()).map (fun r => (r.result.toOption, r.dice.2, mockAllUsed r.dice)) = some (some 2, 3, some ()) ∧
    VPos.ValidFor .hypergammon (Game.new .hypergammon).position ∧
    Script.playable [.double 5, .mixed 6 1, .double 3] = [.mixed 6 1, .double 3] ∧ Script.skipped [.double 5, .mixed 6 1, .double 3] = 1 :=
  ⟨by rw [mockRun_eq]; decide +kernel, C17_reachable_valid _ _ .start, by decide +kernel, by decide +kernel⟩

/-- The same script and three plies: the script runs out and the call panics. -/
example : (Game.playEpisode (π := Unit) classicRules diceGenMock (fun t _ _ _ => (0, t)) 3 (Game.new .hypergammon)
      ([.double 5, .mixed 6 1, .double 3], 0) ()).isNone = true := by rw [mockRun_eq]; decide +kernel

/-- A policy that chooses an index out of range: one die more than plies is used. -/
example : (Game.playEpisode (π := Unit) classicRules diceGenMock (fun t _ d _ => (if d = .double 3 then 1000 else 0, t)) 3 (Game.new .hypergammon)
      ([.double 5, .mixed 6 1, .double 3], 0) ()).map (fun r => (r.result.toOption, r.dice.2)) = some (none, 3) := by rw [mockRun_eq]; decide +kernel

end Bkgm
