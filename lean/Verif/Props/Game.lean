import Verif.Spec.Game
import Verif.Props.MoveGen
import Verif.Props.Position
import Verif.Props.Dice
import Verif.Proofs.Str
/-!
# C17-C21, C40, C41: variants, game histories, `Game`
-/

namespace Bkgm

/-! ## Variants -/

/-- **C40** Parsing accepts exactly the displayed names, in any ASCII case and with any surrounding whitespace. -/
theorem C40_parse_iff (s : Str) (v : Variant) :
    Variant.parse s = some v ↔ ∃ w name w', s = w ++ name ++ w' ∧ (∀ c ∈ w, isWs c = true) ∧ (∀ c ∈ w', isWs c = true) ∧
      Trimmed name ∧ lower name = v.toText := by
  have h1 : Variant.parse s = some v ↔ lower (trim s) = v.toText := by
    unfold Variant.parse
    simp only
    constructor
    · intro h
      split_ifs at h with a1 a2 a3 a4 a5 a6 a7 <;> simp at h <;> subst h <;> assumption
    · intro h
      rw [h]
      cases v <;> decide
  rw [h1]
  constructor
  · intro h
    obtain ⟨w, w', a, b, c⟩ := trim_split s
    exact ⟨w, trim s, w', c, a, b, trim_trimmed s, h⟩
  · rintro ⟨w, name, w', rfl, a, b, c, d⟩
    rw [trim_surround a b c, d]

/-- **C40** In particular displayed names parse back, and different variants have different names. -/
theorem C40_round_trip (v w : Variant) :
    Variant.parse v.toText = some v ∧ (v.toText = w.toText → v = w) ∧ v ∈ variants ∧ variants.Nodup := by
  refine ⟨by cases v <;> decide, ?_, by cases v <;> decide, by decide⟩
  cases v <;> cases w <;> decide

example : Variant.parse " \tHyperGammon4\n".toList = some .hypergammon4 ∧ Variant.parse "hypergammon3".toList = none := by
  decide

/-- Two equal start positions up to turn. -/
theorem startPosition_cases (P : VPos → Prop) (h : ∀ v ∈ variants, P v.startPosition) (v : Variant) : P v.startPosition :=
  h v (C40_round_trip v v).2.2.1

/-- **C41** Every start position is a valid ongoing contact position of its variant with the declared number of checkers, x to
move, and symmetric (equal to its own mirror image). -/
theorem C41_start_position (v : Variant) :
    VPos.ValidFor v v.startPosition ∧ v.startPosition.variant = v ∧
    v.startPosition.numCheckers = v.checkers ∧ v.spec.numCheckers = v.checkers ∧
    v.startPosition.turn = true ∧ v.startPosition.gameState = .ongoing ∧
    v.startPosition.phase = some (.ongoing .contact) ∧
    (∀ i, i < 26 → v.startPosition.view.x i = v.startPosition.view.o (25 - i)) ∧
    v.startPosition.view.xOff = 0 ∧ v.startPosition.view.oOff = 0 := by
  have hv : ∀ N (p : Pos N), p.Valid → Spec.Valid N p.view := fun _ _ h => h
  cases v
  · exact ⟨⟨rfl, hv 15 BACKGAMMON (by decide)⟩, by decide⟩
  · exact ⟨⟨rfl, hv 15 NACKGAMMON (by decide)⟩, by decide⟩
  · exact ⟨⟨rfl, hv 15 LONGGAMMON (by decide)⟩, by decide⟩
  · exact ⟨⟨rfl, hv 3 HYPERGAMMON (by decide)⟩, by decide⟩
  · exact ⟨⟨rfl, hv 2 HYPERGAMMON2 (by decide)⟩, by decide⟩
  · exact ⟨⟨rfl, hv 4 HYPERGAMMON4 (by decide)⟩, by decide⟩
  · exact ⟨⟨rfl, hv 5 HYPERGAMMON5 (by decide)⟩, by decide⟩

/-- The checkers of the start positions stand where the rules of the variants put them. -/
example : (Variant.backgammon.startPosition.view.x 24, Variant.backgammon.startPosition.view.x 13,
    Variant.backgammon.startPosition.view.x 8, Variant.backgammon.startPosition.view.x 6) = (2, 5, 3, 5) ∧
    (Variant.hypergammon.startPosition.view.x 24, Variant.hypergammon.startPosition.view.x 23,
      Variant.hypergammon.startPosition.view.x 22) = (1, 1, 1) := by decide

/-! ## Histories -/

/-- A child keeps the variant and validity. -/
theorem classic_child {v : Variant} {q c : VPos} {dice : Dice} (hq : VPos.ValidFor v q) (hd : dice.Valid)
    (hc : c ∈ classicRules q dice) : VPos.ValidFor v c := by
  have key : ∀ {N : Nat} (p : Pos N) (x : Pos N), Spec.Valid N p.view → x ∈ p.legalPositions dice → Spec.Valid N x.view :=
    fun p x h hx => C04_children_valid p x h dice hd hx
  obtain ⟨rfl, h⟩ := hq
  cases q <;> (simp only [classicRules] at hc; obtain ⟨x, hx, rfl⟩ := List.mem_map.1 hc; exact ⟨rfl, key _ x h hx⟩)

/-- **C17** Every position reachable in a game is a valid position of the game's variant. -/
theorem C17_reachable_valid (v : Variant) (q : VPos) (h : Reachable v q) : VPos.ValidFor v q := by
  induction h with
  | start => exact (C41_start_position v).1
  | ply _ hd hc ih => exact classic_child ih hd hc

example : ∃ c, Reachable .hypergammon c ∧ VPos.ValidFor .hypergammon c ∧ c ≠ Variant.hypergammon.startPosition := by
  have h : (classicRules Variant.hypergammon.startPosition (.mixed 2 1))[0]? ≠ none := by decide +kernel
  obtain ⟨c, hc⟩ := Option.ne_none_iff_exists'.1 h
  have hr : Reachable .hypergammon c := .ply .start (by decide : (Dice.mixed 2 1).Valid) (List.mem_of_getElem? hc)
  refine ⟨c, hr, C17_reachable_valid _ c hr, ?_⟩
  rintro rfl
  exact absurd hc (by decide +kernel)

/-- What one ply does to the off counts and the result. -/
theorem child_result {N : Nat} {p c : Pos N} {dice : Dice} (hv : p.Valid) (hd : dice.Valid) (hg : p.gameState = .ongoing)
    (hn : ¬ (p.xOff = N ∧ p.oOff = N)) (hc : c ∈ p.legalPositions dice) :
    c.xOff ≠ N ∧ ∀ r, c.gameState = .gameOver r → r.isWin = false := by
  have h := (C10_game_state p hn).1.1 hg
  have hoff : c.xOff = p.oOff := (C05_turn_off_hits p c hv.barsOK dice hd hc).2.2.2.1
  have hx : c.xOff ≠ N := hoff ▸ h.2
  refine ⟨hx, fun r hr => ?_⟩
  rcases gameState_cases c with ⟨a, _⟩ | ⟨a, _⟩ | ⟨a, _⟩ | ⟨a, _, _, e⟩ | ⟨a, _, _, _, e⟩ | ⟨a, _, _, _, e⟩ | ⟨_, _, e⟩
  · exact absurd a hx
  · exact absurd a hx
  · exact absurd a hx
  all_goals rw [e] at hr; simp at hr; try subst hr
  all_goals rfl

/-- **C18** In a game played while it is ongoing never both sides have borne off all checkers, and if a position is over it is a
loss for the side to move (so a win for the side that just moved). -/
theorem C18_one_winner (v : Variant) (q : VPos) (h : Played v q) :
    VPos.ValidFor v q ∧ q.view.xOff ≠ v.checkers ∧
    (∀ r, q.gameState = .gameOver r → r.isWin = false ∧ q.view.oOff = v.checkers) := by
  have key : ∀ {N : Nat} {p c : Pos N} {dice : Dice}, p.Valid → dice.Valid → p.gameState = .ongoing → p.xOff ≠ N →
      c ∈ p.legalPositions dice → c.Valid ∧ c.xOff ≠ N ∧ ∀ r, c.gameState = .gameOver r → r.isWin = false ∧ c.oOff = N := by
    intro N p c dice hv hd hg hn hc
    obtain ⟨h1, h2⟩ := child_result hv hd hg (fun h => hn h.1) hc
    refine ⟨C04_children_valid p c hv dice hd hc, h1, fun r hr => ⟨h2 r hr, ?_⟩⟩
    by_contra ho
    rw [(C10_game_state c (fun h => h1 h.1)).1.2 ⟨h1, ho⟩] at hr
    cases hr
  induction h with
  | start =>
    obtain ⟨h1, -, -, -, -, h6, -, -, h9, -⟩ := C41_start_position v
    refine ⟨h1, ?_, fun r hr => by rw [h6] at hr; cases hr⟩
    rw [h9]; cases v <;> decide
  | @ply q c dice _ hg hd hc ih =>
    obtain ⟨⟨rfl, hv⟩, hn, -⟩ := ih
    cases q <;> (simp only [classicRules] at hc; obtain ⟨x, hx, rfl⟩ := List.mem_map.1 hc
                 obtain ⟨k1, k2, k3⟩ := key hv hd hg hn hx
                 exact ⟨⟨rfl, k1⟩, k2, k3⟩)

/-- Histories exist: one ply from the start of hypergammon. -/
example : ∃ c, Played .hypergammon c ∧ c ≠ Variant.hypergammon.startPosition := by
  refine ⟨.hypergammon ((HYPERGAMMON.mv 24 6).mv 23 1).flip,
    .ply (q := Variant.hypergammon.startPosition) (dice := .mixed 6 1) .start (by decide) (by decide) ?_, by decide⟩
  decide +kernel

/-! ## `Game` -/

/-- Rules that never change the variant. Both supplied rule sets are such. -/
def KeepsVariant (R : VariantRules) : Prop := ∀ q dice c, c ∈ R q dice → c.variant = q.variant

theorem supplied_keep {R : VariantRules} (h : R = classicRules ∨ R = noHitRules) : KeepsVariant R := by
  intro q dice c hc
  rcases h with rfl | rfl <;> cases q <;>
    (simp only [classicRules, noHitRules] at hc; obtain ⟨x, hx, rfl⟩ := List.mem_map.1 hc; rfl)

theorem playLoop_keeps {σ π : Type} {R : VariantRules} (hR : KeepsVariant R) (gen : DiceGen σ) (pick : Game.Policy π) :
    ∀ (left ply : Nat) (g : Game) (s : σ) (t : π) (r : Game.EpisodeResult σ π),
      Game.playLoop R gen pick left ply g s t = some r → g.position.variant = g.variant →
      r.game.variant = g.variant ∧ r.game.position.variant = g.variant
  | 0, ply, g, s, t, r, h, hg => by
    simp only [Game.playLoop, Option.some.injEq] at h; subst h; exact ⟨rfl, hg⟩
  | left + 1, ply, g, s, t, r, h, hg => by
    unfold Game.playLoop at h
    rw [Option.bind_eq_some_iff] at h
    obtain ⟨⟨dice, s1⟩, -, h⟩ := h
    simp only at h
    split_ifs at h with h1 h2
    · injection h with h; subst h; exact ⟨rfl, hg⟩
    · injection h with h; subst h; exact ⟨rfl, hg⟩
    · have hm : ((g.legalPositionsWith R dice)[(pick t g.position dice (g.legalPositionsWith R dice)).1]'(by omega)).variant
          = g.variant := (hR g.position dice _ (List.getElem_mem _)).trans hg
      split at h
      · injection h with h; subst h; exact ⟨rfl, hm⟩
      · have := playLoop_keeps hR gen pick left _ _ _ _ _ h
        exact this hm

/-- **C19** Whatever operations are performed on a game, its variant never changes and its position is always a position of that
variant (either supplied rule set, any dice and policy). -/
theorem C19_variant_invariant (v : Variant) (g : Game) (h : GameSteps (Game.new v) g) :
    g.variant = v ∧ g.position.variant = v := by
  generalize e : Game.new v = g0 at h
  induction h with
  | refl => subst e; exact ⟨rfl, (C41_start_position v).2.1⟩
  | step _ hs ih =>
    obtain ⟨h1, h2⟩ := ih
    cases hs with
    | setPosition _ q =>
      unfold Game.setPosition
      split_ifs with hq
      · exact ⟨h1, h2⟩
      · exact ⟨h1, by simp only [ne_eq, not_not] at hq; rw [hq, h1]⟩
    | reset => exact ⟨h1, by simp only [Game.reset, h1]; exact (C41_start_position v).2.1⟩
    | applyNth _ R hR dice i =>
      unfold Game.applyNth
      simp only
      split_ifs with hi
      · exact ⟨h1, h2⟩
      · exact ⟨h1, (supplied_keep hR _ dice _ (List.getElem_mem _)).trans h2⟩
    | playEpisode _ R hR gen pick max s t r hr =>
      obtain ⟨a, b⟩ := playLoop_keeps (supplied_keep hR) gen pick _ _ _ _ _ _ hr (h2.trans h1.symm)
      exact ⟨a.trans h1, b.trans h1⟩

example := C19_variant_invariant .hypergammon _ (.step (.refl _) (.setPosition _ (.backgammon Ex.start)))

/-- **C19** A position of another variant is rejected and changes nothing; one of the same variant is set; `reset` restores the
start position. -/
theorem C19_set_position (g : Game) (q : VPos) :
    (q.variant ≠ g.variant → g.setPosition q = (g, .error .variantMismatch)) ∧
    (q.variant = g.variant → g.setPosition q = (⟨g.variant, q⟩, .ok ())) ∧
    g.reset = Game.new g.variant := by
  refine ⟨fun h => by simp [Game.setPosition, h], fun h => by simp [Game.setPosition, h], rfl⟩

example : GameSteps (Game.new .hypergammon)
    ((Game.new .hypergammon).applyNth classicRules (.mixed 6 1) 3).1 :=
  .step (.refl _) (.applyNth _ _ (Or.inl rfl) _ _)

/-- **C20** `apply_nth_legal_position` succeeds iff the index is smaller than the number of legal positions, and then sets the
position to that one; otherwise it reports the index error and changes nothing. Any rule set. -/
theorem C20_apply_nth (R : VariantRules) (g : Game) (dice : Dice) (i : Nat) :
    (∀ h : i < (R g.position dice).length, g.applyNth R dice i = (⟨g.variant, (R g.position dice)[i]⟩, .ok ())) ∧
    ((R g.position dice).length ≤ i → g.applyNth R dice i = (g, .error .legalMoveIndexOutOfBounds)) := by
  constructor
  · intro h
    unfold Game.applyNth Game.legalPositionsWith
    simp only [dif_neg (show ¬ i ≥ (R g.position dice).length by omega)]
    rfl
  · intro h
    unfold Game.applyNth Game.legalPositionsWith
    simp only
    rw [dif_pos h]

example (dice : Dice) (g : Game) : (g.applyNth (fun _ _ => []) dice 0) = (g, .error .legalMoveIndexOutOfBounds) := (C20_apply_nth (fun _ _ => []) g dice 0).2 (by simp)

/-- **C20** for the classic rules the index 0 is always accepted (there is always a legal position). -/
theorem C20_first_is_accepted (g : Game) (dice : Dice) (hd : dice.Valid) (hv : VPos.ValidFor g.position.variant g.position) :
    (g.applyNth classicRules dice 0).2 = .ok () := by
  have hlen : 0 < (classicRules g.position dice).length := by
    rw [List.length_pos_iff]
    have key : ∀ {N : Nat} (p : Pos N), Spec.Valid N p.view → p.legalPositions dice ≠ [] :=
      fun p h => C02_never_empty p (Pos.Valid.barsOK h) dice hd
    obtain ⟨v, q⟩ := g
    obtain ⟨-, h⟩ := hv
    cases q <;> simp only [classicRules, ne_eq, List.map_eq_nil_iff] <;> exact key _ h
  rw [(C20_apply_nth classicRules g dice 0).1 hlen]

example : VPos.ValidFor Variant.backgammon (Game.new .backgammon).position := (C41_start_position _).1

theorem plies_nil {σ π : Type} {R : VariantRules} {gen : DiceGen σ} {pick : Game.Policy π} {b : Bool} {p p' : VPos}
    {s s' : σ} {t t' : π} (h : Plies R gen pick b p s t [] p' s' t') : p' = p := by
  cases h; rfl

/-- The episode from any point of the loop. -/
theorem playLoop_spec {σ π : Type} (R : VariantRules) (gen : DiceGen σ) (pick : Game.Policy π) :
    ∀ (left ply : Nat) (g : Game) (s : σ) (t : π) (r : Game.EpisodeResult σ π),
      Game.playLoop R gen pick left ply g s t = some r →
      r.game.variant = g.variant ∧
      ∃ l s1 t1, Plies R gen pick (decide (ply = 0)) g.position s t l r.game.position s1 t1 ∧
        ((r.result = .ok (ply + l.length) ∧ l.length ≤ left ∧
            (l.length = left ∧ s1 = r.dice ∧ t1 = r.policy ∨
             l ≠ [] ∧ (∃ res, r.game.position.gameState = .gameOver res) ∧ s1 = r.dice ∧ t1 = r.policy ∨
             ∃ dice, (if decide (ply + l.length = 0) then gen.rollMixed s1 else gen.roll s1) = some (dice, r.dice) ∧
               R r.game.position dice = [] ∧ t1 = r.policy ∧ l.length < left ∧ (l ≠ [] → r.game.position.gameState = .ongoing))) ∨
         (r.result = .error .policyIndexOutOfBounds ∧ l.length < left ∧
            ∃ dice i, (if decide (ply + l.length = 0) then gen.rollMixed s1 else gen.roll s1) = some (dice, r.dice) ∧
              pick t1 r.game.position dice (R r.game.position dice) = (i, r.policy) ∧
              (R r.game.position dice).length ≤ i)) ∧
        ((∃ res, r.game.position.gameState = .gameOver res) → l ≠ [] → r.result = .ok (ply + l.length))
  | 0, ply, g, s, t, r, h => by
    simp only [Game.playLoop, Option.some.injEq] at h
    subst h
    exact ⟨rfl, [], s, t, .nil _ _ _ _, Or.inl ⟨rfl, le_rfl, Or.inl ⟨rfl, rfl, rfl⟩⟩, by simp⟩
  | left + 1, ply, g, s, t, r, h => by
    unfold Game.playLoop at h
    rw [Option.bind_eq_some_iff] at h
    obtain ⟨⟨dice, s1⟩, hroll, h⟩ := h
    simp only at h
    split_ifs at h with h1 h2
    · injection h with h
      subst h
      refine ⟨rfl, [], s, t, .nil _ _ _ _, Or.inl ⟨rfl, by simp, Or.inr (Or.inr ⟨dice, ?_, ?_, rfl, by simp, by simp⟩)⟩, by simp⟩
      · simpa using hroll
      · simpa [Game.legalPositionsWith] using h1
    · injection h with h
      subst h
      refine ⟨rfl, [], s, t, .nil _ _ _ _, Or.inr ⟨rfl, by simp, dice, _, by simpa using hroll, rfl, h2⟩, by simp⟩
    · have hi : (pick t g.position dice (g.legalPositionsWith R dice)).1 < (R g.position dice).length := by
        unfold Game.legalPositionsWith at h2 ⊢; omega
      split at h
      · next res hres =>
        injection h with h
        subst h
        refine ⟨rfl, [(dice, _)], s1, _, .cons (q := (R g.position dice)[_]'hi) (by simpa using hroll) rfl
          (List.getElem?_eq_getElem hi) (by simp) (.nil _ _ _ _), Or.inl ⟨rfl, by simp, Or.inr (Or.inl ⟨by simp, ⟨res, hres⟩, rfl, rfl⟩)⟩,
          fun _ _ => rfl⟩
      · next hres =>
        obtain ⟨hv, l, s2, t2, hp, hres', ho⟩ := playLoop_spec R gen pick left _ _ _ _ _ h
        simp only [Nat.add_eq_zero_iff, one_ne_zero, and_false, decide_false] at hp
        have hcons : Plies R gen pick (decide (ply = 0)) g.position s t
            ((dice, (pick t g.position dice (g.legalPositionsWith R dice)).1) :: l) r.game.position s2 t2 :=
          .cons (q := (R g.position dice)[_]'hi) (by simpa using hroll) rfl
            (List.getElem?_eq_getElem hi) (fun _ => hres) hp
        have hlen : ∀ x, (x :: l).length = l.length + 1 := fun x => List.length_cons
        refine ⟨hv, _, s2, t2, hcons, ?_, ?_⟩
        · rw [hlen, show ply + (l.length + 1) = ply + 1 + l.length by omega]
          rcases hres' with ⟨a, b, c⟩ | ⟨a, b, c⟩
          · refine Or.inl ⟨a, by omega, ?_⟩
            rcases c with ⟨c, d, e⟩ | ⟨c, d, e⟩ | c
            · exact Or.inl ⟨by omega, d, e⟩
            · exact Or.inr (Or.inl ⟨by simp, d, e⟩)
            · obtain ⟨dice', c1, c2, c3, c4, c5⟩ := c
              refine Or.inr (Or.inr ⟨dice', c1, c2, c3, by omega, fun _ => ?_⟩)
              by_cases hl : l = []
              · subst hl; rw [plies_nil hp]; exact hres
              · exact c5 hl
          · exact Or.inr ⟨a, by omega, c⟩
        · intro hover _
          rw [hlen, show ply + (l.length + 1) = ply + 1 + l.length by omega]
          by_cases hl : l = []
          · subst hl
            obtain ⟨res, hover⟩ := hover
            rw [plies_nil hp] at hover
            rw [hres] at hover; cases hover
          · exact ho hover hl

/-- **C21** An episode is a sequence of plies (see `Plies`): `Ok(n)` means exactly `n ≤ max` plies were made, and `n < max` only
if the game was over after the last ply or the rules gave no position for the next roll; the only error is an
out-of-range index returned by the policy, and then the game is left after the plies made so far. -/
theorem C21_play_episode {σ π : Type} (R : VariantRules) (gen : DiceGen σ) (pick : Game.Policy π) (max : Nat) (g : Game)
    (s : σ) (t : π) (r : Game.EpisodeResult σ π) (h : Game.playEpisode R gen pick max g s t = some r) :
    r.game.variant = g.variant ∧
    ∃ l s1 t1, Plies R gen pick true g.position s t l r.game.position s1 t1 ∧
      (∀ n, r.result = .ok n → n = l.length ∧ n ≤ max ∧
        (n < max → (1 ≤ n ∧ ∃ res, r.game.position.gameState = .gameOver res) ∨
          ∃ dice, (if n = 0 then gen.rollMixed s1 else gen.roll s1) = some (dice, r.dice) ∧
            R r.game.position dice = [])) ∧
      (∀ e, r.result = .error e → e = .policyIndexOutOfBounds ∧ l.length < max ∧
        ∃ dice i, (if l.length = 0 then gen.rollMixed s1 else gen.roll s1) = some (dice, r.dice) ∧
          pick t1 r.game.position dice (R r.game.position dice) = (i, r.policy) ∧ (R r.game.position dice).length ≤ i) ∧
      (1 ≤ l.length → (∃ res, r.game.position.gameState = .gameOver res) → r.result = .ok l.length) := by
  obtain ⟨hv, l, s1, t1, hp, hr, ho⟩ := playLoop_spec R gen pick max 0 g s t r h
  refine ⟨hv, l, s1, t1, hp, ?_, ?_, ?_⟩
  · intro n hn
    rcases hr with ⟨a, b, c⟩ | ⟨a, -⟩
    · rw [a] at hn
      injection hn with hn
      simp only [Nat.zero_add] at hn c
      subst hn
      refine ⟨rfl, b, fun hlt => ?_⟩
      rcases c with ⟨c, -⟩ | ⟨c, d, -⟩ | ⟨dice, c, d, -⟩
      · omega
      · exact Or.inl ⟨List.length_pos_iff.2 c, d⟩
      · exact Or.inr ⟨dice, by simpa using c, d⟩
    · rw [a] at hn; cases hn
  · intro e he
    rcases hr with ⟨a, -⟩ | ⟨a, b, dice, i, c, d, f⟩
    · rw [a] at he; cases he
    · rw [a] at he
      injection he with he
      exact ⟨he.symm, b, dice, i, by simpa using c, d, f⟩
  · intro hl hover
    have := ho hover (List.length_pos_iff.1 hl)
    simpa using this

/-- **C21** The first roll of an episode is never a double, for generators whose `roll_mixed` never returns one ... -/
theorem C21_first_roll_mixed {σ π : Type} (R : VariantRules) (gen : DiceGen σ) (pick : Game.Policy π)
    (hgen : ∀ s d s', gen.rollMixed s = some (d, s') → ∃ b m, d = .mixed b m)
    (p : VPos) (s : σ) (t : π) (d : Dice) (i : Nat) (l : List (Dice × Nat)) (p' : VPos) (s' : σ) (t' : π)
    (h : Plies R gen pick true p s t ((d, i) :: l) p' s' t') : ∃ b m, d = .mixed b m := by
  cases h with
  | cons hr _ _ _ _ => exact hgen _ _ _ (by simpa using hr)

/-- One ply of hypergammon with a generator that always rolls 6-1. -/
example : ∃ p' : VPos, ∃ b m, Dice.mixed 6 1 = .mixed b m := by
  obtain ⟨q, hq⟩ := Option.ne_none_iff_exists'.1 (show (classicRules Variant.hypergammon.startPosition (.mixed 6 1))[0]? ≠ none by decide +kernel)
  exact ⟨q, C21_first_roll_mixed (σ := Unit) (π := Unit) classicRules ⟨fun s => some (.mixed 6 1, s), fun s => some (.mixed 6 1, s)⟩ (fun t _ _ _ => (0, t))
    (by rintro s d s' h; cases h; exact ⟨_, _, rfl⟩) Variant.hypergammon.startPosition () () (.mixed 6 1) 0 [] q () () (.cons rfl rfl hq (by simp) (.nil ..))⟩

/-- ... which both generators of the crate (and any that uses the default `roll_mixed`) satisfy. -/
theorem C21_generators_first_roll_mixed :
    (∀ s d s', diceGenMock.rollMixed s = some (d, s') → ∃ b m, d = .mixed b m) ∧
    (∀ {σ : Type} (rng : Rng σ), (∀ n s, 0 < n → (rng.below n s).1 < n) →
      ∀ s d s', (fastrandDice rng).rollMixed s = some (d, s') → ∃ b m, d = .mixed b m) := by
  constructor
  · intro s d s' h
    obtain ⟨-, -, h, -⟩ := (C44_default_roll_mixed _ _ _ _).1 h
    exact h
  · intro σ rng hr s d s' h
    obtain ⟨-, b, m, s1, e, -⟩ := C43_fastrand_legal rng hr s
    rw [e] at h
    simp only [Option.some.injEq, Prod.mk.injEq] at h
    exact ⟨b, m, h.1.symm⟩

theorem plies_valid {σ π : Type} {gen : DiceGen σ} {pick : Game.Policy π}
    (h1 : ∀ s d s', gen.rollMixed s = some (d, s') → d.Valid) (h2 : ∀ s d s', gen.roll s = some (d, s') → d.Valid)
    {b : Bool} {p p' : VPos} {s s' : σ} {t t' : π} {l : List (Dice × Nat)} {v : Variant} (hv : VPos.ValidFor v p)
    (h : Plies classicRules gen pick b p s t l p' s' t') : VPos.ValidFor v p' := by
  induction h with
  | nil => exact hv
  | @cons first p q p' s s1 s' t t1 t' dice i l hr _ hq _ _ ih =>
    refine ih (classic_child hv ?_ (List.mem_of_getElem? hq))
    cases first
    · exact h2 _ _ _ (by simpa using hr)
    · exact h1 _ _ _ (by simpa using hr)

/-- **C21** With the classic rules and legal dice, from a valid position, an episode that stops before `max` plies without an error
has reached the end of the game; all positions stay valid. -/
theorem C21_classic_episode {σ π : Type} (gen : DiceGen σ) (pick : Game.Policy π)
    (h1 : ∀ s d s', gen.rollMixed s = some (d, s') → d.Valid) (h2 : ∀ s d s', gen.roll s = some (d, s') → d.Valid)
    (max : Nat) (g : Game) (hv : VPos.ValidFor g.variant g.position) (s : σ) (t : π) (r : Game.EpisodeResult σ π)
    (h : Game.playEpisode classicRules gen pick max g s t = some r) :
    VPos.ValidFor g.variant r.game.position ∧
    ∀ n, r.result = .ok n → n < max → ∃ res, r.game.position.gameState = .gameOver res := by
  obtain ⟨-, l, s1, t1, hp, hok, -, -⟩ := C21_play_episode classicRules gen pick max g s t r h
  have hvalid := plies_valid h1 h2 hv hp
  refine ⟨hvalid, fun n hn hlt => ?_⟩
  rcases (hok n hn).2.2 hlt with ⟨-, h⟩ | ⟨dice, hr, he⟩
  · exact h
  · exfalso
    have hd : dice.Valid := by
      by_cases hn0 : n = 0
      · rw [if_pos hn0] at hr; exact h1 _ _ _ hr
      · rw [if_neg hn0] at hr; exact h2 _ _ _ hr
    have key : ∀ {N : Nat} (p : Pos N), Spec.Valid N p.view → p.legalPositions dice ≠ [] :=
      fun p h => C02_never_empty p (Pos.Valid.barsOK h) dice hd
    obtain ⟨hvv, hq⟩ := hvalid
    rw [← hvv] at hq
    revert hq he
    clear hvv hok hp
    generalize r.game.position = q
    intro he hq
    cases q <;> simp only [classicRules, List.map_eq_nil_iff] at he <;> exact key _ hq he

/-- Episodes exist: a generator that always rolls 6-1, a policy that takes the first position, two plies. -/
example : (Game.playEpisode (σ := Unit) (π := Unit) classicRules
    ⟨fun s => some (.mixed 6 1, s), fun s => some (.mixed 6 1, s)⟩ (fun t _ _ _ => (0, t)) 2 (Game.new .hypergammon) ()
    ()).map (fun r => r.result.toOption) = some (some 2) := by decide +kernel

end Bkgm
