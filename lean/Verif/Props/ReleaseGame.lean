import Verif.Model.ReleaseGame
import Verif.Props.ReleaseTotal
import Verif.Props.CheckedGame
import Verif.Props.Nodup
/-!
# C97: games in a release build
-/

namespace Bkgm
open Pos
variable {N : Nat}

namespace Rel

theorem gameState_eq (p : Pos N) : gameState p = some p.gameState := rfl

theorem gameStateV_eq (q : VPos) : gameStateV q = some q.gameState := by cases q <;> rfl

theorem flip_valid (p : Pos N) (hp : p.Valid) (hN : N ≤ 127) : flip p = p.flip := by
  unfold flip Pos.flip
  simp only [Pos.mk.injEq, true_and, and_true]
  funext i
  have := (Chk.Bd.of_valid hp hN).pip_le (i := 25 - i.val) (by omega)
  simp only [Pos.pip, dif_pos (show 25 - i.val < 26 by omega)] at this
  unfold wrap8
  omega

theorem oBar_valid (p : Pos N) (hp : p.Valid) (hN : N ≤ 127) : oBar p = some p.oBar := by
  have h := (Chk.Bd.of_valid hp hN).pip_le (show O_BAR < 26 by decide)
  have hb := hp.barsOK.1
  unfold oBar Chk.get Pos.oBar
  rw [if_pos (show O_BAR < 26 by decide)]
  simp only [Option.bind_eq_bind, Option.bind_some]
  have e : wrap8 (-p.pip O_BAR) % 256 = -p.pip O_BAR := by unfold wrap8; omega
  rw [e]
  rfl

theorem noHit_valid (p : Pos N) (hp : p.Valid) (hN : N ≤ 127) (dice : Dice) (hv : dice.Valid) :
    noHitPositions p dice = some (p.noHitPositions dice) := by
  unfold noHitPositions Pos.noHitPositions
  rw [C95_valid p hp hN dice hv]
  refine filterM_some fun c hc => ?_
  rw [oBar_valid c (C04_children_valid p c hp dice hv hc) hN, oBar_valid p hp hN]
  rfl

/-- The supplied rules, in the model and in the release-build transcription. -/
def Supplied (R : VariantRules) (C : Chk.VariantRules) : Prop :=
  R = Bkgm.classicRules ∧ C = Rel.classicRules ∨ R = Bkgm.noHitRules ∧ C = Rel.noHitRules

theorem filterM_okR {α : Type} {f : α → Option Bool} : ∀ {l : List α}, (∀ a ∈ l, Ok (f a)) → Ok (Chk.filterM f l)
  | [], _ => .some _
  | a :: l, h => .bind (h a (by simp)) fun _ _ => .bind (filterM_okR (l := l) fun b hb => h b (by simp [hb])) fun _ _ => .pure _

theorem legal_okR (p : Pos N) (dice : Dice) (hv : dice.Valid) : Ok (legalPositions p dice) :=
  Option.ne_none_iff_exists'.1 (C95_never_panics p dice hv)

theorem oBar_okR (p : Pos N) : Ok (oBar p) := .bind (.get p (by decide)) fun _ _ => .pure _

theorem noHit_okR (p : Pos N) (dice : Dice) (hv : dice.Valid) : Ok (noHitPositions p dice) :=
  .bind (legal_okR p dice hv) fun _ _ => filterM_okR fun c _ => .bind (oBar_okR c) fun _ _ => .bind (oBar_okR p) fun _ _ => .pure _

theorem map_okR {α β : Type} {x : Option α} (f : α → β) (h : Ok x) : Ok (x.map f) := by
  obtain ⟨a, rfl⟩ := h
  exact ⟨f a, rfl⟩

theorem rules_okR {R : VariantRules} {C : Chk.VariantRules} (h : Supplied R C) (q : VPos) (dice : Dice) (hv : dice.Valid) : Ok (C q dice) := by
  rcases h with ⟨-, rfl⟩ | ⟨-, rfl⟩
  · cases q <;> exact map_okR _ (legal_okR _ dice hv)
  · cases q <;> exact map_okR _ (noHit_okR _ dice hv)

end Rel

/-- **C97** On a valid position of any variant, finished or not, both rule sets give in a release build exactly the lists of the model. -/
theorem C97_rules (v : Variant) (q : VPos) (hq : VPos.ValidFor v q) (dice : Dice) (hv : dice.Valid) :
    Rel.classicRules q dice = some (classicRules q dice) ∧ Rel.noHitRules q dice = some (noHitRules q dice) := by
  have key : ∀ {N : Nat} (p : Pos N), N ≤ 127 → Spec.Valid N p.view →
      Rel.legalPositions p dice = some (p.legalPositions dice) ∧ Rel.noHitPositions p dice = some (p.noHitPositions dice) :=
    fun p hN hp => ⟨C95_valid p hp hN dice hv, Rel.noHit_valid p hp hN dice hv⟩
  obtain ⟨rfl, h⟩ := hq
  cases q with
  | backgammon p =>
    obtain ⟨h1, h2⟩ := key p (by omega) h
    simp only [Rel.classicRules, Rel.noHitRules, classicRules, noHitRules, h1, h2]
    exact ⟨rfl, rfl⟩
  | nackgammon p =>
    obtain ⟨h1, h2⟩ := key p (by omega) h
    simp only [Rel.classicRules, Rel.noHitRules, classicRules, noHitRules, h1, h2]
    exact ⟨rfl, rfl⟩
  | longgammon p =>
    obtain ⟨h1, h2⟩ := key p (by omega) h
    simp only [Rel.classicRules, Rel.noHitRules, classicRules, noHitRules, h1, h2]
    exact ⟨rfl, rfl⟩
  | hypergammon p =>
    obtain ⟨h1, h2⟩ := key p (by omega) h
    simp only [Rel.classicRules, Rel.noHitRules, classicRules, noHitRules, h1, h2]
    exact ⟨rfl, rfl⟩
  | hypergammon2 p =>
    obtain ⟨h1, h2⟩ := key p (by omega) h
    simp only [Rel.classicRules, Rel.noHitRules, classicRules, noHitRules, h1, h2]
    exact ⟨rfl, rfl⟩
  | hypergammon4 p =>
    obtain ⟨h1, h2⟩ := key p (by omega) h
    simp only [Rel.classicRules, Rel.noHitRules, classicRules, noHitRules, h1, h2]
    exact ⟨rfl, rfl⟩
  | hypergammon5 p =>
    obtain ⟨h1, h2⟩ := key p (by omega) h
    simp only [Rel.classicRules, Rel.noHitRules, classicRules, noHitRules, h1, h2]
    exact ⟨rfl, rfl⟩

/-- A finished game, on which a debug build panics, is in range. -/
theorem exFinished : VPos.ValidFor .hypergammon (.hypergammon (Ex.cells 3 [-1, -2] 3 0)) := by
  refine ⟨rfl, ?_⟩
  show (Ex.cells 3 [-1, -2] 3 0).Valid
  decide +kernel

example := C97_rules .hypergammon _ exFinished (.mixed 3 1) (by decide)

theorem Rel.Supplied.ok {R : VariantRules} {C : Chk.VariantRules} (h : Rel.Supplied R C) {v : Variant} {q : VPos} (hq : VPos.ValidFor v q)
    {dice : Dice} (hv : dice.Valid) : C q dice = some (R q dice) := by
  rcases h with ⟨rfl, rfl⟩ | ⟨rfl, rfl⟩
  · exact (C97_rules v q hq dice hv).1
  · exact (C97_rules v q hq dice hv).2

theorem Rel.Supplied.classic {R : VariantRules} {C : Chk.VariantRules} (h : Rel.Supplied R C) {q c : VPos} {dice : Dice} (hc : c ∈ R q dice) :
    c ∈ Bkgm.classicRules q dice := by
  rcases h with ⟨rfl, -⟩ | ⟨rfl, -⟩
  · exact hc
  · exact Bkgm.Supplied.classic (Or.inr ⟨rfl, rfl⟩) hc

/-- **C97** `apply_nth_legal_position`, any valid position, any index. -/
theorem C97_apply_nth (R : VariantRules) (C : Chk.VariantRules) (hR : Rel.Supplied R C) (g : Game) (hq : VPos.ValidFor g.variant g.position)
    (dice : Dice) (hv : dice.Valid) (i : Nat) : Rel.applyNth C g dice i = some (g.applyNth R dice i) := by
  unfold Rel.applyNth Game.applyNth Game.legalPositionsWith
  rw [hR.ok hq hv]
  simp only [Option.bind_eq_bind, Option.bind_some]
  split_ifs <;> rfl

example := C97_apply_nth noHitRules Rel.noHitRules (Or.inr ⟨rfl, rfl⟩) ⟨.hypergammon, .hypergammon (Ex.cells 3 [-1, -2] 3 0)⟩ exFinished (.double 4) (by decide) 7

theorem rel_playLoop {σ π : Type} {R : VariantRules} {C : Chk.VariantRules} (hR : Rel.Supplied R C) (gen : DiceGen σ) (pick : Game.Policy π)
    (h1 : ∀ s d s', gen.roll s = some (d, s') → d.Valid) (h2 : ∀ s d s', gen.rollMixed s = some (d, s') → d.Valid) :
    ∀ (left ply : Nat) (g : Game) (s : σ) (t : π), VPos.ValidFor g.variant g.position →
      Rel.playLoop C gen pick left ply g s t = some (Game.playLoop R gen pick left ply g s t)
  | 0, ply, g, s, t, _ => rfl
  | left + 1, ply, g, s, t, hq => by
    unfold Rel.playLoop Game.playLoop
    cases hr : (if ply = 0 then gen.rollMixed s else gen.roll s) with
    | none => rfl
    | some r =>
      have hd : r.1.Valid := by
        by_cases h : ply = 0
        · rw [if_pos h] at hr; exact h2 s r.1 r.2 hr
        · rw [if_neg h] at hr; exact h1 s r.1 r.2 hr
      simp only [Option.bind_some, hR.ok hq hd, Game.legalPositionsWith]
      by_cases he : (R g.position r.1).isEmpty = true
      · simp only [he, if_true]
      · simp only [he, if_false]
        by_cases hi : (pick t g.position r.1 (R g.position r.1)).1 ≥ (R g.position r.1).length
        · simp [hi]
        · simp only [dif_neg hi]
          have hc := hR.classic (List.getElem_mem (show (pick t g.position r.1 (R g.position r.1)).1 < (R g.position r.1).length by omega))
          rw [Rel.gameStateV_eq]
          have hv := classic_child hq hd hc
          simp only [Option.bind_some]
          cases hs : VPos.gameState ((R g.position r.1)[(pick t g.position r.1 (R g.position r.1)).1]'(by omega)) with
          | gameOver x =>
            simp [hs]
            omega
          | ongoing =>
            have ih := rel_playLoop hR gen pick h1 h2 left (ply + 1)
              ⟨g.variant, (R g.position r.1)[(pick t g.position r.1 (R g.position r.1)).1]'(by omega)⟩ r.2
              (pick t g.position r.1 (R g.position r.1)).2 hv
            have hi' : ¬ (R g.position r.1).length ≤ (pick t g.position r.1 (R g.position r.1)).1 := hi
            simpa [hs, hi'] using ih

/-- **C97** `play_episode` in a release build: from any valid position, finished or not, with either rule set, any generator of legal dice and
any policy, it does what the model does (C18 and its companions say what that is). -/
theorem C97_episode {σ π : Type} (R : VariantRules) (C : Chk.VariantRules) (hR : Rel.Supplied R C) (gen : DiceGen σ) (pick : Game.Policy π)
    (h1 : ∀ s d s', gen.roll s = some (d, s') → d.Valid) (h2 : ∀ s d s', gen.rollMixed s = some (d, s') → d.Valid)
    (max : Nat) (g : Game) (hq : VPos.ValidFor g.variant g.position) (s : σ) (t : π) :
    Rel.playEpisode C gen pick max g s t = some (Game.playEpisode R gen pick max g s t) :=
  rel_playLoop hR gen pick h1 h2 max 0 g s t hq

example (max : Nat) := C97_episode noHitRules Rel.noHitRules (Or.inr ⟨rfl, rfl⟩) (σ := Unit) ⟨fun s => some (.mixed 2 1, s), fun s => some (.mixed 2 1, s)⟩
  (fun (n : Nat) _ _ _ => (0, n + 1)) (by rintro s d s' h; cases h; decide) (by rintro s d s' h; cases h; decide) max (Game.new .longgammon)
  (C41_start_position _).1 () 0

/-- **C97** The two builds play the same game: on an unfinished valid position debug and release agree on both rule sets, `apply_nth_legal_position` and
`play_episode`. -/
theorem C97_builds_agree (g : Game) (hq : VPos.ValidFor g.variant g.position) (hg : g.position.gameState = .ongoing) :
    (∀ dice : Dice, dice.Valid → Rel.classicRules g.position dice = Chk.classicRules g.position dice ∧
      Rel.noHitRules g.position dice = Chk.noHitRules g.position dice ∧
      ∀ i, Rel.applyNth Rel.classicRules g dice i = Chk.applyNth Chk.classicRules g dice i ∧
        Rel.applyNth Rel.noHitRules g dice i = Chk.applyNth Chk.noHitRules g dice i) ∧
    ∀ {σ π : Type} (gen : DiceGen σ) (pick : Game.Policy π), (∀ s d s', gen.roll s = some (d, s') → d.Valid) →
      (∀ s d s', gen.rollMixed s = some (d, s') → d.Valid) → ∀ (max : Nat) (s : σ) (t : π),
      Rel.playEpisode Rel.classicRules gen pick max g s t = Chk.playEpisode Chk.classicRules gen pick max g s t ∧
      Rel.playEpisode Rel.noHitRules gen pick max g s t = Chk.playEpisode Chk.noHitRules gen pick max g s t := by
  refine ⟨fun dice hv => ?_, fun gen pick h1 h2 max s t => ?_⟩
  · obtain ⟨a1, a2⟩ := C97_rules g.variant g.position hq dice hv
    obtain ⟨b1, b2⟩ := C65_rules g.variant g.position hq hg dice hv
    refine ⟨by rw [a1, b1], by rw [a2, b2], fun i => ⟨?_, ?_⟩⟩
    · rw [C97_apply_nth _ _ (Or.inl ⟨rfl, rfl⟩) g hq dice hv i, C65_apply_nth _ _ (Or.inl ⟨rfl, rfl⟩) g hq hg dice hv i]
    · rw [C97_apply_nth _ _ (Or.inr ⟨rfl, rfl⟩) g hq dice hv i, C65_apply_nth _ _ (Or.inr ⟨rfl, rfl⟩) g hq hg dice hv i]
  · constructor
    · rw [C97_episode _ _ (Or.inl ⟨rfl, rfl⟩) gen pick h1 h2 max g hq s t, C65_episode _ _ (Or.inl ⟨rfl, rfl⟩) gen pick h1 h2 max g hq hg s t]
    · rw [C97_episode _ _ (Or.inr ⟨rfl, rfl⟩) gen pick h1 h2 max g hq s t, C65_episode _ _ (Or.inr ⟨rfl, rfl⟩) gen pick h1 h2 max g hq hg s t]

example := C97_builds_agree (Game.new .nackgammon) (C41_start_position _).1 (by decide +kernel)

/-- **C97** In a release build no board makes a game panic: whatever the position (not only valid ones), legal dice, and any policy. -/
theorem C97_never_panics {σ π : Type} (R : VariantRules) (C : Chk.VariantRules) (hR : Rel.Supplied R C) (g : Game) :
    (∀ dice : Dice, dice.Valid → C g.position dice ≠ none ∧ ∀ i, Rel.applyNth C g dice i ≠ none) ∧
    ∀ (gen : DiceGen σ) (pick : Game.Policy π), (∀ s d s', gen.roll s = some (d, s') → d.Valid) →
      (∀ s d s', gen.rollMixed s = some (d, s') → d.Valid) → ∀ (max : Nat) (s : σ) (t : π), Rel.playEpisode C gen pick max g s t ≠ none := by
  have rules : ∀ q : VPos, ∀ dice : Dice, dice.Valid → Rel.Ok (C q dice) := fun q dice hv => Rel.rules_okR hR q dice hv
  refine ⟨fun dice hv => ⟨Option.ne_none_iff_exists'.2 (rules _ dice hv), fun i => Option.ne_none_iff_exists'.2 ?_⟩, fun gen pick h1 h2 max s t => ?_⟩
  · unfold Rel.applyNth
    show Rel.Ok _
    refine .bind (rules _ dice hv) fun l _ => ?_
    split_ifs
    · exact .pure _
    · exact .pure _
  · refine Option.ne_none_iff_exists'.2 ?_
    have key : ∀ (left ply : Nat) (g : Game) (s : σ) (t : π), Rel.Ok (Rel.playLoop C gen pick left ply g s t) := by
      intro left
      induction left with
      | zero => intro ply g s t; exact .some _
      | succ left ih =>
        intro ply g s t
        unfold Rel.playLoop
        cases hr : (if ply = 0 then gen.rollMixed s else gen.roll s) with
        | none => exact .some _
        | some r =>
          have hd : r.1.Valid := by
            by_cases h : ply = 0
            · rw [if_pos h] at hr; exact h2 s r.1 r.2 hr
            · rw [if_neg h] at hr; exact h1 s r.1 r.2 hr
          obtain ⟨l, hl⟩ := rules g.position r.1 hd
          simp only [hl, Option.bind_some, Rel.gameStateV_eq]
          split_ifs
          · exact .some _
          · exact .some _
          · split
            · exact .some _
            · exact ih _ _ _ _
    exact key max 0 g s t

/-- A nonsensical board. -/
example := C97_never_panics (σ := Unit) (π := Unit) classicRules Rel.classicRules (Or.inl ⟨rfl, rfl⟩) ⟨.backgammon, .backgammon (Ex.cells 15 [7, -128, 127, -128] 200 200)⟩

/-! ## Playing on after the end -/

/-- Checkers never move away from home, and never come back from off. -/
theorem play_home {b b' : Spec.Board} {used : List Nat} (h : Spec.Play b used b') (k : Nat) (hd : ∀ d ∈ used, 1 ≤ d) :
    b.xOff ≤ b'.xOff ∧ b'.oOff = b.oOff ∧ ((∀ i ≥ k, b.x i = 0) → ∀ i ≥ k, b'.x i = 0) := by
  induction h with
  | nil b => exact ⟨le_refl _, rfl, id⟩
  | @cons b b' src die rest hc _ ih =>
    obtain ⟨i1, i2, i3⟩ := ih fun d hm => hd d (by simp [hm])
    have h1 := hd die (by simp)
    have e : b.xOff ≤ (Spec.after b src die).xOff ∧ (Spec.after b src die).oOff = b.oOff := by
      unfold Spec.after
      split_ifs
      · exact ⟨Nat.le_succ _, rfl⟩
      · simp only []; split_ifs <;> exact ⟨le_refl _, rfl⟩
    refine ⟨by omega, by omega, fun hk => i3 fun i hi => ?_⟩
    have ho := hc.own
    have hs : src < k := by
      by_contra hn
      have := hk src (by omega)
      omega
    have hi0 := hk i hi
    unfold Spec.after
    split_ifs
    · show Spec.upd _ _ _ i = 0
      unfold Spec.upd
      rw [if_neg (by omega)]; exact hi0
    · have hx : Spec.upd (Spec.upd b.x src (b.x src - 1)) (src - die) (b.x (src - die) + 1) i = 0 := by
        unfold Spec.upd
        rw [if_neg (by omega), if_neg (by omega)]; exact hi0
      simp only []
      split_ifs <;> exact hx

/-- A player without checkers on the board cannot move. -/
theorem play_done {b b' : Spec.Board} {used : List Nat} (h : Spec.Play b used b') (hx : ∀ i, 1 ≤ i → i ≤ 25 → b.x i = 0) : b' = b := by
  cases h with
  | nil => rfl
  | cons hc _ =>
    have := hx _ hc.range.1 hc.range.2
    have := hc.own
    omega

/-- **C97** Nothing stops the caller from playing on after the end in a release build. Then the game stays over and the winner stays the same; if the player
to move had already borne off everything, the turn is passed without a move; otherwise the loser moves, and the loss can only become smaller. -/
theorem C97_play_on (p c : Pos N) (hp : p.Valid) (hN : N ≤ 127) (r : GameResult) (hg : p.gameState = .gameOver r) (dice : Dice) (hv : dice.Valid)
    (l : List (Pos N)) (hl : Rel.legalPositions p dice = some l) (hc : c ∈ l) :
    ∃ r', c.gameState = .gameOver r' ∧ (p.xOff = N → l = [p.flip]) ∧ (p.xOff ≠ N → r'.isWin = true ∧ 1 ≤ r'.value ∧ r'.value ≤ -r.value) := by
  rw [C95_valid p hp hN dice hv] at hl
  obtain rfl := Option.some.inj hl
  obtain ⟨t, used, hu, hplay, -, -⟩ := (C01_legal_positions_iff p c hp.barsOK dice hv).1 hc
  have hd1 : ∀ d ∈ used, 1 ≤ d := by
    intro d hd
    have h1 := hu d
    have h2 := List.count_pos_iff.2 hd
    have h3 : d ∈ Spec.faces dice := List.count_pos_iff.1 (by omega)
    cases dice with
    | double e =>
      obtain ⟨a, b⟩ : 1 ≤ e ∧ e ≤ 6 := hv
      simp only [Spec.faces, List.mem_cons, List.not_mem_nil, or_false] at h3
      omega
    | mixed b s =>
      obtain ⟨a, b, c⟩ : 1 ≤ s ∧ s < b ∧ b ≤ 6 := hv
      simp only [Spec.faces, List.mem_cons, List.not_mem_nil, or_false] at h3
      omega
  have hhome := play_home hplay 19 hd1
  have hbar : c.BarsOK := (C04_children_valid p c hp dice hv hc).barsOK
  have e1 : c.xOff = p.oOff := hhome.2.1
  have e2 : p.xOff ≤ c.oOff := hhome.1
  by_cases hx : p.xOff = N
  · have sx : p.view.countX + p.xOff = N := hp.sumX
    have hz : ∀ i < 26, p.view.x i = 0 := by
      have : p.view.countX = 0 := by omega
      unfold Spec.Board.countX at this
      intro i hi
      exact Finset.sum_eq_zero_iff.1 this i (Finset.mem_range.2 hi)
    have all : ∀ c ∈ p.legalPositions dice, c = p.flip := by
      intro c hc
      obtain ⟨t, used, -, hplay, -, -⟩ := (C01_legal_positions_iff p c hp.barsOK dice hv).1 hc
      have e := play_done hplay fun i _ hi => hz i (by omega)
      have : c.flip = p := view_inj (by show (!c.turn) = p.turn; rw [t]; cases p.turn <;> rfl) e
      rw [← this, Pos.flip_flip]
    have nd : (p.legalPositions dice).Nodup := by
      cases dice with
      | double d => exact C03_doubles_nodup p hp.barsOK d hv
      | mixed b s =>
        rw [C03_mixed_nodup_iff_partial p hp.barsOK b s hv]
        rintro ⟨-, a, -, ha, h1, -⟩
        have hs : 1 ≤ s ∧ s < b ∧ b ≤ 6 := hv
        rw [hz a (by omega)] at h1
        omega
    have hl1 : p.legalPositions dice = [p.flip] := by
      rcases hl : p.legalPositions dice with _ | ⟨a, _ | ⟨b, l⟩⟩
      · exact absurd hl (C02_never_empty p hp.barsOK dice hv)
      · rw [all a (by rw [hl]; simp)]
      · rw [hl] at nd all
        have := all a (by simp)
        have := all b (by simp)
        simp_all
    have ec := all c hc
    have : c.oOff = N := by rw [ec]; exact hx
    obtain ⟨r', hr'⟩ : ∃ r', c.gameState = .gameOver r' := by
      unfold gameState
      split_ifs <;> exact ⟨_, rfl⟩
    exact ⟨r', hr', fun _ => hl1, fun h => absurd hx h⟩
  · have ho : p.oOff = N := by
      by_contra hn
      rw [ongoing_iff.2 ?_] at hg
      · cases hg
      · exact ⟨hx, hn⟩
    rw [ho] at e1
    have k19 : c.anyO O_BAR 7 = true → p.anyX 19 (X_BAR + 1) = true := by
      intro h
      by_contra hn
      unfold anyX at hn
      unfold anyO at h
      rw [List.any_eq_true] at h
      obtain ⟨i, hi, h⟩ := h
      have hi := mem_rng.1 hi
      have hz : ∀ j ≥ 19, p.view.x j = 0 := by
        intro j hj
        by_cases hj' : j < 26
        · by_contra h0
          refine hn (List.any_eq_true.2 ⟨j, mem_rng.2 (by omega), ?_⟩)
          have : (p.pip j).toNat ≠ 0 := h0
          simp only [decide_eq_true_eq]
          omega
        · show (p.pip j).toNat = 0
          unfold pip
          rw [dif_neg (by omega)]; rfl
      have := hhome.2.2 hz (25 - i) (by omega)
      have e : c.flip.pip (25 - i) = -c.pip i := by
        rw [pip_flip c (by omega), show 25 - (25 - i) = i by omega]
      have t : (c.flip.pip (25 - i)).toNat = 0 := this
      rw [e] at t
      simp only [decide_eq_true_eq] at h
      omega
    have hr : r = .loseNormal ∧ 0 < p.xOff ∨ r = .loseBackgammon ∨ r = .loseGammon ∧ p.anyX 19 (X_BAR + 1) = false := by
      unfold gameState at hg
      rw [if_neg hx, if_pos ho] at hg
      split_ifs at hg with h1 h2
      · exact Or.inl ⟨(GameState.gameOver.inj hg).symm, h1⟩
      · exact Or.inr (Or.inl (GameState.gameOver.inj hg).symm)
      · exact Or.inr (Or.inr ⟨(GameState.gameOver.inj hg).symm, by simpa using h2⟩)
    have hstate : c.gameState = if c.oOff > 0 then .gameOver .winNormal else if c.anyO O_BAR 7 then .gameOver .winBackgammon else .gameOver .winGammon := by
      unfold gameState
      rw [if_pos e1]
    rw [hstate]
    have rv : r.value ≤ -1 := by rcases hr with ⟨rfl, -⟩ | rfl | ⟨rfl, -⟩ <;> decide
    split_ifs with h1 h2
    · exact ⟨_, rfl, fun h => absurd h hx, fun _ => ⟨rfl, by decide, by show (1 : Int) ≤ _; omega⟩⟩
    · refine ⟨_, rfl, fun h => absurd h hx, fun _ => ⟨rfl, by decide, ?_⟩⟩
      rcases hr with ⟨-, h⟩ | rfl | ⟨-, h⟩
      · omega
      · decide
      · rw [k19 h2] at h; cases h
    · refine ⟨_, rfl, fun h => absurd h hx, fun _ => ⟨rfl, by decide, ?_⟩⟩
      rcases hr with ⟨-, h⟩ | rfl | ⟨rfl, -⟩
      · omega
      · decide
      · decide

/-- The loss does become smaller: a backgammon turns into a gammon, a gammon into a single game, by one more move of the loser. -/
example : (Ex.cells 3 [0, 2, 0, 0, 0, 0, 0, 1] 0 3).Valid ∧ (Ex.cells 3 [0, 2, 0, 0, 0, 0, 0, 1] 0 3).gameState = .gameOver .loseGammon ∧
    ((Rel.legalPositions (Ex.cells 3 [0, 2, 0, 0, 0, 0, 0, 1] 0 3) (.mixed 4 3)).map fun l => l.map fun c => c.gameState) = some [.gameOver .winNormal] ∧
    (Ex.cells 3 [0, 0, 0, 0, 0, 0, 0, 2, 0, 0, 0, 0, 0, 0, 0, 0, 0, 0, 0, 0, 1] 0 3).gameState = .gameOver .loseBackgammon ∧
    ((Rel.legalPositions (Ex.cells 3 [0, 0, 0, 0, 0, 0, 0, 2, 0, 0, 0, 0, 0, 0, 0, 0, 0, 0, 0, 0, 1] 0 3) (.mixed 6 5)).map
      fun l => l.any fun c => decide (c.gameState = .gameOver .winGammon)) = some true := by decide +kernel

/-- **C97** `play_episode` on a finished game in a release build (a debug build panics, `C65_finished_panics`): if at least one ply is allowed, exactly one more ply is played
and counted. -/
theorem C97_episode_after_end {σ π : Type} (R : VariantRules) (C : Chk.VariantRules) (hR : Rel.Supplied R C) (v : Variant) (q : VPos) (hq : VPos.ValidFor v q)
    (r : GameResult) (hg : q.gameState = .gameOver r) (gen : DiceGen σ) (pick : Game.Policy π) (max : Nat) (s s' : σ) (t : π) (dice : Dice) (hv : dice.Valid)
    (hs : gen.rollMixed s = some (dice, s')) (hi : (pick t q dice (R q dice)).1 < (R q dice).length) :
    Rel.playEpisode C gen pick (max + 1) ⟨v, q⟩ s t =
      some (some ⟨⟨v, (R q dice)[(pick t q dice (R q dice)).1]⟩, s', (pick t q dice (R q dice)).2, .ok 1⟩) := by
  unfold Rel.playEpisode Rel.playLoop
  have hne : ¬ (R q dice).isEmpty = true := by
    intro h
    rw [List.isEmpty_iff.1 h] at hi
    exact absurd hi (Nat.not_lt_zero _)
  simp only [if_true, hs, hR.ok hq hv, Option.bind_some, hne, if_false, dif_neg (show ¬ (pick t q dice (R q dice)).1 ≥ (R q dice).length by omega), Rel.gameStateV_eq]
  have hc := hR.classic (List.getElem_mem hi)
  obtain ⟨r', hr'⟩ : ∃ r', ((R q dice)[(pick t q dice (R q dice)).1]).gameState = .gameOver r' := by
    generalize (R q dice)[(pick t q dice (R q dice)).1] = c at hc ⊢
    have key : ∀ {N : Nat} (p x : Pos N), N ≤ 127 → Spec.Valid N p.view → p.gameState = .gameOver r → x ∈ p.legalPositions dice → ∃ r', x.gameState = .gameOver r' := by
      intro N p x hN hp hg hx
      obtain ⟨r', h, -⟩ := C97_play_on p x hp hN r hg dice hv _ (C95_valid p hp hN dice hv) hx
      exact ⟨r', h⟩
    obtain ⟨rfl, h⟩ := hq
    cases q <;>
    · simp only [classicRules] at hc
      obtain ⟨x, hx, rfl⟩ := List.mem_map.1 hc
      exact key _ x (by omega) h hg hx
  rw [hr']
  rfl

example := C97_episode_after_end (σ := Unit) (π := Unit) classicRules Rel.classicRules (Or.inl ⟨rfl, rfl⟩) .hypergammon _ exFinished .winBackgammon (by decide +kernel)
  ⟨fun s => some (.mixed 2 1, s), fun s => some (.mixed 2 1, s)⟩ (fun t _ _ _ => (0, t)) 5 () () () (.mixed 2 1) (by decide) rfl (by decide +kernel)

end Bkgm
