import Verif.Spec.UbgiGame
import Verif.Props.Ubgi
import Verif.Props.TurnFlag
import Verif.Props.Game
import Verif.Props.MoveApply
import Verif.Props.GnuId
import Verif.Props.VariantDecode
import Verif.Props.VariantLevel
import Verif.Props.Forced
/-!
# C103: a game over UBGI
-/

namespace Bkgm.Ubgi
open Spec MoveText
variable {ε : Type} {dbg : Bool} {E : Engine ε}

/-! ## The lines -/

theorem text_not_ws (K : Nat) : ∀ c ∈ _root_.Spec.GnuId.text K, isWs c = false := by
  have h : ∀ i < 64, isWs (_root_.Spec.GnuId.alphabet.getD i '=') = false := by decide +kernel
  intro c hc
  obtain ⟨j, -, rfl⟩ := List.mem_map.1 hc
  exact h _ (Nat.mod_lt _ (by omega))

theorem text_ne_nil (K : Nat) : _root_.Spec.GnuId.text K ≠ [] := by
  intro h
  have := congrArg List.length h
  simp [_root_.Spec.GnuId.text] at this

theorem trim_line {w t : Str} (hw : ∀ c, w.head? = some c → isWs c = false) (hne : w ≠ []) (ht : ∀ c ∈ t, isWs c = false) (htn : t ≠ []) :
    trim (w ++ t) = w ++ t := by
  refine trim_of_trimmed ⟨fun c hc => ?_, fun c hc => ?_⟩
  · cases w with
    | nil => exact absurd rfl hne
    | cons x w => exact hw c hc
  · rw [List.getLast?_append_of_ne_nil _ htn] at hc
    exact ht c (List.mem_of_getLast? hc)

theorem showNat_not_ws (n : Nat) : ∀ c ∈ showNat n, isWs c = false := fun c hc => digit_not_ws (showNat_digit n c hc)

theorem means_dice (a b : Nat) : Means (trim (diceLine a b)) (.dice (showNat a ++ ' ' :: showNat b)) := by
  have e : diceLine a b = ("dice ".toList ++ showNat a ++ [' ']) ++ showNat b := by simp [diceLine]
  have : trim (diceLine a b) = "dice ".toList ++ (showNat a ++ ' ' :: showNat b) := by
    rw [e, trim_line (by simp; decide) (by simp) (showNat_not_ws b) (showNat_ne_nil b)]
    simp
  rw [this]
  exact .dice _

theorem means_position {id : Str} (h : ∀ c ∈ id, isWs c = false) (hn : id ≠ []) : Means (trim (positionLine id)) (.positionGnubgid id) := by
  have : trim (positionLine id) = "position gnubgid ".toList ++ id := trim_line (by simp; decide) (by decide) h hn
  rw [this]
  have := Means.gnubgid id
  rwa [trim_of_trimmed (trimmed_of_no_ws h)] at this

theorem means_set (v : Variant) : Means (trim ("set game.variant ".toList ++ v.toText)) (.set "game.variant".toList v.toText) := by
  rw [means_iff]
  cases v <;> decide +kernel

/-! ## Positions up to the turn flag -/

theorem withTurnX_same (c : VPos) : c.withTurnX.variant = c.variant ∧ c.withTurnX.view = c.view ∧ c.withTurnX.turn = true := by
  cases c <;> exact ⟨rfl, rfl, rfl⟩

theorem withTurnX_valid {v : Variant} {c : VPos} (h : VPos.ValidFor v c) : VPos.ValidFor v c.withTurnX := by
  obtain ⟨rfl, h⟩ := h
  cases c <;> exact ⟨rfl, h⟩

theorem withTurnX_idem (c : VPos) : c.withTurnX.withTurnX = c.withTurnX := by cases c <;> rfl

theorem withTurnX_child {q c : VPos} {d : Dice} (h : c ∈ classicRules q.withTurnX d) : ∃ c' ∈ classicRules q d, c'.withTurnX = c.withTurnX := by
  cases q <;>
  · rename_i p
    simp only [VPos.withTurnX, classicRules, List.mem_map] at h
    obtain ⟨x, hx, rfl⟩ := h
    rw [(C57_turn_flag p true d).1] at hx
    obtain ⟨y, hy, rfl⟩ := List.mem_map.1 hx
    exact ⟨_, List.mem_map.2 ⟨y, hy, rfl⟩, rfl⟩

theorem withTurnX_child' {q c : VPos} {d : Dice} (h : c ∈ classicRules q d) : ∃ c' ∈ classicRules q.withTurnX d, c'.withTurnX = c.withTurnX := by
  cases q <;>
  · rename_i p
    simp only [classicRules, List.mem_map] at h
    obtain ⟨x, hx, rfl⟩ := h
    simp only [VPos.withTurnX, classicRules]
    rw [(C57_turn_flag p true d).1]
    exact ⟨_, List.mem_map.2 ⟨_, List.mem_map.2 ⟨x, hx, rfl⟩, rfl⟩, rfl⟩

/-! ## One turn -/

theorem loop_one {l : Str} {rest : List Str} {out : List Str} {e e1 : ε} {s s1 : Session} {r : List (Str × List Str) × ε × Session} {c : Command}
    (hm : Means (trim l) c) (hq : c ≠ .quit) (hu : c ≠ .unknown) (hx : handleCommand dbg E e s c = some (out, e1, s1))
    (hr : loop dbg E rest e1 s1 = some r) : loop dbg E (l :: rest) e s = some ((l, out) :: r.1, r.2) := by
  refine loop_cons.2 ⟨out, e1, s1, ?_, .inr ⟨?_, r, hr, rfl⟩⟩
  · rw [exchange_cmd hm hu]; exact hx
  · rw [means_iff.1 hm]; exact hq

theorem handle_dice_line {a b : Nat} (e : ε) (s : Session) (ha : 1 ≤ a ∧ a ≤ 6) (hb : 1 ≤ b ∧ b ≤ 6) :
    handleCommand dbg E e s (.dice (showNat a ++ ' ' :: showNat b)) = some ([], e, { s with dice := some (Dice.new a b) }) := by
  have hs : splitWs (showNat a ++ ' ' :: showNat b) = [showNat a, showNat b] := by
    rw [splitWs_cons (showNat_not_ws a) (showNat_ne_nil a) (by decide), splitWs_single (showNat_not_ws b) (showNat_ne_nil b)]
  have pa : parseNat usizeMax (showNat a) = some a := parseNat_showNat (by unfold usizeMax; omega)
  have pb : parseNat usizeMax (showNat b) = some b := parseNat_showNat (by unfold usizeMax; omega)
  simp only [handleCommand, handleDice, hs, pa, pb, if_pos (And.intro ha hb)]

/-- One turn from any state of the session. -/
theorem turn_step (hE : PlaysLegally E) (e : ε) (s : Session) (hs : GameInv s) (hv : VPos.ValidFor s.variant s.game.position) {a b : Nat}
    (ha : 1 ≤ a ∧ a ≤ 6) (hb : 1 ≤ b ∧ b ≤ 6) :
    ∃ c t id e1 s2, c ∈ classicRules s.game.position (Dice.new a b) ∧ applyV s.game.position (Dice.new a b) t = some c ∧ GnuId.encodeV c = some id ∧
      GameInv s2 ∧ s2.variant = s.variant ∧ s2.game.position = c.withTurnX ∧ VPos.ValidFor s.variant c.withTurnX ∧
      ∀ rest r, loop dbg E rest e1 s2 = some r → loop dbg E (diceLine a b :: "go".toList :: positionLine id :: rest) e s =
        some ((diceLine a b, []) :: ("go".toList, ["bestmove ".toList ++ t]) :: (positionLine id, []) :: r.1, r.2) := by
  have hd : (Dice.new a b).Valid := by unfold Dice.new mixedNew; split_ifs <;> simp only [Dice.Valid] <;> omega
  have hg : (⟨s.variant, s.game.position⟩ : Game) = s.game := by rw [← hs.1]
  obtain ⟨steps, e1, hc, c, hcm, hap⟩ := hE e s.variant s.game.position (Dice.new a b) hv hd
  rw [hg] at hc
  have hcv := classic_child hv hd hcm
  obtain ⟨-, ⟨K, -, -, hid, -⟩, -⟩ := C93_encode _ c hcv
  obtain ⟨id', hid', -, hdec⟩ := C22_variant_round_trip _ c hcv
  obtain rfl : id' = _root_.Spec.GnuId.text K := Option.some.inj (hid'.symm.trans hid)
  have hq : c.withTurnX.variant = s.variant := (withTurnX_same c).1.trans hcv.1
  have hset := setPosition_ok (g := s.game) (q := c.withTurnX) (hq.trans hs.1.symm)
  let s2 : Session := { s with dice := some (Dice.new a b), game := ⟨s.game.variant, c.withTurnX⟩ }
  refine ⟨c, formatSteps steps, _, e1, s2, hcm, hap, hid, ⟨hs.1, hq⟩, rfl, rfl, withTurnX_valid hcv, fun rest r hl => ?_⟩
  refine loop_one (means_dice a b) (by simp) (by simp) (handle_dice_line e s ha hb) (r := (_, r.2)) ?_
  refine loop_one (out := ["bestmove ".toList ++ formatSteps steps]) (e1 := e1) (s1 := { s with dice := some (Dice.new a b) })
    (by rw [means_iff]; decide +kernel : Means (trim "go".toList) .goChequer) (by simp) (by simp) ?_ (r := (_, r.2)) ?_
  · simp only [handleCommand, handleGo, hc]
  refine loop_one (out := []) (e1 := e1) (s1 := s2) (means_position (text_not_ws K) (text_ne_nil K)) (by simp) (by simp) ?_ hl
  simp only [handleCommand, trim_of_trimmed (trimmed_of_no_ws (text_not_ws K)), hdec dbg, Option.map_some, hset, s2]

/-- The dialogue from any state of the session. -/
theorem loop_dialogue (hE : PlaysLegally E) : ∀ (rolls : List (Nat × Nat)) (e : ε) (s : Session), GameInv s → VPos.ValidFor s.variant s.game.position →
    (∀ r ∈ rolls, (1 ≤ r.1 ∧ r.1 ≤ 6) ∧ (1 ≤ r.2 ∧ r.2 ≤ 6)) →
    ∃ T e' s', Dialogue s.game.position rolls T s'.game.position ∧ loop dbg E (T.map Prod.fst) e s = some (T, e', s') ∧ s'.variant = s.variant ∧
      ∀ w : VPos, w.withTurnX = s.game.position.withTurnX → Reachable s.variant w →
        ∃ w' : VPos, w'.withTurnX = s'.game.position.withTurnX ∧ Reachable s.variant w' := by
  intro rolls
  induction rolls with
  | nil =>
    intro e s _ _ _
    exact ⟨[], e, s, .done _, rfl, rfl, fun w h1 h2 => ⟨w, h1, h2⟩⟩
  | cons r rolls ih =>
    obtain ⟨a, b⟩ := r
    intro e s hs hv hr
    obtain ⟨ha, hb⟩ := hr (a, b) (by simp)
    have hd : (Dice.new a b).Valid := by unfold Dice.new mixedNew; split_ifs <;> simp only [Dice.Valid] <;> omega
    obtain ⟨c, t, id, e1, s2, hcm, hap, hid, hs2, hv2, hp2, hval, hstep⟩ := turn_step (dbg := dbg) hE e s hs hv ha hb
    obtain ⟨T, e', s', hT, hl, hsv, hre⟩ := ih e1 s2 hs2 (by rw [hv2, hp2]; exact hval) (fun r h => hr r (by simp [h]))
    refine ⟨_, e', s', .turn hcm hap hid (withTurnX_same c) (hp2 ▸ hT), hstep _ _ hl, hsv.trans hv2, ?_⟩
    intro w hw hR
    obtain ⟨c1, h1, h2⟩ := withTurnX_child' hcm
    rw [← hw] at h1
    obtain ⟨c2, h3, h4⟩ := withTurnX_child h1
    have := hre c2 (by rw [hp2]; exact (h4.trans h2).trans (withTurnX_idem c).symm)
    rw [hv2] at this
    exact this (.ply hR hd h3)

/-! ## The properties -/

/-- No line is `quit`: what comes next is read after them. -/
theorem loop_append : ∀ {A B : List Str} {T T' : Transcript} {e e1 e2 : ε} {s s1 s2 : Session}, (∀ l ∈ A, ¬ Means (trim l) .quit) →
    loop dbg E A e s = some (T, e1, s1) → loop dbg E B e1 s1 = some (T', e2, s2) → loop dbg E (A ++ B) e s = some (T ++ T', e2, s2) := by
  intro A
  induction A with
  | nil =>
    intro B T T' e e1 e2 s s1 s2 _ h h'
    simp only [loop, Option.some.injEq, Prod.mk.injEq] at h
    obtain ⟨rfl, rfl, rfl⟩ := h
    exact h'
  | cons a A ih =>
    intro B T T' e e1 e2 s s1 s2 hn h h'
    obtain ⟨out, f, t, h1, h2⟩ := loop_cons.1 h
    rcases h2 with ⟨hq, -⟩ | ⟨hq, ⟨T1, f1, t1⟩, h3, h2⟩
    · exact absurd (means_iff.2 hq) (hn a (by simp))
    · simp only [Prod.mk.injEq] at h2
      obtain ⟨rfl, rfl, rfl⟩ := h2
      exact loop_cons.2 ⟨out, f, t, h1, .inr ⟨hq, _, ih (fun l hl => hn l (by simp [hl])) h3 h', rfl⟩⟩

/-- **C103** At any moment of any session in which the position is a valid one, a dialogue for any rolls can follow: the program accepts every line
and every answer is a legal play. -/
theorem C103_dialogue (hE : PlaysLegally E) (e e1 : ε) (lines : List Str) (T : Transcript) (s : Session)
    (h : run dbg E e lines = some (T, e1, s)) (hq : ∀ l ∈ lines, ¬ Means (trim l) .quit) (hv : VPos.ValidFor s.variant s.game.position)
    (rolls : List (Nat × Nat)) (hr : ∀ r ∈ rolls, (1 ≤ r.1 ∧ r.1 ≤ 6) ∧ (1 ≤ r.2 ∧ r.2 ≤ 6)) :
    ∃ T' e' s', Dialogue s.game.position rolls T' s'.game.position ∧ run dbg E e (lines ++ T'.map Prod.fst) = some (T ++ T', e', s') ∧
      s'.variant = s.variant := by
  obtain ⟨T', e', s', h1, h2, h3, -⟩ := loop_dialogue (dbg := dbg) hE rolls e1 s (run_specs h).2.2.1 hv hr
  exact ⟨T', e', s', h1, loop_append hq h h2, h3⟩

/-- **C103** A game of every variant can be played over UBGI with any rolls: after `set game.variant v` the program accepts every line, every
answer is a legal play, and the positions are those of a game: up to the turn flag, which is not part of an id, the last one is reachable. -/
theorem C103_game (hE : PlaysLegally E) (e : ε) (v : Variant) (rolls : List (Nat × Nat))
    (hr : ∀ r ∈ rolls, (1 ≤ r.1 ∧ r.1 ≤ 6) ∧ (1 ≤ r.2 ∧ r.2 ≤ 6)) :
    ∃ T e' s, Dialogue v.startPosition rolls T s.game.position ∧
      run dbg E e (("set game.variant ".toList ++ v.toText) :: T.map Prod.fst) = some (("set game.variant ".toList ++ v.toText, []) :: T, e', s) ∧
      s.variant = v ∧ ∃ w, Reachable v w ∧ w.variant = s.game.position.variant ∧ w.view = s.game.position.view := by
  let s1 : Session := { Session.new E e with variant := v, game := Game.new v }
  have hs : GameInv s1 := ⟨rfl, by show (Game.new v).position.variant = v; cases v <;> rfl⟩
  have hp : s1.game.position = v.startPosition := rfl
  obtain ⟨T, e', s, h1, h2, h3, h4⟩ := loop_dialogue (dbg := dbg) hE rolls e s1 hs (hp ▸ (C41_start_position v).1) hr
  refine ⟨T, e', s, h1, ?_, h3, ?_⟩
  · refine loop_one (out := []) (e1 := e) (s1 := s1) (means_set v) (by simp) (by simp) ?_ (r := (T, e', s)) h2
    have hpv : Variant.parse v.toText = some v := by cases v <;> decide +kernel
    have hne : ¬ ("game.variant".toList = [] ∨ v.toText = []) := by cases v <;> decide
    simp only [handleCommand, handleSet, if_neg hne, if_true, hpv, s1]
  · obtain ⟨w, hw, hR⟩ := h4 v.startPosition rfl .start
    refine ⟨w, hR, ?_, ?_⟩
    · rw [← (withTurnX_same w).1, hw, (withTurnX_same _).1]
    · rw [← (withTurnX_same w).2.1, hw, (withTurnX_same _).2.1]

theorem withTurnX_state (q : VPos) : q.withTurnX.gameState = q.gameState := by cases q <;> rfl

theorem forced_turn : ∀ {n : Nat} {q w : VPos}, q.withTurnX = w.withTurnX → Forced n q → Forced n w := by
  intro n
  induction n with
  | zero =>
    intro q w h hf
    unfold Forced at hf ⊢
    rwa [← withTurnX_state, ← h, withTurnX_state]
  | succ n ih =>
    intro q w h hf
    unfold Forced at hf ⊢
    refine hf.imp (fun hf => by rwa [← withTurnX_state, ← h, withTurnX_state]) ?_
    rintro ⟨d, hd, hc⟩
    refine ⟨d, hd, fun c hcm => ?_⟩
    obtain ⟨c1, h1, h2⟩ := withTurnX_child' hcm
    rw [← h] at h1
    obtain ⟨c2, h3, h4⟩ := withTurnX_child h1
    exact ih (h4.trans h2) (hc c2 h3)

theorem dice_pair {d : Dice} (hd : d.Valid) : ∃ a b, (1 ≤ a ∧ a ≤ 6) ∧ (1 ≤ b ∧ b ≤ 6) ∧ Dice.new a b = d := by
  cases d with
  | double k => simp only [Dice.Valid] at hd; exact ⟨k, k, by omega, by omega, by simp [Dice.new]⟩
  | mixed x y => simp only [Dice.Valid] at hd; exact ⟨x, y, by omega, by omega, by unfold Dice.new mixedNew; rw [if_neg (by omega), if_pos (by omega)]⟩

theorem loop_forced (hE : PlaysLegally E) : ∀ (n : Nat) (e : ε) (s : Session), GameInv s → VPos.ValidFor s.variant s.game.position →
    Forced n s.game.position →
    ∃ rolls T e' s', rolls.length ≤ n ∧ (∀ r ∈ rolls, (1 ≤ r.1 ∧ r.1 ≤ 6) ∧ (1 ≤ r.2 ∧ r.2 ≤ 6)) ∧
      Dialogue s.game.position rolls T s'.game.position ∧ loop dbg E (T.map Prod.fst) e s = some (T, e', s') ∧ s'.variant = s.variant ∧
      s'.game.position.gameState ≠ .ongoing := by
  intro n
  induction n with
  | zero =>
    intro e s _ _ hf
    exact ⟨[], [], e, s, by simp, by simp, .done _, rfl, rfl, hf⟩
  | succ n ih =>
    intro e s hs hv hf
    unfold Forced at hf
    rcases hf with hf | ⟨d, hd, hc⟩
    · exact ⟨[], [], e, s, by simp, by simp, .done _, rfl, rfl, hf⟩
    obtain ⟨a, b, ha, hb, rfl⟩ := dice_pair hd
    obtain ⟨c, t, id, e1, s2, hcm, hap, hid, hs2, hv2, hp2, hval, hstep⟩ := turn_step (dbg := dbg) hE e s hs hv ha hb
    have hf2 : Forced n s2.game.position := by
      rw [hp2]; exact forced_turn (withTurnX_idem c).symm (hc c hcm)
    obtain ⟨rolls, T, e', s', h1, h2, h3, h4, h5, h6⟩ := ih e1 s2 hs2 (by rw [hv2, hp2]; exact hval) hf2
    refine ⟨(a, b) :: rolls, _, e', s', by simpa using h1, ?_, .turn hcm hap hid (withTurnX_same c) (hp2 ▸ h3), hstep _ _ h4, h5.trans hv2, h6⟩
    intro r hr
    rcases List.mem_cons.1 hr with rfl | hr
    · exact ⟨ha, hb⟩
    · exact h2 r hr

/-- **C103** Whatever the engine plays, a client that is lucky with the dice brings the game to its end over UBGI: from the start, after
`set game.variant v`, within 2600 turns for every checker. -/
theorem C103_can_end (hE : PlaysLegally E) (e : ε) (v : Variant) :
    ∃ rolls T e' s, rolls.length ≤ 2600 * v.checkers ∧ (∀ r ∈ rolls, (1 ≤ r.1 ∧ r.1 ≤ 6) ∧ (1 ≤ r.2 ∧ r.2 ≤ 6)) ∧
      Dialogue v.startPosition rolls T s.game.position ∧
      run dbg E e (("set game.variant ".toList ++ v.toText) :: T.map Prod.fst) = some (("set game.variant ".toList ++ v.toText, []) :: T, e', s) ∧
      s.variant = v ∧ ∃ res, s.game.position.gameState = .gameOver res := by
  let s1 : Session := { Session.new E e with variant := v, game := Game.new v }
  have hs : GameInv s1 := ⟨rfl, by show (Game.new v).position.variant = v; cases v <;> rfl⟩
  have hp : s1.game.position = v.startPosition := rfl
  obtain ⟨rolls, T, e', s, h0, h0', h1, h2, h3, h4⟩ := loop_forced (dbg := dbg) hE (2600 * v.checkers) e s1 hs (hp ▸ (C41_start_position v).1)
    (hp ▸ C88_every_game v _ .start)
  refine ⟨rolls, T, e', s, h0, h0', h1, ?_, h3, ?_⟩
  · refine loop_one (out := []) (e1 := e) (s1 := s1) (means_set v) (by simp) (by simp) ?_ (r := (T, e', s)) h2
    have hpv : Variant.parse v.toText = some v := by cases v <;> decide +kernel
    have hne : ¬ ("game.variant".toList = [] ∨ v.toText = []) := by cases v <;> decide
    simp only [handleCommand, handleSet, if_neg hne, if_true, hpv, s1]
  · cases hst : s.game.position.gameState with
    | ongoing => exact absurd hst h4
    | gameOver res => exact ⟨res, rfl⟩

/-! ## An engine -/

/-- The engine that plays the first legal position and writes the move with `encode_move`. -/
def firstEngine : Engine Unit := Engine.withDefaults (fun _ => "first".toList) (fun _ => "1".toList) fun _ g d =>
  (match classicRules g.position d with
    | [] => .error (.badState "no move".toList)
    | c :: _ => match encodeStepsV g.position c d with
      | .ok l => .ok l
      | .error _ => .error (.badState "no text".toList), ())

/-- It plays legally, so a game can be played with it. -/
theorem firstEngine_legal : PlaysLegally firstEngine := by
  intro e v q d hq hd
  have hbars : q.view.x 0 = 0 ∧ q.view.o 25 = 0 := by
    obtain ⟨-, h⟩ := hq
    cases q <;> exact ⟨h.xBar, h.oBar⟩
  obtain ⟨c, l, hcl⟩ : ∃ c l, classicRules q d = c :: l := List.exists_cons_of_ne_nil (C73_never_empty q hbars.1 hbars.2 d hd)
  have hm : c ∈ classicRules q d := by rw [hcl]; simp
  obtain ⟨t, h1, h2⟩ := C33_variant_encode_apply q c hbars.1 hbars.2 d hd hm
  unfold encodeV at h1
  cases hs : encodeStepsV q c d with
  | error m => rw [hs] at h1; cases h1
  | ok steps =>
    rw [hs] at h1
    obtain rfl : formatSteps steps = t := by simpa [Except.map] using h1
    exact ⟨steps, (), by simp only [firstEngine, Engine.withDefaults, hcl, hs], c, hm, h2⟩

/-- **C103** The assumption on the engine can be met: an engine that takes its move texts from `encode_move` plays legally, in every variant. -/
theorem C103_engine : ∃ E : Engine Unit, PlaysLegally E ∧ ∀ (v : Variant) (q : VPos) (d : Dice) (steps : List Step), VPos.ValidFor v q → d.Valid →
    (E.chooseMove () ⟨v, q⟩ d).1 = .ok steps → ∃ c ∈ classicRules q d, encodeV q c d = .ok (formatSteps steps) := by
  refine ⟨firstEngine, firstEngine_legal, fun v q d steps hq hd h => ?_⟩
  simp only [firstEngine, Engine.withDefaults] at h
  cases hcl : classicRules q d with
  | nil => rw [hcl] at h; simp at h
  | cons c l =>
    rw [hcl] at h
    simp only at h
    refine ⟨c, by simp, ?_⟩
    unfold encodeV
    cases hs : encodeStepsV q c d with
    | error m => rw [hs] at h; simp at h
    | ok l' =>
      rw [hs] at h
      simp only [Except.ok.injEq] at h
      rw [← h]; rfl

/-- Its answer to a roll of 2 and 1 in hypergammon. -/
example : ∃ e' s, run true firstEngine () (["set game.variant hypergammon", "dice 2 1", "go"].map String.toList) =
    some ([("set game.variant hypergammon".toList, []), ("dice 2 1".toList, []), ("go".toList, ["bestmove 23/21 24/23".toList])], e', s) := by
  have h : (run true firstEngine () (["set game.variant hypergammon", "dice 2 1", "go"].map String.toList)).map Prod.fst =
    some [("set game.variant hypergammon".toList, []), ("dice 2 1".toList, []), ("go".toList, ["bestmove 23/21 24/23".toList])] := by decide +kernel
  obtain ⟨⟨T, e', s⟩, h1, rfl⟩ := Option.map_eq_some_iff.1 h
  exact ⟨e', s, h1⟩
/-- Three turns of hypergammon with it, and three more after that session. -/
example := C103_game (dbg := true) firstEngine_legal () .hypergammon [(2, 1), (6, 6), (5, 4)] (by decide)
example : ∃ T s, run true firstEngine () ["dice 2 1".toList] = some (T, (), s) ∧ ∃ T' e' s',
    Dialogue s.game.position [(3, 1), (4, 4), (6, 5)] T' s'.game.position ∧
    run true firstEngine () (["dice 2 1".toList] ++ T'.map Prod.fst) = some (T ++ T', e', s') ∧ s'.variant = s.variant := by
  have h : ∃ T s, run true firstEngine () ["dice 2 1".toList] = some (T, (), s) ∧ s.variant = .backgammon ∧ s.game.position = Variant.backgammon.startPosition := by
    have h1 := handle_dice_line (dbg := true) (E := firstEngine) () (Session.new firstEngine ()) (a := 2) (b := 1) (by omega) (by omega)
    have hl : "dice 2 1".toList = diceLine 2 1 := by decide +kernel
    exact ⟨_, _, by rw [hl]; exact loop_one (rest := []) (means_dice 2 1) (by simp) (by simp) h1 (r := ([], (), _)) rfl, rfl, rfl⟩
  obtain ⟨T, s, h1, h2, h3⟩ := h
  refine ⟨T, s, h1, C103_dialogue firstEngine_legal () () _ T s h1 ?_ ?_ _ (by decide)⟩
  · intro l hl hm
    have h := means_iff.1 hm
    exact (by decide +kernel : ∀ l ∈ ["dice 2 1".toList], parseCommand (trim l) ≠ .quit) l hl h
  · rw [h2, h3]; exact (C41_start_position .backgammon).1
example := C103_can_end (dbg := false) firstEngine_legal () .backgammon

end Bkgm.Ubgi
