import Verif.Model.ReleaseGen
import Verif.Model.CheckedGame
/-!
# Rules, games and move text in a release build

As in `Verif.Model.ReleaseGen`: arithmetic wraps, `debug_assert!` is not there, and an (outer) `none` is a panic of an index, slice or
`expect`. The loops with a panicking body (`Chk.filterM`, `Chk.findSomeM`, `Chk.anyM`, `Chk.collect`) contain no check of their own and are shared with
the debug-build model; so is the type `Chk.VariantRules`.
-/

namespace Bkgm
namespace Rel
variable {N : Nat}

/-- `o_bar` (src/position.rs 224-228): `-self.pips[O_BAR] as u8`; the negation wraps, the cast takes the value modulo 256. -/
def oBar (p : Pos N) : Option Nat := do
  let v ← Chk.get p O_BAR
  pure (wrap8 (-v) % 256).toNat

/-- `game_state` (src/position.rs 236-261) without its `debug_assert!`. The ranges of the two slices are literals. -/
def gameState (p : Pos N) : Option GameState :=
  some (
    if p.xOff = N then
      if p.oOff > 0 then .gameOver .winNormal
      else if (rng O_BAR 7).any (fun i => decide (p.pip i < 0)) then .gameOver .winBackgammon
      else .gameOver .winGammon
    else if p.oOff = N then
      if p.xOff > 0 then .gameOver .loseNormal
      else if (rng 19 (X_BAR + 1)).any (fun i => decide (p.pip i > 0)) then .gameOver .loseBackgammon
      else .gameOver .loseGammon
    else .ongoing)

/-- `NoHitRules` (src/rules.rs 71-82). -/
def noHitPositions (p : Pos N) (dice : Dice) : Option (List (Pos N)) := do
  let legal ← legalPositions p dice
  Chk.filterM (fun next => do
    let a ← oBar next
    let b ← oBar p
    pure (decide (a ≤ b))) legal

/-- `VariantRules for ClassicRules` (src/rules.rs 36-68). -/
def classicRules : Chk.VariantRules
  | .backgammon p, dice => (legalPositions p dice).map (·.map .backgammon)
  | .nackgammon p, dice => (legalPositions p dice).map (·.map .nackgammon)
  | .longgammon p, dice => (legalPositions p dice).map (·.map .longgammon)
  | .hypergammon p, dice => (legalPositions p dice).map (·.map .hypergammon)
  | .hypergammon2 p, dice => (legalPositions p dice).map (·.map .hypergammon2)
  | .hypergammon4 p, dice => (legalPositions p dice).map (·.map .hypergammon4)
  | .hypergammon5 p, dice => (legalPositions p dice).map (·.map .hypergammon5)

/-- `VariantRules for NoHitRules` (src/rules.rs 84-117). -/
def noHitRules : Chk.VariantRules
  | .backgammon p, dice => (noHitPositions p dice).map (·.map .backgammon)
  | .nackgammon p, dice => (noHitPositions p dice).map (·.map .nackgammon)
  | .longgammon p, dice => (noHitPositions p dice).map (·.map .longgammon)
  | .hypergammon p, dice => (noHitPositions p dice).map (·.map .hypergammon)
  | .hypergammon2 p, dice => (noHitPositions p dice).map (·.map .hypergammon2)
  | .hypergammon4 p, dice => (noHitPositions p dice).map (·.map .hypergammon4)
  | .hypergammon5 p, dice => (noHitPositions p dice).map (·.map .hypergammon5)

/-- `VariantPosition::game_state` (src/variants.rs 174-184). -/
def gameStateV : VPos → Option GameState
  | .backgammon p => gameState p
  | .nackgammon p => gameState p
  | .longgammon p => gameState p
  | .hypergammon p => gameState p
  | .hypergammon2 p => gameState p
  | .hypergammon4 p => gameState p
  | .hypergammon5 p => gameState p

/-- `apply_nth_legal_position_with::<R>` (src/game.rs 63-74). -/
def applyNth (R : Chk.VariantRules) (g : Game) (dice : Dice) (index : Nat) : Option (Game × Except GameError Unit) := do
  let legal ← R g.position dice
  if h : index ≥ legal.length then pure (g, .error .legalMoveIndexOutOfBounds)
  else pure ({ g with position := legal[index]'(by omega) }, .ok ())

/-- The loop of `play_episode_with` (src/game.rs 84-120). Outer `none`: a panic; inner `none`: a dice call does not return. The policy
is assumed not to panic. -/
def playLoop {σ π : Type} (R : Chk.VariantRules) (gen : DiceGen σ) (pick : Game.Policy π) :
    (left ply : Nat) → Game → σ → π → Option (Option (Game.EpisodeResult σ π))
  | 0, ply, g, s, t => some (some ⟨g, s, t, .ok ply⟩)
  | left + 1, ply, g, s, t =>
    match (if ply = 0 then gen.rollMixed s else gen.roll s) with
    | none => some none
    | some r =>
      let dice := r.1
      let s := r.2
      (R g.position dice).bind fun legal =>
      if legal.isEmpty then some (some ⟨g, s, t, .ok ply⟩)
      else
        let c := pick t g.position dice legal
        if h : c.1 ≥ legal.length then some (some ⟨g, s, c.2, .error .policyIndexOutOfBounds⟩)
        else
          let g := { g with position := legal[c.1]'(by omega) }
          (gameStateV g.position).bind fun st =>
          match st with
          | .gameOver _ => some (some ⟨g, s, c.2, .ok (ply + 1)⟩)
          | .ongoing => playLoop R gen pick left (ply + 1) g s c.2

/-- `play_episode_with::<R, D, P>` (src/game.rs 84-120). -/
def playEpisode {σ π : Type} (R : Chk.VariantRules) (gen : DiceGen σ) (pick : Game.Policy π) (maxPlies : Nat) (g : Game) (s : σ)
    (t : π) : Option (Option (Game.EpisodeResult σ π)) := playLoop R gen pick maxPlies 0 g s t

/-! ## Move text (src/codecs/move_text.rs) -/

open MoveText

/-- Is there a move: `try_move_single_checker(from, die).is_some()`. (src/codecs/move_text.rs 112-142, 251-279, 307-309, 311-371.) -/
def movable (p : Pos N) (die src : Nat) : Option Bool := (tryMove p src die).map Option.isSome

/-- `find_steps_for_target` (src/codecs/move_text.rs 112-142). -/
def findSteps (target : Pos N) : List Nat → Pos N → Option (Option (List Step))
  | [], cur => some (if cur.eqv target then some [] else none)
  | die :: rest, cur => do
    let r ← Chk.findSomeM (fun src => do
      match ← tryMove cur src die with
      | some next =>
        let l ← findSteps target rest next
        pure (l.map fun l => ⟨src, src - die⟩ :: l)
      | none => pure none) (rng 1 26)
    match r with
    | some l => pure (some l)
    | none =>
      if ← Chk.anyM (movable cur die) (rng 1 26) then pure none else findSteps target rest cur

/-- `encode_for` (src/codecs/move_text.rs 88-110). -/
def encodeFor (start next : Pos N) (dice : Dice) : Option (Except MoveText.Error (List Step)) := do
  let target := flip next
  match ← Chk.findSomeM (fun order => findSteps target order start) (orders dice) with
  | some l => pure (.ok l)
  | none => pure (.error .encodeTargetNotReachable)

/-- `apply_steps` (src/codecs/move_text.rs 251-279). -/
def applySteps (dice : List Nat) : List Step → Pos N → List Nat → Option (Option (Pos N × List Nat))
  | [], cur, used => some (some (cur, used))
  | s :: rest, cur, used =>
    Chk.findSomeM (fun idx =>
      if idx ∈ used then some none
      else if stepMatches s (dice.getD idx 0) = false then some none
      else do
        match ← tryMove cur s.src (dice.getD idx 0) with
        | some next => applySteps dice rest next (idx :: used)
        | none => pure none) (List.range dice.length)

/-- `any_move_for_die` (src/codecs/move_text.rs 307-309). -/
def anyMove (p : Pos N) (die : Nat) : Option Bool := Chk.anyM (movable p die) (rng 1 26)

/-- `apply_for` (src/codecs/move_text.rs 235-249): the inner result is the function's. -/
def applyFor (p : Pos N) (dice : Dice) (text : Str) : Option (Option (Pos N)) :=
  match (normalize text).bind parseSteps with
  | none => some none
  | some steps => do
    match ← applySteps (diceBuf dice) steps p [] with
    | none => pure none
    | some (cur, used) =>
      if ← Chk.anyM (fun idx => if idx ∈ used then some false else anyMove cur ((diceBuf dice).getD idx 0)) (List.range (diceBuf dice).length) then
        pure none
      else do
        pure (some (flip cur))

/-- The leaves of `collect_paths` (src/codecs/move_text.rs 311-371); the flip at each leaf is in `recordLeaf`. -/
def paths : List Nat → Pos N → Option (List (List Step × Pos N))
  | [], cur => pure [([], cur)]
  | die :: rest, cur => do
    let l ← Chk.collect (fun src => do
      match ← tryMove cur src die with
      | some next =>
        let m ← paths rest next
        pure (m.map fun (l, q) => (⟨src, src - die⟩ :: l, q))
      | none => pure []) (rng 1 26)
    if ← Chk.anyM (movable cur die) (rng 1 26) then pure l else paths rest cur

/-- All leaves in the order they are visited by `legal_for_steps` (src/codecs/move_text.rs 202-224). -/
def allLeaves (start : Pos N) : List (List Nat) → Option (List (List Step × Pos N))
  | [] => some []
  | order :: rest => do
    let a ← paths order start
    let b ← paths order (flip start)
    let c ← allLeaves start rest
    pure (a ++ b ++ c)

/-- What `collect_paths` does at a leaf (src/codecs/move_text.rs 320-338). -/
def recordLeaf (legal : List (Pos N)) (slots : List (Option (List Step))) (leaf : List Step × Pos N) : List (Option (List Step)) :=
  record legal leaf.2 leaf.1 (record legal (flip leaf.2) leaf.1 slots)

/-- `legal_for_steps` (src/codecs/move_text.rs 187-233), without the wrapping into the variant. The index into
`steps_by_legal_index` comes from `legal_index_by_child` and is in range. -/
def legalFor (start : Pos N) (dice : Dice) : Option (List (List Step × Pos N)) := do
  let legal ← legalPositions start dice
  let leaves ← allLeaves start (orders dice)
  let slots := leaves.foldl (recordLeaf legal) (List.replicate legal.length none)
  pure ((List.range legal.length).filterMap fun i => match slots[i]?, legal[i]? with
    | some (some steps), some child => some (steps, child)
    | _, _ => none)

end Rel
end Bkgm
