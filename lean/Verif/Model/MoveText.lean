import Verif.Model.Variants
/-!
# Model of `src/codecs/move_text.rs` (also `normalize_move`, `legal_moves`, `encode_move`, `apply_move` of src/codecs/fibs.rs 126-147,
which only forward to it)

`usize` has 64 bits.
-/

namespace Bkgm.MoveText
variable {N : Nat}

/-- `struct MoveStep` (src/codecs/move_text.rs 16-20). -/
structure Step where
  src : Nat
  dst : Nat
  deriving DecidableEq, Repr

/-- `enum MoveTextError` (src/codecs/move_text.rs 6-12). -/
inductive Error where
  | variantMismatch | encodeTargetNotReachable
  deriving DecidableEq, Repr

/-- `usize::MAX`. (`parse::<usize>` in src/codecs/move_text.rs 389, 402, 412.) -/
def usizeMax : Nat := 2 ^ 64 - 1

/-! ## Text -/

/-- `text.trim().eq_ignore_ascii_case("pass")` (src/codecs/move_text.rs 145, 290). -/
def isPass (s : Str) : Bool := eqIgnoreCase (trim s) "pass".toList

/-- `lower.parse::<usize>().ok()?` followed by the check `(1..=24).contains(&value)`: `parse_mid_point`
(src/codecs/move_text.rs 410-418). -/
def parseMid (raw : Str) : Option Nat :=
  (parseNat usizeMax (lower (trim raw))).bind fun n => if 1 ≤ n ∧ n ≤ 24 then some n else none

/-- `parse_from_point` (src/codecs/move_text.rs 384-395). -/
def parseFrom (raw : Str) : Option Nat := if lower (trim raw) = "bar".toList then some 25 else parseMid raw

/-- `parse_to_point` (src/codecs/move_text.rs 397-408). -/
def parseTo (raw : Str) : Option Nat := if lower (trim raw) = "off".toList then some 0 else parseMid raw

/-- The `while` loop of `parse_path_points` (src/codecs/move_text.rs 425-432): the last part is a destination, the others are
intermediate points. -/
def parseRest : List Str → Option (List Nat)
  | [] => some []
  | [t] => (parseTo t).map fun n => [n]
  | t :: u :: l => (parseMid t).bind fun n => (parseRest (u :: l)).map fun r => n :: r

/-- `parse_path_points` (src/codecs/move_text.rs 420-437): at least two parts. -/
def parsePath : List Str → Option (List Nat)
  | [] => none
  | t :: rest => (parseFrom t).bind fun n => (parseRest rest).bind fun r => if rest = [] then none else some (n :: r)

/-- `point_to_text` (src/codecs/move_text.rs 439-445). -/
def pointText (n : Nat) : Str := if n = 25 then "bar".toList else if n = 0 then "off".toList else showNat n

/-- `format!("{}/{}", point_to_text(a), point_to_text(b))` (src/codecs/move_text.rs 153-157, 379). -/
def stepText (s : Step) : Str := pointText s.src ++ '/' :: pointText s.dst

/-- `points.windows(2)`. (src/codecs/move_text.rs 152.) -/
def pairs : List Nat → List Step
  | a :: b :: l => ⟨a, b⟩ :: pairs (b :: l)
  | _ => []

/-- `token.replace(['*', ','], "")` (src/codecs/move_text.rs 150). -/
def clean (s : Str) : Str := s.filter fun c => !(c == '*' || c == ',')

/-- The loop of `normalize` (src/codecs/move_text.rs 149-159). The steps are collected as texts, as in the code. -/
def normTokens : List Str → Option (List Str)
  | [] => some []
  | t :: ts => (parsePath (splitChar '/' (clean t))).bind fun pts => (normTokens ts).map fun r => (pairs pts).map stepText ++ r

/-- `normalize` (src/codecs/move_text.rs 144-165). -/
def normalize (text : Str) : Option Str :=
  if isPass text then some "pass".toList
  else (normTokens (splitWs text)).bind fun steps => if steps = [] then none else some (join [' '] steps)

/-- The loop of `parse_move_steps` (src/codecs/move_text.rs 294-303). -/
def parseTokens : List Str → Option (List Step)
  | [] => some []
  | t :: ts => (splitOnce '/' t).bind fun (a, b) =>
      if b.contains '/' then none
      else (parseFrom a).bind fun src => (parseTo b).bind fun dst => (parseTokens ts).map fun r => ⟨src, dst⟩ :: r

/-- `parse_move_steps` (src/codecs/move_text.rs 289-305). -/
def parseSteps (text : Str) : Option (List Step) := if isPass text then some [] else parseTokens (splitWs text)

/-- `format_move_steps` (src/codecs/move_text.rs 373-382). -/
def formatSteps (l : List Step) : Str := if l = [] then "pass".toList else join [' '] (l.map stepText)

/-! ## Finding the steps to a given child -/

/-- `find_steps_for_target` (src/codecs/move_text.rs 112-142), from die number `die_idx` on: the steps pushed by the call when it
returns `true`, `none` when it returns `false`. `from.saturating_sub(die)` is the subtraction of `Nat`. -/
def findSteps (target : Pos N) : List Nat → Pos N → Option (List Step)
  | [], cur => if cur.eqv target then some [] else none
  | die :: rest, cur =>
    match (rng 1 26).findSome? fun src =>
        (cur.tryMove src die).bind fun next => (findSteps target rest next).map fun l => ⟨src, src - die⟩ :: l with
    | some l => some l
    | none => if (rng 1 26).any fun src => (cur.tryMove src die).isSome then none else findSteps target rest cur

/-- The orders of `for_each_die_order` (src/codecs/move_text.rs 447-465). -/
def orders : Dice → List (List Nat)
  | .double d => [[d, d, d, d]]
  | .mixed big small => [[big, small], [small, big]]

/-- `encode_for` (src/codecs/move_text.rs 88-110). -/
def encodeFor (start next : Pos N) (dice : Dice) : Except Error (List Step) :=
  match (orders dice).findSome? fun order => findSteps next.flip order start with
  | some l => .ok l
  | none => .error .encodeTargetNotReachable

/-! ## Applying steps -/

/-- `step_matches_die` (src/codecs/move_text.rs 281-287). -/
def stepMatches (s : Step) (die : Nat) : Bool :=
  if s.dst = 0 then decide (s.src ≤ die) else decide (s.src > die ∧ s.src - die = s.dst)

/-- `apply_steps` (src/codecs/move_text.rs 251-279). `dice` is `dice[..dice_len]`; the bit mask is the list of the numbers of its bits. -/
def applySteps (dice : List Nat) : List Step → Pos N → List Nat → Option (Pos N × List Nat)
  | [], cur, used => some (cur, used)
  | s :: rest, cur, used =>
    (List.range dice.length).findSome? fun idx =>
      if idx ∈ used then none
      else if stepMatches s (dice.getD idx 0) = false then none
      else (cur.tryMove s.src (dice.getD idx 0)).bind fun next => applySteps dice rest next (idx :: used)

/-- `any_move_for_die` (src/codecs/move_text.rs 307-309). -/
def anyMove (p : Pos N) (die : Nat) : Bool := (rng 1 26).any fun src => (p.tryMove src die).isSome

/-- `dice_buf[..dice_len]` (src/codecs/move_text.rs 238-241). -/
def diceBuf : Dice → List Nat
  | .double d => [d, d, d, d]
  | .mixed big small => [big, small]

/-- The check of the unused dice (src/codecs/move_text.rs 243-247). -/
def unusedPlayable (dice : List Nat) (used : List Nat) (p : Pos N) : Bool :=
  (List.range dice.length).any fun idx => !decide (idx ∈ used) && anyMove p (dice.getD idx 0)

/-- `apply_for` (src/codecs/move_text.rs 235-249). -/
def applyFor (p : Pos N) (dice : Dice) (text : Str) : Option (Pos N) :=
  (normalize text).bind fun t => (parseSteps t).bind fun steps =>
  (applySteps (diceBuf dice) steps p []).bind fun (cur, used) =>
  if unusedPlayable (diceBuf dice) used cur then none else some cur.flip

/-! ## All legal moves -/

/-- The leaves reached by `collect_paths` (src/codecs/move_text.rs 311-371) from die number `die_idx` on, in the order of the traversal:
the steps pushed on the way and the position at the end. -/
def paths : List Nat → Pos N → List (List Step × Pos N)
  | [], cur => [([], cur)]
  | die :: rest, cur =>
    if (rng 1 26).any fun src => (cur.tryMove src die).isSome then
      (rng 1 26).flatMap fun src =>
        match cur.tryMove src die with
        | some next => (paths rest next).map fun (l, q) => (⟨src, src - die⟩ :: l, q)
        | none => []
    else paths rest cur

/-- `legal_index_by_child.get(&child)` (src/codecs/move_text.rs 194-199): a later entry replaces an earlier equal one. It is `none`
exactly if `legal_set.contains(&child)` is false. -/
def childIndex (legal : List (Pos N)) (child : Pos N) : Option Nat :=
  (List.range legal.length).reverse.find? fun i => match legal[i]? with
    | some c => c.eqv child
    | none => false

/-- `slot.is_none()` → `*slot = Some(steps.clone())` (src/codecs/move_text.rs 322-329, 330-337). -/
def record (legal : List (Pos N)) (child : Pos N) (steps : List Step) (slots : List (Option (List Step))) :
    List (Option (List Step)) :=
  match childIndex legal child with
  | none => slots
  | some i => match slots[i]? with
    | some none => slots.set i (some steps)
    | _ => slots

/-- What `collect_paths` does at a leaf (src/codecs/move_text.rs 320-338). -/
def recordLeaf (legal : List (Pos N)) (slots : List (Option (List Step))) (leaf : List Step × Pos N) : List (Option (List Step)) :=
  record legal leaf.2 leaf.1 (record legal leaf.2.flip leaf.1 slots)

/-- All leaves in the order they are visited by `legal_for_steps` (src/codecs/move_text.rs 202-224). -/
def allLeaves (start : Pos N) (dice : Dice) : List (List Step × Pos N) :=
  (orders dice).flatMap fun order => paths order start ++ paths order start.flip

/-- `legal_for_steps` (src/codecs/move_text.rs 187-233), without the wrapping into the variant. The result is always `Ok`. -/
def legalFor (start : Pos N) (dice : Dice) : List (List Step × Pos N) :=
  let legal := start.legalPositions dice
  let slots := (allLeaves start dice).foldl (recordLeaf legal) (List.replicate legal.length none)
  (List.range legal.length).filterMap fun i => match slots[i]?, legal[i]? with
    | some (some steps), some child => some (steps, child)
    | _, _ => none

/-! ## All variants -/

/-- `encode_steps` (src/codecs/move_text.rs 57-86). -/
def encodeStepsV : VPos → VPos → Dice → Except Error (List Step)
  | .backgammon s, .backgammon n, d => encodeFor s n d
  | .nackgammon s, .nackgammon n, d => encodeFor s n d
  | .longgammon s, .longgammon n, d => encodeFor s n d
  | .hypergammon s, .hypergammon n, d => encodeFor s n d
  | .hypergammon2 s, .hypergammon2 n, d => encodeFor s n d
  | .hypergammon4 s, .hypergammon4 n, d => encodeFor s n d
  | .hypergammon5 s, .hypergammon5 n, d => encodeFor s n d
  | _, _, _ => .error .variantMismatch

/-- `encode` (src/codecs/move_text.rs 48-55). -/
def encodeV (s n : VPos) (d : Dice) : Except Error Str := (encodeStepsV s n d).map formatSteps

/-- `apply` (src/codecs/move_text.rs 167-185). -/
def applyV (q : VPos) (d : Dice) (t : Str) : Option VPos :=
  match q with
  | .backgammon p => (applyFor p d t).map .backgammon
  | .nackgammon p => (applyFor p d t).map .nackgammon
  | .longgammon p => (applyFor p d t).map .longgammon
  | .hypergammon p => (applyFor p d t).map .hypergammon
  | .hypergammon2 p => (applyFor p d t).map .hypergammon2
  | .hypergammon4 p => (applyFor p d t).map .hypergammon4
  | .hypergammon5 p => (applyFor p d t).map .hypergammon5

/-- `legal_steps` (src/codecs/move_text.rs 22-35). -/
def legalStepsV (q : VPos) (d : Dice) : List (List Step × VPos) :=
  match q with
  | .backgammon p => (legalFor p d).map fun e => (e.1, .backgammon e.2)
  | .nackgammon p => (legalFor p d).map fun e => (e.1, .nackgammon e.2)
  | .longgammon p => (legalFor p d).map fun e => (e.1, .longgammon e.2)
  | .hypergammon p => (legalFor p d).map fun e => (e.1, .hypergammon e.2)
  | .hypergammon2 p => (legalFor p d).map fun e => (e.1, .hypergammon2 e.2)
  | .hypergammon4 p => (legalFor p d).map fun e => (e.1, .hypergammon4 e.2)
  | .hypergammon5 p => (legalFor p d).map fun e => (e.1, .hypergammon5 e.2)

/-- `legal` (src/codecs/move_text.rs 37-46). -/
def legalV (q : VPos) (d : Dice) : List (Str × VPos) := (legalStepsV q d).map fun e => (formatSteps e.1, e.2)

end Bkgm.MoveText
