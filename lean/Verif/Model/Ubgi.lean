import Verif.Model.Game
import Verif.Model.GnuId
import Verif.Model.MoveText
/-!
# Model of `src/ubgi.rs` and `src/ubgi/runtime.rs`

A UBGI engine is any state machine with the operations of `trait UbgiEngine`. Standard input is the list of its lines (a read error is the
end of the list); standard output is the list of the reply lines. Panics inside the engine are not modelled; a panic of
`gnuid::decode` is `none`.
-/

namespace Bkgm.Ubgi
open MoveText (Step)

/-! ## Options (`src/ubgi.rs`) -/

/-- `enum OptionSpec` (src/ubgi.rs 8-32). -/
inductive OptionSpec where
  | integer (key : Str) (min max : Option Int) (default : Int) (minor : Bool)
  | boolean (key : Str) (default : Bool) (minor : Bool)
  | choice (key : Str) (choices : List Str) (default : Str) (minor : Bool)
  | text (key : Str) (default : Str) (minor : Bool)
  deriving DecidableEq

/-- `enum OptionValue` (src/ubgi.rs 34-40). -/
inductive OptionValue where
  | int (v : Int)
  | bool (v : Bool)
  | choice (v : Str)
  | text (v : Str)
  deriving DecidableEq

/-- `enum UbgiError` (src/ubgi.rs 42-47). -/
inductive UbgiError where
  | unsupported (msg : Str)
  | badValue (msg : Str)
  | badState (msg : Str)
  deriving DecidableEq

/-- `Display for UbgiError` (src/ubgi.rs 78-86). -/
def UbgiError.toText : UbgiError → Str
  | .unsupported m => m
  | .badValue m => m
  | .badState m => m

/-- `parse_ubgi_move` (src/ubgi.rs 52-56). -/
def parseUbgiMove (t : Str) : Except UbgiError (List Step) :=
  match MoveText.normalize t with
  | none => .error (.badValue "move.invalid".toList)
  | some n => match MoveText.parseSteps n with
    | none => .error (.badValue "move.invalid".toList)
    | some steps => .ok steps

/-- `i64::MAX`. (`parse` in src/ubgi.rs 241.) -/
def i64Max : Nat := 2 ^ 63 - 1

/-- `if b { "true" } else { "false" }` (src/ubgi.rs 93-97, 184). -/
def showBool (b : Bool) : Str := if b then "true".toList else "false".toList

/-- `OptionValue::to_wire` (src/ubgi.rs 89-101). -/
def OptionValue.toWire : OptionValue → Str
  | .int v => showInt v
  | .bool v => showBool v
  | .choice v => v
  | .text v => v

namespace OptionSpec

/-- `OptionSpec::integer` (src/ubgi.rs 105-113). -/
def mkInteger (key : Str) (min max default : Int) : OptionSpec := .integer key (some min) (some max) default false
/-- `OptionSpec::integer_unbounded` (src/ubgi.rs 115-123). -/
def mkUnbounded (key : Str) (default : Int) : OptionSpec := .integer key none none default false
/-- `OptionSpec::boolean` (src/ubgi.rs 125-131). -/
def mkBoolean (key : Str) (default : Bool) : OptionSpec := .boolean key default false
/-- `OptionSpec::choice` (src/ubgi.rs 133-140). -/
def mkChoice (key : Str) (choices : List Str) (default : Str) : OptionSpec := .choice key choices default false
/-- `OptionSpec::text` (src/ubgi.rs 142-148). -/
def mkText (key : Str) (default : Str) : OptionSpec := .text key default false

/-- `OptionSpec::minor` (src/ubgi.rs 150-158). -/
def setMinor : OptionSpec → OptionSpec
  | .integer k a b d _ => .integer k a b d true
  | .boolean k d _ => .boolean k d true
  | .choice k c d _ => .choice k c d true
  | .text k d _ => .text k d true

/-- `if *minor { format!("{base} !") } else { base }` (src/ubgi.rs 173-177 and three times more). -/
def withMinor (minor : Bool) (base : Str) : Str := if minor then base ++ " !".toList else base

/-- `OptionSpec::to_key_line` (src/ubgi.rs 160-217). -/
def toKeyLine : OptionSpec → Str
  | .integer key (some min) (some max) default minor =>
    withMinor minor ("key ".toList ++ key ++ " int ".toList ++ showInt min ++ "..".toList ++ showInt max ++ " ".toList ++ showInt default)
  | .integer key _ _ default minor => withMinor minor ("key ".toList ++ key ++ " int ".toList ++ showInt default)
  | .boolean key default minor => withMinor minor ("key ".toList ++ key ++ " bool ".toList ++ showBool default)
  | .choice key choices default minor =>
    withMinor minor ("key ".toList ++ key ++ " enum ".toList ++ join "|".toList choices ++ " ".toList ++ default)
  | .text key default minor => withMinor minor ("key ".toList ++ key ++ " string * ".toList ++ default)

/-- `OptionSpec::key` (src/ubgi.rs 219-226). -/
def key : OptionSpec → Str
  | .integer k _ _ _ _ => k
  | .boolean k _ _ => k
  | .choice k _ _ _ => k
  | .text k _ _ => k

/-- `OptionSpec::default_value` (src/ubgi.rs 228-235). -/
def defaultValue : OptionSpec → OptionValue
  | .integer _ _ _ d _ => .int d
  | .boolean _ d _ => .bool d
  | .choice _ _ d _ => .choice d
  | .text _ d _ => .text d

/-- `OptionSpec::parse_value` (src/ubgi.rs 237-264). -/
def parseValue (o : OptionSpec) (raw : Str) : Except Str OptionValue :=
  match o with
  | .integer _ min max _ _ =>
    match parseInt i64Max raw with
    | none => .error ("expected int, got '".toList ++ raw ++ "'".toList)
    | some v =>
      match min, max with
      | some min, some max =>
        if v < min ∨ v > max then .error ("must be in range ".toList ++ showInt min ++ "..".toList ++ showInt max)
        else .ok (.int v)
      | _, _ => .ok (.int v)
  | .boolean _ _ _ =>
    if raw = "true".toList then .ok (.bool true)
    else if raw = "false".toList then .ok (.bool false)
    else .error ("expected bool true|false, got '".toList ++ raw ++ "'".toList)
  | .choice _ choices _ _ =>
    if choices.any (fun c => c == raw) then .ok (.choice raw)
    else .error ("expected one of [".toList ++ join "|".toList choices ++ "]".toList)
  | .text _ _ _ => .ok (.text raw)

end OptionSpec

/-- `struct KeyLineSpec` (src/ubgi.rs 267-275). -/
structure KeyLineSpec where
  name : Str
  keyType : Str
  domain : Option Str
  default : Str
  minor : Bool
  description : Str
  deriving DecidableEq

/-- `token.contains("..")`: `looks_like_int_domain` (src/ubgi.rs 312-314). -/
def looksLikeIntDomain : Str → Bool
  | '.' :: '.' :: _ => true
  | _ :: s => looksLikeIntDomain s
  | [] => false

/-- The end of `parse_key_line` (src/ubgi.rs 296-309). -/
def finishKeyLine (name keyType : Str) (domain : Option Str) (default : Str) : List Str → KeyLineSpec
  | [] => ⟨name, keyType, domain, default, false, []⟩
  | t :: rest =>
    if t = "!".toList then ⟨name, keyType, domain, default, true, join " ".toList rest⟩
    else ⟨name, keyType, domain, default, false, join " ".toList (t :: rest)⟩

/-- `parse_key_line` (src/ubgi.rs 277-310). -/
def parseKeyLine (line : Str) : Option KeyLineSpec :=
  match splitWs line with
  | head :: name :: keyType :: next :: rest =>
    if head ≠ "key".toList then none
    else if keyType = "bool".toList then some (finishKeyLine name keyType none next rest)
    else if keyType = "int".toList ∧ looksLikeIntDomain next = false then some (finishKeyLine name keyType none next rest)
    else match rest with
      | default :: rest => some (finishKeyLine name keyType (some next) default rest)
      | [] => none
  | _ => none

/-- `trait UbgiEngine` (src/ubgi.rs 316-332) for an engine with state `ε`. `choose_move` gets the game by shared reference, so it cannot
change it. -/
structure Engine (ε : Type) where
  idName : ε → Str
  idVersion : ε → Str
  onReady : ε → Except UbgiError Unit × ε
  options : ε → List OptionSpec
  get : ε → Str → Option OptionValue
  set : ε → Str → OptionValue → Except UbgiError Unit × ε
  chooseMove : ε → Game → Dice → Except UbgiError (List Step) × ε

/-- An engine that implements only the methods without a default: `id_name`, `id_version` and `choose_move`. The others are the default
methods of the trait (src/ubgi.rs 319-330). -/
def Engine.withDefaults {ε : Type} (idName idVersion : ε → Str) (chooseMove : ε → Game → Dice → Except UbgiError (List Step) × ε) : Engine ε where
  idName := idName
  idVersion := idVersion
  onReady e := (.ok (), e)
  options _ := []
  get _ _ := none
  set e _ _ := (.error (.unsupported "key".toList), e)
  chooseMove := chooseMove

/-! ## The session (`src/ubgi/runtime.rs`) -/

/-- `enum ProtocolError` (src/ubgi/runtime.rs 10-15). -/
inductive ProtocolError where
  | badCommand (d : Str)
  | badValue (d : Str)
  | badState (d : Str)
  | unsupported (d : Str)

/-- `ProtocolError::to_line` (src/ubgi/runtime.rs 17-26). -/
def ProtocolError.toLine : ProtocolError → Str
  | .badCommand d => "error bad_command ".toList ++ d
  | .badValue d => "error bad_value ".toList ++ d
  | .badState d => "error bad_state ".toList ++ d
  | .unsupported d => "error unsupported ".toList ++ d

/-- `enum Command` (src/ubgi/runtime.rs 28-44). -/
inductive Command where
  | ubgi | isReady | newGame | keys
  | get (key : Str)
  | set (key value : Str)
  | positionGnubgid (id : Str)
  | positionXgid | positionUnknown
  | dice (rest : Str)
  | goChequer | goCube | goTurn | quit | unknown
  deriving DecidableEq

/-- `struct SessionState` (src/ubgi/runtime.rs 46-53). A `HashMap` that is only read by `get` is its lookup function. -/
structure Session where
  variant : Variant
  game : Game
  dice : Option Dice
  specs : List OptionSpec
  values : Str → Option OptionValue
  variantKey : Str

/-- `HashMap::insert`. (The option values of src/ubgi/runtime.rs 51.) -/
def insertValue (m : Str → Option OptionValue) (k : Str) (v : OptionValue) : Str → Option OptionValue :=
  fun k' => if k' = k then some v else m k'

/-- `specs.iter().map(|spec| (key, default)).collect::<HashMap<_, _>>()` (src/ubgi/runtime.rs 58-61). -/
def defaultValues (specs : List OptionSpec) : Str → Option OptionValue :=
  specs.foldl (fun m o => insertValue m o.key o.defaultValue) (fun _ => none)

/-- `SessionState::new` (src/ubgi/runtime.rs 56-77). -/
def Session.new {ε : Type} (E : Engine ε) (e : ε) : Session where
  variant := .backgammon
  game := Game.new .backgammon
  dice := none
  specs := E.options e
  values := defaultValues (E.options e)
  variantKey := "key game.variant enum ".toList ++ join "|".toList (variants.map Variant.toText) ++ " backgammon".toList

/-- `parse_command` (src/ubgi/runtime.rs 102-149). `line.starts_with(p)` is `(stripPrefix p line).isSome`. -/
def parseCommand (line : Str) : Command :=
  if line = "ubgi".toList then .ubgi
  else if line = "isready".toList then .isReady
  else if line = "newgame".toList then .newGame
  else if line = "keys".toList then .keys
  else match stripPrefix "get ".toList line with
  | some key => .get (trim key)
  | none => match stripPrefix "set ".toList line with
  | some rest => match splitOnce ' ' rest with
    | some (k, v) => .set (trim k) (trim v)
    | none => .set (trim rest) []
  | none => match stripPrefix "position gnubgid ".toList line with
  | some id => .positionGnubgid (trim id)
  | none =>
    if line = "position xgid".toList ∨ (stripPrefix "position xgid ".toList line).isSome then .positionXgid
    else if (stripPrefix "position ".toList line).isSome then .positionUnknown
    else match stripPrefix "dice ".toList line with
    | some rest => .dice rest
    | none =>
      if line = "go".toList ∨ line = "go chequer".toList then .goChequer
      else if line = "go cube".toList then .goCube
      else if line = "go turn".toList then .goTurn
      else if line = "quit".toList then .quit
      else .unknown

/-- `render_key_lines` (src/ubgi/runtime.rs 204-210). -/
def renderKeyLines (s : Session) : List Str := s.variantKey :: s.specs.map OptionSpec.toKeyLine

/-- `handle_get` (src/ubgi/runtime.rs 212-223). -/
def handleGet {ε : Type} (E : Engine ε) (e : ε) (s : Session) (key : Str) : List Str :=
  if key = "game.variant".toList then ["value game.variant ".toList ++ s.variant.toText]
  else match s.values key with
  | some v => ["value ".toList ++ key ++ " ".toList ++ v.toWire]
  | none => match E.get e key with
    | some v => ["value ".toList ++ key ++ " ".toList ++ v.toWire]
    | none => [(ProtocolError.unsupported "key".toList).toLine]

/-- `map_engine_set_error` (src/ubgi/runtime.rs 262-274). -/
def mapEngineSetError (err : UbgiError) (key : Str) : ProtocolError :=
  match err with
  | .unsupported _ => .unsupported "key".toList
  | .badValue d => if d = [] then .badValue key else .badValue d
  | .badState d => .badState ("set ".toList ++ d)

/-- `handle_set` (src/ubgi/runtime.rs 225-260). -/
def handleSet {ε : Type} (E : Engine ε) (e : ε) (s : Session) (key value : Str) : List Str × ε × Session :=
  if key = [] ∨ value = [] then ([(ProtocolError.badCommand "expected: set <key> <value>".toList).toLine], e, s)
  else if key = "game.variant".toList then
    match Variant.parse value with
    | some v => ([], e, { s with variant := v, game := Game.new v })
    | none => ([(ProtocolError.badValue "game.variant".toList).toLine], e, s)
  else match s.specs.find? (fun o => o.key == key) with
  | none => ([(ProtocolError.unsupported "key".toList).toLine], e, s)
  | some spec => match spec.parseValue value with
    | .error _ => ([(ProtocolError.badValue key).toLine], e, s)
    | .ok v => match E.set e key v with
      | (.ok (), e') => ([], e', { s with values := insertValue s.values key v })
      | (.error err, e') => ([(mapEngineSetError err key).toLine], e', s)

/-- `handle_dice` (src/ubgi/runtime.rs 276-290). -/
def handleDice (s : Session) (rest : Str) : List Str × Session :=
  match splitWs rest with
  | [t1, t2] => match parseNat MoveText.usizeMax t1, parseNat MoveText.usizeMax t2 with
    | some a, some b =>
      if (1 ≤ a ∧ a ≤ 6) ∧ (1 ≤ b ∧ b ≤ 6) then ([], { s with dice := some (Dice.new a b) })
      else ([(ProtocolError.badValue "dice".toList).toLine], s)
    | _, _ => ([(ProtocolError.badValue "dice".toList).toLine], s)
  | _ => ([(ProtocolError.badValue "dice".toList).toLine], s)

/-- `handle_go` (src/ubgi/runtime.rs 292-300). -/
def handleGo {ε : Type} (E : Engine ε) (e : ε) (s : Session) : List Str × ε :=
  match s.dice with
  | none => ([(ProtocolError.badState "missing.dice".toList).toLine], e)
  | some d => match E.chooseMove e s.game d with
    | (.ok mv, e') => (["bestmove ".toList ++ MoveText.formatSteps mv], e')
    | (.error err, e') => ([(ProtocolError.badState ("move.select ".toList ++ err.toText)).toLine], e')

/-- `handle_command` (src/ubgi/runtime.rs 151-202); `none` is a panic of `gnuid::decode`. -/
def handleCommand {ε : Type} (dbg : Bool) (E : Engine ε) (e : ε) (s : Session) : Command → Option (List Str × ε × Session)
  | .ubgi => some (["id name ".toList ++ E.idName e, "id author bkgm".toList, "id version ".toList ++ E.idVersion e, "proto 0.2".toList] ++
      renderKeyLines s ++ ["ubgiok".toList], e, s)
  | .isReady => match E.onReady e with
    | (.ok (), e') => some (["readyok".toList], e', s)
    | (.error err, e') => some ([(ProtocolError.badState ("isready ".toList ++ err.toText)).toLine], e', s)
  | .newGame => some ([], e, { s with game := Game.new s.variant, dice := none })
  | .keys => some (renderKeyLines s, e, s)
  | .get key => some (handleGet E e s key, e, s)
  | .set key value => some (handleSet E e s key value)
  | .positionGnubgid id => (GnuId.decodeV dbg s.variant (trim id)).map fun r => match r with
    | .ok pos => ([], e, { s with game := (s.game.setPosition pos).1 })
    | .error _ => ([(ProtocolError.badValue "position".toList).toLine], e, s)
  | .positionXgid => some ([(ProtocolError.unsupported "position.xgid".toList).toLine], e, s)
  | .positionUnknown => some ([(ProtocolError.badCommand "expected: position gnubgid <GNU_POSITION_ID>".toList).toLine], e, s)
  | .dice rest => some ((handleDice s rest).1, e, (handleDice s rest).2)
  | .goChequer => some ((handleGo E e s).1, (handleGo E e s).2, s)
  | .goCube => some ([(ProtocolError.unsupported "go cube".toList).toLine], e, s)
  | .goTurn => some ([(ProtocolError.unsupported "go turn".toList).toLine], e, s)
  | .quit => some ([], e, s)
  | .unknown => some ([(ProtocolError.badCommand "unknown".toList).toLine], e, s)

/-- The loop of `run_ubgi_stdio` (src/ubgi/runtime.rs 85-99). The result lists, for every line that was read, the line and the replies
written to it, in order; then the final state. -/
def loop {ε : Type} (dbg : Bool) (E : Engine ε) : List Str → ε → Session → Option (List (Str × List Str) × ε × Session)
  | [], e, s => some ([], e, s)
  | line :: rest, e, s =>
    if trim line = [] then (loop dbg E rest e s).map fun r => ((line, []) :: r.1, r.2)
    else
      (handleCommand dbg E e s (parseCommand (trim line))).bind fun (out, e', s') =>
        if parseCommand (trim line) = .quit then some ([(line, out)], e', s')
        else (loop dbg E rest e' s').map fun r => ((line, out) :: r.1, r.2)

/-- `run_ubgi_stdio` (src/ubgi/runtime.rs 80-100). -/
def run {ε : Type} (dbg : Bool) (E : Engine ε) (e : ε) (lines : List Str) : Option (List (Str × List Str) × ε × Session) :=
  loop dbg E lines e (Session.new E e)

end Bkgm.Ubgi
