import Verif.Model.Ubgi
import Verif.Spec.VariantCodecs
import Mathlib.Data.Nat.Digits.Defs
/-!
# Specification of the UBGI protocol (C48-C53)

Nothing here refers to `parseCommand`, `handleCommand` or `loop`.
-/

namespace Bkgm.Ubgi.Spec

/-- A single word: not empty and without white space. -/
def Word (s : Str) : Prop := s ≠ [] ∧ ∀ c ∈ s, isWs c = false

instance (s : Str) : Decidable (Word s) := by unfold Word; infer_instance

/-- The text is a decimal number, perhaps with a sign, with the value `z`. -/
def Decimal (raw : Str) (z : Int) : Prop :=
  ∃ ds : List Nat, ds ≠ [] ∧ (∀ d ∈ ds, d < 10) ∧
    ((raw = ds.map Nat.digitChar ∧ z = ((Nat.ofDigits 10 ds.reverse : Nat) : Int)) ∨
     (raw = '+' :: ds.map Nat.digitChar ∧ z = ((Nat.ofDigits 10 ds.reverse : Nat) : Int)) ∨
     (raw = '-' :: ds.map Nat.digitChar ∧ z = -((Nat.ofDigits 10 ds.reverse : Nat) : Int)))

/-- The range of an `i64`. -/
def I64 (z : Int) : Prop := -2 ^ 63 ≤ z ∧ z < 2 ^ 63

/-- The values an option can take: an integer between the bounds (if the option has both), a truth value, one of the choices, any text. -/
def Allowed : OptionSpec → OptionValue → Prop
  | .integer _ (some a) (some b) _ _, .int z => I64 z ∧ a ≤ z ∧ z ≤ b
  | .integer _ _ _ _ _, .int z => I64 z
  | .boolean _ _ _, .bool _ => True
  | .choice _ cs _ _, .choice c => c ∈ cs
  | .text _ _ _, .text _ => True
  | _, _ => False

/-- The text denotes the value. -/
def Denotes (raw : Str) : OptionValue → Prop
  | .int z => Decimal raw z
  | .bool b => raw = if b then "true".toList else "false".toList
  | .choice c => raw = c
  | .text t => raw = t

/-- The type name on the key line of an option. -/
def typeName : OptionSpec → Str
  | .integer _ _ _ _ _ => "int".toList
  | .boolean _ _ _ => "bool".toList
  | .choice _ _ _ _ => "enum".toList
  | .text _ _ _ => "string".toList

/-- The domain on the key line of an option. -/
def domain : OptionSpec → Option Str
  | .integer _ (some a) (some b) _ _ => some (showInt a ++ ['.', '.'] ++ showInt b)
  | .integer _ _ _ _ _ => none
  | .boolean _ _ _ => none
  | .choice _ cs _ _ => some (join ['|'] cs)
  | .text _ _ _ => some ['*']

/-- Is the option marked as minor? -/
def isMinor : OptionSpec → Bool
  | .integer _ _ _ _ m => m
  | .boolean _ _ m => m
  | .choice _ _ _ m => m
  | .text _ _ m => m

/-- Key, choices and default are single words; an integer option has both bounds or none; there is at least one choice and no choice contains `|`. -/
def WellFormed : OptionSpec → Prop
  | .integer k a b _ _ => Word k ∧ (a.isSome ↔ b.isSome)
  | .boolean k _ _ => Word k
  | .choice k cs d _ => Word k ∧ cs ≠ [] ∧ (∀ c ∈ cs, Word c ∧ '|' ∉ c) ∧ Word d
  | .text k d _ => Word k ∧ Word d

/-! ## The command language -/

/-- What a (trimmed, non-empty) line means. -/
inductive Means : Str → Command → Prop
  | ubgi : Means "ubgi".toList .ubgi
  | isReady : Means "isready".toList .isReady
  | newGame : Means "newgame".toList .newGame
  | keys : Means "keys".toList .keys
  | get (k : Str) : Means ("get ".toList ++ k) (.get (trim k))
  | set (k v : Str) (h : ' ' ∉ k) : Means ("set ".toList ++ k ++ ' ' :: v) (.set (trim k) (trim v))
  | setNoValue (k : Str) (h : ' ' ∉ k) : Means ("set ".toList ++ k) (.set (trim k) [])
  | gnubgid (id : Str) : Means ("position gnubgid ".toList ++ id) (.positionGnubgid (trim id))
  | xgid : Means "position xgid".toList .positionXgid
  | xgidArg (r : Str) : Means ("position xgid ".toList ++ r) .positionXgid
  | position (r : Str) (h1 : ∀ t, r ≠ "gnubgid ".toList ++ t) (h2 : r ≠ "xgid".toList) (h3 : ∀ t, r ≠ "xgid ".toList ++ t) :
      Means ("position ".toList ++ r) .positionUnknown
  | dice (r : Str) : Means ("dice ".toList ++ r) (.dice r)
  | go : Means "go".toList .goChequer
  | goChequer : Means "go chequer".toList .goChequer
  | goCube : Means "go cube".toList .goCube
  | goTurn : Means "go turn".toList .goTurn
  | quit : Means "quit".toList .quit
  | unknown (l : Str)
      (h1 : l ∉ ["ubgi".toList, "isready".toList, "newgame".toList, "keys".toList, "go".toList, "go chequer".toList, "go cube".toList,
        "go turn".toList, "quit".toList])
      (h2 : ∀ w ∈ ["get ".toList, "set ".toList, "position ".toList, "dice ".toList], ∀ t, l ≠ w ++ t) : Means l .unknown

/-! ## What a transcript says about the session

A transcript is the list of the lines read so far, each with its replies. A command that changes the session was accepted iff it got no
reply. -/

abbrev Transcript := List (Str × List Str)

/-- The replies are one `error` line. -/
def IsError (out : List Str) : Prop := ∃ t, out = ["error ".toList ++ t]

/-- The game (variant and position) after one more exchange. -/
def GameStep (dbg : Bool) (g : Variant × VPos) (x : Str × List Str) (g' : Variant × VPos) : Prop :=
  -- `newgame`: the start position
  (Means (trim x.1) .newGame ∧ g' = (g.1, g.1.startPosition)) ∨
  -- an accepted `set game.variant v`: the start position of that variant
  (∃ t v, Means (trim x.1) (.set "game.variant".toList t) ∧ x.2 = [] ∧ lower (trim t) = v.toText ∧ g' = (v, v.startPosition)) ∨
  -- an accepted `position gnubgid id`: the position that id says for the current variant
  (∃ id q, Means (trim x.1) (.positionGnubgid id) ∧ x.2 = [] ∧ _root_.Spec.GnuId.Says dbg g.1 id q ∧ g' = (g.1, q)) ∨
  -- anything else: no change
  (¬ Means (trim x.1) .newGame ∧ (∀ t, ¬ (Means (trim x.1) (.set "game.variant".toList t) ∧ x.2 = [])) ∧
    (∀ id, ¬ (Means (trim x.1) (.positionGnubgid id) ∧ x.2 = [])) ∧ g' = g)

/-- The dice after one more exchange. -/
def DiceStep (d : Option Dice) (x : Str × List Str) (d' : Option Dice) : Prop :=
  (Means (trim x.1) .newGame ∧ d' = none) ∨
  (∃ r t1 t2 a b, Means (trim x.1) (.dice r) ∧ x.2 = [] ∧ splitWs r = [t1, t2] ∧ Decimal t1 a ∧ Decimal t2 b ∧ 1 ≤ a ∧ a ≤ 6 ∧ 1 ≤ b ∧ b ≤ 6 ∧
    d' = some (Dice.new a.toNat b.toNat)) ∨
  (¬ Means (trim x.1) .newGame ∧ (∀ r, ¬ (Means (trim x.1) (.dice r) ∧ x.2 = [])) ∧ d' = d)

/-- The value of the option `k` after one more exchange. -/
def ValueStep (specs : List OptionSpec) (k : Str) (w : Option OptionValue) (x : Str × List Str) (w' : Option OptionValue) : Prop :=
  (∃ t v o, k ≠ "game.variant".toList ∧ Means (trim x.1) (.set k t) ∧ x.2 = [] ∧ o ∈ specs ∧ o.key = k ∧ Allowed o v ∧ Denotes t v ∧ w' = some v) ∨
  ((k = "game.variant".toList ∨ ∀ t, ¬ (Means (trim x.1) (.set k t) ∧ x.2 = [])) ∧ w' = w)

/-- Follow a step relation along a transcript. -/
def Along {α : Type} (R : α → Str × List Str → α → Prop) : α → Transcript → α → Prop
  | a, [], b => a = b
  | a, x :: T, c => ∃ b, R a x b ∧ Along R b T c

/-- The default of the option `k`: that of the last option with this key. -/
def default (specs : List OptionSpec) (k : Str) : Option OptionValue :=
  (specs.reverse.find? fun o => decide (o.key = k)).map OptionSpec.defaultValue

end Bkgm.Ubgi.Spec
