import Verif.Spec.XgidLine
import Verif.Spec.Codecs
import Verif.Model.Variants
/-!
# What the command lines of the two programs say, and what a corpus file holds

Independent of the argument parser. A command line is a list of words. Words that are not flags, and unknown flags, are ignored.
-/
namespace Spec.Cli
open Bkgm (Str Variant lower trim isWs Pos)
open Spec.Xgid (Number)

/-- `v` is the word after the first word that is one of `names`. -/
def Value (names : List Str) (args : List Str) (v : Str) : Prop :=
  ∃ pre name rest, args = pre ++ name :: v :: rest ∧ name ∈ names ∧ ∀ a ∈ pre, a ∉ names

/-- The flag `name` has a value, and this is the number `n` (of 64 bits). -/
def Num (name : Str) (args : List Str) (n : Nat) : Prop := ∃ t, Value [name] args t ∧ Number (2 ^ 64 - 1) t n

/-- The number given by `long`, or else by `short`, or else `default`. -/
def Pick (long short : Str) (default : Nat) (args : List Str) (n : Nat) : Prop :=
  Num long args n ∨ (¬ ∃ m, Num long args m) ∧ (Num short args n ∨ (¬ ∃ m, Num short args m) ∧ n = default)

/-- The names of the variants. -/
def names : List (Str × Variant) :=
  [("backgammon".toList, .backgammon), ("nackgammon".toList, .nackgammon), ("longgammon".toList, .longgammon),
   ("hypergammon".toList, .hypergammon), ("hypergammon2".toList, .hypergammon2), ("hypergammon4".toList, .hypergammon4),
   ("hypergammon5".toList, .hypergammon5)]

/-- The short names that only the command line knows. -/
def shorts : List (Str × Variant) :=
  [("bg".toList, .backgammon), ("nack".toList, .nackgammon), ("long".toList, .longgammon), ("hyper".toList, .hypergammon),
   ("hypergammon3".toList, .hypergammon), ("hyper2".toList, .hypergammon2), ("hyper4".toList, .hypergammon4), ("hyper5".toList, .hypergammon5)]

/-- A text names a variant, in any case: by its name, perhaps with white space around it, or by a short name. -/
def Named (t : Str) (v : Variant) : Prop := (lower (trim t), v) ∈ names ∨ (lower t, v) ∈ shorts

/-- What the command line of `bkgm-perft` asks for. -/
structure Settings where
  variant : Variant
  id : Option Str
  depth : Nat
  iterations : Nat
  weighted : Bool
  dice : Option (Nat × Nat)

/-- It asks for help. -/
def Help (args : List Str) : Prop := "--help".toList ∈ args ∨ "-h".toList ∈ args

/-- The command line (which does not ask for help) asks for `s`. -/
structure Reads (args : List Str) (s : Settings) : Prop where
  help : ¬ Help args
  variant : (∃ t, Value ["--variant".toList, "-v".toList] args t ∧ Named t s.variant) ∨
    (¬ ∃ t, Value ["--variant".toList, "-v".toList] args t) ∧ s.variant = .backgammon
  id : match s.id with
    | some id => Value ["--position-id".toList, "-p".toList] args id
    | none => ¬ ∃ t, Value ["--position-id".toList, "-p".toList] args t
  depth : Pick "--depth".toList "-d".toList 2 args s.depth
  iterations : ∃ n, Pick "--iterations".toList "-n".toList 1 args n ∧ s.iterations = max n 1
  weighted : s.weighted = true ↔ "--weighted".toList ∈ args ∨ "-w".toList ∈ args
  dice : match s.dice with
    | some (a, b) => Num "--die0".toList args a ∧ Num "--die1".toList args b
    | none => ¬ ∃ a b, Num "--die0".toList args a ∧ Num "--die1".toList args b

/-- The lines of a text. A line ends in `\n` or `\r\n`; the last one may lack it. -/
inductive Lines : Str → List Str → Prop
  | done : Lines [] []
  | last {t : Str} : t ≠ [] → '\n' ∉ t → Lines t [t]
  | lf {t rest : Str} {ls : List Str} : '\n' ∉ t → t.getLast? ≠ some '\r' → Lines rest ls → Lines (t ++ '\n' :: rest) (t :: ls)
  | crlf {t rest : Str} {ls : List Str} : '\n' ∉ t → Lines rest ls → Lines (t ++ '\r' :: '\n' :: rest) (t :: ls)

/-- A line that is not blank. -/
def shown (t : Str) : Bool := t.any fun c => !isWs c

/-- The id is a text of 14 letters whose bits begin with the counts of the position `p` (`x` to move), which is possible on a board. -/
def IdOf {N : Nat} (id : Str) (p : Pos N) : Prop :=
  p.Valid ∧ p.turn = true ∧ ∃ K z, K < 2 ^ 80 ∧ id = Spec.GnuId.text K ∧ Spec.GnuId.bits K = Spec.GnuId.unary (Spec.GnuId.counts p.view) ++ z

/-- The file holds the positions: one id in each line that is not blank. -/
def Corpus (text : Str) (ps : List (Pos 15)) : Prop := ∃ ls, Lines text ls ∧ List.Forall₂ IdOf (ls.filter shown) ps

end Spec.Cli
