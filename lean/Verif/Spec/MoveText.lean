import Verif.Spec.Fibs
/-!
# What a move text says

Independent of the parser. A move text is `pass`, or words separated by white space. A word is a path `from/…/to` of one checker; the marks `*` (hit) and `,` in it
are ignored. Names of points are the numbers from 1 to 24, `bar` (only as the start of a path) and `off` (only as its end); letters may be capital.
A move is a list of hops `(from, to)`; 25 is the bar and 0 is off.
-/
namespace Spec.MoveText
open Bkgm (Str join lower splitWs)
open Spec.Fibs (Pieces Unsigned)

/-- A point of the board, by its number. -/
def Point (t : Str) (n : Nat) : Prop := 1 ≤ n ∧ n ≤ 24 ∧ Unsigned t n

/-- Where a path may begin. -/
def Start (t : Str) (n : Nat) : Prop := lower t = "bar".toList ∧ n = 25 ∨ Point t n

/-- Where a path may end. -/
def End (t : Str) (n : Nat) : Prop := lower t = "off".toList ∧ n = 0 ∨ Point t n

/-- The path of one checker: its start, the points it touches, its end. -/
def Path (t : Str) (a : Nat) (mid : List Nat) (b : Nat) : Prop :=
  ∃ ta tm tb, Pieces '/' t (ta :: tm ++ [tb]) ∧ Start ta a ∧ List.Forall₂ Point tm mid ∧ End tb b

/-- The hops of a checker that starts at `a` and then stands on each of the given points. -/
def hops (a : Nat) : List Nat → List (Nat × Nat)
  | [] => []
  | b :: l => (a, b) :: hops b l

/-- The word without the marks. -/
def unmarked (w : Str) : Str := w.filter fun c => c ≠ '*' ∧ c ≠ ','

/-- A word says that one checker makes these hops. -/
def Word (w : Str) (l : List (Nat × Nat)) : Prop := ∃ a mid b, Path (unmarked w) a mid b ∧ l = hops a (mid ++ [b])

/-- The word `pass`, alone. -/
def Pass (t : Str) : Prop := ∃ w, splitWs t = [w] ∧ lower w = "pass".toList

/-- What a text says. -/
def Says (t : Str) (l : List (Nat × Nat)) : Prop :=
  Pass t ∧ l = [] ∨ splitWs t ≠ [] ∧ ∃ ls, List.Forall₂ Word (splitWs t) ls ∧ l = ls.flatten

/-- The strict form, with no marks and one hop in each word; the empty text says nothing. -/
def Strict (t : Str) (l : List (Nat × Nat)) : Prop :=
  Pass t ∧ l = [] ∨ List.Forall₂ (fun w h => ∃ ta tb, w = ta ++ '/' :: tb ∧ Start ta h.1 ∧ End tb h.2) (splitWs t) l

/-- The name of a point. -/
def name (n : Nat) : Str := if n = 25 then "bar".toList else if n = 0 then "off".toList else Nat.toDigits 10 n

/-- The normal text of a list of hops: one word for each, separated by single spaces. -/
def text (l : List (Nat × Nat)) : Str :=
  if l = [] then "pass".toList else join [' '] (l.map fun h => name h.1 ++ '/' :: name h.2)

end Spec.MoveText
