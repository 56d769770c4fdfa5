import Verif.Spec.Fibs
import Verif.Model.Fibs
/-!
# The first thing that is wrong with a FIBS text

Independent of the decoder: the order in which the parts of a text count is the four fields, the two counts, the 24 points from left to right.
-/
namespace Spec.Fibs
open Bkgm (Str trim)
open Bkgm.Fibs (Error)

/-- The token (with white space around it) shows the checkers of a point. -/
def IsPoint (t : Str) : Prop := ∃ z, Point (trim t) z

/-- The first thing wrong with the list `ts`, which should be the tokens of `n` points: a token that is not a point, too few tokens, or too many. -/
def PointsError (n : Nat) (ts : List Str) (e : Error) : Prop :=
  (∃ pre t post, ts = pre ++ t :: post ∧ pre.length < n ∧ (∀ u ∈ pre, IsPoint u) ∧ ¬ IsPoint t ∧ e = .invalidField "points") ∨
  ((∀ t ∈ ts, IsPoint t) ∧ ts.length < n ∧ e = .invalidPayload) ∨
  ((∀ t ∈ ts.take n, IsPoint t) ∧ n < ts.length ∧ e = .invalidPayload)

/-- The first thing wrong with the form of a text. -/
def FormError (s : Str) (e : Error) : Prop :=
  (e = .invalidPayload ∧ ¬ ∃ turn bar off points, Parts s turn bar off points) ∨
  ∃ turn bar off points, Parts s turn bar off points ∧
    ((e = .invalidField "count" ∧ ¬ ((∃ x o, Counts bar x o) ∧ ∃ x o, Counts off x o)) ∨
     ((∃ x o, Counts bar x o) ∧ (∃ x o, Counts off x o) ∧ ∃ ts, Pieces ',' points ts ∧ PointsError 24 ts e))

end Spec.Fibs
