import Verif.Spec.Ubgi
/-!
# What a FIBS text says

Independent of the decoder: the grammar of `key=value` fields separated by `;`, of the two counts `x<n>,o<n>` and of the 24 point tokens. White space around keys,
values, counts and tokens is ignored (`trim`), a repeated key or count overrides the earlier one.
-/
namespace Spec.Fibs
open Bkgm (Str join trim)
open Bkgm.Ubgi.Spec (Decimal)

/-- `s` is the list `l` of texts separated by the character `c`. -/
def Pieces (c : Char) (s : Str) (l : List Str) : Prop := l ≠ [] ∧ (∀ t ∈ l, c ∉ t) ∧ s = join [c] l

/-- `s` is a list of `key=value` fields. -/
def Fields (s : Str) (fs : List (Str × Str)) : Prop :=
  Pieces ';' s (fs.map fun f => f.1 ++ '=' :: f.2) ∧ (∀ f ∈ fs, '=' ∉ f.1) ∧
  ∀ f ∈ fs, trim f.1 = "turn".toList ∨ trim f.1 = "bar".toList ∨ trim f.1 = "off".toList ∨ trim f.1 = "points".toList

/-- The last field with the key `k` has the value `v`. -/
def ValueOf (fs : List (Str × Str)) (k v : Str) : Prop :=
  ∃ pre f post, fs = pre ++ f :: post ∧ trim f.1 = k ∧ trim f.2 = v ∧ ∀ g ∈ post, trim g.1 ≠ k

/-- A decimal number, perhaps with a `+`. -/
def Unsigned (s : Str) (n : Nat) : Prop :=
  ∃ ds : List Nat, ds ≠ [] ∧ (∀ d ∈ ds, d < 10) ∧ n = Nat.ofDigits 10 ds.reverse ∧ (s = ds.map Nat.digitChar ∨ s = '+' :: ds.map Nat.digitChar)

/-- The last count of `side` is `n`. -/
def LastCount (cs : List (Str × Char × Nat)) (side : Char) (n : Nat) : Prop :=
  ∃ pre t post, cs = pre ++ (t, side, n) :: post ∧ ∀ g ∈ post, g.2.1 ≠ side

/-- `x<n>,o<n>`: one or more counts for each side, each at most 255. -/
def Counts (s : Str) (x o : Nat) : Prop :=
  ∃ cs : List (Str × Char × Nat), Pieces ',' s (cs.map Prod.fst) ∧
    (∀ c ∈ cs, (c.2.1 = 'x' ∨ c.2.1 = 'o') ∧ c.2.2 ≤ 255 ∧ ∃ r, trim c.1 = c.2.1 :: r ∧ Unsigned r c.2.2) ∧
    LastCount cs 'x' x ∧ LastCount cs 'o' o

/-- A token of a point: `-`, `x<number>` or `o<number>` (the number may have a sign and is between -128 and 127), and the number of checkers it shows, positive for `x`. -/
def Point (t : Str) (z : Int) : Prop :=
  t = ['-'] ∧ z = 0 ∨
  (∃ r, t = 'x' :: r ∧ Decimal r z ∧ -128 ≤ z ∧ z ≤ 127) ∨
  ∃ r y, t = 'o' :: r ∧ Decimal r y ∧ -128 ≤ y ∧ y ≤ 127 ∧ z = -y

/-- The text has the four fields, with these values. -/
def Parts (s turn bar off points : Str) : Prop :=
  ∃ fs, Fields s fs ∧ ValueOf fs "turn".toList turn ∧ ValueOf fs "bar".toList bar ∧ ValueOf fs "off".toList off ∧ ValueOf fs "points".toList points

/-- What a text says: who is to move, the checkers on the bar and off, and the 24 points from point 24 down to point 1. -/
def Says (s turn : Str) (xBar oBar xOff oOff : Nat) (zs : List Int) : Prop :=
  ∃ bar off points ts, Parts s turn bar off points ∧ Counts bar xBar oBar ∧ Counts off xOff oOff ∧ Pieces ',' points ts ∧
    List.Forall₂ (fun t z => Point (trim t) z) ts zs ∧ zs.length = 24

end Spec.Fibs
