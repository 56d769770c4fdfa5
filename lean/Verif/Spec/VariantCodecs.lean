import Verif.Spec.Codecs
import Verif.Spec.Game
/-!
# What a GNU position id says about a position of a variant
-/
namespace Spec.GnuId
open Bkgm (Variant VPos)

/-- `id` is the text of a key of 80 bits. -/
def IsKey (id : List Char) : Prop := ∃ K, K < 2 ^ 80 ∧ id = text K

/-- `id` is the text of a key that starts with these 50 counts. -/
def Reads (id : List Char) (ns : List Nat) : Prop := ∃ K z, K < 2 ^ 80 ∧ id = text K ∧ ns.length = 50 ∧ bits K = unary ns ++ z

/-- `id` says `q` for the variant `v`: the counts of both sides on every point are taken off each other, and the checkers missing from the variant's
number are off. Without overflow checks the number of missing checkers is taken modulo 256. -/
def Says (dbg : Bool) (v : Variant) (id : List Char) (q : VPos) : Prop :=
  q.variant = v ∧ q.turn = true ∧ ∃ ns, Reads id ns ∧
    (∀ i < 26, (q.view.x i : Int) - q.view.o i = (if i = 0 then 0 else (ns.getD (24 + i) 0 : Int)) - (if i = 25 then 0 else (ns.getD (24 - i) 0 : Int))) ∧
    ((ns.take 25).sum + q.view.oOff = v.checkers ∨ dbg = false ∧ v.checkers < (ns.take 25).sum ∧ (ns.take 25).sum + q.view.oOff = v.checkers + 256) ∧
    ((ns.drop 25).sum + q.view.xOff = v.checkers ∨ dbg = false ∧ v.checkers < (ns.drop 25).sum ∧ (ns.drop 25).sum + q.view.xOff = v.checkers + 256)

/-- The decoder cannot get through `id`: the key ends before the fiftieth count, or (with overflow checks) a side has more checkers than the variant. -/
def Crashes (dbg : Bool) (v : Variant) (id : List Char) : Prop :=
  IsKey id ∧ ((¬ ∃ ns, Reads id ns) ∨ dbg = true ∧ ∃ ns, Reads id ns ∧ (v.checkers < (ns.take 25).sum ∨ v.checkers < (ns.drop 25).sum))

end Spec.GnuId

namespace Spec

/-- Without overflow checks checkers are counted modulo 256: nobody is on the other side's bar, and the checkers on the board and off add up to `N` modulo 256. -/
structure Wraps (N : Nat) (b : Board) : Prop where
  xBar : b.x 0 = 0
  oBar : b.o 25 = 0
  xOff : b.xOff ≤ 127
  oOff : b.oOff ≤ 127
  sumX : (b.countX + b.xOff) % 256 = N
  sumO : (b.countO + b.oOff) % 256 = N

end Spec
