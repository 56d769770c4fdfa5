import Verif.Spec.Game
/-!
# Histories with their moves, passes and hits — specification
-/

namespace Bkgm

/-- `History q moves passes hits r`: plies with legal rolls and legal positions lead from `q` to `r`; in `moves` of them a checker was moved, in
`passes` of them nothing but the turn changed, and `hits` checkers were hit altogether (the opponent of the player who moved is to move next: the
checkers hit are those by which his bar has grown). -/
inductive History : VPos → Nat → Nat → Nat → VPos → Prop
  | nil (q : VPos) : History q 0 0 0 q
  | move {q r c : VPos} {m k h : Nat} {dice : Dice} : History q m k h r → dice.Valid → c ∈ classicRules r dice →
      c.view ≠ r.view.mirror → History q (m + 1) k (h + (c.view.x 25 - r.view.o 0)) c
  | pass {q r c : VPos} {m k h : Nat} {dice : Dice} : History q m k h r → dice.Valid → c ∈ classicRules r dice →
      c.view = r.view.mirror → History q m (k + 1) h c

end Bkgm
