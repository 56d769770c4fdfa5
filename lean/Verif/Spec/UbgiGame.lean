import Verif.Spec.Ubgi
import Verif.Spec.Game
import Verif.Model.MoveText
/-!
# Specification of a game played over UBGI (C103)

The user rolls the dice, sends them, asks for a move, and sends the position in which the opponent is to move.
-/

namespace Bkgm.Ubgi.Spec
open MoveText

/-- The engine answers every roll in every valid position of every variant with a move text that names one of the legal positions. -/
def PlaysLegally {ε : Type} (E : Engine ε) : Prop :=
  ∀ (e : ε) (v : Variant) (q : VPos) (d : Dice), VPos.ValidFor v q → d.Valid →
    ∃ steps e', E.chooseMove e ⟨v, q⟩ d = (.ok steps, e') ∧ ∃ c ∈ classicRules q d, applyV q d (formatSteps steps) = some c

/-- The line that sends the dice, such as `dice 3 1`. -/
def diceLine (a b : Nat) : Str := "dice ".toList ++ showNat a ++ ' ' :: showNat b

/-- The line that sends a position. -/
def positionLine (id : Str) : Str := "position gnubgid ".toList ++ id

/-- A dialogue: `q` is the position of the session (always seen from the player to move, with `x` to move), `rolls` are the dice of the turns, `T`
is the transcript, and `q'` is the position at the end. In each turn the program accepts the dice, answers `go` with a move whose text leads,
when it is applied to the position, to a legal child `c`, and accepts the id of `c`. -/
inductive Dialogue : VPos → List (Nat × Nat) → Transcript → VPos → Prop
  | done (q : VPos) : Dialogue q [] [] q
  | turn {q c q' c' : VPos} {a b : Nat} {rolls : List (Nat × Nat)} {t id : Str} {T : Transcript} :
      c ∈ classicRules q (Dice.new a b) → applyV q (Dice.new a b) t = some c → GnuId.encodeV c = some id →
      (c'.variant = c.variant ∧ c'.view = c.view ∧ c'.turn = true) → Dialogue c' rolls T q' →
      Dialogue q ((a, b) :: rolls) ((diceLine a b, []) :: ("go".toList, ["bestmove ".toList ++ t]) :: (positionLine id, []) :: T) q'

end Bkgm.Ubgi.Spec
