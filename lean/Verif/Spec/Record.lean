import Verif.Spec.Game
import Verif.Model.MoveText
/-!
# Game records (C105): specification
-/

namespace Bkgm.Spec.Record
open MoveText

/-- A line of play from `q`: rolls, each with the legal position that was chosen. -/
inductive Line : VPos → List (Dice × VPos) → Prop
  | nil (q : VPos) : Line q []
  | cons {q c : VPos} {d : Dice} {rest : List (Dice × VPos)} : d.Valid → c ∈ classicRules q d → Line c rest → Line q ((d, c) :: rest)

/-- The record of a line: every roll with the text that `encode_move` writes for the play. -/
inductive Writes : VPos → List (Dice × VPos) → List (Dice × Str) → Prop
  | nil (q : VPos) : Writes q [] []
  | cons {q c : VPos} {d : Dice} {t : Str} {rest : List (Dice × VPos)} {rec : List (Dice × Str)} :
      encodeV q c d = .ok t → Writes c rest rec → Writes q ((d, c) :: rest) ((d, t) :: rec)

/-- Replaying a record: every text is applied with `apply_move` to the position before it. -/
inductive Replays : VPos → List (Dice × Str) → List (Dice × VPos) → Prop
  | nil (q : VPos) : Replays q [] []
  | cons {q c : VPos} {d : Dice} {t : Str} {rest : List (Dice × VPos)} {rec : List (Dice × Str)} :
      applyV q d t = some c → Replays c rec rest → Replays q ((d, t) :: rec) ((d, c) :: rest)

end Bkgm.Spec.Record
