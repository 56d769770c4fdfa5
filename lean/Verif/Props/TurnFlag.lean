import Verif.Proofs.TurnFlag
import Verif.Model.DbHash
import Verif.Model.GnuId
import Verif.Model.Xgid
import Verif.Spec.Examples
/-!
# C57: the turn flag
-/

namespace Bkgm
open Pos MoveText
variable {N : Nat}

/-- **C57** Changing only the turn flag changes only the turn flag of the legal children, and neither the game state nor any id or hash. -/
theorem C57_turn_flag (p : Pos N) (t : Bool) (dice : Dice) :
    ({ p with turn := t } : Pos N).legalPositions dice = (p.legalPositions dice).map (fun c => { c with turn := !t }) ∧
    ({ p with turn := t } : Pos N).noHitPositions dice = (p.noHitPositions dice).map (fun c => { c with turn := !t }) ∧
    ({ p with turn := t } : Pos N).gameState = p.gameState ∧ ({ p with turn := t } : Pos N).phase = p.phase ∧
    (∀ m, dbhash m ({ p with turn := t } : Pos N) = dbhash m p) ∧
    GnuId.encode ({ p with turn := t } : Pos N) = GnuId.encode p ∧ Xgid.encode ({ p with turn := t } : Pos N) = Xgid.encode p ∧
    ({ p with turn := t } : Pos N).eqv p = true ∧ ({ p with turn := t } : Pos N).hashInput = p.hashInput := by
  refine ⟨wt_legal p t dice, ?_, rfl, rfl, fun m => rfl, rfl, rfl, by simp [eqv], rfl⟩
  have h := wt_legal p t dice
  unfold noHitPositions
  change ((p.withTurn t).legalPositions dice).filter _ = _
  rw [h, List.filter_map]
  rfl

/-- **C57** The two-sided positions are the same; only the flag differs. -/
example : ({ Ex.start with turn := false } : Pos 15) ≠ Ex.start ∧ (Ex.start.legalPositions (.mixed 6 5)).length = 7 := by decide +kernel

end Bkgm
