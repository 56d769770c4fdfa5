import Verif.Model.Dice
/-!
# Scripted dice — specification

The first roll of a game cannot be a double, so an episode played with a script of dice passes over the doubles at its start.
-/

namespace Bkgm

/-- A double roll. -/
def Dice.IsDouble (d : Dice) : Prop := ∃ v, d = .double v

instance : DecidablePred Dice.IsDouble := fun d => match d with
  | .mixed _ _ => isFalse (fun ⟨_, h⟩ => nomatch h)
  | .double v => isTrue ⟨v, rfl⟩

/-- The dice of the script that an episode can play: everything after the leading doubles. -/
def Script.playable (ds : List Dice) : List Dice := ds.dropWhile fun d => decide d.IsDouble

/-- The number of leading doubles of the script. -/
def Script.skipped (ds : List Dice) : Nat := (ds.takeWhile fun d => decide d.IsDouble).length

end Bkgm
