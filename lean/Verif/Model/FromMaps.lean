import Verif.Model.TryFrom
/-!
# Model of `src/position/conversion.rs` (`pos!`, `from_hash_maps`) and of `From<Position<N>> for [i8; 26]`

A `HashMap<usize, u8>` is the list of its entries in iteration order: the keys are distinct and the order is arbitrary (the theorems
quantify over all such lists). Values are `u8` (naturals below 256).
-/

namespace Bkgm

/-- `From<Position<N>> for [i8; 26]` (src/position.rs 347-351). -/
def Pos.toCells {N : Nat} (p : Pos N) : Fin 26 → Int := p.pips

/-- `pips[i] = v` on an array of 26 cells; `none` is the index-out-of-bounds panic. (src/position/conversion.rs 34-40.) -/
def setCell (pips : Fin 26 → Int) (i : Nat) (v : Int) : Option (Fin 26 → Int) :=
  if i < 26 then some (fun j => if j.val = i then v else pips j) else none

/-- The first loop of `from_hash_maps` (src/position/conversion.rs 34-36): `pips[*i] = *v as i8`. The cast wraps. -/
def writeX : List (Nat × Nat) → (Fin 26 → Int) → Option (Fin 26 → Int)
  | [], pips => some pips
  | (i, v) :: l, pips => (setCell pips i (wrap8 v)).bind (writeX l)

/-- The second loop (src/position/conversion.rs 37-40). The `debug_assert!` only exists in debug builds; `pips[*i]` panics in both
builds when out of range (in a release build at the assignment). `-(*v as i8)` overflows for `v = 128`. -/
def writeO (dbg : Bool) : List (Nat × Nat) → (Fin 26 → Int) → Option (Fin 26 → Int)
  | [], pips => some pips
  | (i, v) :: l, pips =>
    if dbg = true ∧ (∃ h : i < 26, pips ⟨i, h⟩ ≠ 0) then none
    else (i8 dbg (-(wrap8 v))).bind fun w => (setCell pips i w).bind (writeO dbg l)

/-- `Position::from_hash_maps` (src/position/conversion.rs 32-42); `none` is a panic (index, assertion, overflow or the `expect`). -/
def fromHashMaps (dbg : Bool) (N : Nat) (x o : List (Nat × Nat)) : Option (Pos N) :=
  (writeX x fun _ => 0).bind fun p1 =>
  (writeO dbg o p1).bind fun p2 =>
  match tryFrom dbg N p2 with
  | some (.ok p) => some p
  | _ => none

/-- `HashMap::insert`: replaces the value of an existing key. (src/position/conversion.rs 15-23.) -/
def mapInsert (m : List (Nat × Nat)) (k v : Nat) : List (Nat × Nat) :=
  if m.any (fun e => e.1 == k) then m.map fun e => if e.1 = k then (k, v) else e else m ++ [(k, v)]

/-- `pos!(x a:b, ...; o c:d, ...)` (src/position/conversion.rs 10-29): the pairs are inserted in order into two maps; `as u8` truncates
the number of checkers. -/
def posMacro (dbg : Bool) (x o : List (Nat × Nat)) : Option (Pos 15) :=
  fromHashMaps dbg 15 (x.foldl (fun m e => mapInsert m e.1 (e.2 % 256)) []) (o.foldl (fun m e => mapInsert m e.1 (e.2 % 256)) [])

end Bkgm
