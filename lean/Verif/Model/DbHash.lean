import Verif.Model.Position
/-!
# Model of `src/utils.rs` and `State::dbhash`

`usize` has 64 bits. Arithmetic is explicit: in a debug build an overflow panics (`none`), in a release build it wraps.
-/

namespace Bkgm

/-- Build profile: `debug` panics on arithmetic overflow, `release` wraps around. (The arithmetic of src/utils.rs and of `dbhash`, src/position.rs 315-345.) -/
inductive Profile where
  | debug | release
  deriving DecidableEq, Repr

/-- The result `n` of an addition or multiplication of `usize` values. (src/utils.rs 1-13, src/position.rs 315-345.) -/
def fit (m : Profile) (n : Nat) : Option Nat :=
  if n < 2 ^ 64 then some n else match m with
    | .debug => none
    | .release => some (n % 2 ^ 64)

/-- `a - b` on `usize` or, with `w = 2^8`, on `u8`. (src/utils.rs 11-13, src/position.rs 315-345.) -/
def subW (w : Nat) (m : Profile) (a b : Nat) : Option Nat :=
  if b ≤ a then some (a - b) else match m with
    | .debug => none
    | .release => some ((a + w - b) % w)

/-- `comb` (src/utils.rs 1-9). -/
def comb (m : Profile) : Nat → Nat → Option Nat
  | 0, _ => some 0
  | _ + 1, 0 => some 1
  | n + 1, k + 1 =>
    if n + 1 = k + 1 then some 1
    else if n + 1 < k + 1 then some 0
    else (comb m n k).bind fun a => (comb m n (k + 1)).bind fun b => fit m (a + b)

/-- `mcomb` (src/utils.rs 11-13): `comb(n + k - 1, k)`. -/
def mcomb (m : Profile) (n k : Nat) : Option Nat :=
  (fit m (n + k)).bind fun s => (subW (2 ^ 64) m s 1).bind fun a => comb m a k

/-- The variables of `dbhash` during its loop. (src/position.rs 315-345.) -/
structure DbState where
  xRem : Nat
  oRem : Nat
  xIdx : Nat
  oIdx : Nat

/-- `if r > 0 { idx += mcomb(points - i, r - 1) }` (src/position.rs 336-341); with `idx = 0`, `i = 0` also the initialisation
(src/position.rs 319-328). -/
def dbAdd (m : Profile) (idx i r : Nat) : Option Nat :=
  if r > 0 then (mcomb m (26 - i) (r - 1)).bind fun c => fit m (idx + c) else some idx

/-- One iteration of the loop of `dbhash` (src/position.rs 329-342). -/
def dbStep {N : Nat} (m : Profile) (p : Pos N) (s : DbState) (i : Nat) : Option DbState :=
  let n := p.pip i
  (if n < 0 then (subW (2 ^ 64) m s.oRem n.natAbs).map fun r => { s with oRem := r }
   else if n > 0 then (subW (2 ^ 64) m s.xRem n.toNat).map fun r => { s with xRem := r }
   else some s).bind fun s =>
  (dbAdd m s.oIdx i s.oRem).bind fun o =>
  (dbAdd m s.xIdx i s.xRem).bind fun x =>
  some { s with oIdx := o, xIdx := x }

/-- `dbhash` (src/position.rs 315-343): `none` is an overflow panic. -/
def dbhash {N : Nat} (m : Profile) (p : Pos N) : Option Nat :=
  (subW (2 ^ 8) m N p.xOff).bind fun xRem =>
  (subW (2 ^ 8) m N p.oOff).bind fun oRem =>
  (dbAdd m 0 0 xRem).bind fun xIdx =>
  (dbAdd m 0 0 oRem).bind fun oIdx =>
  ((List.range' 1 24).foldlM (dbStep m p) ⟨xRem, oRem, xIdx, oIdx⟩).bind fun s =>
  (mcomb m 26 N).bind fun c => (fit m (s.xIdx * c)).bind fun a => fit m (a + s.oIdx)

end Bkgm
