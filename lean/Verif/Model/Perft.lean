import Verif.Model.MoveGen
/-!
# Model of `src/bin/bkgm-perft.rs` (the counting function)
-/

namespace Bkgm

/-- `perft_all_rolls_n` (src/bin/bkgm-perft.rs 22-36). The sums are `u128`: as in a release build they wrap modulo `2^128`.
The two `for` loops are folds that carry `total`. -/
def perft {N : Nat} (weighted : Bool) : (depth : Nat) → Pos N → Nat
  | 0, _ => 1
  | depth + 1, position =>
    all21.foldl (fun total dc =>
      let mult := if weighted then dc.2 else 1
      (position.legalPositions dc.1).foldl (fun total next =>
        (total + mult * perft weighted depth next) % 2 ^ 128) total) 0

end Bkgm
