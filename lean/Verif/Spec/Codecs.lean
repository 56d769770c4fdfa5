import Verif.Spec.Valid
/-!
# The published text forms of a position

GNU Backgammon position ids and the board part of an XGID, described without reference to the code.
-/
namespace Spec.GnuId

/-- The 64 letters of base64. -/
def alphabet : List Char := "ABCDEFGHIJKLMNOPQRSTUVWXYZabcdefghijklmnopqrstuvwxyz0123456789+/".toList

/-- A number of 80 bits in 14 letters, six bits each, the most significant first; the last four bits are zero. -/
def text (K : Nat) : List Char := (List.range 14).map fun j => alphabet.getD (K * 16 / 64 ^ (13 - j) % 64) '='

/-- Bit `i` of the key: the bytes come most significant first, the bits of a byte least significant first. -/
def bit (K i : Nat) : Bool := (K / 256 ^ (9 - i / 8)).testBit (i % 8)

/-- The 80 bits of the key. -/
def bits (K : Nat) : List Bool := (List.range 80).map (bit K)

/-- Every count as that many ones and a zero. -/
def unary (ns : List Nat) : List Bool := ns.flatMap fun n => List.replicate n true ++ [false]

/-- The 50 counts: the checkers of the player not to move on their points 1 to 24 and on the bar, then those of the player to move. -/
def counts (b : Board) : List Nat :=
  (List.range 24).map (fun j => b.o (24 - j)) ++ [b.o 0] ++ (List.range 24).map (fun j => b.x (j + 1)) ++ [b.x 25]

end Spec.GnuId

namespace Spec.Xgid

/-- The letter for a number of checkers. -/
def letter (x o : Nat) : Char :=
  if x ≠ 0 then "-abcdefghijklmnop".toList.getD x '?' else if o ≠ 0 then "-ABCDEFGHIJKLMNOP".toList.getD o '?' else '-'

/-- The 26 letters of a board: the bar of `x`, the points 24 down to 1, the bar of `o`. -/
def board (b : Board) : List Char := (List.range 26).map fun j => letter (b.x (25 - j)) (b.o (25 - j))

end Spec.Xgid
