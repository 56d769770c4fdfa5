import Verif.Proofs.ReleaseGen
import Verif.Proofs.ShiftGen
import Verif.Props.Checked
import Verif.Props.CodecText
/-!
# C95: the move generator of a release build
-/

namespace Bkgm
open Pos
variable {N : Nat}

namespace Rel

/-- The off counts as bytes. -/
def red (p : Pos N) : Pos N := { p with xOff := p.xOff % 256, oOff := p.oOff % 256 }

/-- The position with nothing off. -/
def bare (p : Pos N) : Pos N := { p with xOff := 0, oOff := 0 }

theorem more_bare (p : Pos N) : more N p.xOff p.oOff (bare p) = p := by
  unfold more bare; simp

theorem red_more (a b : Nat) (q : Pos N) : red (more N a b q) = shift N a b q := rfl

theorem shift_bare (p : Pos N) (hx : p.xOff ≤ 255) (ho : p.oOff ≤ 255) : shift N p.xOff p.oOff (bare p) = p := by
  unfold shift bare
  simp only [Nat.zero_add]
  rw [Nat.mod_eq_of_lt (by omega), Nat.mod_eq_of_lt (by omega)]

theorem countX_congr {M : Nat} {p : Pos M} {q : Pos N} (h : p.pips = q.pips) : p.view.countX = q.view.countX := by
  unfold Spec.Board.countX
  refine Finset.sum_congr rfl fun i _ => ?_
  simp only [view, pip, h]

theorem countO_congr {M : Nat} {p : Pos M} {q : Pos N} (h : p.pips = q.pips) : p.view.countO = q.view.countO := by
  unfold Spec.Board.countO
  refine Finset.sum_congr rfl fun i _ => ?_
  simp only [view, pip, h]

theorem count_flip (p : Pos N) : p.flip.view.countX = p.view.countO ∧ p.flip.view.countO = p.view.countX := by
  unfold Spec.Board.countX Spec.Board.countO
  constructor
  · rw [← Finset.sum_range_reflect]
    refine Finset.sum_congr rfl fun i hi => ?_
    have := Finset.mem_range.1 hi
    show (p.flip.pip _).toNat = (-p.pip i).toNat
    rw [pip_flip p (by omega), show 25 - (26 - 1 - i) = i by omega]
  · rw [← Finset.sum_range_reflect]
    refine Finset.sum_congr rfl fun i hi => ?_
    have := Finset.mem_range.1 hi
    show (-p.flip.pip _).toNat = (p.pip i).toNat
    rw [pip_flip p (by omega), show 25 - (26 - 1 - i) = i by omega, neg_neg]

theorem bare_bd (p : Pos N) (hx : p.view.countX ≤ 127) (ho : p.view.countO ≤ 127) : Chk.Bd (bare p) := by
  rw [← countX_congr (p := bare p) (q := p) rfl] at hx
  rw [← countO_congr (p := bare p) (q := p) rfl] at ho
  unfold Spec.Board.countX at hx
  unfold Spec.Board.countO at ho
  have a : (bare p).xOff = 0 := rfl
  have b : (bare p).oOff = 0 := rfl
  constructor
  · rw [a, Nat.add_zero]; exact hx
  · rw [b, Nat.add_zero]; exact ho

/-- What the generator produces before the positions are flipped. -/
def played (p : Pos N) : Dice → Option (List (Pos N))
  | .double die => doubleMoves p die
  | .mixed big small => mixedMoves p big small

theorem legal_eq (p : Pos N) (dice : Dice) : legalPositions p dice = (played p dice).map (List.map flip) := by
  unfold legalPositions played
  cases dice with
  | double d => simp only []; cases doubleMoves p d <;> rfl
  | mixed b s => simp only []; cases mixedMoves p b s <;> rfl

theorem played_eq (p : Pos N) (hb : p.BarsOK) (hx : p.view.countX ≤ 127) (ho : p.view.countO ≤ 127) (h1 : p.xOff ≤ 255) (h2 : p.oOff ≤ 255)
    (dice : Dice) (hv : dice.Valid) : played p dice = some ((p.playedPositions dice).map red) := by
  have hz := bare_bd p hx ho
  have hzb : (bare p).BarsOK := hb
  have hne := C02_never_empty (bare p) hzb dice hv
  have e : (p.playedPositions dice).map red = ((bare p).playedPositions dice).map (shift N p.xOff p.oOff) := by
    conv_lhs => rw [← more_bare p, played_more]
    rw [List.map_map]
    rfl
  rw [e]
  conv_lhs => rw [← shift_bare p h1 h2]
  cases dice with
  | double d =>
    obtain ⟨hd1, hd6⟩ : 1 ≤ d ∧ d ≤ 6 := hv
    refine doubleMoves_sim (bare p) hb.2 d _ ?_
    exact Chk.doubleMoves_ok hz hzb hd1 hd6 fun e => hne (by simp only [Pos.legalPositions, playedPositions, e, List.map_nil])
  | mixed big small =>
    obtain ⟨hd1, hd2, hd3⟩ : 1 ≤ small ∧ small < big ∧ big ≤ 6 := hv
    exact mixedMoves_sim (bare p) big small _ (Chk.mixedMoves_ok hz hzb hd1 hd2 hd3)

/-- The board of `p` in a valid position with 127 checkers a side. -/
def filled (p : Pos N) : Pos 127 := more 127 (127 - p.view.countX) (127 - p.view.countO) (bare p)

theorem filled_valid (p : Pos N) (hb : p.BarsOK) (hx : p.view.countX ≤ 127) (ho : p.view.countO ≤ 127) : (filled p).Valid := by
  refine ⟨?_, ?_, fun i _ => ?_, ?_, ?_⟩
  · have := hb.1; show (p.pip 0).toNat = 0; omega
  · have := hb.2; show (-p.pip 25).toNat = 0; omega
  · show (p.pip i).toNat = 0 ∨ (-p.pip i).toNat = 0; omega
  · have e : (filled p).view.countX = p.view.countX := countX_congr rfl
    have f : (filled p).view.xOff = 0 + (127 - p.view.countX) := rfl
    omega
  · have e : (filled p).view.countO = p.view.countO := countO_congr rfl
    have f : (filled p).view.oOff = 0 + (127 - p.view.countO) := rfl
    omega

/-- Counts on the board before and after a play. -/
theorem played_counts (p q : Pos N) (hb : p.BarsOK) (hx : p.view.countX ≤ 127) (ho : p.view.countO ≤ 127) (dice : Dice) (hv : dice.Valid)
    (hq : q ∈ p.playedPositions dice) :
    q.BarsOK ∧ q.view.countX + q.xOff = p.view.countX + p.xOff ∧ q.view.countO + q.oOff = p.view.countO + p.oOff ∧
      p.xOff ≤ q.xOff ∧ p.oOff ≤ q.oOff ∧ ∀ i : Fin 26, -127 ≤ q.pips i ∧ q.pips i ≤ 127 := by
  rw [← more_bare p, played_more] at hq
  obtain ⟨z, hz, rfl⟩ := List.mem_map.1 hq
  have hf := filled_valid p hb hx ho
  obtain ⟨w, hw⟩ : ∃ w : Pos 127, w = more 127 (127 - p.view.countX) (127 - p.view.countO) z := ⟨_, rfl⟩
  have wp : w.pips = z.pips := by rw [hw]; rfl
  have hm : w ∈ (filled p).playedPositions dice := by
    unfold filled
    rw [played_more, hw]
    exact List.mem_map_of_mem hz
  have hc : w.flip.Valid := C04_children_valid _ w.flip hf dice hv (List.mem_map.2 ⟨w, hm, rfl⟩)
  have hwv : w.Valid := by rw [← Pos.flip_flip w]; exact hc.flip
  have s1 := hwv.sumX
  have s2 := hwv.sumO
  have e1 : w.view.countX = z.view.countX := countX_congr wp
  have e2 : w.view.countO = z.view.countO := countO_congr wp
  have e3 : w.view.xOff = z.xOff + (127 - p.view.countX) := by rw [hw]; rfl
  have e4 : w.view.oOff = z.oOff + (127 - p.view.countO) := by rw [hw]; rfl
  have e5 : (more N p.xOff p.oOff z).view.countX = z.view.countX := countX_congr rfl
  have e6 : (more N p.xOff p.oOff z).view.countO = z.view.countO := countO_congr rfl
  have e7 : (more N p.xOff p.oOff z).xOff = z.xOff + p.xOff := rfl
  have e8 : (more N p.xOff p.oOff z).oOff = z.oOff + p.oOff := rfl
  have hbw := hwv.barsOK
  have bd := (Chk.Bd.of_valid hwv (le_refl _))
  refine ⟨?_, ?_, ?_, ?_, ?_, fun i => ?_⟩
  · unfold BarsOK pip at hbw ⊢
    rw [wp] at hbw
    exact hbw
  · omega
  · omega
  · omega
  · omega
  · have := bd.pip_le i.isLt
    simp only [pip, Fin.eta, i.isLt, dif_pos, wp] at this
    exact this

theorem flip_red {q : Pos N} (h : ∀ i : Fin 26, -127 ≤ q.pips i ∧ q.pips i ≤ 127) : flip (red q) = red q.flip := by
  unfold flip red Pos.flip
  simp only [Pos.mk.injEq, true_and, and_true]
  funext i
  have := h ⟨25 - i.val, by omega⟩
  unfold wrap8
  omega

/-- The release generator on a board of at most 127 checkers a side: the children of the model, their off counts taken modulo 256. -/
theorem legal_red (p : Pos N) (hb : p.BarsOK) (hx : p.view.countX ≤ 127) (ho : p.view.countO ≤ 127) (h1 : p.xOff ≤ 255) (h2 : p.oOff ≤ 255)
    (dice : Dice) (hv : dice.Valid) : legalPositions p dice = some ((p.legalPositions dice).map red) := by
  rw [legal_eq, played_eq p hb hx ho h1 h2 dice hv, Option.map_some, Pos.legalPositions, List.map_map, List.map_map]
  congr 1
  refine List.map_congr_left fun q hq => ?_
  exact flip_red (played_counts p q hb hx ho dice hv hq).2.2.2.2.2

theorem view_red_flip (c : Pos N) : (red c).flip.view = { c.flip.view with xOff := c.flip.view.xOff % 256, oOff := c.flip.view.oOff % 256 } := rfl

end Rel

/-- **C95** On every valid position, finished ones included, a release build generates exactly the positions of the checked build's model, in the same order:
nothing wraps and nothing panics. -/
theorem C95_valid (p : Pos N) (hp : p.Valid) (hN : N ≤ 127) (dice : Dice) (hv : dice.Valid) :
    Rel.legalPositions p dice = some (p.legalPositions dice) := by
  have sx : p.view.countX + p.xOff = N := hp.sumX
  have so : p.view.countO + p.oOff = N := hp.sumO
  rw [Rel.legal_red p hp.barsOK (by omega) (by omega) (by omega) (by omega) dice hv]
  congr 1
  conv_rhs => rw [← List.map_id (p.legalPositions dice)]
  refine List.map_congr_left fun c hc => ?_
  have hcv := C04_children_valid p c hp dice hv hc
  have tx : c.view.countX + c.xOff = N := hcv.sumX
  have ty : c.view.countO + c.oOff = N := hcv.sumO
  unfold Rel.red
  rw [Nat.mod_eq_of_lt (by omega), Nat.mod_eq_of_lt (by omega)]
  rfl

example : Ex.start.Valid ∧ (Dice.double 6).Valid ∧ (Rel.legalPositions Ex.start (.double 6)).isSome = true ∧
    (Ex.cells 1 [0, 0, 0, -1] 1 0).Valid ∧ (Chk.legalPositions (Ex.cells 1 [0, 0, 0, -1] 1 0) (.double 6)) = none ∧
    (Rel.legalPositions (Ex.cells 1 [0, 0, 0, -1] 1 0) (.double 6)).isSome = true := by decide +kernel

/-- **C95** Also from a board that does not have the variant's number of checkers (at most 127 a side) a release build generates, without a panic, exactly the
boards that the legal plays lead to, with the numbers of checkers off taken modulo 256, and the turn passes. -/
theorem C95_boards (p : Pos N) (hb : p.BarsOK) (hx : p.view.countX ≤ 127) (ho : p.view.countO ≤ 127) (h1 : p.xOff ≤ 255) (h2 : p.oOff ≤ 255)
    (dice : Dice) (hv : dice.Valid) :
    ∃ l, Rel.legalPositions p dice = some l ∧ l ≠ [] ∧ ∀ c, c ∈ l ↔ c.turn = !p.turn ∧
      ∃ b, Spec.Legal (Spec.faces dice) p.view b ∧ c.flip.view = { b with xOff := b.xOff % 256, oOff := b.oOff % 256 } := by
  refine ⟨_, Rel.legal_red p hb hx ho h1 h2 dice hv, fun h => C02_never_empty p hb dice hv (List.map_eq_nil_iff.1 h), fun c => ?_⟩
  rw [List.mem_map]
  constructor
  · rintro ⟨c, hc, rfl⟩
    obtain ⟨t, l⟩ := (C01_legal_positions_iff p c hb dice hv).1 hc
    exact ⟨t, _, l, Rel.view_red_flip c⟩
  · rintro ⟨t, b, l, e⟩
    obtain ⟨c', hc', rfl⟩ := C01_every_play_is_listed p hb dice hv b l
    refine ⟨c', hc', ?_⟩
    have t' := ((C01_legal_positions_iff p c' hb dice hv).1 hc').1
    have : (Rel.red c').flip = c.flip := view_inj (by
      show (!c'.turn) = !c.turn
      rw [t, t']) (by rw [Rel.view_red_flip, e])
    rw [← Pos.flip_flip (Rel.red c'), this, Pos.flip_flip]

/-- Sixteen checkers of `x`, of which 255 are "off": what a release build reads from a GNU id with 16 checkers of `x`. -/
example : (Ex.cells 15 [0, 16, 0, 0, 0, 0, 0, 0, -3] 255 12).BarsOK ∧ (Ex.cells 15 [0, 16, 0, 0, 0, 0, 0, 0, -3] 255 12).view.countX = 16 ∧
    (Rel.legalPositions (Ex.cells 15 [0, 16, 0, 0, 0, 0, 0, 0, -3] 255 12) (.double 1)).map (fun l => l.map fun c => (c.oOff, c.xOff)) = some [(3, 12)] := by
  decide +kernel

/-- **C95** The checkers of each side on the board and off still add up to the same number modulo 256 after a play, the board counts stay within 127 and the off
counts are bytes: so every further generation is covered by `C95_boards`. -/
theorem C95_counted (p c : Pos N) (hb : p.BarsOK) (hx : p.view.countX ≤ 127) (ho : p.view.countO ≤ 127) (h1 : p.xOff ≤ 255) (h2 : p.oOff ≤ 255)
    (dice : Dice) (hv : dice.Valid) (l : List (Pos N)) (hl : Rel.legalPositions p dice = some l) (hc : c ∈ l) :
    c.BarsOK ∧ c.view.countX ≤ 127 ∧ c.view.countO ≤ 127 ∧ c.xOff ≤ 255 ∧ c.oOff ≤ 255 ∧
      (c.view.countX + c.xOff) % 256 = (p.view.countO + p.oOff) % 256 ∧ (c.view.countO + c.oOff) % 256 = (p.view.countX + p.xOff) % 256 := by
  rw [Rel.legal_red p hb hx ho h1 h2 dice hv] at hl
  obtain rfl := Option.some.inj hl
  obtain ⟨c', hc', rfl⟩ := List.mem_map.1 hc
  obtain ⟨q, hq, rfl⟩ := List.mem_map.1 hc'
  obtain ⟨a1, a2, a3, a4, a5, -⟩ := Rel.played_counts p q hb hx ho dice hv hq
  have fb : (Rel.red q.flip).BarsOK := by
    have e : (Rel.red q.flip).BarsOK ↔ q.flip.BarsOK := Iff.rfl
    rw [e]
    unfold BarsOK at a1 ⊢
    rw [pip_flip q (by omega), pip_flip q (by omega)]
    simp only [Nat.sub_self, Nat.sub_zero]
    omega
  have cx : (Rel.red q.flip).view.countX = q.view.countO := (Rel.countX_congr rfl).trans (Rel.count_flip q).1
  have co : (Rel.red q.flip).view.countO = q.view.countX := (Rel.countO_congr rfl).trans (Rel.count_flip q).2
  have c1 : (Rel.red q.flip).xOff = q.oOff % 256 := rfl
  have c2 : (Rel.red q.flip).oOff = q.xOff % 256 := rfl
  refine ⟨fb, by omega, by omega, ?_, ?_, ?_, ?_⟩
  · omega
  · omega
  · omega
  · omega

example : (Ex.cells 15 [0, 16, 0, 0, 0, 0, 0, 0, -3] 255 12).view.countO = 3 ∧ (16 + 255) % 256 = 15 ∧ (3 + 12) % 256 = 15 := by decide +kernel

/-- **C95** If the checkers of both sides add up to `N` modulo 256, the game is over in a child exactly when the side that has moved or its opponent has no checker
left on the board: a wrapped off count is never mistaken for a finished game. -/
theorem C95_over (p c : Pos N) (hN : N ≤ 127) (hb : p.BarsOK) (hx : p.view.countX ≤ 127) (ho : p.view.countO ≤ 127) (h1 : p.xOff ≤ 255) (h2 : p.oOff ≤ 255)
    (sx : (p.view.countX + p.xOff) % 256 = N) (so : (p.view.countO + p.oOff) % 256 = N)
    (dice : Dice) (hv : dice.Valid) (l : List (Pos N)) (hl : Rel.legalPositions p dice = some l) (hc : c ∈ l) :
    (c.gameState = .ongoing ↔ c.view.countX ≠ 0 ∧ c.view.countO ≠ 0) := by
  obtain ⟨-, a1, a2, a3, a4, a5, a6⟩ := C95_counted p c hb hx ho h1 h2 dice hv l hl hc
  have e : c.gameState = .ongoing ↔ c.xOff ≠ N ∧ c.oOff ≠ N := by
    unfold gameState
    split_ifs <;> simp_all
  rw [e]
  omega

example : (Ex.cells 15 [0, 16, 0, 0, 0, 0, 0, 0, -3] 255 12).BarsOK ∧
    ((Rel.legalPositions (Ex.cells 15 [0, 16, 0, 0, 0, 0, 0, 0, -3] 255 12) (.double 1)).map fun l => l.map fun c => c.gameState) = some [.ongoing] := by
  decide +kernel

/-- **C95** Every position that a build without overflow checks reads from a GNU id is one of those of `C95_boards` and `C95_over`: whatever was read, generating
moves does not panic and follows the rules. -/
theorem C95_gnuid (hN : N ≤ 127) (id : Str) (p : Pos N) (h : GnuId.decode false N id = some (.ok p)) (dice : Dice) (hv : dice.Valid) :
    p.BarsOK ∧ p.view.countX ≤ 30 ∧ p.view.countO ≤ 30 ∧ p.xOff ≤ 255 ∧ p.oOff ≤ 255 ∧
    ∃ l, Rel.legalPositions p dice = some l ∧ l ≠ [] ∧ ∀ c, c ∈ l ↔ c.turn = false ∧
      ∃ b, Spec.Legal (Spec.faces dice) p.view b ∧ c.flip.view = { b with xOff := b.xOff % 256, oOff := b.oOff % 256 } := by
  obtain ⟨K, ns, z, hK, -, hlen, hbits, ht, hp, ho, hx⟩ := (C23_ok_iff false id p).1 h
  have hs := GnuId.sum_bound hlen hbits
  have hb : p.BarsOK := by
    have a := hp 0 (by omega)
    have b := hp 25 (by omega)
    simp only [if_true, if_neg (show ¬ (0 = 25) by omega), if_neg (show ¬ (25 = 0) by omega)] at a b
    unfold BarsOK
    omega
  have sumEq : ∀ l : List Nat, l.sum = ∑ i ∈ Finset.range l.length, l.getD i 0 := by
    intro l
    rw [← Fin.sum_univ_eq_sum_range (fun i => l.getD i 0)]
    conv_lhs => rw [← List.ofFn_getElem (xs := l), List.sum_ofFn]
    refine Finset.sum_congr rfl fun i _ => ?_
    rw [List.getD_eq_getElem?_getD, List.getElem?_eq_getElem i.isLt]
    rfl
  have bx : p.view.countX ≤ (ns.drop 25).sum := by
    rw [sumEq, List.length_drop, hlen]
    unfold Spec.Board.countX
    rw [Finset.sum_range_succ']
    have h0 : p.view.x 0 = 0 := by have := hb.1; show (p.pip 0).toNat = 0; omega
    rw [h0, Nat.add_zero]
    refine Finset.sum_le_sum fun i hi => ?_
    have hi := Finset.mem_range.1 hi
    have e : (ns.drop 25).getD i 0 = ns.getD (24 + (i + 1)) 0 := by
      rw [List.getD_eq_getElem?_getD, List.getD_eq_getElem?_getD, List.getElem?_drop]
      congr 2; omega
    rw [e]
    show (p.pip (i + 1)).toNat ≤ _
    rw [hp (i + 1) (by omega), if_neg (by omega)]
    split_ifs <;> omega
  have bo : p.view.countO ≤ (ns.take 25).sum := by
    rw [sumEq, List.length_take, hlen]
    unfold Spec.Board.countO
    rw [Finset.sum_range_succ]
    have h0 : p.view.o 25 = 0 := by have := hb.2; show (-p.pip 25).toNat = 0; omega
    rw [h0, Nat.add_zero, show min 25 50 = 25 by omega, ← Finset.sum_range_reflect]
    refine Finset.sum_le_sum fun i hi => ?_
    have hi := Finset.mem_range.1 hi
    have e : (ns.take 25).getD i 0 = ns.getD i 0 := by
      rw [List.getD_eq_getElem?_getD, List.getD_eq_getElem?_getD, List.getElem?_take, if_pos (by omega)]
    rw [e]
    show (-p.pip (25 - 1 - i)).toNat ≤ _
    rw [hp (25 - 1 - i) (by omega), if_neg (show ¬ (25 - 1 - i = 25) by omega), show 24 - (25 - 1 - i) = i by omega]
    split_ifs <;> omega
  have x1 : p.xOff ≤ 255 := by omega
  have o1 : p.oOff ≤ 255 := by omega
  refine ⟨hb, by omega, by omega, x1, o1, ?_⟩
  have := C95_boards p hb (by omega) (by omega) x1 o1 dice hv
  rw [ht] at this
  exact this

/-- The id with 16 checkers of `x` on the ace point: a debug build panics, a release build reads it, with 255 checkers off. -/
example : GnuId.decode true 15 "AAAH8P8PAAAAAA".toList = none ∧
    (GnuId.decode false 15 "AAAH8P8PAAAAAA".toList).map (fun r => r.toOption.map fun p => (p.pip 1, p.xOff)) = some (some (16, 255)) := by decide +kernel

/-- **C95** `try_move_single_checker` of a release build on a valid position: the checked result. -/
theorem C95_try_move (p : Pos N) (hp : p.Valid) (hN : N ≤ 127) (src die : Nat) (hs : src ≤ 25) (h1 : 1 ≤ die) (h6 : die ≤ 6) :
    Rel.tryMove p src die = some (p.tryMove src die) := by
  have sx : p.view.countX + p.xOff = N := hp.sumX
  have so : p.view.countO + p.oOff = N := hp.sumO
  have e0 : Rel.shift N 0 0 p = p := by
    unfold Rel.shift
    rw [Nat.add_zero, Nat.add_zero, Nat.mod_eq_of_lt (by omega), Nat.mod_eq_of_lt (by omega)]
  have := Rel.tryMove_sim (N := N) (a := 0) (b := 0) p src die _ (C16_try_move_no_panic p hp hN src die hs h1 h6)
  rw [e0] at this
  rw [this]
  cases ht : p.tryMove src die with
  | none => rfl
  | some q =>
    rw [Option.map_some]
    have hq : q.xOff ≤ 255 ∧ q.oOff ≤ 255 := by
      unfold Pos.tryMove at ht
      split_ifs at ht with hc
      obtain rfl := Option.some.inj ht
      rw [xOff_mv, oOff_mv]
      split_ifs <;> omega
    unfold Rel.shift
    rw [Nat.add_zero, Nat.add_zero, Nat.mod_eq_of_lt (by omega), Nat.mod_eq_of_lt (by omega)]

example : Ex.hitPos.Valid ∧ (Rel.tryMove Ex.hitPos 8 3).isSome = true ∧ (Rel.tryMove Ex.hitPos 26 3) = none := by decide +kernel

end Bkgm
