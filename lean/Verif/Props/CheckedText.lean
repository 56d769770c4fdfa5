import Verif.Model.CheckedText
import Verif.Props.CheckedGame
import Verif.Props.Position
import Verif.Props.GnuId
import Verif.Props.Utf8
/-!
# C72: writing a position as text never panics
-/

namespace Bkgm
open Pos
variable {N : Nat}

theorem chk_mapM {α β : Type} {f : α → Option β} {g : α → β} : ∀ {l : List α}, (∀ a ∈ l, f a = some (g a)) → Chk.mapM f l = some (l.map g)
  | [], _ => rfl
  | a :: l, h => by
    rw [Chk.mapM, h a (by simp), chk_mapM (l := l) fun b hb => h b (by simp [hb])]
    rfl

theorem chk_mapM_none {α β : Type} {f : α → Option β} {a : α} : ∀ {l : List α}, a ∈ l → f a = none → Chk.mapM f l = none
  | b :: l, h, hf => by
    rw [Chk.mapM]
    rcases List.mem_cons.1 h with rfl | h
    · rw [hf]; rfl
    · rw [chk_mapM_none h hf]
      cases f b <;> rfl

theorem chk_foldM {α β : Type} {f : β → α → Option β} {g : β → α → β} : ∀ {l : List α} (b : β), (∀ a ∈ l, ∀ b, f b a = some (g b a)) →
    Chk.foldM f l b = some (l.foldl g b)
  | [], _, _ => rfl
  | a :: l, b, h => by
    rw [Chk.foldM, h a (by simp) b]
    exact chk_foldM (l := l) _ fun c hc => h c (by simp [hc])

theorem asU8_eq {v : Int} (h0 : 0 ≤ v) (h1 : v ≤ 255) : Chk.asU8 v = v.toNat := by unfold Chk.asU8; congr 1; omega

theorem asI8_eq {n : Nat} (h : n ≤ 127) : Chk.asI8 n = n := if_pos (by omega)

theorem chk_xBar (p : Pos N) (hp : p.Valid) (hN : N ≤ 127) : Chk.xBar p = some p.xBar := by
  have h := (Chk.Bd.of_valid hp hN).pip_le (show X_BAR < 26 by decide)
  have hb := hp.barsOK.2
  unfold Chk.xBar
  rw [Chk.get_ok _ (by decide)]
  show some (Chk.asU8 _) = _
  rw [asU8_eq (by exact hb) (by omega)]
  rfl

theorem bars_le (p : Pos N) (hp : p.Valid) (hN : N ≤ 127) : p.xBar ≤ 127 ∧ p.oBar ≤ 127 := by
  have h := (Chk.Bd.of_valid hp hN).pip_le (show X_BAR < 26 by decide)
  have h' := (Chk.Bd.of_valid hp hN).pip_le (show O_BAR < 26 by decide)
  unfold xBar oBar
  omega

theorem cell_le {p : Pos N} (hp : p.Valid) {i : Nat} (hi : i < 26) : -(N : Int) ≤ p.pip i ∧ p.pip i ≤ N := by
  have hX := hp.sumX
  have hO := hp.sumO
  have a : p.view.x i ≤ p.view.countX := Finset.single_le_sum (f := p.view.x) (fun _ _ => Nat.zero_le _) (Finset.mem_range.2 hi)
  have b : p.view.o i ≤ p.view.countO := Finset.single_le_sum (f := p.view.o) (fun _ _ => Nat.zero_le _) (Finset.mem_range.2 hi)
  simp only [view] at a b hX hO
  omega

/-- **C72** `phase` neither fails its assertion nor one of its two `expect`s, as long as not both sides have finished; and it is the function of C12. -/
theorem C72_phase (p : Pos N) (hp : p.Valid) (hn : ¬ (p.xOff = N ∧ p.oOff = N)) : ∃ ph, Chk.phase p = some ph ∧ p.phase = some ph := by
  have hX := hp.sumX
  have hO := hp.sumO
  have x0 : p.view.xOff = p.xOff := rfl
  have o0 : p.view.oOff = p.oOff := rfl
  have h : Chk.phase p = p.phase := by
    unfold Chk.phase Pos.phase
    rw [chk_gameState p (by omega)]
    simp only [Option.bind_eq_bind, Option.bind_some]
    cases p.gameState with
    | gameOver r => rfl
    | ongoing =>
      simp only
      cases p.rposX with
      | none => rfl
      | some a => cases p.posO <;> rfl
  rw [h]
  have := C12_phase p hp hn
  cases hg : p.phase with
  | none => simp [hg] at this
  | some ph => exact ⟨ph, rfl, rfl⟩

example := C72_phase Ex.hitPos (by decide) (by decide)

theorem letter_ok {base n : Nat} (h1 : 1 ≤ n) (h2 : base + n ≤ 256) : Chk.letter base n = some (base + n - 1) := by
  unfold Chk.letter
  rw [Chk.sub_ok h1]
  show Chk.u8 _ = _
  rw [Chk.u8_ok (by omega)]
  congr 1
  omega

/-- The byte written for a cell. -/
def xgByte (n : Int) : Nat := if n > 0 then 96 + n.toNat else if n < 0 then 64 + (-n).toNat else 45

theorem cellByte_ok {n : Int} (h : -127 ≤ n ∧ n ≤ 127) : Chk.cellByte n = some (xgByte n) := by
  unfold Chk.cellByte xgByte
  split_ifs with h1 h2
  · rw [asU8_eq (by omega) (by omega), letter_ok (by omega) (by omega)]
    congr 1
    omega
  · rw [Chk.i8_ok (by omega)]
    show Chk.letter 65 (Chk.asU8 (-n)) = _
    rw [asU8_eq (by omega) (by omega), letter_ok (by omega) (by omega)]
    congr 1
    omega
  · rfl

/-- The 26 bytes. -/
def xgBytes (p : Pos N) : List Nat :=
  xgByte (p.xBar : Int) :: (List.range' 1 24).map (fun i => xgByte (p.pip (25 - i))) ++ [xgByte (-(p.oBar : Int))]

theorem xgidEncode_eq (p : Pos N) (hp : p.Valid) (hN : N ≤ 127) : Chk.xgidEncode p = Stdin.fromUtf8 ((xgBytes p).map UInt8.ofNat) := by
  obtain ⟨hx, ho⟩ := bars_le p hp hN
  unfold Chk.xgidEncode xgBytes
  rw [chk_xBar p hp hN, chk_oBar p hp hN]
  have e1 : Chk.barByte 97 p.xBar = some (xgByte (p.xBar : Int)) := by
    unfold xgByte Chk.barByte
    split_ifs with h h1 h2 h3 h4
    · rw [letter_ok (by omega) (by omega)]; congr 1; omega
    · omega
    · omega
    · omega
    · omega
    · rfl
  have e2 : Chk.barByte 65 p.oBar = some (xgByte (-(p.oBar : Int))) := by
    unfold xgByte Chk.barByte
    split_ifs with h h1 h2 h3 h4
    · omega
    · rw [letter_ok (by omega) (by omega)]; congr 1; omega
    · omega
    · omega
    · omega
    · rfl
  simp only [Option.bind_eq_bind, Option.bind_some, e1, e2]
  rw [chk_mapM (g := fun i => xgByte (p.pip (25 - i)))]
  · simp only [Option.bind_some]
  · intro i hi
    have hi := List.mem_range'_1.1 hi
    rw [Chk.sub_ok (by omega)]
    show (Chk.get p (25 - i)).bind _ = _
    rw [Chk.get_ok _ (by omega)]
    show Chk.cellByte _ = _
    rw [cellByte_ok ((Chk.Bd.of_valid hp hN).pip_le (by omega))]

theorem mem_xgBytes {p : Pos N} {b : Nat} (hp : p.Valid) : b ∈ xgBytes p ↔ ∃ i, i < 26 ∧ b = xgByte (p.pip i) := by
  have hb := hp.barsOK
  have ex : (p.xBar : Int) = p.pip 25 := Int.toNat_of_nonneg hb.2
  have eo : -(p.oBar : Int) = p.pip 0 := by
    have : ((-p.pip 0).toNat : Int) = -p.pip 0 := Int.toNat_of_nonneg (by have := hb.1; omega)
    show -((-p.pip 0).toNat : Int) = _
    omega
  unfold xgBytes
  rw [ex, eo]
  simp only [List.mem_append, List.mem_cons, List.mem_map, List.mem_range'_1, List.mem_singleton, List.not_mem_nil, or_false]
  constructor
  · rintro ((h | ⟨i, hi, h⟩) | h)
    · exact ⟨25, by omega, h⟩
    · exact ⟨25 - i, by omega, h.symm⟩
    · exact ⟨0, by omega, h⟩
  · rintro ⟨i, hi, h⟩
    by_cases h0 : i = 0
    · subst h0; exact .inr h
    · by_cases h1 : i = 25
      · subst h1; exact .inl (.inl h)
      · exact .inl (.inr ⟨25 - i, by omega, by rw [h]; congr 2; omega⟩)

/-- **C72** XGID: with up to 31 checkers per side, hence in every variant, encoding a valid position does not panic, and the text is the one of C25. -/
theorem C72_xgid (hN : N ≤ 31) (p : Pos N) (hp : p.Valid) : Chk.xgidEncode p = some (Xgid.encode p) := by
  rw [xgidEncode_eq p hp (by omega), Stdin.fromUtf8_ascii]
  · obtain ⟨hx, ho⟩ := bars_le p hp (by omega)
    congr 1
    unfold xgBytes Xgid.encode
    have e : ∀ n : Int, Char.ofNat (xgByte n) = Xgid.cellChar n := by
      intro n
      unfold xgByte Xgid.cellChar Xgid.lowLetter Xgid.upLetter
      split_ifs
      · congr 1; omega
      · congr 1; omega
      · rfl
    rw [List.map_append, List.map_cons, List.map_map, e]
    simp only [List.map_cons, List.map_nil, e]
    have a1 : Xgid.cellChar (p.xBar : Int) = if p.xBar > 0 then Xgid.lowLetter p.xBar else '-' := by
      unfold Xgid.cellChar
      split_ifs <;> first | rfl | omega
    have a2 : Xgid.cellChar (-(p.oBar : Int)) = if p.oBar > 0 then Xgid.upLetter p.oBar else '-' := by
      unfold Xgid.cellChar
      split_ifs <;> first | rfl | omega | simp
    rw [a1, a2]
    have a3 : (Char.ofNat ∘ fun i => xgByte (p.pip (25 - i))) = fun i => Xgid.cellChar (p.pip (25 - i)) := funext fun i => e _
    rw [a3]
  · intro b hb
    obtain ⟨i, hi, rfl⟩ := (mem_xgBytes hp).1 hb
    have := cell_le hp hi
    unfold xgByte
    split_ifs <;> omega

example := C72_xgid (by omega) Ex.hitPos (by decide)

/-- **C72** The exact condition: with up to 97 checkers per side, encoding a valid position as XGID panics ("xgid board bytes must be ascii") exactly when 32 or more
checkers of the player to move, or 64 or more of the opponent, stand on one point or on the bar. -/
theorem C72_xgid_panics_iff (hN : N ≤ 97) (p : Pos N) (hp : p.Valid) :
    Chk.xgidEncode p = none ↔ ∃ i, i < 26 ∧ (32 ≤ p.view.x i ∨ 64 ≤ p.view.o i) := by
  rw [xgidEncode_eq p hp (by omega)]
  have hlt : ∀ b ∈ xgBytes p, b < 0xC2 := by
    intro b hb
    obtain ⟨i, hi, rfl⟩ := (mem_xgBytes hp).1 hb
    have := cell_le hp hi
    unfold xgByte
    split_ifs <;> omega
  have key : ∀ i, 128 ≤ xgByte (p.pip i) ↔ 32 ≤ p.view.x i ∨ 64 ≤ p.view.o i := by
    intro i
    simp only [view]
    unfold xgByte
    split_ifs <;> omega
  by_cases h : ∃ b ∈ xgBytes p, 128 ≤ b
  · rw [Stdin.fromUtf8_none hlt h]
    obtain ⟨b, hb, h1⟩ := h
    obtain ⟨i, hi, rfl⟩ := (mem_xgBytes hp).1 hb
    exact ⟨fun _ => ⟨i, hi, (key i).1 h1⟩, fun _ => rfl⟩
  · rw [Stdin.fromUtf8_ascii fun b hb => not_le.1 fun h1 => h ⟨b, hb, h1⟩]
    refine ⟨fun h => by simp at h, fun ⟨i, hi, h2⟩ => ?_⟩
    exact (h ⟨_, (mem_xgBytes hp).2 ⟨i, hi, rfl⟩, (key i).2 h2⟩).elim

/-- 32 checkers on one point. -/
example : Chk.xgidEncode (Ex.cells 32 [0, 32] 0 32) = none :=
  (C72_xgid_panics_iff (by omega) _ (by decide)).2 ⟨1, by decide⟩

/-- **C72** FIBS: with up to 127 checkers per side encoding does not panic, and the text is the one of C28. -/
theorem C72_fibs (hN : N ≤ 127) (p : Pos N) (hp : p.Valid) : Chk.fibsEncode p = some (Fibs.encode p) := by
  unfold Chk.fibsEncode Fibs.encode
  rw [chk_xBar p hp hN, chk_oBar p hp hN, chk_mapM (g := fun i => Fibs.pointToken (p.pip i))]
  · rfl
  · intro i hi
    have hi := List.mem_range'_1.1 (List.mem_reverse.1 hi)
    have hc := (Chk.Bd.of_valid hp hN).pip_le (i := i) (by omega)
    rw [Chk.get_ok _ (by omega)]
    show Chk.fibsToken _ = _
    unfold Chk.fibsToken Fibs.pointToken
    split_ifs
    · rfl
    · rw [Chk.i8_ok (by omega)]; rfl
    · rfl

example := C72_fibs (by omega) Ex.hitPos (by decide)

/-- **C72** `{:?}`: with up to 127 checkers per side it does not panic, and the text is the one of C56. -/
theorem C72_debug (hN : N ≤ 127) (p : Pos N) (hp : p.Valid) : Chk.debugText p = some p.debugText := by
  have hO : Chk.debugO p = some p.debugO := by
    unfold Chk.debugO Pos.debugO
    simp only
    rw [chk_foldM (g := fun s i => if p.pip i < 0 then s ++ (showNat i ++ ":".toList ++ showInt (-p.pip i) ++ ", ".toList) else s)]
    · simp only [Option.bind_eq_bind, Option.bind_some]
      rw [Chk.get_ok _ (by decide)]
      have hc := (Chk.Bd.of_valid hp hN).pip_le (show O_BAR < 26 by decide)
      simp only [Option.bind_some]
      by_cases h : p.pip O_BAR < 0
      · rw [if_pos h, if_pos h, Chk.i8_ok (by omega)]; rfl
      · rw [if_neg h, if_neg h]; rfl
    · intro i hi s
      have hi := mem_rng.1 (List.mem_reverse.1 hi)
      have hX : X_BAR = 25 := rfl
      have hc := (Chk.Bd.of_valid hp hN).pip_le (i := i) (by omega)
      rw [Chk.get_ok _ (by omega)]
      simp only [Option.bind_eq_bind, Option.bind_some]
      by_cases h : p.pip i < 0
      · rw [if_pos h, if_pos h, Chk.i8_ok (by omega)]; rfl
      · rw [if_neg h, if_neg h]; rfl
  unfold Chk.debugText
  rw [hO]
  rfl

example := C72_debug (by omega) Ex.hitPos (by decide)

theorem printPoint_ok {v row : Int} (h : -127 ≤ v ∧ v ≤ 127) : Chk.printPoint v row = some (Pos.printPoint v row) := by
  unfold Chk.printPoint
  split_ifs with h1 h2
  · rw [Chk.i8_ok (by omega)]
    show some (Pos.printPoint (- -v) row) = _
    rw [neg_neg]
  · rw [Chk.i8_ok (by omega)]; rfl
  · rfl

/-- **C72** `show`: with up to 127 checkers per side it does not panic, and prints the lines of C59. -/
theorem C72_show (hN : N ≤ 127) (p : Pos N) (hp : p.Valid) : Chk.showBoard p = some p.showBoard := by
  obtain ⟨hx, ho⟩ := bars_le p hp hN
  have hX := hp.sumX
  have hO := hp.sumO
  have x0 : p.view.xOff = p.xOff := rfl
  have o0 : p.view.oOff = p.oOff := rfl
  have hc : ∀ i, i < 26 → -127 ≤ p.pip i ∧ p.pip i ≤ 127 := fun i hi => (Chk.Bd.of_valid hp hN).pip_le hi
  unfold Chk.showBoard Pos.showBoard
  rw [chk_mapM (l := List.range 5) (g := fun row : Nat =>
    "│".toList ++
    ((rng 13 25).flatMap fun point =>
      Pos.printPoint (p.pip point) row ++
        (if point = 18 then "│".toList ++ Pos.printPoint (-(p.oBar : Int)) row ++ "│".toList else [])) ++
    "│".toList ++ Pos.printPoint (-(p.oOff : Int)) row ++ "│".toList),
    chk_mapM (l := (List.range 5).reverse) (g := fun row : Nat =>
    "│".toList ++
    ((rng 1 13).reverse.flatMap fun point =>
      (if point = 6 then "│".toList ++ Pos.printPoint (p.xBar : Int) row ++ "│".toList else []) ++
        Pos.printPoint (p.pip point) row) ++
    "│".toList ++ Pos.printPoint (p.xOff : Int) row ++ "│".toList)]
  · rfl
  · intro row _
    rw [chk_mapM (g := fun point => (if point = 6 then "│".toList ++ Pos.printPoint (p.xBar : Int) row ++ "│".toList else []) ++
        Pos.printPoint (p.pip point) row)]
    · simp only [Option.bind_eq_bind, Option.bind_some]
      rw [asI8_eq (by omega), printPoint_ok (by omega)]
      simp only [Option.bind_some, List.flatMap_def]
      rfl
    · intro i hi
      have hi := mem_rng.1 (List.mem_reverse.1 hi)
      rw [chk_xBar p hp hN, Chk.get_ok _ (by omega)]
      simp only [Option.bind_eq_bind, Option.bind_some, printPoint_ok (hc i (by omega))]
      rw [asI8_eq (by omega), printPoint_ok (by omega)]
      by_cases h : i = 6 <;> simp [h]
  · intro row _
    rw [chk_mapM (g := fun point => Pos.printPoint (p.pip point) row ++
        (if point = 18 then "│".toList ++ Pos.printPoint (-(p.oBar : Int)) row ++ "│".toList else []))]
    · simp only [Option.bind_eq_bind, Option.bind_some]
      rw [asI8_eq (by omega), Chk.i8_ok (by omega)]
      simp only [Option.bind_some]
      rw [printPoint_ok (by omega)]
      simp only [Option.bind_some, List.flatMap_def]
      rfl
    · intro i hi
      have hi := mem_rng.1 hi
      rw [chk_oBar p hp hN, Chk.get_ok _ (by omega)]
      simp only [Option.bind_eq_bind, Option.bind_some, printPoint_ok (hc i (by omega))]
      rw [asI8_eq (by omega), Chk.i8_ok (by omega)]
      simp only [Option.bind_some]
      rw [printPoint_ok (by omega)]
      by_cases h : i = 18 <;> simp [h]

example := C72_show (by omega) Ex.hitPos (by decide)

/-- **C72** All of it for the positions of the seven variants. -/
theorem C72_variants (v : Variant) (q : VPos) (hq : VPos.ValidFor v q) :
    Chk.xgidEncodeV q = some (Xgid.encodeV q) ∧ Chk.fibsEncodeV q = some (Fibs.encodeV q) ∧ (∃ id, GnuId.encodeV q = some id) ∧
    (q.encodeWith fun _ p => Chk.debugText p) = some (q.encodeWith fun _ p => p.debugText) ∧
    (q.encodeWith fun _ p => Chk.showBoard p) = some (q.encodeWith fun _ p => p.showBoard) := by
  obtain ⟨id, hid, -⟩ := C22_variant_round_trip v q hq
  refine ⟨?_, ?_, ⟨id, hid⟩, ?_, ?_⟩ <;> obtain ⟨rfl, hq⟩ := hq <;> cases q
  all_goals first
    | exact C72_xgid (by omega) _ hq
    | exact C72_fibs (by omega) _ hq
    | exact C72_debug (by omega) _ hq
    | exact C72_show (by omega) _ hq

example := C72_variants .longgammon _ (C41_start_position _).1

/-- A position of 32 checkers per side: all of `x` on the bar, all of `o` on the 24 point. -/
def stacked (N : Nat) : Pos N := ⟨true, fun i => if i.val = 25 then N else if i.val = 24 then -N else 0, 0, 0⟩

/-- **C72** The bounds are sharp: with 32 checkers per side the XGID, and with 16 the GNU id of a valid position can panic. -/
theorem C72_bounds_sharp :
    (stacked 32).Valid ∧ Chk.xgidEncode (stacked 32) = none ∧ (stacked 16).Valid ∧ GnuId.encode (stacked 16) = none := by
  decide +kernel

/-- The hypotheses hold for the start position. -/
example : bgStart.Valid ∧ ¬ (bgStart.xOff = 15 ∧ bgStart.oOff = 15) ∧ Chk.xgidEncode bgStart = some "-b----E-C---eE---c-e----B-".toList := by
  decide +kernel

end Bkgm
