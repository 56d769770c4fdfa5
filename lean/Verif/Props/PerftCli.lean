import Verif.Props.PerftDebug
import Verif.Props.GnuId
import Verif.Props.Game
import Verif.Props.TurnFlag
import Mathlib.Tactic.IntervalCases
/-!
# C63, C64: the command lines of `bkgm-perft` and `corpus-bench`
-/

namespace Bkgm
open Pos
variable {N : Nat}

namespace PerftCli

/-- **C63** A flag's value is the word after its first occurrence (an occurrence at the very end has no value). -/
theorem C63_flag (isName : Str → Bool) (args : List Str) (v : Str) :
    flag isName args = some v ↔
      ∃ pre name rest, args = pre ++ name :: v :: rest ∧ isName name = true ∧ ∀ a ∈ pre, isName a = false := by
  induction args with
  | nil => simp [flag]
  | cons a l ih =>
    cases l with
    | nil =>
      simp only [flag]
      constructor
      · intro h; cases h
      · rintro ⟨pre, name, rest, h, -, -⟩
        have := congrArg List.length h
        simp at this
        omega
    | cons b rest =>
      rw [flag]
      by_cases ha : isName a = true
      · rw [if_pos ha]
        constructor
        · intro h
          injection h with h
          subst h
          exact ⟨[], a, rest, rfl, ha, by simp⟩
        · rintro ⟨pre, name, rest', h, hn, hp⟩
          cases pre with
          | nil => simp only [List.nil_append, List.cons.injEq] at h; rw [h.2.1]
          | cons x pre =>
            simp only [List.cons_append, List.cons.injEq] at h
            have := hp x (by simp)
            rw [← h.1, ha] at this; cases this
      · rw [if_neg ha, ih]
        constructor
        · rintro ⟨pre, name, rest', h, hn, hp⟩
          refine ⟨a :: pre, name, rest', by rw [h]; rfl, hn, fun x hx => ?_⟩
          rcases List.mem_cons.1 hx with rfl | hx
          · simpa using ha
          · exact hp x hx
        · rintro ⟨pre, name, rest', h, hn, hp⟩
          cases pre with
          | nil =>
            simp only [List.nil_append, List.cons.injEq] at h
            rw [h.1] at ha
            exact absurd hn ha
          | cons x pre =>
            simp only [List.cons_append, List.cons.injEq] at h
            exact ⟨pre, name, rest', h.2, hn, fun y hy => hp y (List.mem_cons_of_mem _ hy)⟩

example : PerftCli.flag (· == "--depth".toList) ["perft".toList, "--depth".toList, "3".toList, "--depth".toList, "4".toList] = some "3".toList :=
  (PerftCli.C63_flag _ _ _).2 ⟨["perft".toList], "--depth".toList, ["--depth".toList, "4".toList], rfl, by decide, by decide⟩

/-- The documented short names. -/
def shortNames : List (Str × Variant) :=
  [("bg".toList, .backgammon), ("nack".toList, .nackgammon), ("long".toList, .longgammon), ("hyper".toList, .hypergammon),
   ("hypergammon3".toList, .hypergammon), ("hyper2".toList, .hypergammon2), ("hyper4".toList, .hypergammon4), ("hyper5".toList, .hypergammon5)]

theorem shortName_iff (raw : Str) (v : Variant) : shortName raw = some v ↔ (raw, v) ∈ shortNames := by
  constructor
  · intro h
    unfold shortName at h
    split_ifs at h with h1 h2 h3 h4 h5 h6 h7 <;> simp only [Option.some.injEq] at h <;> subst h
    · rw [h1]; decide
    · rw [h2]; decide
    · rw [h3]; decide
    · rcases h4 with h4 | h4 <;> rw [h4] <;> decide
    · rw [h5]; decide
    · rw [h6]; decide
    · rw [h7]; decide
  · intro h
    simp only [shortNames, List.mem_cons, Prod.mk.injEq, List.not_mem_nil, or_false] at h
    rcases h with ⟨rfl, rfl⟩ | ⟨rfl, rfl⟩ | ⟨rfl, rfl⟩ | ⟨rfl, rfl⟩ | ⟨rfl, rfl⟩ | ⟨rfl, rfl⟩ | ⟨rfl, rfl⟩ | ⟨rfl, rfl⟩ <;> decide

theorem lowerC_spec (c : Char) : lowerC (lowerC c) = lowerC c ∧ isWs (lowerC c) = isWs c := by
  unfold lowerC
  by_cases h : 'A' ≤ c ∧ c ≤ 'Z'
  · have h1 : 65 ≤ c.toNat := h.1
    have h2 : c.toNat ≤ 90 := h.2
    have e : c = Char.ofNat c.toNat := (Char.ofNat_toNat c).symm
    generalize c.toNat = n at h1 h2 e
    subst e
    clear h
    interval_cases n <;> decide
  · simp [h]

theorem lower_lower (s : Str) : lower (lower s) = lower s := by
  simp only [lower, List.map_map]
  exact List.map_congr_left fun c _ => (lowerC_spec c).1

theorem dropWhile_lower (s : Str) : (lower s).dropWhile isWs = lower (s.dropWhile isWs) := by
  induction s with
  | nil => rfl
  | cons c s ih =>
    simp only [lower, List.map_cons, List.dropWhile_cons, (lowerC_spec c).2] at *
    split_ifs
    · exact ih
    · rfl

theorem trim_lower (s : Str) : trim (lower s) = lower (trim s) := by
  have rev : ∀ s : Str, (lower s).reverse = lower s.reverse := fun s => by simp [lower, List.map_reverse]
  unfold trim trimEnd trimStart
  rw [dropWhile_lower, rev, dropWhile_lower, rev]

theorem parse_lower (s : Str) : Variant.parse (lower s) = Variant.parse s := by
  unfold Variant.parse
  rw [trim_lower, lower_lower]

/-- **C63** `--variant NAME` (or `-v NAME`): without it the variant is backgammon; otherwise `NAME` is, whatever its case, one of the names
that `Variant::from_str` accepts or one of the short names; everything else panics. -/
theorem C63_variant (args : List Str) (v : Variant) :
    variantFlag args = some v ↔
      match flag (fun a => a == "--variant".toList || a == "-v".toList) args with
      | none => v = .backgammon
      | some text => Variant.parse text = some v ∨ (lower text, v) ∈ shortNames := by
  unfold variantFlag
  cases flag (fun a => a == "--variant".toList || a == "-v".toList) args with
  | none =>
    simp only [Option.map_none, Option.getD_none]
    have e : Variant.parse "backgammon".toList = some .backgammon := by decide
    rw [e]
    simp only [Option.some.injEq]
    exact eq_comm
  | some text =>
    simp only [Option.map_some, Option.getD_some, parse_lower]
    cases hp : Variant.parse text with
    | some w =>
      simp only [Option.some.injEq]
      constructor
      · exact Or.inl
      · rintro (h | h)
        · exact h
        · exfalso
          rw [← parse_lower] at hp
          have key : ∀ e ∈ shortNames, Variant.parse e.1 = none := by decide
          rw [key _ h] at hp
          cases hp
    | none =>
      simp only [shortName_iff, reduceCtorEq, false_or]

example : variantFlag ["perft".toList, "-v".toList, "HYPER".toList] = some .hypergammon ∧
    variantFlag ["perft".toList, "--variant".toList, " Nackgammon".toList] = some .nackgammon ∧
    variantFlag ["perft".toList, "--variant".toList, " nack".toList] = none ∧ variantFlag ["perft".toList, "-v".toList] = some .backgammon := by
  decide

theorem foldlM_const {α β : Type} (x : Option β) (l : List α) (a : β) (h : l ≠ []) :
    l.foldlM (fun _ _ => x) a = x := by
  induction l generalizing a with
  | nil => exact absurd rfl h
  | cons b l ih =>
    rw [List.foldlM_cons]
    cases x with
    | none => rfl
    | some y =>
      cases l with
      | nil => rfl
      | cons c l => exact ih y (by simp)

theorem foldlM_total (M len : Nat) (k : Nat) : ∀ t, t < M →
    (List.range k).foldlM (fun total _ => if total + len < M then some (total + len) else none) t =
      if t + k * len < M then some (t + k * len) else none := by
  have gen : ∀ l : List Nat, ∀ t, t < M → l.foldlM (fun total _ => if total + len < M then some (total + len) else none) t =
      if t + l.length * len < M then some (t + l.length * len) else none := by
    intro l
    induction l with
    | nil => intro t ht; simp [ht]
    | cons a l ih =>
      intro t ht
      have e : t + (a :: l).length * len = t + len + l.length * len := by rw [List.length_cons, Nat.add_mul]; omega
      rw [List.foldlM_cons, e]
      by_cases h : t + len < M
      · rw [if_pos h]
        exact ih _ h
      · rw [if_neg h, if_neg (by omega)]
        rfl
  intro t ht
  have := gen (List.range k) t ht
  rwa [List.length_range] at this

/-- What the command line says. -/
structure Options where
  depth : Nat
  iterations : Nat
  weighted : Bool
  die0 : Option Nat
  die1 : Option Nat

/-- `--depth N` or else `-d N` or else 2; `--iterations N` or else `-n N` or else 1, at least 1; `--weighted` or `-w`; `--die0 N`,
`--die1 N`. A value that is not a number counts as absent. -/
def options (args : List Str) : Options where
  depth := ((usizeFlag args "--depth".toList).or (usizeFlag args "-d".toList)).getD 2
  iterations := max (((usizeFlag args "--iterations".toList).or (usizeFlag args "-n".toList)).getD 1) 1
  weighted := hasFlag args "--weighted".toList || hasFlag args "-w".toList
  die0 := usizeFlag args "--die0".toList
  die1 := usizeFlag args "--die1".toList

/-- The arguments ask for position `q` of variant `v`: by its id, or the start position by default. -/
def Asks (args : List Str) (v : Variant) (q : VPos) (id : Str) : Prop :=
  hasFlag args "--help".toList = false ∧ hasFlag args "-h".toList = false ∧ variantFlag args = some v ∧ GnuId.encodeV q = some id ∧
  (flag (fun a => a == "--position-id".toList || a == "-p".toList) args = some id ∨
    (flag (fun a => a == "--position-id".toList || a == "-p".toList) args = none ∧ q = v.startPosition))

theorem main_arm {args : List Str} {v : Variant} {q : VPos} {id : Str} (h : Asks args v q id) :
    main args = runArm v.checkers v id (options args).depth (options args).weighted (options args).iterations (options args).die0
      (options args).die1 := by
  obtain ⟨h1, h2, h3, h4, h5⟩ := h
  unfold main
  rw [h1, h2, if_neg (by simp), h3, Option.bind_some]
  have e : (flag (fun a => a == "--position-id".toList || a == "-p".toList) args).or (GnuId.encodeV v.startPosition) = some id := by
    rcases h5 with h5 | ⟨h5, rfl⟩
    · rw [h5]; rfl
    · rw [h5]; exact h4
  rw [e, Option.bind_some]
  cases v <;> rfl

theorem withTurnX_dispatch {v : Variant} {q : VPos} (hq : VPos.ValidFor v q) {id : Str} (hid : GnuId.encodeV q = some id)
    {α : Type} (f : ∀ N : Nat, Pos N → Option α) :
    onOk (GnuId.decode true v.checkers id) (f v.checkers) = q.withTurnX.encodeWith f := by
  have key : ∀ {N : Nat} (p : Pos N), N ≤ 15 → Spec.Valid N p.view → GnuId.encode p = some id →
      onOk (GnuId.decode true N id) (f N) = f N { p with turn := true } := by
    intro N p hN hp he
    obtain ⟨id', h1, -, h2⟩ := C22_round_trip hN p hp
    rw [he] at h1
    injection h1 with h1
    subst h1
    rw [h2 true]; rfl
  obtain ⟨rfl, hv⟩ := hq
  cases q with
  | backgammon p => exact key p (by omega) hv hid
  | nackgammon p => exact key p (by omega) hv hid
  | longgammon p => exact key p (by omega) hv hid
  | hypergammon p => exact key p (by omega) hv hid
  | hypergammon2 p => exact key p (by omega) hv hid
  | hypergammon4 p => exact key p (by omega) hv hid
  | hypergammon5 p => exact key p (by omega) hv hid

/-- **C63** Perft mode (unless both dice are given): the node count printed is `perft` of the requested position at the requested depth,
however often it is repeated. -/
theorem C63_perft_mode (args : List Str) (v : Variant) (q : VPos) (hq : VPos.ValidFor v q) (id : Str) (h : Asks args v q id)
    (hd : (options args).die0 = none ∨ (options args).die1 = none) :
    main args = (q.withTurnX.encodeWith fun _ p => Chk.perft (options args).weighted (options args).depth p).map
      (.perft v id (options args).depth (options args).weighted (options args).iterations) := by
  rw [main_arm h]
  have hit : List.range (options args).iterations ≠ [] := by
    have : 1 ≤ (options args).iterations := Nat.le_max_right _ _
    simp only [ne_eq, List.range_eq_nil]; omega
  have e := withTurnX_dispatch hq h.2.2.2.1 fun _ p => runPerft p v id (options args).depth (options args).weighted (options args).iterations
  have e2 : ∀ x : VPos, (x.encodeWith fun _ p => runPerft p v id (options args).depth (options args).weighted (options args).iterations) =
      (x.encodeWith fun _ p => Chk.perft (options args).weighted (options args).depth p).map
      (.perft v id (options args).depth (options args).weighted (options args).iterations) := by
    intro x
    cases x <;> simp only [VPos.encodeWith, runPerft, foldlM_const _ _ _ hit]
  rw [← e2, ← e]
  unfold runArm
  cases GnuId.decode true v.checkers id with
  | none => rfl
  | some r =>
    cases r with
    | error => rfl
    | ok p =>
      rcases hd with hd | hd
      · rw [hd]
      · rw [hd]; cases (options args).die0 <;> rfl

example := PerftCli.C63_perft_mode ["perft".toList, "-v".toList, "hyper".toList, "--depth".toList, "3".toList] .hypergammon Variant.hypergammon.startPosition (C41_start_position _).1 "AACgAgAAKgAAAA".toList
  ⟨by decide, by decide, by decide, by decide +kernel, Or.inr ⟨by decide, rfl⟩⟩ (Or.inl (by decide))

/-- **C63** Single-roll mode (both dice given): with dice outside `1..6` the program panics; otherwise, for a position whose game is not over,
it prints the number of legal positions times the number of iterations (and panics if that does not fit 64 bits). -/
theorem C63_single_roll_mode (args : List Str) (v : Variant) (q : VPos) (hq : VPos.ValidFor v q) (id : Str) (h : Asks args v q id)
    (d0 d1 : Nat) (hd0 : (options args).die0 = some d0) (hd1 : (options args).die1 = some d1) :
    (¬ ((1 ≤ d0 ∧ d0 ≤ 6) ∧ (1 ≤ d1 ∧ d1 ≤ 6)) → main args = none) ∧
    ((1 ≤ d0 ∧ d0 ≤ 6) ∧ (1 ≤ d1 ∧ d1 ≤ 6) → q.gameState = .ongoing →
      let total := (options args).iterations * (classicRules q (Dice.new d0 d1)).length
      main args = if total < 2 ^ 64 then some (.singleRoll v id d0 d1 (options args).iterations total) else none) := by
  rw [main_arm h]
  have e := withTurnX_dispatch hq h.2.2.2.1 fun _ p => runSingleRoll p v id d0 d1 (options args).iterations
  have e1 : runArm v.checkers v id (options args).depth (options args).weighted (options args).iterations (options args).die0
      (options args).die1 = q.withTurnX.encodeWith fun _ p => runSingleRoll p v id d0 d1 (options args).iterations := by
    rw [← e, hd0, hd1]
    unfold runArm
    cases GnuId.decode true v.checkers id with
    | none => rfl
    | some r => cases r <;> rfl
  rw [e1]
  constructor
  · intro hn
    cases q <;> simp only [VPos.withTurnX, VPos.encodeWith, runSingleRoll, if_neg hn]
  · intro hr hg
    have key : ∀ {N : Nat} (p : Pos N), N ≤ 15 → Spec.Valid N p.view → p.gameState = .ongoing →
        runSingleRoll ({ p with turn := true } : Pos N) v id d0 d1 (options args).iterations =
          if (options args).iterations * (p.legalPositions (Dice.new d0 d1)).length < 2 ^ 64 then
            some (.singleRoll v id d0 d1 (options args).iterations ((options args).iterations * (p.legalPositions (Dice.new d0 d1)).length))
          else none := by
      intro N p hN hp hgp
      have hvd : (Dice.new d0 d1).Valid := (C07_dice_new d0 d1).2.2.2 hr.1.1 hr.1.2 hr.2.1 hr.2.2
      obtain ⟨gx, go⟩ := ongoing_iff.1 hgp
      have hX := hp.sumX
      have hO := hp.sumO
      have x0 : p.view.xOff = p.xOff := rfl
      have o0 : p.view.oOff = p.oOff := rfl
      have hl := C16_no_panic ({ p with turn := true } : Pos N) hp (by omega) (by simp only; omega) (by simp only; omega) _ hvd
      have hlen : (({ p with turn := true } : Pos N).legalPositions (Dice.new d0 d1)).length = (p.legalPositions (Dice.new d0 d1)).length := by
        rw [(C57_turn_flag p true _).1, List.length_map]
      unfold runSingleRoll
      rw [if_pos hr, hl]
      simp only [Option.bind_some, hlen]
      rw [foldlM_total (2 ^ 64) _ _ 0 (by decide), Nat.zero_add]
      split_ifs <;> rfl
    obtain ⟨rfl, hv⟩ := hq
    cases q with
    | backgammon p => simpa only [classicRules, List.length_map, VPos.withTurnX, VPos.encodeWith] using key p (by omega) hv hg
    | nackgammon p => simpa only [classicRules, List.length_map, VPos.withTurnX, VPos.encodeWith] using key p (by omega) hv hg
    | longgammon p => simpa only [classicRules, List.length_map, VPos.withTurnX, VPos.encodeWith] using key p (by omega) hv hg
    | hypergammon p => simpa only [classicRules, List.length_map, VPos.withTurnX, VPos.encodeWith] using key p (by omega) hv hg
    | hypergammon2 p => simpa only [classicRules, List.length_map, VPos.withTurnX, VPos.encodeWith] using key p (by omega) hv hg
    | hypergammon4 p => simpa only [classicRules, List.length_map, VPos.withTurnX, VPos.encodeWith] using key p (by omega) hv hg
    | hypergammon5 p => simpa only [classicRules, List.length_map, VPos.withTurnX, VPos.encodeWith] using key p (by omega) hv hg

example := PerftCli.C63_single_roll_mode ["perft".toList, "-v".toList, "hyper".toList, "--die0".toList, "3".toList, "--die1".toList, "1".toList] .hypergammon Variant.hypergammon.startPosition
  (C41_start_position _).1 "AACgAgAAKgAAAA".toList ⟨by decide, by decide, by decide, by decide +kernel, Or.inr ⟨by decide, rfl⟩⟩ 3 1 (by decide) (by decide)

/-- **C63** Without arguments the program counts the lines of two plies from the backgammon start position, and does not panic. -/
theorem C63_default (prog : Str) (hp : prog ∉ ["--help".toList, "-h".toList, "--weighted".toList, "-w".toList]) :
    main [prog] = some (.perft .backgammon "4HPwATDgc/ABMA".toList 2 false 1 ({l | Line BACKGAMMON l ∧ l.length = 2}.ncard)) := by
  have hf : ∀ n, n ∈ ["--help".toList, "-h".toList, "--weighted".toList, "-w".toList] → hasFlag [prog] n = false := fun n hn => by
    simp only [hasFlag, List.any_cons, List.any_nil, Bool.or_false, beq_eq_false_iff_ne, ne_eq]
    rintro rfl; exact hp hn
  have ha : Asks [prog] .backgammon Variant.backgammon.startPosition "4HPwATDgc/ABMA".toList :=
    ⟨hf _ (by simp), hf _ (by simp), (C63_variant _ _).2 rfl, by decide +kernel, Or.inr ⟨rfl, rfl⟩⟩
  have ho : options [prog] = ⟨2, 1, false, none, none⟩ := by
    unfold options
    rw [hf _ (by simp), hf _ (by simp)]
    rfl
  have hs := C41_start_position .backgammon
  rw [C63_perft_mode [prog] .backgammon _ hs.1 _ ha (by rw [ho]; exact Or.inl rfl), ho]
  have h1 := C62_start_positions false .backgammon 2 (by omega)
  have hv : BACKGAMMON.Valid := by decide
  have h2 := (C54_perft_counts BACKGAMMON 2).2
  have h3 : Chk.perft false 2 BACKGAMMON = some (perft false 2 BACKGAMMON) := h1
  have h4 := ((C62_debug_perft (by omega) BACKGAMMON hv 2 _).1.1 h3).2.1
  show (Chk.perft false 2 BACKGAMMON).map _ = _
  rw [h3, h4]
  rfl

example := PerftCli.C63_default "target/release/bkgm-perft".toList (by decide)

end PerftCli
end Bkgm
