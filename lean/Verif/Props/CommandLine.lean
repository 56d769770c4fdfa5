import Verif.Spec.CommandLine
import Verif.Props.Corpus
import Verif.Props.CodecText
import Verif.Props.StrSpec
import Verif.Props.CheckedGame
/-!
# C80: the command lines of the two programs against an independent description
-/
namespace Bkgm
open Pos
namespace PerftCli
open Spec.Cli

theorem flag_iff (names : List Str) (isName : Str → Bool) (h : ∀ a, isName a = true ↔ a ∈ names) (args : List Str) (v : Str) :
    flag isName args = some v ↔ Value names args v := by
  rw [C63_flag]
  unfold Value
  have h' : ∀ a, isName a = false ↔ a ∉ names := fun a => by rw [← h]; simp
  simp only [h, h']

theorem flag_none (names : List Str) (isName : Str → Bool) (h : ∀ a, isName a = true ↔ a ∈ names) (args : List Str) :
    flag isName args = none ↔ ¬ ∃ v, Value names args v := by
  rw [Option.eq_none_iff_forall_ne_some]
  simp only [ne_eq, flag_iff names isName h, not_exists]

theorem usizeFlag_iff (args : List Str) (name : Str) (n : Nat) : usizeFlag args name = some n ↔ Num name args n := by
  unfold usizeFlag Num Spec.Xgid.Number Spec.Fibs.Unsigned
  simp only [Option.bind_eq_some_iff, flag_iff [name] (· == name) (by simp), Str_parse_unsigned]

theorem usizeFlag_none (args : List Str) (name : Str) : usizeFlag args name = none ↔ ¬ ∃ n, Num name args n := by
  rw [Option.eq_none_iff_forall_ne_some]
  simp only [ne_eq, usizeFlag_iff, not_exists]

theorem pick_iff (long short : Str) (d : Nat) (args : List Str) (n : Nat) :
    ((usizeFlag args long).or (usizeFlag args short)).getD d = n ↔ Pick long short d args n := by
  unfold Pick
  cases hl : usizeFlag args long with
  | some a =>
    have ha := (usizeFlag_iff _ _ _).1 hl
    have : (¬ ∃ m, Num long args m) ↔ False := by simp only [iff_false, not_not]; exact ⟨a, ha⟩
    rw [this, false_and, or_false, ← usizeFlag_iff, hl]
    simp
  | none =>
    have h1 := (usizeFlag_none _ _).1 hl
    have h2 : Num long args n ↔ False := by simp only [iff_false]; exact fun h => h1 ⟨n, h⟩
    rw [h2, false_or, and_iff_right h1]
    cases hs : usizeFlag args short with
    | some a =>
      have ha := (usizeFlag_iff _ _ _).1 hs
      have : (¬ ∃ m, Num short args m) ↔ False := by simp only [iff_false, not_not]; exact ⟨a, ha⟩
      rw [this, false_and, or_false, ← usizeFlag_iff, hs]
      simp
    | none =>
      have h1 := (usizeFlag_none _ _).1 hs
      have h2 : Num short args n ↔ False := by simp only [iff_false]; exact fun h => h1 ⟨n, h⟩
      rw [h2, false_or, and_iff_right h1]
      simp [eq_comm]

theorem hasFlag_iff (args : List Str) (name : Str) : hasFlag args name = true ↔ name ∈ args := by
  simp [hasFlag]

theorem named_iff (t : Str) (v : Variant) : Named t v ↔ Variant.parse t = some v ∨ (lower t, v) ∈ shortNames := by
  have h1 : Variant.parse t = some v ↔ (lower (trim t), v) ∈ Spec.Cli.names := by
    unfold Variant.parse
    simp only
    constructor
    · intro h
      split_ifs at h with a1 a2 a3 a4 a5 a6 a7 <;> simp only [Option.some.injEq] at h <;> subst h
      · rw [a1]; decide
      · rw [a2]; decide
      · rw [a3]; decide
      · rw [a4]; decide
      · rw [a5]; decide
      · rw [a6]; decide
      · rw [a7]; decide
    · intro h
      simp only [Spec.Cli.names, List.mem_cons, Prod.mk.injEq, List.not_mem_nil, or_false] at h
      rcases h with ⟨e, rfl⟩ | ⟨e, rfl⟩ | ⟨e, rfl⟩ | ⟨e, rfl⟩ | ⟨e, rfl⟩ | ⟨e, rfl⟩ | ⟨e, rfl⟩ <;> rw [e] <;> decide
  rw [h1]
  exact Iff.rfl

theorem isVariant (a : Str) : (a == "--variant".toList || a == "-v".toList) = true ↔ a ∈ ["--variant".toList, "-v".toList] := by simp
theorem isId (a : Str) : (a == "--position-id".toList || a == "-p".toList) = true ↔ a ∈ ["--position-id".toList, "-p".toList] := by simp

theorem variantFlag_iff (args : List Str) (v : Variant) : variantFlag args = some v ↔
    (∃ t, Value ["--variant".toList, "-v".toList] args t ∧ Named t v) ∨
    (¬ ∃ t, Value ["--variant".toList, "-v".toList] args t) ∧ v = .backgammon := by
  rw [C63_variant]
  cases hf : flag (fun a => a == "--variant".toList || a == "-v".toList) args with
  | none =>
    have h := (flag_none _ _ isVariant _).1 hf
    simp only
    constructor
    · exact fun e => Or.inr ⟨h, e⟩
    · rintro (⟨t, ht, -⟩ | h)
      · exact absurd ⟨t, ht⟩ h
      · exact h.2
  | some t =>
    have h := (flag_iff _ _ isVariant _ _).1 hf
    simp only [← named_iff]
    constructor
    · exact fun e => Or.inl ⟨t, h, e⟩
    · rintro (⟨t', ht, hn⟩ | h')
      · have e := (flag_iff _ _ isVariant _ _).2 ht
        rw [hf] at e
        injection e with e
        rw [e]; exact hn
      · exact absurd ⟨t, h⟩ h'.1

/-- The settings the program reads. -/
def settings (args : List Str) (v : Variant) : Settings where
  variant := v
  id := flag (fun a => a == "--position-id".toList || a == "-p".toList) args
  depth := (options args).depth
  iterations := (options args).iterations
  weighted := (options args).weighted
  dice := (options args).die0.bind fun a => (options args).die1.map fun b => (a, b)

theorem reads_iff (args : List Str) (s : Settings) : Reads args s ↔
    hasFlag args "--help".toList = false ∧ hasFlag args "-h".toList = false ∧ variantFlag args = some s.variant ∧ s = settings args s.variant := by
  have hid : (match s.id with
      | some id => Value ["--position-id".toList, "-p".toList] args id
      | none => ¬ ∃ t, Value ["--position-id".toList, "-p".toList] args t) ↔ s.id = (settings args s.variant).id := by
    unfold settings
    cases hs : s.id with
    | none => rw [eq_comm]; exact (flag_none _ _ isId _).symm
    | some id => rw [eq_comm]; exact (flag_iff _ _ isId _ _).symm
  have hdice : (match s.dice with
      | some (a, b) => Num "--die0".toList args a ∧ Num "--die1".toList args b
      | none => ¬ ∃ a b, Num "--die0".toList args a ∧ Num "--die1".toList args b) ↔ s.dice = (settings args s.variant).dice := by
    unfold settings options
    simp only
    simp only [← usizeFlag_iff]
    cases usizeFlag args "--die0".toList with
    | none => cases s.dice <;> simp
    | some x =>
      cases usizeFlag args "--die1".toList with
      | none => cases s.dice <;> simp
      | some y => cases s.dice <;> simp [Prod.ext_iff, eq_comm]
  have hdep : Pick "--depth".toList "-d".toList 2 args s.depth ↔ s.depth = (settings args s.variant).depth := by
    rw [← pick_iff, eq_comm]; exact Iff.rfl
  have hit : (∃ n, Pick "--iterations".toList "-n".toList 1 args n ∧ s.iterations = max n 1) ↔ s.iterations = (settings args s.variant).iterations := by
    simp only [← pick_iff]
    constructor
    · rintro ⟨n, rfl, h⟩; exact h
    · exact fun h => ⟨_, rfl, h⟩
  have hw : (s.weighted = true ↔ "--weighted".toList ∈ args ∨ "-w".toList ∈ args) ↔ s.weighted = (settings args s.variant).weighted := by
    rw [← hasFlag_iff, ← hasFlag_iff, ← Bool.or_eq_true, ← Bool.eq_iff_iff]; exact Iff.rfl
  have hhelp : ¬ Help args ↔ hasFlag args "--help".toList = false ∧ hasFlag args "-h".toList = false := by
    unfold Help
    rw [← hasFlag_iff, ← hasFlag_iff]
    simp
  constructor
  · intro h
    refine ⟨(hhelp.1 h.help).1, (hhelp.1 h.help).2, (variantFlag_iff _ _).2 h.variant, ?_⟩
    have e1 := hid.1 h.id
    have e2 := hdep.1 h.depth
    have e3 := hit.1 h.iterations
    have e4 := hw.1 h.weighted
    have e5 := hdice.1 h.dice
    cases s
    simp only at e1 e2 e3 e4 e5
    rw [e1, e2, e3, e4, e5]
    rfl
  · rintro ⟨h1, h2, h3, h4⟩
    exact ⟨hhelp.2 ⟨h1, h2⟩, (variantFlag_iff _ _).1 h3, hid.2 (by rw [← h4]), hdep.2 (by rw [← h4]), hit.2 (by rw [← h4]),
      hw.2 (by rw [← h4]), hdice.2 (by rw [← h4])⟩

/-- **C80** Every command line says exactly one thing: it asks for help (then, and only then, the usage text is printed), or it names an unknown variant (then the program
panics), or it asks for exactly one `Settings`. -/
theorem C80_command_line (args : List Str) :
    (main args = some .usage ↔ Help args) ∧
    (∀ s s', Reads args s → Reads args s' → s = s') ∧
    (¬ Help args → (¬ ∃ s, Reads args s) →
      main args = none ∧ ∃ t, Value ["--variant".toList, "-v".toList] args t ∧ ¬ ∃ v, Named t v) := by
  have hhelp : Help args ↔ (hasFlag args "--help".toList || hasFlag args "-h".toList) = true := by
    unfold Help
    rw [← hasFlag_iff, ← hasFlag_iff, Bool.or_eq_true]
  refine ⟨?_, ?_, ?_⟩
  · rw [hhelp]
    constructor
    · intro h
      by_contra hn
      unfold main at h
      rw [if_neg hn] at h
      obtain ⟨v, -, h⟩ := Option.bind_eq_some_iff.1 h
      obtain ⟨id, -, h⟩ := Option.bind_eq_some_iff.1 h
      have arm : ∀ N d w i a b, runArm N v id d w i a b ≠ some .usage := by
        intro N d w i a b h
        unfold runArm onOk at h
        split at h
        · rename_i p _
          have h1 : ∀ x y, runSingleRoll p v id x y i ≠ some .usage := by
            intro x y h
            unfold runSingleRoll at h
            split_ifs at h
            obtain ⟨_, -, h⟩ := Option.map_eq_some_iff.1 h
            cases h
          have h2 : runPerft p v id d w i ≠ some .usage := by
            intro h
            unfold runPerft at h
            obtain ⟨_, -, h⟩ := Option.map_eq_some_iff.1 h
            cases h
          split at h
          · exact h1 _ _ h
          · exact h2 h
        · cases h
      cases v <;> exact arm _ _ _ _ _ _ h
    · intro h
      unfold main
      rw [if_pos h]
  · intro s s' h h'
    obtain ⟨-, -, h1, h2⟩ := (reads_iff _ _).1 h
    obtain ⟨-, -, h1', h2'⟩ := (reads_iff _ _).1 h'
    rw [h1] at h1'
    injection h1' with e
    rw [h2, h2', e]
  · intro hn hs
    rw [hhelp] at hn
    have hv : variantFlag args = none := by
      cases hv : variantFlag args with
      | none => rfl
      | some v =>
        simp only [Bool.or_eq_true, not_or, Bool.not_eq_true] at hn
        exact absurd ⟨settings args v, (reads_iff _ _).2 ⟨hn.1, hn.2, hv, rfl⟩⟩ hs
    constructor
    · unfold main
      rw [if_neg hn, hv]; rfl
    · by_contra hc
      by_cases ht : ∃ t, Value ["--variant".toList, "-v".toList] args t
      · obtain ⟨t, ht⟩ := ht
        have : ∃ v, Named t v := by
          by_contra hc'
          exact hc ⟨t, ht, hc'⟩
        obtain ⟨v, hv'⟩ := this
        rw [(variantFlag_iff _ v).2 (Or.inl ⟨t, ht, hv'⟩)] at hv
        cases hv
      · rw [(variantFlag_iff _ .backgammon).2 (Or.inr ⟨ht, rfl⟩)] at hv
        cases hv

/-- The text by which the program knows the position asked for. -/
def IdText (s : Settings) (id : Str) : Prop := s.id = some id ∨ s.id = none ∧ GnuId.encodeV s.variant.startPosition = some id

theorem main_settings {args : List Str} {s : Settings} (h : Reads args s) {id : Str} (hid : IdText s id) :
    main args = onOk (GnuId.decode true s.variant.checkers id) fun p =>
      match s.dice with
      | some (a, b) => runSingleRoll p s.variant id a b s.iterations
      | none => runPerft p s.variant id s.depth s.weighted s.iterations := by
  obtain ⟨h1, h2, h3, h4⟩ := (reads_iff _ _).1 h
  have e : (flag (fun a => a == "--position-id".toList || a == "-p".toList) args).or (GnuId.encodeV s.variant.startPosition) = some id := by
    rw [h4] at hid
    rcases hid with hid | ⟨hid, hid'⟩
    · have hid : flag (fun a => a == "--position-id".toList || a == "-p".toList) args = some id := hid
      rw [hid]; rfl
    · have hid : flag (fun a => a == "--position-id".toList || a == "-p".toList) args = none := hid
      rw [hid]
      exact hid'
  have e2 : main args = runArm s.variant.checkers s.variant id (options args).depth (options args).weighted (options args).iterations
      (options args).die0 (options args).die1 := by
    unfold main
    rw [h1, h2, if_neg (by simp), h3, Option.bind_some, e, Option.bind_some]
    cases s.variant <;> rfl
  have d1 : s.depth = (options args).depth := by rw [h4]; rfl
  have d2 : s.weighted = (options args).weighted := by rw [h4]; rfl
  have d3 : s.iterations = (options args).iterations := by rw [h4]; rfl
  have d4 : s.dice = (options args).die0.bind fun a => (options args).die1.map fun b => (a, b) := by rw [h4]; rfl
  rw [e2, d1, d2, d3, d4]
  unfold runArm
  congr 1
  funext p
  cases (options args).die0 with
  | none => rfl
  | some a => cases (options args).die1 <;> rfl

theorem iterations_pos {args : List Str} {s : Settings} (h : Reads args s) : 1 ≤ s.iterations := by
  obtain ⟨n, -, e⟩ := h.iterations
  rw [e]; exact Nat.le_max_right _ _

/-- **C80** What a run prints for a valid position `p`, given by any of its ids (or the start position): with both dice, the number of legal positions times the number of
iterations, if the dice are from 1 to 6, the game is not over and the product fits 64 bits; otherwise the number of lines of play of `depth` plies (counting ordered pairs of
dice with `--weighted`) if no shorter line ends the game and the number fits 128 bits. In all other cases it panics. -/
theorem C80_run (args : List Str) (s : Settings) (h : Reads args s) (id : Str) (hid : IdText s id) (p : Pos s.variant.checkers) (hp : IdOf id p)
    (out : Outcome) :
    main args = some out ↔
      match s.dice with
      | some (a, b) => (1 ≤ a ∧ a ≤ 6) ∧ (1 ≤ b ∧ b ≤ 6) ∧ p.gameState = .ongoing ∧
          s.iterations * (p.legalPositions (Dice.new a b)).length < 2 ^ 64 ∧
          out = .singleRoll s.variant id a b s.iterations (s.iterations * (p.legalPositions (Dice.new a b)).length)
      | none => (∀ k q, k < s.depth → PlyLine p k q → q.gameState = .ongoing) ∧ ∃ n, n < 2 ^ 128 ∧
          n = (if s.weighted then {l | OrderedLine p l ∧ l.length = s.depth}.ncard else {l | Line p l ∧ l.length = s.depth}.ncard) ∧
          out = .perft s.variant id s.depth s.weighted s.iterations n := by
  have hN : s.variant.checkers ≤ 127 := by cases s.variant <;> decide
  rw [main_settings h hid, (C24_decodes_iff true p hp.1 hp.2.1 id).2 hp.2.2]
  have hi := iterations_pos h
  have hit : List.range s.iterations ≠ [] := by simp only [ne_eq, List.range_eq_nil]; omega
  unfold onOk
  simp only
  cases hd : s.dice with
  | some ab =>
    obtain ⟨a, b⟩ := ab
    simp only
    unfold runSingleRoll
    by_cases hr : (1 ≤ a ∧ a ≤ 6) ∧ (1 ≤ b ∧ b ≤ 6)
    · rw [if_pos hr]
      have hvd : (Dice.new a b).Valid := (C07_dice_new a b).2.2.2 hr.1.1 hr.1.2 hr.2.1 hr.2.2
      by_cases hg : p.gameState = .ongoing
      · obtain ⟨gx, go⟩ := off_lt hp.1 hg
        rw [C16_no_panic p hp.1 hN gx go _ hvd]
        simp only [Option.bind_some]
        rw [foldlM_total (2 ^ 64) _ _ 0 (by decide), Nat.zero_add]
        by_cases ht : s.iterations * (p.legalPositions (Dice.new a b)).length < 2 ^ 64
        · rw [if_pos ht]
          simp only [Option.map_some, Option.some.injEq]
          exact ⟨fun e => ⟨hr.1, hr.2, hg, ht, e.symm⟩, fun e => e.2.2.2.2.symm⟩
        · rw [if_neg ht]
          simp only [Option.map_none, reduceCtorEq, false_iff]
          exact fun e => ht e.2.2.2.1
      · have hfin : s.variant.checkers ≤ p.xOff ∨ s.variant.checkers ≤ p.oOff := by
          by_contra hc
          refine hg (ongoing_iff.2 ?_)
          omega
        rw [C16_finished_panics p _ hfin]
        simp only [Option.bind_none]
        rw [foldlM_const _ _ _ hit]
        simp only [Option.map_none, reduceCtorEq, false_iff]
        exact fun e => hg e.2.2.1
    · rw [if_neg hr]
      simp only [reduceCtorEq, false_iff]
      exact fun e => hr ⟨e.1, e.2.1⟩
  | none =>
    simp only
    unfold runPerft
    rw [foldlM_const _ _ _ hit, Option.map_eq_some_iff]
    have hc := C62_debug_perft hN p hp.1 s.depth
    constructor
    · rintro ⟨n, hn, rfl⟩
      cases hw : s.weighted with
      | false =>
        rw [hw] at hn
        obtain ⟨h1, h2, h3⟩ := (hc n).1.1 hn
        exact ⟨h1, n, h3, by simpa using h2, rfl⟩
      | true =>
        rw [hw] at hn
        obtain ⟨h1, h2, h3⟩ := (hc n).2.1 hn
        exact ⟨h1, n, h3, by simpa using h2, rfl⟩
    · rintro ⟨h1, n, h2, h3, rfl⟩
      refine ⟨n, ?_, rfl⟩
      cases hw : s.weighted with
      | false => rw [hw] at h3; exact (hc n).1.2 ⟨h1, by simpa using h3, h2⟩
      | true => rw [hw] at h3; exact (hc n).2.2 ⟨h1, by simpa using h3, h2⟩

/-- The command line `perft -v HYPER --die0 3 --die1 +1 -n x --iterations 2` and the settings it asks for. -/
def exArgs : List Str := ["perft", "-v", "HYPER", "--die0", "3", "--die1", "+1", "-n", "x", "--iterations", "2"].map String.toList

theorem exReads : Reads exArgs ⟨.hypergammon, none, 2, 2, false, some (3, 1)⟩ :=
  (reads_iff _ _).2 ⟨by decide, by decide, by decide, by
    have h : ∀ s : Settings, s.id = none → s.depth = 2 → s.iterations = 2 → s.weighted = false → s.dice = some (3, 1) → s.variant = .hypergammon →
        (⟨.hypergammon, none, 2, 2, false, some (3, 1)⟩ : Settings) = s := by
      rintro ⟨_, _, _, _, _, _⟩ h1 h2 h3 h4 h5 h6
      simp_all
    exact h _ (by decide) (by decide) (by decide) (by decide) (by decide) rfl⟩

example := C80_run exArgs _ exReads "AACgAgAAKgAAAA".toList (Or.inr ⟨rfl, by decide +kernel⟩) _
  (Corpus.idOf_encode (N := 3) (by omega) (p := HYPERGAMMON) (by decide) (by decide +kernel))
example : (¬ Help (["perft", "-v", "chess"].map String.toList)) ∧ ¬ ∃ s, Reads (["perft", "-v", "chess"].map String.toList) s :=
  ⟨by unfold Help; decide, fun ⟨s, h⟩ => by
    have := ((reads_iff _ _).1 h).2.2.1
    revert this
    have e : variantFlag (["perft", "-v", "chess"].map String.toList) = none := by decide
    rw [e]; simp⟩

/-- **C80** A `--position-id` that is not the text of an 80-bit key whose first 50 counts are at most the number of checkers on each side makes the program panic. -/
theorem C80_bad_id (args : List Str) (s : Settings) (h : Reads args s) (id : Str) (hid : s.id = some id)
    (hbad : ¬ ∃ K ns z, K < 2 ^ 80 ∧ id = Spec.GnuId.text K ∧ ns.length = 50 ∧ Spec.GnuId.bits K = Spec.GnuId.unary ns ++ z ∧
      (ns.take 25).sum ≤ s.variant.checkers ∧ (ns.drop 25).sum ≤ s.variant.checkers) : main args = none := by
  rw [main_settings h (Or.inl hid)]
  unfold onOk
  split
  · rename_i p hp
    exfalso
    obtain ⟨K, ns, z, a1, a2, a3, a4, -, -, a5, a6⟩ := (C23_ok_iff true id p).1 hp
    refine hbad ⟨K, ns, z, a1, a2, a3, a4, ?_, ?_⟩
    · rcases a5 with a5 | a5
      · omega
      · cases a5.1
    · rcases a6 with a6 | a6
      · omega
      · cases a6.1
  · rfl

end PerftCli

namespace Corpus
open Spec.Cli PerftCli

theorem runOnce_finished {ps : List (Pos 15)} {p : Pos 15} (hp : p ∈ ps) (h : 15 ≤ p.xOff ∨ 15 ≤ p.oOff) : runOnce ps = none := by
  have gen : ∀ ps : List (Pos 15), p ∈ ps → ∀ t, ps.foldlM (fun total p => all21.foldlM (fun total dc =>
      (Chk.legalPositions p dc.1).bind fun l => if total + l.length < 2 ^ 64 then some (total + l.length) else none) total) t = none := by
    intro ps
    induction ps with
    | nil => intro h; simp at h
    | cons q ps ih =>
      intro hm t
      rw [List.foldlM_cons]
      rcases List.mem_cons.1 hm with rfl | hm
      · simp only [C16_finished_panics p _ h, Option.bind_none]
        rw [foldlM_const _ _ _ (by decide)]
        rfl
      · cases all21.foldlM (fun total dc => (Chk.legalPositions q dc.1).bind fun l => if total + l.length < 2 ^ 64 then some (total + l.length) else none) t with
        | none => rfl
        | some u => exact ih hm u
  exact gen ps hp 0

/-- The path given by the flag, or else `default` under the directory of the crate. -/
def Path (flag : Str) (default : Str) (args : List Str) (path : Str) : Prop :=
  Value [flag] args path ∨ (¬ ∃ t, Value [flag] args t) ∧ path = default

theorem path_iff (name d : Str) (args : List Str) (path : Str) : (flag (· == name) args).getD d = path ↔ Path name d args path := by
  unfold Path
  cases hf : flag (· == name) args with
  | none =>
    have h1 := (flag_none [name] (· == name) (by simp) args).1 hf
    rw [and_iff_right h1]
    simp only [Option.getD_none]
    constructor
    · exact fun e => Or.inr e.symm
    · rintro (h | h)
      · exact absurd ⟨_, h⟩ h1
      · exact h.symm
  | some t =>
    have h1 := (flag_iff [name] (· == name) (by simp) args t).1 hf
    simp only [Option.getD_some]
    constructor
    · rintro rfl; exact Or.inl h1
    · rintro (h | h)
      · have := (flag_iff [name] (· == name) (by simp) args path).2 h
        rw [hf] at this
        exact Option.some.inj this
      · exact absurd ⟨t, h1⟩ h.1

/-- **C80** What `corpus-bench` prints when its two files hold valid positions: the number of positions, the number of iterations (the value of `--iterations` if this is a
number, or else 20; at least 1), and the number of legal positions summed over the positions and the 21 rolls. If one of the games is over, or a sum does not
fit 64 bits, it panics. -/
theorem C80_corpus (root : Str) (readFile : Str → Option Str) (args : List Str) (contactPath racePath ct rt : Str) (contact race : List (Pos 15)) (m : Nat)
    (hcp : Path "--contact-csv".toList (root ++ "benches/resources/contact.csv".toList) args contactPath)
    (hrp : Path "--race-csv".toList (root ++ "benches/resources/race.csv".toList) args racePath)
    (hc : readFile contactPath = some ct) (hr : readFile racePath = some rt) (fc : Spec.Cli.Corpus ct contact) (fr : Spec.Cli.Corpus rt race)
    (hm : Num "--iterations".toList args m ∨ (¬ ∃ k, Num "--iterations".toList args k) ∧ m = 20) (out : Report × Report) :
    main root readFile args = some out ↔
      (∀ p ∈ contact ++ race, p.gameState = .ongoing) ∧ (contact.map moves).sum < 2 ^ 64 ∧ (race.map moves).sum < 2 ^ 64 ∧
      out = (⟨contact.length, max m 1, (contact.map moves).sum⟩, ⟨race.length, max m 1, (race.map moves).sum⟩) := by
  have hv : ∀ {text ps}, Spec.Cli.Corpus text ps → ∀ p ∈ ps, p.Valid := by
    rintro text ps ⟨ls, -, h⟩
    generalize ls.filter shown = l at h
    induction h with
    | nil => simp
    | cons h _ ih =>
      intro p hp
      rcases List.mem_cons.1 hp with rfl | hp
      · exact h.1
      · exact ih p hp
  have hn : max ((usizeFlag args "--iterations".toList).getD 20) 1 = max m 1 := by
    rcases hm with hm | ⟨hm, rfl⟩
    · rw [(usizeFlag_iff _ _ _).2 hm]; rfl
    · rw [(usizeFlag_none _ _).2 hm]; rfl
  have hrange : List.range (max m 1) ≠ [] := by
    have : 1 ≤ max m 1 := Nat.le_max_right _ _
    simp only [ne_eq, List.range_eq_nil]; omega
  have hb : ∀ ps : List (Pos 15), (∀ p ∈ ps, p.Valid) → ∀ r, bench ps (max m 1) = some r ↔
      (∀ p ∈ ps, p.gameState = .ongoing) ∧ (ps.map moves).sum < 2 ^ 64 ∧ r = ⟨ps.length, max m 1, (ps.map moves).sum⟩ := by
    intro ps hps r
    unfold bench
    rw [foldlM_const _ _ _ hrange]
    by_cases hg : ∀ p ∈ ps, p.gameState = .ongoing
    · rw [C64_run_once ps fun p hp => ⟨hps p hp, hg p hp⟩]
      by_cases hs : (ps.map moves).sum < 2 ^ 64
      · rw [if_pos hs]
        simp only [Option.map_some, Option.some.injEq]
        exact ⟨fun e => ⟨hg, hs, e.symm⟩, fun e => e.2.2.symm⟩
      · rw [if_neg hs]
        simp only [Option.map_none, reduceCtorEq, false_iff]
        exact fun e => hs e.2.1
    · simp only [not_forall] at hg
      obtain ⟨p, hp, hg⟩ := hg
      rw [runOnce_finished hp (by
        by_contra hc
        refine hg (ongoing_iff.2 ?_)
        omega)]
      simp only [Option.map_none, reduceCtorEq, false_iff]
      exact fun e => hg (e.1 p hp)
  unfold main
  simp only
  rw [(path_iff _ _ _ _).2 hcp, (path_iff _ _ _ _).2 hrp, hc, hr, Option.bind_some, Option.bind_some, (C64_load_spec ct contact).1 fc,
    (C64_load_spec rt race).1 fr, Option.bind_some, Option.bind_some, hn]
  simp only [Option.bind_eq_some_iff, Option.map_eq_some_iff, hb contact (hv fc), hb race (hv fr)]
  constructor
  · rintro ⟨a, ⟨h1, h2, rfl⟩, b, ⟨h3, h4, rfl⟩, rfl⟩
    exact ⟨fun p hp => (List.mem_append.1 hp).elim (h1 p) (h3 p), h2, h4, rfl⟩
  · rintro ⟨h1, h2, h3, rfl⟩
    exact ⟨_, ⟨fun p hp => h1 p (by simp [hp]), h2, rfl⟩, _, ⟨fun p hp => h1 p (by simp [hp]), h3, rfl⟩, rfl⟩

/-- A line of blanks and one id, and `--iterations 0`. -/
example := C80_corpus "/".toList (fun _ => some " \n4HPwATDgc/ABMA".toList) (["corpus-bench", "--iterations", "0"].map String.toList) _ _ _ _ [BACKGAMMON] [BACKGAMMON] 0
  ((path_iff _ _ _ _).1 rfl) ((path_iff _ _ _ _).1 rfl) rfl rfl
  ⟨[" ".toList, "4HPwATDgc/ABMA".toList], .lf (t := [' ']) (by decide) (by decide) (.last (by decide) (by decide)),
    .cons (idOf_encode (by omega) (p := BACKGAMMON) (by decide) (by decide +kernel)) .nil⟩
  ⟨[" ".toList, "4HPwATDgc/ABMA".toList], .lf (t := [' ']) (by decide) (by decide) (.last (by decide) (by decide)),
    .cons (idOf_encode (by omega) (p := BACKGAMMON) (by decide) (by decide +kernel)) .nil⟩
  (Or.inl ((usizeFlag_iff _ _ _).1 (by decide)))

end Corpus
end Bkgm
