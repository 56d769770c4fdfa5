import Verif.Model.ReleaseCli
import Verif.Props.CommandLine
import Verif.Props.ReleaseGame
/-!
# C99: the two programs in a release build
-/
namespace Bkgm
open Pos

namespace Rel
variable {N : Nat}

theorem foldlM_some {α β : Type} {f : β → α → Option β} {g : β → α → β} : ∀ {l : List α}, (∀ t, ∀ a ∈ l, f t a = some (g t a)) → ∀ t,
    l.foldlM f t = some (l.foldl g t)
  | [], _, _ => rfl
  | a :: l, h, t => by
    rw [List.foldlM_cons, h t a (by simp)]
    exact foldlM_some (fun t b hb => h t b (by simp [hb])) (g t a)

theorem foldlM_okR {α β : Type} {f : β → α → Option β} : ∀ {l : List α}, (∀ t, ∀ a ∈ l, Ok (f t a)) → ∀ t, Ok (l.foldlM f t)
  | [], _, t => ⟨t, rfl⟩
  | a :: l, h, t => by
    rw [List.foldlM_cons]
    exact .bind (h t a (by simp)) fun u _ => foldlM_okR (fun t b hb => h t b (by simp [hb])) u

theorem valid21 : ∀ dc ∈ all21, dc.1.Valid := by decide +kernel

theorem foldl_wrap {α : Type} (M : Nat) (k : α → Nat) : ∀ (l : List α) (t : Nat), t < M →
    l.foldl (fun t a => (t + k a) % M) t = (t + (l.map k).sum) % M
  | [], t, h => by simpa using (Nat.mod_eq_of_lt h).symm
  | a :: l, t, h => by
    rw [List.foldl_cons, foldl_wrap M k l _ (Nat.mod_lt _ (by omega)), List.map_cons, List.sum_cons, Nat.mod_add_mod, Nat.add_assoc]

end Rel

/-- **C99** In a release build `perft_all_rolls_n` never panics on a valid position, finished or not, at any depth: it counts the lines of play modulo 2^128, going on
after the end of a game. -/
theorem C99_perft {N : Nat} (hN : N ≤ 127) (p : Pos N) (hp : p.Valid) (depth : Nat) :
    Rel.perft false depth p = some ({l | Line p l ∧ l.length = depth}.ncard % 2 ^ 128) ∧
    Rel.perft true depth p = some ({l | OrderedLine p l ∧ l.length = depth}.ncard % 2 ^ 128) := by
  have key : ∀ w depth (p : Pos N), p.Valid → Rel.perft w depth p = some (perft w depth p) := by
    intro w depth
    induction depth with
    | zero => intro p _; rfl
    | succ d ih =>
      intro p hp
      unfold Rel.perft perft
      refine Rel.foldlM_some (fun t dc hdc => ?_) 0
      simp only
      rw [C95_valid p hp hN dc.1 (Rel.valid21 dc hdc), Option.bind_some]
      refine Rel.foldlM_some (fun t c hc => ?_) t
      rw [ih c (C04_children_valid p c hp dc.1 (Rel.valid21 dc hdc) hc), Option.map_some, Nat.add_mod_mod]
  rw [key _ _ _ hp, key _ _ _ hp, (C54_perft_counts p depth).2, (C54_perft_counts_weighted p depth).2]
  exact ⟨rfl, rfl⟩

/-- **C99** Nor does it panic on any other board. -/
theorem C99_perft_total {N : Nat} (w : Bool) (depth : Nat) : ∀ p : Pos N, Rel.perft w depth p ≠ none := by
  suffices h : ∀ p : Pos N, Rel.Ok (Rel.perft w depth p) by
    intro p
    obtain ⟨n, hn⟩ := h p
    rw [hn]; simp
  induction depth with
  | zero => exact fun p => ⟨1, rfl⟩
  | succ d ih =>
    intro p
    unfold Rel.perft
    refine Rel.foldlM_okR (fun t dc hdc => ?_) 0
    exact .bind (Rel.legal_okR p dc.1 (Rel.valid21 dc hdc)) fun l _ => Rel.foldlM_okR (fun t c _ => Rel.map_okR _ (ih c)) t

/-- A finished game, where a debug build panics. -/
example : (Ex.cells 3 [-1, -2] 3 0).Valid ∧ Chk.perft false 1 (Ex.cells 3 [-1, -2] 3 0) = none ∧ Rel.perft false 1 (Ex.cells 3 [-1, -2] 3 0) = some 21 := by
  decide +kernel

namespace PerftCli
open Spec.Cli

/-- **C99** A release build reads the command line like any other: the usage text is printed exactly when help is asked for, and an unknown variant makes it panic. -/
theorem C99_command_line (args : List Str) :
    (Rel.perftMain args = some .usage ↔ Help args) ∧
    (¬ Help args → (¬ ∃ s, Reads args s) → Rel.perftMain args = none) := by
  have hhelp : Help args ↔ (hasFlag args "--help".toList || hasFlag args "-h".toList) = true := by
    unfold Help
    rw [← hasFlag_iff, ← hasFlag_iff, Bool.or_eq_true]
  refine ⟨?_, ?_⟩
  · rw [hhelp]
    constructor
    · intro h
      by_contra hn
      unfold Rel.perftMain at h
      rw [if_neg hn] at h
      obtain ⟨v, -, h⟩ := Option.bind_eq_some_iff.1 h
      obtain ⟨id, -, h⟩ := Option.bind_eq_some_iff.1 h
      have arm : ∀ N d w i a b, Rel.runArm N v id d w i a b ≠ some .usage := by
        intro N d w i a b h
        unfold Rel.runArm onOk at h
        split at h
        · rename_i p _
          have h1 : ∀ x y, Rel.runSingleRoll p v id x y i ≠ some .usage := by
            intro x y h
            unfold Rel.runSingleRoll at h
            split_ifs at h
            obtain ⟨_, -, h⟩ := Option.map_eq_some_iff.1 h
            cases h
          have h2 : Rel.runPerft p v id d w i ≠ some .usage := by
            intro h
            unfold Rel.runPerft at h
            obtain ⟨_, -, h⟩ := Option.map_eq_some_iff.1 h
            cases h
          split at h
          · exact h1 _ _ h
          · exact h2 h
        · cases h
      cases v <;> exact arm _ _ _ _ _ _ h
    · intro h
      unfold Rel.perftMain
      rw [if_pos h]
  · intro hn hs
    rw [hhelp] at hn
    have hv : variantFlag args = none := by
      cases hv : variantFlag args with
      | none => rfl
      | some v =>
        simp only [Bool.or_eq_true, not_or, Bool.not_eq_true] at hn
        exact absurd ⟨settings args v, (reads_iff _ _).2 ⟨hn.1, hn.2, hv, rfl⟩⟩ hs
    unfold Rel.perftMain
    rw [if_neg hn, hv]; rfl

theorem rel_main_settings {args : List Str} {s : Settings} (h : Reads args s) {id : Str} (hid : IdText s id) :
    Rel.perftMain args = onOk (GnuId.decode false s.variant.checkers id) fun p =>
      match s.dice with
      | some (a, b) => Rel.runSingleRoll p s.variant id a b s.iterations
      | none => Rel.runPerft p s.variant id s.depth s.weighted s.iterations := by
  obtain ⟨h1, h2, h3, h4⟩ := (reads_iff _ _).1 h
  have e : (flag (fun a => a == "--position-id".toList || a == "-p".toList) args).or (GnuId.encodeV s.variant.startPosition) = some id := by
    rw [h4] at hid
    rcases hid with hid | ⟨hid, hid'⟩
    · have hid : flag (fun a => a == "--position-id".toList || a == "-p".toList) args = some id := hid
      rw [hid]; rfl
    · have hid : flag (fun a => a == "--position-id".toList || a == "-p".toList) args = none := hid
      rw [hid]
      exact hid'
  have e2 : Rel.perftMain args = Rel.runArm s.variant.checkers s.variant id (options args).depth (options args).weighted (options args).iterations
      (options args).die0 (options args).die1 := by
    unfold Rel.perftMain
    rw [h1, h2, if_neg (by simp), h3, Option.bind_some, e, Option.bind_some]
    cases s.variant <;> rfl
  have d1 : s.depth = (options args).depth := by rw [h4]; rfl
  have d2 : s.weighted = (options args).weighted := by rw [h4]; rfl
  have d3 : s.iterations = (options args).iterations := by rw [h4]; rfl
  have d4 : s.dice = (options args).die0.bind fun a => (options args).die1.map fun b => (a, b) := by rw [h4]; rfl
  rw [e2, d1, d2, d3, d4]
  unfold Rel.runArm
  congr 1
  funext p
  cases (options args).die0 with
  | none => rfl
  | some a => cases (options args).die1 <;> rfl

/-- **C99** What a release build prints for a valid position `p`, given by any of its ids (or the start position), also when its game is over: with both dice, which
must be from 1 to 6, the number of legal positions times the number of iterations, modulo 2^64; otherwise the number of lines of play of `depth` plies modulo 2^128. -/
theorem C99_run (args : List Str) (s : Settings) (h : Reads args s) (id : Str) (hid : IdText s id) (p : Pos s.variant.checkers) (hp : IdOf id p)
    (out : Outcome) :
    Rel.perftMain args = some out ↔
      match s.dice with
      | some (a, b) => (1 ≤ a ∧ a ≤ 6) ∧ (1 ≤ b ∧ b ≤ 6) ∧
          out = .singleRoll s.variant id a b s.iterations (s.iterations * (p.legalPositions (Dice.new a b)).length % 2 ^ 64)
      | none => out = .perft s.variant id s.depth s.weighted s.iterations
          ((if s.weighted then {l | OrderedLine p l ∧ l.length = s.depth}.ncard else {l | Line p l ∧ l.length = s.depth}.ncard) % 2 ^ 128) := by
  have hN : s.variant.checkers ≤ 127 := by cases s.variant <;> decide
  rw [rel_main_settings h hid, (C24_decodes_iff false p hp.1 hp.2.1 id).2 hp.2.2]
  have hi := iterations_pos h
  have hit : List.range s.iterations ≠ [] := by simp only [ne_eq, List.range_eq_nil]; omega
  unfold onOk
  simp only
  cases hd : s.dice with
  | some ab =>
    obtain ⟨a, b⟩ := ab
    simp only
    unfold Rel.runSingleRoll
    by_cases hr : (1 ≤ a ∧ a ≤ 6) ∧ (1 ≤ b ∧ b ≤ 6)
    · rw [if_pos hr]
      have hvd : (Dice.new a b).Valid := (C07_dice_new a b).2.2.2 hr.1.1 hr.1.2 hr.2.1 hr.2.2
      rw [C95_valid p hp.1 hN _ hvd]
      simp only [Option.map_some]
      rw [Rel.foldlM_some (g := fun t _ => (t + (p.legalPositions (Dice.new a b)).length) % 2 ^ 64) (fun _ _ _ => rfl),
        Rel.foldl_wrap (2 ^ 64) (fun _ : Nat => (p.legalPositions (Dice.new a b)).length) _ _ (by decide)]
      have e : ((List.range s.iterations).map fun _ => (p.legalPositions (Dice.new a b)).length).sum =
          s.iterations * (p.legalPositions (Dice.new a b)).length := by
        rw [List.map_const', List.sum_replicate, List.length_range, smul_eq_mul]
      rw [e, Nat.zero_add]
      simp only [Option.map_some, Option.some.injEq]
      exact ⟨fun e => ⟨hr.1, hr.2, e.symm⟩, fun e => e.2.2.symm⟩
    · rw [if_neg hr]
      simp only [reduceCtorEq, false_iff]
      exact fun e => hr ⟨e.1, e.2.1⟩
  | none =>
    simp only
    unfold Rel.runPerft
    rw [foldlM_const _ _ _ hit]
    have hc := C99_perft hN p hp.1 s.depth
    cases hw : s.weighted with
    | false => rw [hc.1]; simp [eq_comm]
    | true => rw [hc.2]; simp [eq_comm]

example := C99_run exArgs _ exReads "AACgAgAAKgAAAA".toList (Or.inr ⟨rfl, by decide +kernel⟩) _
  (Corpus.idOf_encode (N := 3) (by omega) (p := HYPERGAMMON) (by decide) (by decide +kernel))

/-- **C99** With a `--position-id` in a release build the program panics exactly if the id is not the text of an 80-bit key that begins with 50 counts (which may be of
more checkers than the game has), or both dice are given and one is not from 1 to 6. -/
theorem C99_any_id (args : List Str) (s : Settings) (h : Reads args s) (id : Str) (hid : s.id = some id) :
    Rel.perftMain args = none ↔
      (¬ ∃ K ns z, K < 2 ^ 80 ∧ id = Spec.GnuId.text K ∧ ns.length = 50 ∧ Spec.GnuId.bits K = Spec.GnuId.unary ns ++ z) ∨
      ∃ a b, s.dice = some (a, b) ∧ ¬ ((1 ≤ a ∧ a ≤ 6) ∧ (1 ≤ b ∧ b ≤ 6)) := by
  rw [rel_main_settings h (Or.inl hid)]
  have hi := iterations_pos h
  have hit : List.range s.iterations ≠ [] := by simp only [ne_eq, List.range_eq_nil]; omega
  by_cases hk : ∃ K ns z, K < 2 ^ 80 ∧ id = Spec.GnuId.text K ∧ ns.length = 50 ∧ Spec.GnuId.bits K = Spec.GnuId.unary ns ++ z
  · obtain ⟨p, hp⟩ : ∃ p : Pos s.variant.checkers, GnuId.decode false s.variant.checkers id = some (.ok p) := by
      obtain ⟨K, ns, z, h1, h2, h3, h4⟩ := hk
      have hb := GnuId.sum_bound h3 h4
      refine ⟨⟨true, fun i => (if i.val = 0 then 0 else (ns.getD (24 + i.val) 0 : Int)) - (if i.val = 25 then 0 else (ns.getD (24 - i.val) 0 : Int)),
        if s.variant.checkers < (ns.drop 25).sum then s.variant.checkers + 256 - (ns.drop 25).sum else s.variant.checkers - (ns.drop 25).sum,
        if s.variant.checkers < (ns.take 25).sum then s.variant.checkers + 256 - (ns.take 25).sum else s.variant.checkers - (ns.take 25).sum⟩,
        (C23_ok_iff false id _).2 ⟨K, ns, z, h1, h2, h3, h4, rfl, fun i hi => ?_, ?_, ?_⟩⟩
      · simp only [pip, dif_pos hi]
      · by_cases hc : s.variant.checkers < (ns.take 25).sum
        · exact Or.inr ⟨rfl, hc, by simp only [if_pos hc]; omega⟩
        · exact Or.inl (by simp only [if_neg hc]; omega)
      · by_cases hc : s.variant.checkers < (ns.drop 25).sum
        · exact Or.inr ⟨rfl, hc, by simp only [if_pos hc]; omega⟩
        · exact Or.inl (by simp only [if_neg hc]; omega)
    rw [hp]
    simp only [hk, not_true_eq_false, false_or, onOk]
    cases hd : s.dice with
    | none =>
      simp only [reduceCtorEq, false_and, exists_false, iff_false]
      unfold Rel.runPerft
      rw [foldlM_const _ _ _ hit]
      simp only [Option.map_eq_none_iff]
      exact C99_perft_total _ _ p
    | some ab =>
      obtain ⟨a, b⟩ := ab
      simp only [Option.some.injEq, Prod.mk.injEq]
      unfold Rel.runSingleRoll
      by_cases hr : (1 ≤ a ∧ a ≤ 6) ∧ (1 ≤ b ∧ b ≤ 6)
      · rw [if_pos hr]
        have hvd : (Dice.new a b).Valid := (C07_dice_new a b).2.2.2 hr.1.1 hr.1.2 hr.2.1 hr.2.2
        obtain ⟨l, hl⟩ := Rel.legal_okR p _ hvd
        obtain ⟨n, hn⟩ := Rel.foldlM_okR (f := fun total (_ : Nat) => (Rel.legalPositions p (Dice.new a b)).map fun l => (total + l.length) % 2 ^ 64)
          (l := List.range s.iterations) (fun t _ _ => Rel.map_okR _ ⟨l, hl⟩) 0
        rw [hn]
        simp only [Option.map_some, reduceCtorEq, false_iff]
        rintro ⟨a', b', ⟨rfl, rfl⟩, hc⟩
        exact hc hr
      · rw [if_neg hr]
        simp only [true_iff]
        exact ⟨a, b, ⟨rfl, rfl⟩, hr⟩
  · refine iff_of_true ?_ (Or.inl hk)
    unfold onOk
    split
    · rename_i p hp
      obtain ⟨K, ns, z, a1, a2, a3, a4, -⟩ := (C23_ok_iff false id p).1 hp
      exact absurd ⟨K, ns, z, a1, a2, a3, a4⟩ hk
    · rfl

/-- The id of the 15-checker start with `--variant hypergammon`: a debug build panics, a release build counts. -/
def exId : List Str := ["perft", "-v", "hyper", "-p", "4HPwATDgc/ABMA", "-d", "0"].map String.toList

example : main exId = none ∧ Rel.perftMain exId = some (.perft .hypergammon "4HPwATDgc/ABMA".toList 0 false 1 1) := by decide +kernel
example : Reads exId (settings exId .hypergammon) ∧ (settings exId .hypergammon).id = some "4HPwATDgc/ABMA".toList :=
  ⟨(reads_iff _ _).2 ⟨by decide, by decide, by decide, rfl⟩, by decide⟩

end PerftCli

namespace Corpus
open Spec.Cli PerftCli

theorem rel_load {text : Str} {ps : List (Pos 15)} (h : Spec.Cli.Corpus text ps) : Rel.loadPositions text = some ps := by
  obtain ⟨ls, h1, h2⟩ := h
  have hf : (fun l : Str => !(trim l).isEmpty) = Spec.Cli.shown := funext trim_eq_nil_iff
  unfold Rel.loadPositions
  rw [hf, (lines_iff _ _).2 h1, mapM_some_iff]
  refine h2.imp fun id p h => ?_
  rw [(C24_decodes_iff false p h.1 h.2.1 id).2 h.2.2]
  rfl

theorem rel_runOnce {ps : List (Pos 15)} (hv : ∀ p ∈ ps, p.Valid) : Rel.runOnce ps = some ((ps.map moves).sum % 2 ^ 64) := by
  unfold Rel.runOnce
  rw [Rel.foldlM_some (g := fun t p => (all21.foldl (fun t dc => (t + (p.legalPositions dc.1).length) % 2 ^ 64) t)) (fun t p hp => ?_)]
  · congr 1
    have gen : ∀ (ps : List (Pos 15)) t, t < 2 ^ 64 →
        ps.foldl (fun t p => (all21.foldl (fun t dc => (t + (p.legalPositions dc.1).length) % 2 ^ 64) t)) t = (t + (ps.map moves).sum) % 2 ^ 64 := by
      intro ps
      induction ps with
      | nil => intro t ht; simpa using (Nat.mod_eq_of_lt ht).symm
      | cons p ps ih =>
        intro t ht
        rw [List.foldl_cons, Rel.foldl_wrap (2 ^ 64) (fun dc : Dice × Nat => (p.legalPositions dc.1).length) _ _ ht, ih _ (Nat.mod_lt _ (by decide)),
          List.map_cons, List.sum_cons, Nat.mod_add_mod, Nat.add_assoc]
        rfl
    rw [gen ps 0 (by decide), Nat.zero_add]
  · refine Rel.foldlM_some (fun t dc hdc => ?_) t
    rw [C95_valid p (hv p hp) (by omega) dc.1 (Rel.valid21 dc hdc)]
    rfl

/-- **C99** What `corpus-bench` prints in a release build when its two files hold valid positions: as in `C80_corpus`, but it never panics: finished games are counted
like others and the sums are taken modulo 2^64. -/
theorem C99_corpus (root : Str) (readFile : Str → Option Str) (args : List Str) (contactPath racePath ct rt : Str) (contact race : List (Pos 15)) (m : Nat)
    (hcp : Path "--contact-csv".toList (root ++ "benches/resources/contact.csv".toList) args contactPath)
    (hrp : Path "--race-csv".toList (root ++ "benches/resources/race.csv".toList) args racePath)
    (hc : readFile contactPath = some ct) (hr : readFile racePath = some rt) (fc : Spec.Cli.Corpus ct contact) (fr : Spec.Cli.Corpus rt race)
    (hm : Num "--iterations".toList args m ∨ (¬ ∃ k, Num "--iterations".toList args k) ∧ m = 20) :
    Rel.corpusMain root readFile args =
      some (⟨contact.length, max m 1, (contact.map moves).sum % 2 ^ 64⟩, ⟨race.length, max m 1, (race.map moves).sum % 2 ^ 64⟩) := by
  have hv : ∀ {text ps}, Spec.Cli.Corpus text ps → ∀ p ∈ ps, p.Valid := by
    rintro text ps ⟨ls, -, h⟩
    generalize ls.filter shown = l at h
    induction h with
    | nil => simp
    | cons h _ ih =>
      intro p hp
      rcases List.mem_cons.1 hp with rfl | hp
      · exact h.1
      · exact ih p hp
  have hn : max ((usizeFlag args "--iterations".toList).getD 20) 1 = max m 1 := by
    rcases hm with hm | ⟨hm, rfl⟩
    · rw [(usizeFlag_iff _ _ _).2 hm]; rfl
    · rw [(usizeFlag_none _ _).2 hm]; rfl
  have hrange : List.range (max m 1) ≠ [] := by
    have : 1 ≤ max m 1 := Nat.le_max_right _ _
    simp only [ne_eq, List.range_eq_nil]; omega
  have hb : ∀ ps : List (Pos 15), (∀ p ∈ ps, p.Valid) → Rel.bench ps (max m 1) = some ⟨ps.length, max m 1, (ps.map moves).sum % 2 ^ 64⟩ := by
    intro ps hps
    unfold Rel.bench
    rw [foldlM_const _ _ _ hrange, rel_runOnce hps]
    rfl
  unfold Rel.corpusMain
  simp only
  rw [(path_iff _ _ _ _).2 hcp, (path_iff _ _ _ _).2 hrp, hc, hr, Option.bind_some, Option.bind_some, rel_load fc, rel_load fr, Option.bind_some,
    Option.bind_some, hn, hb contact (hv fc), hb race (hv fr)]
  rfl

/-- A file with a position whose game is over, where a debug build panics. -/
example := C99_corpus "/".toList (fun _ => some "AACA/z8AAAAAAA\n4HPwATDgc/ABMA".toList) (["corpus-bench", "--iterations", "0"].map String.toList) _ _ _ _
  [Ex.cells 15 [0, -15] 15 0, BACKGAMMON] [Ex.cells 15 [0, -15] 15 0, BACKGAMMON] 0
  ((path_iff _ _ _ _).1 rfl) ((path_iff _ _ _ _).1 rfl) rfl rfl
  ⟨["AACA/z8AAAAAAA".toList, "4HPwATDgc/ABMA".toList], .lf (t := "AACA/z8AAAAAAA".toList) (by decide) (by decide) (.last (by decide) (by decide)),
    .cons (idOf_encode (by omega) (p := Ex.cells 15 [0, -15] 15 0) (by decide) (by decide +kernel))
      (.cons (idOf_encode (by omega) (p := BACKGAMMON) (by decide) (by decide +kernel)) .nil)⟩
  ⟨["AACA/z8AAAAAAA".toList, "4HPwATDgc/ABMA".toList], .lf (t := "AACA/z8AAAAAAA".toList) (by decide) (by decide) (.last (by decide) (by decide)),
    .cons (idOf_encode (by omega) (p := Ex.cells 15 [0, -15] 15 0) (by decide) (by decide +kernel))
      (.cons (idOf_encode (by omega) (p := BACKGAMMON) (by decide) (by decide +kernel)) .nil)⟩
  (Or.inl ((usizeFlag_iff _ _ _).1 (by decide)))

end Corpus
end Bkgm
