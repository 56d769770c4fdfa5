import Verif.Props.PerftCli
import Verif.Proofs.Str
import Verif.Props.CodecText
import Verif.Spec.CommandLine
/-!
# C64: `corpus-bench`
-/

namespace Bkgm
open Pos

namespace Corpus
open PerftCli

/-- A corpus file with positions `ps`: on each line the id of the next position or only white space; lines end in `\n` or `\r\n`, the last one
need not. -/
inductive FileOf : Str → List (Pos 15) → Prop
  | done : FileOf [] []
  | last {id : Str} {p : Pos 15} : GnuId.encode p = some id → FileOf id [p]
  | blank {w rest : Str} {ps : List (Pos 15)} : (∀ c ∈ w, isWs c = true) → '\n' ∉ w → FileOf rest ps → FileOf (w ++ '\n' :: rest) ps
  | line {id rest : Str} {p : Pos 15} {ps : List (Pos 15)} : GnuId.encode p = some id → FileOf rest ps → FileOf (id ++ '\n' :: rest) (p :: ps)
  | lineCr {id rest : Str} {p : Pos 15} {ps : List (Pos 15)} : GnuId.encode p = some id → FileOf rest ps →
      FileOf (id ++ '\r' :: '\n' :: rest) (p :: ps)

theorem lines_nil : lines [] = [] := rfl

theorem lines_one {s : Str} (h : '\n' ∉ s) (hne : s ≠ []) : lines s = [s] := by
  unfold lines
  rw [splitChar_of_not_mem h]
  simp [hne]

theorem lines_cons {s t : Str} (h : '\n' ∉ s) : lines (s ++ '\n' :: t) = stripCr s :: lines t := by
  unfold lines
  rw [splitChar_append h]
  have hne := splitChar_ne_nil '\n' t
  obtain ⟨a, l, e⟩ := List.exists_cons_of_ne_nil hne
  rw [e]
  simp only [List.getLast?_cons_cons, List.dropLast_cons_cons, List.map_cons, List.cons_append]

theorem b64Decode_chars : ∀ (s : Str) (l : List Nat), b64Decode s = some l → ∀ c ∈ s, c = '=' ∨ ∃ n, dec6 c = some n
  | [], _, _ => by simp
  | [_], _, h => by simp [b64Decode] at h
  | [_, _], _, h => by simp [b64Decode] at h
  | [_, _, _], _, h => by simp [b64Decode] at h
  | a :: b :: c :: d :: rest, l, h => by
    rw [b64Decode] at h
    simp only [Option.bind_eq_some_iff] at h
    obtain ⟨va, ha, vb, hb, h⟩ := h
    by_cases h1 : c = '=' ∧ d = '=' ∧ rest = []
    · obtain ⟨rfl, rfl, rfl⟩ := h1
      simp [ha, hb]
    · rw [if_neg h1] at h
      simp only [Option.bind_eq_some_iff] at h
      obtain ⟨vc, hc, h⟩ := h
      by_cases h2 : d = '=' ∧ rest = []
      · obtain ⟨rfl, rfl⟩ := h2
        simp [ha, hb, hc]
      · rw [if_neg h2] at h
        simp only [Option.bind_eq_some_iff] at h
        obtain ⟨vd, hd, l', hl, -⟩ := h
        have ih := b64Decode_chars rest l' hl
        intro x hx
        simp only [List.mem_cons] at hx
        rcases hx with rfl | rfl | rfl | rfl | hx
        · exact Or.inr ⟨_, ha⟩
        · exact Or.inr ⟨_, hb⟩
        · exact Or.inr ⟨_, hc⟩
        · exact Or.inr ⟨_, hd⟩
        · exact ih x hx

theorem enc6_not_ws : ∀ n, n < 64 → isWs (enc6 n) = false := by decide +kernel

theorem id_not_ws {N : Nat} {dbg : Bool} {id : Str} {p : Pos N} (h : GnuId.decode dbg N id = some (.ok p)) : ∀ c ∈ id, isWs c = false := by
  intro c hc
  unfold GnuId.decode at h
  cases e : b64Decode (id ++ ['=', '=']) with
  | none => rw [e] at h; simp at h
  | some l =>
    rcases b64Decode_chars _ _ e c (by simp [hc]) with rfl | ⟨n, hn⟩
    · decide
    · obtain ⟨h1, rfl⟩ := dec6_some hn
      exact enc6_not_ws n h1

theorem load_nil : loadPositions [] = some [] := rfl

theorem load_lines (text : Str) : loadPositions text =
    ((lines text).filter fun l => !(trim l).isEmpty).mapM fun id => onOk (GnuId.decode true 15 id) some := rfl

theorem trim_ws {w : Str} (h : ∀ c ∈ w, isWs c = true) : trim w = [] := by
  obtain ⟨a, b, -, -, e⟩ := trim_split w
  have h2 := trim_trimmed w
  cases ht : trim w with
  | nil => rfl
  | cons c t =>
    rw [ht] at h2 e
    have := h2.1 c rfl
    rw [h c (by rw [e]; simp)] at this
    cases this

theorem stripCr_ws {w : Str} (h : ∀ c ∈ w, isWs c = true) : ∀ c ∈ stripCr w, isWs c = true := by
  intro c hc
  unfold stripCr at hc
  split_ifs at hc
  · exact h c (List.dropLast_subset _ hc)
  · exact h c hc

theorem stripCr_id {id : Str} (h : ∀ c ∈ id, isWs c = false) : stripCr id = id ∧ stripCr (id ++ ['\r']) = id := by
  constructor
  · unfold stripCr
    rw [if_neg]
    intro e
    have := h '\r' (List.mem_of_getLast? e)
    revert this; decide
  · simp [stripCr]

/-- **C64** A file with one id (of a valid 15-checker position) per line, in which blank lines are allowed, loads as these positions in order,
with `x` to move. -/
theorem C64_load (text : Str) (ps : List (Pos 15)) (h : FileOf text ps) (hv : ∀ p ∈ ps, p.Valid) :
    loadPositions text = some (ps.map fun p => { p with turn := true }) := by
  have dec : ∀ {p : Pos 15} {id : Str}, p.Valid → GnuId.encode p = some id → GnuId.decode true 15 id = some (.ok { p with turn := true }) ∧
      (∀ c ∈ id, isWs c = false) ∧ id ≠ [] ∧ '\n' ∉ id ∧ (trim id).isEmpty = false := by
    intro p id hp he
    obtain ⟨id', h1, hl, h2⟩ := C22_round_trip (Nat.le_refl 15) p hp
    rw [he] at h1
    injection h1 with h1
    subst h1
    have hw := id_not_ws (h2 true)
    have hne : id ≠ [] := by rintro rfl; simp at hl
    refine ⟨h2 true, hw, hne, fun hm => ?_, ?_⟩
    · have := hw _ hm
      revert this; decide
    · rw [trim_of_trimmed (trimmed_of_no_ws hw)]
      cases id with
      | nil => exact absurd rfl hne
      | cons => rfl
  induction h with
  | done => rfl
  | last he =>
    obtain ⟨h1, h2, h3, h4, h5⟩ := dec (hv _ (by simp)) he
    rw [load_lines, lines_one h4 h3, List.filter_cons, h5]
    simp [onOk, h1]
  | @blank w rest ps hw hn _ ih =>
    have e := ih hv
    rw [load_lines] at e ⊢
    rw [lines_cons hn, List.filter_cons, trim_ws (stripCr_ws hw)]
    simpa using e
  | @line id rest p ps he _ ih =>
    obtain ⟨h1, h2, h3, h4, h5⟩ := dec (hv _ (by simp)) he
    have e := ih fun p hp => hv p (by simp [hp])
    rw [load_lines] at e ⊢
    rw [lines_cons h4, (stripCr_id h2).1, List.filter_cons, h5]
    have hd : onOk (GnuId.decode true 15 id) some = some { p with turn := true } := by rw [h1]; rfl
    simp [hd, e]
  | @lineCr id rest p ps he _ ih =>
    obtain ⟨h1, h2, h3, h4, h5⟩ := dec (hv _ (by simp)) he
    have e := ih fun p hp => hv p (by simp [hp])
    rw [load_lines] at e ⊢
    have : id ++ '\r' :: '\n' :: rest = (id ++ ['\r']) ++ '\n' :: rest := by simp
    rw [this, lines_cons (by simp [h4]), (stripCr_id h2).2, List.filter_cons, h5]
    have hd : onOk (GnuId.decode true 15 id) some = some { p with turn := true } := by rw [h1]; rfl
    simp [hd, e]

example : FileOf "4HPwATDgc/ABMA\r\n \n4HPwATDgc/ABMA".toList [BACKGAMMON, BACKGAMMON] ∧ BACKGAMMON.Valid := by
  refine ⟨?_, by decide⟩
  have he : GnuId.encode BACKGAMMON = some "4HPwATDgc/ABMA".toList := by decide +kernel
  exact FileOf.lineCr he (FileOf.blank (w := [' ']) (by decide) (by decide) (FileOf.last he))

theorem mapM_none {α β : Type} {f : α → Option β} {l : List α} {a : α} (ha : a ∈ l) (h : f a = none) : l.mapM f = none := by
  induction l with
  | nil => simp at ha
  | cons b l ih =>
    rw [List.mapM_cons]
    rcases List.mem_cons.1 ha with rfl | ha
    · rw [h]; rfl
    · rw [ih ha]
      cases f b <;> rfl

theorem trim_eq_nil_iff (s : Str) : (!(trim s).isEmpty) = Spec.Cli.shown s := by
  unfold Spec.Cli.shown
  rw [Bool.eq_iff_iff, List.any_eq_true]
  constructor
  · intro h
    cases ht : trim s with
    | nil => rw [ht] at h; simp at h
    | cons c t =>
      have hc : isWs c = false := by
        have := trim_trimmed s
        rw [ht] at this
        exact this.1 c rfl
      exact ⟨c, (mem_trim hc).1 (by rw [ht]; simp), by simp [hc]⟩
  · rintro ⟨c, hc, hw⟩
    have : c ∈ trim s := (mem_trim (by simpa using hw)).2 hc
    cases ht : trim s with
    | nil => rw [ht] at this; simp at this
    | cons => rfl

open Spec.Cli in
/-- The lines of a text. -/
theorem lines_iff (s : Str) (ls : List Str) : lines s = ls ↔ Lines s ls := by
  constructor
  · rintro rfl
    have gen : ∀ k, ∀ s : Str, s.length = k → Lines s (lines s) := by
      intro k
      induction k using Nat.strong_induction_on with
      | _ k ih =>
        intro s hk
        by_cases hm : '\n' ∈ s
        · obtain ⟨a, b, rfl, ha⟩ := List.eq_append_cons_of_mem hm
          rw [lines_cons ha]
          have hb := ih b.length (by rw [← hk]; simp; omega) b rfl
          unfold stripCr
          split_ifs with hg
          · obtain ⟨a', rfl⟩ := List.getLast?_eq_some_iff.1 hg
            rw [List.dropLast_concat, List.append_assoc]
            exact .crlf (fun h => ha (by simp [h])) hb
          · exact .lf ha hg hb
        · by_cases hn : s = []
          · subst hn; exact .done
          · rw [lines_one hm hn]
            exact .last hn hm
    exact gen _ s rfl
  · intro h
    induction h with
    | done => rfl
    | last h1 h2 => exact lines_one h2 h1
    | @lf t rest ls h1 h2 _ ih => rw [lines_cons h1, ih, stripCr, if_neg h2]
    | @crlf t rest ls h1 _ ih =>
      have e : t ++ '\r' :: '\n' :: rest = (t ++ ['\r']) ++ '\n' :: rest := by simp
      rw [e, lines_cons (by simp [h1]), ih]
      simp [stripCr]

theorem mapM_some_iff {α β : Type} (f : α → Option β) : ∀ (l : List α) (r : List β),
    l.mapM f = some r ↔ List.Forall₂ (fun a b => f a = some b) l r
  | [], r => by
    rw [List.mapM_nil, List.forall₂_nil_left_iff]
    exact ⟨fun h => (Option.some.inj h).symm, fun h => by rw [h]; rfl⟩
  | a :: l, r => by
    rw [List.mapM_cons, List.forall₂_cons_left_iff]
    simp only [Option.bind_eq_bind, Option.bind_eq_some_iff, mapM_some_iff f l]
    constructor
    · rintro ⟨b, hb, r', hr, e⟩
      exact ⟨b, r', hb, hr, (Option.some.inj e).symm⟩
    · rintro ⟨b, r', hb, hr, rfl⟩
      exact ⟨b, hb, r', hr, rfl⟩

/-- **C64** Exactly what loads, and as what: every line that is not blank must decode as an id. -/
theorem C64_load_iff (text : Str) (ps : List (Pos 15)) :
    loadPositions text = some ps ↔
      ∃ ls, Spec.Cli.Lines text ls ∧ List.Forall₂ (fun id p => GnuId.decode true 15 id = some (.ok p)) (ls.filter Spec.Cli.shown) ps := by
  have hf : (fun l : Str => !(trim l).isEmpty) = Spec.Cli.shown := funext trim_eq_nil_iff
  have ho : ∀ id (p : Pos 15), onOk (GnuId.decode true 15 id) some = some p ↔ GnuId.decode true 15 id = some (.ok p) := by
    intro id p
    unfold onOk
    split <;> simp_all
  rw [load_lines, hf, mapM_some_iff]
  simp only [ho]
  constructor
  · exact fun h => ⟨_, (lines_iff _ _).1 rfl, h⟩
  · rintro ⟨ls, h1, h2⟩
    rw [(lines_iff _ _).2 h1]; exact h2

/-- **C64** A file of ids, where an id is any text whose bits begin with the counts of a valid position, loads as these positions; a line that is not blank and not
the text of an 80-bit key whose first 50 counts are at most 15 checkers a side makes the program panic. -/
theorem C64_load_spec (text : Str) (ps : List (Pos 15)) :
    (Spec.Cli.Corpus text ps → loadPositions text = some ps) ∧
    (∀ ls, Spec.Cli.Lines text ls → (∃ id ∈ ls, Spec.Cli.shown id = true ∧
        ¬ ∃ K ns z, K < 2 ^ 80 ∧ id = Spec.GnuId.text K ∧ ns.length = 50 ∧ Spec.GnuId.bits K = Spec.GnuId.unary ns ++ z ∧
          (ns.take 25).sum ≤ 15 ∧ (ns.drop 25).sum ≤ 15) → loadPositions text = none) := by
  constructor
  · rintro ⟨ls, h1, h2⟩
    refine (C64_load_iff text ps).2 ⟨ls, h1, h2.imp fun id p h => ?_⟩
    exact (C24_decodes_iff true p h.1 h.2.1 id).2 h.2.2
  · rintro ls hl ⟨id, hm, hs, hbad⟩
    cases h : loadPositions text with
    | none => rfl
    | some qs =>
      exfalso
      obtain ⟨ls', h1, h2⟩ := (C64_load_iff text qs).1 h
      have e : ls' = ls := ((lines_iff _ _).2 h1).symm.trans ((lines_iff _ _).2 hl)
      subst e
      have hmem : id ∈ ls'.filter Spec.Cli.shown := List.mem_filter.2 ⟨hm, hs⟩
      obtain ⟨p, hp⟩ : ∃ p : Pos 15, GnuId.decode true 15 id = some (.ok p) := by
        clear hl hm h1 h hbad hs
        generalize ls'.filter Spec.Cli.shown = l at h2 hmem
        induction h2 with
        | nil => simp at hmem
        | cons h _ ih =>
          rcases List.mem_cons.1 hmem with rfl | hmem
          · exact ⟨_, h⟩
          · exact ih hmem
      obtain ⟨K, ns, z, a1, a2, a3, a4, -, -, a5, a6⟩ := (C23_ok_iff true id p).1 hp
      refine hbad ⟨K, ns, z, a1, a2, a3, a4, ?_, ?_⟩
      · rcases a5 with a5 | a5
        · omega
        · cases a5.1
      · rcases a6 with a6 | a6
        · omega
        · cases a6.1

theorem idOf_encode {N : Nat} (hN : N ≤ 15) {p : Pos N} (hp : p.Valid) {id : Str} (h : GnuId.encode p = some id) :
    Spec.Cli.IdOf id ({ p with turn := true } : Pos N) := by
  obtain ⟨id', h1, -, h2⟩ := C22_round_trip hN p hp
  rw [h] at h1
  injection h1 with h1
  subst h1
  exact ⟨hp, rfl, (C24_decodes_iff true ({ p with turn := true } : Pos N) hp rfl id).1 (h2 true)⟩

/-- The hypothesis of `C64_load_spec` on a file with both line endings and a blank line. -/
example : Spec.Cli.Corpus "4HPwATDgc/ABMA\r\n \n4HPwATDgc/ABMA".toList [BACKGAMMON, BACKGAMMON] :=
  ⟨["4HPwATDgc/ABMA".toList, " ".toList, "4HPwATDgc/ABMA".toList],
    .crlf (t := "4HPwATDgc/ABMA".toList) (by decide) (.lf (t := [' ']) (by decide) (by decide) (.last (by decide) (by decide))),
    .cons (idOf_encode (by omega) (p := BACKGAMMON) (by decide) (by decide +kernel))
      (.cons (idOf_encode (by omega) (p := BACKGAMMON) (by decide) (by decide +kernel)) .nil)⟩

/-- A `\r` at the end of a file without a final `\n` belongs to the last line, which is then no id. -/
example : loadPositions "4HPwATDgc/ABMA\r".toList = none ∧ (loadPositions "4HPwATDgc/ABMA\r\n".toList).isSome := by decide +kernel

/-- **C64** One line that is neither blank nor an id panics (for instance an id with a space before or after it). -/
theorem C64_bad_line (pre l post : Str) (hl : '\n' ∉ l) (hpre : pre = [] ∨ pre.getLast? = some '\n') (hpost : post = [] ∨ post.head? = some '\n')
    (hb : ∃ c ∈ l, isWs c = false) (hbad : (∃ c ∈ l, isWs c = true ∧ c ≠ '\r') ∨ l.length ≠ 14 ∧ '\r' ∉ l) : loadPositions (pre ++ l ++ post) = none := by
  have hdec : ∀ t, t = l ∨ t = stripCr l → ∀ p, GnuId.decode true 15 t ≠ some (.ok p) := by
    intro t ht p hp
    have hw := id_not_ws hp
    rcases hbad with ⟨c, hc, hws, hcr⟩ | ⟨hlen, hcr⟩
    · have : c ∈ t := by
        rcases ht with rfl | rfl
        · exact hc
        unfold stripCr
        split_ifs with hg
        · obtain ⟨l', rfl⟩ := List.getLast?_eq_some_iff.1 hg
          simp only [List.mem_append, List.mem_singleton] at hc
          rw [List.dropLast_concat]
          exact hc.resolve_right hcr
        · exact hc
      rw [hw c this] at hws
      cases hws
    · have e : t = l := by
        rcases ht with rfl | rfl
        · rfl
        unfold stripCr
        rw [if_neg]
        exact fun h => hcr (List.mem_of_getLast? h)
      rw [e] at hp
      unfold GnuId.decode at hp
      cases hd : b64Decode (l ++ ['=', '=']) with
      | none => rw [hd] at hp; simp at hp
      | some key =>
        rw [hd] at hp
        simp only at hp
        by_cases hk : key.length = 10
        · obtain ⟨h1, -⟩ := b64Encode_decode _ _ hd
          obtain ⟨t, ht, h2⟩ := b64Encode_ten key hk
          rw [h1] at h2
          have := congrArg List.length h2
          simp only [List.length_append, ht] at this
          simp at this
          omega
        · rw [if_pos hk] at hp; simp at hp
  have hmem : ∃ t, (t = l ∨ t = stripCr l) ∧ t ∈ lines (pre ++ l ++ post) := by
    have hne : l ≠ [] := by rintro rfl; simp at hb
    have gen : ∀ k, ∀ pre : Str, pre.length = k → (pre = [] ∨ pre.getLast? = some '\n') → ∃ t, (t = l ∨ t = stripCr l) ∧ t ∈ lines (pre ++ l ++ post) := by
      intro k
      induction k using Nat.strong_induction_on with
      | _ k ih =>
        intro pre hk hpre
        by_cases hm : '\n' ∈ pre
        · obtain ⟨a, b, rfl, ha⟩ := List.eq_append_cons_of_mem hm
          have e : a ++ '\n' :: b ++ l ++ post = a ++ '\n' :: (b ++ l ++ post) := by simp
          rw [e, lines_cons ha]
          refine (ih b.length ?_ b rfl ?_).imp fun t h => ⟨h.1, List.mem_cons_of_mem _ h.2⟩
          · rw [← hk]; simp; omega
          · rcases hpre with h | h
            · simp at h
            · cases b with
              | nil => exact Or.inl rfl
              | cons x b =>
                right
                rw [List.getLast?_append, List.getLast?_cons_cons] at h
                rw [List.getLast?_cons] at h ⊢
                simpa using h
        · have : pre = [] := by
            rcases hpre with h | h
            · exact h
            · exact absurd (List.mem_of_getLast? h) hm
          subst this
          rw [List.nil_append]
          rcases hpost with rfl | h
          · rw [List.append_nil, lines_one hl hne]; exact ⟨l, by simp⟩
          · cases post with
            | nil => simp at h
            | cons x post =>
              simp only [List.head?_cons, Option.some.injEq] at h
              subst h
              rw [lines_cons hl]; exact ⟨stripCr l, by simp⟩
    exact gen _ pre rfl hpre
  obtain ⟨t, ht, hmem⟩ := hmem
  rw [load_lines]
  refine mapM_none (List.mem_filter.2 ⟨hmem, ?_⟩) ?_
  · obtain ⟨c, hc, hw⟩ := hb
    rw [trim_eq_nil_iff]
    refine List.any_eq_true.2 ⟨c, ?_, by simp [hw]⟩
    rcases ht with rfl | rfl
    · exact hc
    unfold stripCr
    split_ifs with hg
    · obtain ⟨l', rfl⟩ := List.getLast?_eq_some_iff.1 hg
      simp only [List.mem_append, List.mem_singleton] at hc
      rw [List.dropLast_concat]
      refine hc.resolve_right ?_
      rintro rfl
      revert hw; decide
    · exact hc
  · cases hd : GnuId.decode true 15 t with
    | none => rfl
    | some r =>
      cases r with
      | error => rfl
      | ok p => exact absurd hd (hdec t ht p)

example : loadPositions ("4HPwATDgc/ABMA\n".toList ++ " 4HPwATDgc/ABMA".toList ++ []) = none :=
  C64_bad_line _ _ _ (by decide) (Or.inr (by decide)) (Or.inl rfl) ⟨'4', by decide⟩ (Or.inl ⟨' ', by decide⟩)

/-- The number of legal positions of `p`, summed over the 21 rolls. -/
def moves (p : Pos 15) : Nat := (all21.map fun dc => (p.legalPositions dc.1).length).sum

theorem foldlM_sum {α : Type} (M : Nat) (g : α → Option Nat) (f : α → Nat) (l : List α) (hg : ∀ a ∈ l, g a = some (f a)) : ∀ t, t < M →
    l.foldlM (fun total a => (g a).bind fun k => if total + k < M then some (total + k) else none) t =
      if t + (l.map f).sum < M then some (t + (l.map f).sum) else none := by
  induction l with
  | nil => intro t ht; simp [ht]
  | cons a l ih =>
    intro t ht
    rw [List.foldlM_cons, hg a (by simp), List.map_cons, List.sum_cons, ← Nat.add_assoc]
    simp only [Option.bind_some]
    by_cases h : t + f a < M
    · rw [if_pos h]
      exact ih (fun b hb => hg b (List.mem_cons_of_mem _ hb)) _ h
    · rw [if_neg h, if_neg (by omega)]
      rfl

/-- The inner loop of `run_once` (one position). -/
theorem run_position (p : Pos 15) (hp : p.Valid) (hg : p.gameState = .ongoing) (t : Nat) (ht : t < 2 ^ 64) :
    all21.foldlM (fun total dc =>
      (Chk.legalPositions p dc.1).bind fun l => if total + l.length < 2 ^ 64 then some (total + l.length) else none) t =
      if t + moves p < 2 ^ 64 then some (t + moves p) else none := by
  have hX := hp.sumX
  have hO := hp.sumO
  obtain ⟨gx, go⟩ := ongoing_iff.1 hg
  have x0 : p.view.xOff = p.xOff := rfl
  have o0 : p.view.oOff = p.oOff := rfl
  have h := foldlM_sum (2 ^ 64) (fun dc : Dice × Nat => (Chk.legalPositions p dc.1).map List.length)
    (fun dc => (p.legalPositions dc.1).length) all21 (fun dc hd => by
      have hv : ∀ dc ∈ all21, dc.1.Valid := by decide
      rw [C16_no_panic p hp (by omega) (by omega) (by omega) _ (hv dc hd)]; rfl) t ht
  simp only [Option.bind_map, Function.comp_def] at h
  exact h

/-- **C64** `moves_per_run` is the number of legal positions summed over the positions and the 21 rolls; overflow of 64 bits panics. -/
theorem C64_run_once (ps : List (Pos 15)) (hv : ∀ p ∈ ps, p.Valid ∧ p.gameState = .ongoing) :
    runOnce ps = if (ps.map moves).sum < 2 ^ 64 then some (ps.map moves).sum else none := by
  have gen : ∀ ps : List (Pos 15), (∀ p ∈ ps, p.Valid ∧ p.gameState = .ongoing) → ∀ t, t < 2 ^ 64 →
      ps.foldlM (fun total p => all21.foldlM (fun total dc =>
        (Chk.legalPositions p dc.1).bind fun l => if total + l.length < 2 ^ 64 then some (total + l.length) else none) total) t =
      if t + (ps.map moves).sum < 2 ^ 64 then some (t + (ps.map moves).sum) else none := by
    intro ps
    induction ps with
    | nil => intro _ t ht; rw [List.map_nil, List.sum_nil, Nat.add_zero, if_pos ht]; rfl
    | cons p ps ih =>
      intro hv t ht
      rw [List.foldlM_cons, run_position p (hv p (by simp)).1 (hv p (by simp)).2 t ht, List.map_cons, List.sum_cons, ← Nat.add_assoc]
      by_cases h : t + moves p < 2 ^ 64
      · rw [if_pos h]
        exact ih (fun q hq => hv q (by simp [hq])) _ h
      · rw [if_neg h, if_neg (by omega)]
        rfl
  have := gen ps hv 0 (by decide)
  rwa [Nat.zero_add] at this

example := Corpus.C64_run_once [BACKGAMMON, Ex.start] (by decide +kernel)

/-- **C64** The whole program: with the two corpora readable and made of ids of unfinished positions, it reports for each the number of its
positions, the number of iterations (`--iterations`, at least 1, by default 20) and the sum above. -/
theorem C64_main (root : Str) (readFile : Str → Option Str) (args : List Str) (contact race : List (Pos 15)) (ct rt : Str)
    (hc : readFile ((flag (· == "--contact-csv".toList) args).getD (root ++ "benches/resources/contact.csv".toList)) = some ct)
    (hr : readFile ((flag (· == "--race-csv".toList) args).getD (root ++ "benches/resources/race.csv".toList)) = some rt)
    (fc : FileOf ct contact) (fr : FileOf rt race) (hv : ∀ p ∈ contact ++ race, p.Valid ∧ p.gameState = .ongoing)
    (bc : (contact.map moves).sum < 2 ^ 64) (br : (race.map moves).sum < 2 ^ 64) :
    let n := max ((usizeFlag args "--iterations".toList).getD 20) 1
    main root readFile args = some (⟨contact.length, n, (contact.map moves).sum⟩, ⟨race.length, n, (race.map moves).sum⟩) := by
  intro n
  have turn : ∀ p : Pos 15, moves { p with turn := true } = moves p := by
    intro p
    unfold moves
    congr 1
    refine List.map_congr_left fun dc _ => ?_
    rw [(C57_turn_flag p true _).1, List.length_map]
  have b : ∀ ps : List (Pos 15), (∀ p ∈ ps, p.Valid ∧ p.gameState = .ongoing) → (ps.map moves).sum < 2 ^ 64 →
      bench (ps.map fun p => { p with turn := true }) n = some ⟨ps.length, n, (ps.map moves).sum⟩ := by
    intro ps hv hb
    have hn : List.range n ≠ [] := by
      have : 1 ≤ n := Nat.le_max_right _ _
      simp only [ne_eq, List.range_eq_nil]; omega
    have e : ((ps.map fun p => { p with turn := true }).map moves) = ps.map moves := by
      rw [List.map_map]
      exact List.map_congr_left fun p _ => turn p
    have hv' : ∀ p ∈ ps.map (fun p : Pos 15 => ({ p with turn := true } : Pos 15)), p.Valid ∧ p.gameState = .ongoing := by
      intro p hp
      obtain ⟨q, hq, rfl⟩ := List.mem_map.1 hp
      exact hv q hq
    unfold bench
    rw [foldlM_const _ _ _ hn, C64_run_once _ hv', e, if_pos hb, List.length_map]
    rfl
  unfold main
  simp only
  rw [hc, hr, Option.bind_some, Option.bind_some, C64_load ct contact fc fun p hp => (hv p (by simp [hp])).1,
    C64_load rt race fr fun p hp => (hv p (by simp [hp])).1, Option.bind_some, Option.bind_some,
    b contact (fun p hp => hv p (by simp [hp])) bc, b race (fun p hp => hv p (by simp [hp])) br]
  rfl

example := Corpus.C64_main "/".toList (fun _ => some "4HPwATDgc/ABMA".toList) ["corpus-bench".toList, "--iterations".toList, "0".toList] [BACKGAMMON] [BACKGAMMON] _ _ rfl rfl
  (.last (by decide +kernel)) (.last (by decide +kernel)) (by decide +kernel) (by decide +kernel) (by decide +kernel)

end Corpus
end Bkgm
