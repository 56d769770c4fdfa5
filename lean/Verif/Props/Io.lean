import Verif.Spec.Io
import Verif.Props.Stdin
/-!
# C90: a conversation with a UBGI session
-/
namespace Bkgm.Io
open Stdin (utf8 fromUtf8 chomp C81_utf8 utf8_append utf8_nil_iff mem_utf8)
open Spec.Cli (Lines)
open Ubgi

theorem happens_append {ω : Type} {W : World ω} {w w' w'' : ω} {a b : List Event} (h : Happens W w a w') (h' : Happens W w' b w'') :
    Happens W w (a ++ b) w'' := by
  induction h with
  | done => exact h'
  | read _ ih => exact .read (ih h')
  | write _ ih => exact .write (ih h')
  | flush _ ih => exact .flush (ih h')

/-- The bytes of one line. -/
theorem line_chomp {b : List UInt8} {t : Str} (hb : b ≠ []) (hn : (10 : UInt8) ∉ b.dropLast) (h : fromUtf8 b = some t) : Line b (chomp t) := by
  have e := (C81_utf8 _ _).1 h
  have ht : t ≠ [] := fun h0 => hb (by rw [e, h0]; rfl)
  refine ⟨t, e, ?_⟩
  obtain ⟨u, c, rfl⟩ : ∃ u c, t = u ++ [c] := ⟨t.dropLast, t.getLast ht, (List.dropLast_append_getLast ht).symm⟩
  have hu : '\n' ∉ u := fun hm => hn (by
    rw [e, utf8_append, List.dropLast_append_of_ne_nil (fun h0 => by have := (utf8_nil_iff [c]).1 h0; simp at this)]
    exact List.mem_append_left _ ((mem_utf8 u).2 hm))
  by_cases hc : c = '\n'
  · subst hc
    by_cases hr : u.getLast? = some '\r'
    · obtain ⟨v, rfl⟩ : ∃ v, u = v ++ ['\r'] := by
        have hu0 : u ≠ [] := by rintro rfl; simp at hr
        refine ⟨u.dropLast, ?_⟩
        have := List.dropLast_append_getLast hu0
        rw [List.getLast?_eq_getLast_of_ne_nil hu0] at hr
        rw [Option.some.inj hr] at this
        exact this.symm
      have : chomp (v ++ ['\r'] ++ ['\n']) = v := by
        rw [chomp, if_pos (by simp), List.dropLast_concat, if_pos (by simp), List.dropLast_concat]
      rw [this, List.append_assoc]
      exact .crlf (fun hm => hu (by simp [hm])) .done
    · have : chomp (u ++ ['\n']) = u := by rw [chomp, if_pos (by simp), List.dropLast_concat, if_neg hr]
      rw [this]
      exact .lf hu hr .done
  · have : chomp (u ++ [c]) = u ++ [c] := by rw [chomp, if_neg (by simpa using hc)]
    rw [this]
    exact .last (by simp) (by simp [hu, Ne.symm hc])

theorem reply_spec {ω : Type} (W : World ω) (w : ω) (r : Str) : Reply r (reply W w r).1 ∧ Happens W w (reply W w r).1 (reply W w r).2 := by
  unfold reply
  simp only
  split_ifs with h
  · refine ⟨.sent _ _, ?_⟩
    have := Happens.write (W := W) (w := w) (b := utf8 r) (.write (b := [10]) (.flush (.done _)))
    rw [h] at this
    exact this
  · refine ⟨.failed _, ?_⟩
    have := Happens.write (W := W) (w := w) (b := utf8 r) (.flush (.done _))
    rw [Bool.eq_false_iff.2 h] at this
    exact this

theorem replies_spec {ω : Type} (W : World ω) : ∀ (w : ω) (rs : List Str), Replies rs (replies W w rs).1 ∧ Happens W w (replies W w rs).1 (replies W w rs).2
  | w, [] => ⟨.nil, .done w⟩
  | w, r :: rs => by
    have h1 := reply_spec W w r
    have h2 := replies_spec W (reply W w r).2 rs
    exact ⟨.cons h1.1 h2.1, happens_append h1.2 h2.2⟩

theorem quit_iff {l : Str} : parseCommand (trim l) = .quit ↔ Quit l := by
  rw [← means_iff]
  constructor
  · intro h
    unfold Quit
    generalize trim l = t at h
    cases h
    rfl
  · intro h
    rw [Quit] at h
    rw [h]
    exact .quit

theorem not_quit_blank {l : Str} (h : trim l = []) : ¬ Quit l := by
  unfold Quit
  rw [h]
  decide

variable {ω ε : Type} {dbg : Bool} {E : Engine ε}

/-- What is claimed of a run that starts with the session `s`. -/
def Good (dbg : Bool) (E : Engine ε) (W : World ω) (n : Nat) (w : ω) (e : ε) (s : Session) (r : Run ω ε) : Prop :=
  Happens W w r.events r.world ∧
  match r.status with
  | .running => ∃ T, Dialogue T r.events ∧ T.length = n ∧ (∀ x ∈ T, ¬ Quit x.1) ∧ loop dbg E (T.map Prod.fst) e s = some (T, r.engine, r.session)
  | .ended => ∃ T evs, Dialogue T evs ∧ T.length ≤ n ∧ loop dbg E (T.map Prod.fst) e s = some (T, r.engine, r.session) ∧
      ((∃ T' l rs, T = T' ++ [(l, rs)] ∧ Quit l ∧ (∀ x ∈ T', ¬ Quit x.1) ∧ r.events = evs) ∨
       ((∀ x ∈ T, ¬ Quit x.1) ∧ ∃ b, r.events = evs ++ [.read b] ∧ Nothing b))
  | .panicked => ∃ T evs b l, Dialogue T evs ∧ T.length < n ∧ (∀ x ∈ T, ¬ Quit x.1) ∧ loop dbg E (T.map Prod.fst) e s = some (T, r.engine, r.session) ∧
      r.events = evs ++ [.read (some b)] ∧ Line b l ∧ loop dbg E (T.map Prod.fst ++ [l]) e s = none

/-- One more exchange in front. -/
theorem good_cons {W : World ω} {n : Nat} {w : ω} {e e' : ε} {s s' : Session} {b : List UInt8} {l : Str} {rs : List Str} {a : List Event} {w1 : ω}
    {r : Run ω ε} (hr : (W.read w).1 = some b) (hl : Line b l) (ha : Replies rs a) (haw : Happens W (W.read w).2 a w1) (hq : ¬ Quit l)
    (hloop : ∀ ls, loop dbg E (l :: ls) e s = (loop dbg E ls e' s').map fun x => ((l, rs) :: x.1, x.2))
    (h : Good dbg E W n w1 e' s' r) : Good dbg E W (n + 1) w e s { r with events := .read (some b) :: (a ++ r.events) } := by
  obtain ⟨h1, h2⟩ := h
  refine ⟨?_, ?_⟩
  · have := Happens.read (W := W) (w := w) (happens_append haw h1)
    rw [hr] at this
    exact this
  · simp only
    cases hst : r.status with
    | running =>
      rw [hst] at h2
      obtain ⟨T, d, hn, hnq, hlp⟩ := h2
      refine ⟨(l, rs) :: T, .cons hl ha d, by simp [hn], ?_, ?_⟩
      · intro x hx
        rcases List.mem_cons.1 hx with rfl | hx
        · exact hq
        · exact hnq x hx
      · rw [List.map_cons, hloop, hlp]; rfl
    | ended =>
      rw [hst] at h2
      obtain ⟨T, evs, d, hn, hlp, hc⟩ := h2
      refine ⟨(l, rs) :: T, .read (some b) :: (a ++ evs), .cons hl ha d, by simp; omega, by rw [List.map_cons, hloop, hlp]; rfl, ?_⟩
      rcases hc with ⟨T', l', rs', rfl, h3, h4, h5⟩ | ⟨h3, b', h4, h5⟩
      · refine Or.inl ⟨(l, rs) :: T', l', rs', rfl, h3, ?_, by rw [h5]⟩
        intro x hx
        rcases List.mem_cons.1 hx with rfl | hx
        · exact hq
        · exact h4 x hx
      · refine Or.inr ⟨?_, b', by rw [h4]; simp, h5⟩
        intro x hx
        rcases List.mem_cons.1 hx with rfl | hx
        · exact hq
        · exact h3 x hx
    | panicked =>
      rw [hst] at h2
      obtain ⟨T, evs, b', l', d, hn, hnq, hlp, h4, h5, h6⟩ := h2
      refine ⟨(l, rs) :: T, .read (some b) :: (a ++ evs), b', l', .cons hl ha d, by simp; omega, ?_, by rw [List.map_cons, hloop, hlp]; rfl, by rw [h4]; simp,
        h5, by rw [List.map_cons, List.cons_append, hloop, h6]; rfl⟩
      intro x hx
      rcases List.mem_cons.1 hx with rfl | hx
      · exact hq
      · exact hnq x hx

theorem turns_good {W : World ω} (hW : W.Lined) : ∀ (n : Nat) (w : ω) (e : ε) (s : Session), Good dbg E W n w e s (turns dbg E W n w e s)
  | 0, w, e, s => ⟨.done w, [], .nil, rfl, by simp, rfl⟩
  | n + 1, w, e, s => by
    have stop : ∀ b, (W.read w).1 = b → Nothing b → Good dbg E W (n + 1) w e s ⟨[.read b], .ended, (W.read w).2, e, s⟩ := fun b hb hno => by
      refine ⟨?_, [], [], .nil, by simp, rfl, Or.inr ⟨by simp, b, rfl, hno⟩⟩
      have := Happens.read (W := W) (w := w) (.done _)
      rw [hb] at this
      exact this
    unfold turns
    split
    · rename_i w' hr
      have := stop none (by rw [hr]) trivial
      rw [hr] at this
      exact this
    · rename_i b w' hr
      have hr1 : (W.read w).1 = some b := by rw [hr]
      have hr2 : (W.read w).2 = w' := by rw [hr]
      split_ifs with hb
      · have := stop (some b) hr1 (Or.inl hb)
        rw [hr2] at this
        exact this
      · split
        · rename_i hu
          have := stop (some b) hr1 (Or.inr (by
            rintro ⟨t, ht⟩
            rw [(C81_utf8 _ _).2 ht] at hu
            cases hu))
          rw [hr2] at this
          exact this
        · rename_i t hu
          have hl := line_chomp hb (hW w b hr1) hu
          by_cases ht : trim (chomp t) = []
          · rw [if_pos ht]
            have hg := good_cons (s' := s) (e' := e) (rs := []) (a := []) (w1 := w') hr1 hl .nil (by rw [hr2]; exact .done _) (not_quit_blank ht)
              (fun ls => by rw [loop, if_pos ht]) (turns_good hW n w' e s)
            exact hg
          · rw [if_neg ht]
            split
            · rename_i hc
              refine ⟨?_, [], [], b, chomp t, .nil, by simp, by simp, rfl, rfl, hl, ?_⟩
              · have := Happens.read (W := W) (w := w) (.done _)
                rw [hr] at this
                exact this
              · show loop dbg E ([] ++ [chomp t]) e s = none
                rw [List.nil_append, loop, if_neg ht, hc]; rfl
            · rename_i out e' s' hc
              have hrep := replies_spec W w' out
              simp only
              split_ifs with hq
              · refine ⟨?_, [(chomp t, out)], _, .cons hl hrep.1 .nil, by simp, ?_, Or.inl ⟨[], chomp t, out, rfl, quit_iff.1 hq, by simp, by simp⟩⟩
                · have := Happens.read (W := W) (w := w) (by rw [hr2]; exact hrep.2)
                  rw [hr1] at this
                  exact this
                · show loop dbg E [chomp t] e s = _
                  rw [loop, if_neg ht, hc]
                  simp only [Option.bind_some]
                  rw [if_pos hq]
              · exact good_cons hr1 hl hrep.1 (by rw [hr2]; exact hrep.2) (fun h => hq (quit_iff.2 h))
                  (fun ls => by rw [loop, if_neg ht, hc]; simp only [Option.bind_some]; rw [if_neg hq]) (turns_good hW n _ e' s')

/-- **C90** The conversation: a line is read, the replies to it (those of C50 to C53) are written and flushed, whether or not this succeeds, and only then is
the next line read. It ends after `quit`, at the end of the input, and when reading fails or finds bytes that are not a text; nothing more is written then.
If a line makes the code panic, the replies to all lines before it have been written. -/
theorem C90_dialogue (W : World ω) (hW : W.Lined) (n : Nat) (w : ω) (e : ε) :
    Happens W w (session dbg E W n w e).events (session dbg E W n w e).world ∧
    match (session dbg E W n w e).status with
    | .running => ∃ T, Dialogue T (session dbg E W n w e).events ∧ T.length = n ∧ (∀ x ∈ T, ¬ Quit x.1) ∧
        run dbg E e (T.map Prod.fst) = some (T, (session dbg E W n w e).engine, (session dbg E W n w e).session)
    | .ended => ∃ T evs, Dialogue T evs ∧ T.length ≤ n ∧
        run dbg E e (T.map Prod.fst) = some (T, (session dbg E W n w e).engine, (session dbg E W n w e).session) ∧
        ((∃ T' l rs, T = T' ++ [(l, rs)] ∧ Quit l ∧ (∀ x ∈ T', ¬ Quit x.1) ∧ (session dbg E W n w e).events = evs) ∨
         ((∀ x ∈ T, ¬ Quit x.1) ∧ ∃ b, (session dbg E W n w e).events = evs ++ [.read b] ∧ Nothing b))
    | .panicked => ∃ T evs b l, Dialogue T evs ∧ T.length < n ∧ (∀ x ∈ T, ¬ Quit x.1) ∧
        run dbg E e (T.map Prod.fst) = some (T, (session dbg E W n w e).engine, (session dbg E W n w e).session) ∧
        (session dbg E W n w e).events = evs ++ [.read (some b)] ∧ Line b l ∧ run dbg E e (T.map Prod.fst ++ [l]) = none :=
  turns_good hW n w e _

theorem heard_append (a b : List Event) : heard (a ++ b) = heard a ++ heard b := by simp [heard]

theorem heard_replies {rs : List Str} {a : List Event} (h : Replies rs a) : heard a = [] := by
  induction h with
  | nil => rfl
  | cons h _ ih => rw [heard_append, ih]; cases h <;> rfl

theorem turns_heard {ω' : Type} (W : World ω) (W' : World ω') : ∀ (n : Nat) (w : ω) (w' : ω') (e : ε) (s : Session),
    heard (turns dbg E W n w e s).events = heard (turns dbg E W' n w' e s).events →
    (turns dbg E W n w e s).status = (turns dbg E W' n w' e s).status ∧ (turns dbg E W n w e s).engine = (turns dbg E W' n w' e s).engine ∧
    (turns dbg E W n w e s).session = (turns dbg E W' n w' e s).session
  | 0, w, w', e, s, _ => ⟨rfl, rfl, rfl⟩
  | n + 1, w, w', e, s, h => by
    have head : ∀ {ω : Type} (W : World ω) (w : ω), ∃ l, heard (turns dbg E W (n + 1) w e s).events = (W.read w).1 :: l := by
      intro ω W w
      unfold turns
      split
      · rename_i hr; exact ⟨[], by rw [hr]; rfl⟩
      · rename_i hr
        rw [hr]
        split_ifs
        · exact ⟨[], rfl⟩
        · split
          · exact ⟨[], rfl⟩
          · rename_i t _
            by_cases ht : trim (chomp t) = []
            · rw [if_pos ht]; exact ⟨_, rfl⟩
            · rw [if_neg ht]
              split
              · exact ⟨[], rfl⟩
              · simp only
                split_ifs
                · exact ⟨_, rfl⟩
                · exact ⟨_, rfl⟩
    obtain ⟨l1, h1⟩ := head W w
    obtain ⟨l2, h2⟩ := head W' w'
    have hb : (W.read w).1 = (W'.read w').1 := by rw [h1, h2] at h; exact (List.cons.inj h).1
    unfold turns at h ⊢
    rcases hrw : W.read w with ⟨r, w1⟩
    rcases hrw' : W'.read w' with ⟨r', w1'⟩
    rw [hrw, hrw'] at hb
    simp only at hb
    subst hb
    rw [hrw, hrw'] at h
    cases r with
    | none => exact ⟨rfl, rfl, rfl⟩
    | some b =>
      simp only at h ⊢
      split_ifs at h ⊢ with hb
      · exact ⟨rfl, rfl, rfl⟩
      · cases hu : fromUtf8 b with
        | none => exact ⟨rfl, rfl, rfl⟩
        | some t =>
          rw [hu] at h
          simp only at h ⊢
          by_cases ht : trim (chomp t) = []
          · rw [if_pos ht, if_pos ht] at h ⊢
            exact turns_heard W W' n _ _ _ _ (List.cons.inj h).2
          · rw [if_neg ht, if_neg ht] at h ⊢
            cases hc : handleCommand dbg E e s (parseCommand (trim (chomp t))) with
            | none => exact ⟨rfl, rfl, rfl⟩
            | some x =>
              obtain ⟨out, e', s'⟩ := x
              rw [hc] at h
              simp only at h ⊢
              split_ifs at h ⊢ with hq
              · exact ⟨rfl, rfl, rfl⟩
              · refine turns_heard W W' n _ _ _ _ ?_
                have h3 := (List.cons.inj h).2
                rw [← heard, ← heard, heard_append, heard_append, heard_replies (replies_spec W w1 out).1, heard_replies (replies_spec W' w1' out).1] at h3
                exact h3

/-- **C90** Only what is read counts: in two worlds in which the same is read, whatever becomes of the writing, the session does the same. -/
theorem C90_only_input {ω' : Type} (W : World ω) (W' : World ω') (n : Nat) (w : ω) (w' : ω') (e : ε)
    (h : heard (session dbg E W n w e).events = heard (session dbg E W' n w' e).events) :
    (session dbg E W n w e).status = (session dbg E W' n w' e).status ∧ (session dbg E W n w e).engine = (session dbg E W' n w' e).engine ∧
    (session dbg E W n w e).session = (session dbg E W' n w' e).session := turns_heard W W' n w w' e _ h

theorem said_replies (w : List UInt8) : ∀ rs : List Str, (replies pipe w rs).2 = w ∧ said (replies pipe w rs).1 = rs.flatMap fun r => utf8 r ++ [10]
  | [] => ⟨rfl, rfl⟩
  | r :: rs => by
    have ih := said_replies w rs
    refine ⟨ih.1, ?_⟩
    simp only [replies]
    have e1 : (reply pipe w r).2 = w := rfl
    rw [e1]
    simp only [said, List.flatMap_append, List.flatMap_cons] at ih ⊢
    rw [ih.2]
    simp [reply, pipe]

theorem turns_pipe : ∀ (n : Nat) (stdin : List UInt8) (e : ε) (s : Session), stdin.length < n →
    said (turns dbg E pipe n stdin e s).events = (Stdin.loop dbg E (Stdin.lines stdin) e s).1.flatMap Stdin.reply ∧
    (turns dbg E pipe n stdin e s).status = if (Stdin.loop dbg E (Stdin.lines stdin) e s).2 then .panicked else .ended
  | 0, _, _, _, h => by omega
  | n + 1, stdin, e, s, h => by
    by_cases h0 : stdin = []
    · subst h0
      rw [Stdin.lines, dif_pos rfl]
      exact ⟨rfl, rfl⟩
    · have hlen := Stdin.readUntil_length stdin h0
      have hne : (Stdin.readUntil stdin).1 ≠ [] := by
        cases stdin with
        | nil => exact absurd rfl h0
        | cons b l => rw [Stdin.readUntil]; split_ifs <;> simp
      rw [Stdin.lines_eq stdin h0]
      unfold turns
      rw [show pipe.read stdin = (some (Stdin.readUntil stdin).1, (Stdin.readUntil stdin).2) from rfl]
      simp only [if_neg hne]
      cases hu : fromUtf8 (Stdin.readUntil stdin).1 with
      | none => exact ⟨rfl, rfl⟩
      | some t =>
        simp only [Stdin.loop]
        by_cases ht : trim (chomp t) = []
        · simp only [if_pos ht]
          have := turns_pipe n (Stdin.readUntil stdin).2 e s (by omega)
          refine ⟨?_, this.2⟩
          rw [← this.1]
          rfl
        · simp only [if_neg ht]
          cases hc : handleCommand dbg E e s (parseCommand (trim (chomp t))) with
          | none => exact ⟨rfl, rfl⟩
          | some x =>
            obtain ⟨out, e', s'⟩ := x
            simp only
            have hs := said_replies (Stdin.readUntil stdin).2 out
            by_cases hq : parseCommand (trim (chomp t)) = .quit
            · simp only [if_pos hq]
              exact ⟨hs.2, rfl⟩
            · simp only [if_neg hq]
              have := turns_pipe n (Stdin.readUntil stdin).2 e' s' (by omega)
              have e1 : (replies pipe (Stdin.readUntil stdin).2 out).2 = (Stdin.readUntil stdin).2 := hs.1
              rw [e1]
              refine ⟨?_, this.2⟩
              simp only [List.flatMap_append]
              rw [← this.1, show (List.flatMap Stdin.reply out) = out.flatMap fun r => utf8 r ++ [10] from rfl, ← hs.2]
              simp [said]

/-- **C90** With all of the input in a pipe and an output that takes everything, what is said is what C81 describes. -/
theorem C90_pipe (n : Nat) (stdin : List UInt8) (h : stdin.length < n) (e : ε) :
    said (session dbg E pipe n stdin e).events = (Stdin.runStdio dbg E e stdin).1 ∧
    (session dbg E pipe n stdin e).status = if (Stdin.runStdio dbg E e stdin).2 then .panicked else .ended := turns_pipe n stdin e _ h

theorem lines_append_complete : ∀ (a : List UInt8), a = [] ∨ a.getLast? = some 10 → ∀ b, Stdin.lines (a ++ b) = Stdin.lines a ∨ Stdin.lines (a ++ b) = Stdin.lines a ++ Stdin.lines b := by
  intro a
  induction hk : a.length using Nat.strong_induction_on generalizing a with
  | _ k ih =>
    intro ha b
    by_cases h0 : a = []
    · subst h0
      right
      rw [List.nil_append, Stdin.lines.eq_def [], dif_pos rfl, List.nil_append]
    · have ha := ha.resolve_left h0
      obtain ⟨u, v, rfl, hu⟩ := List.eq_append_cons_of_mem (List.mem_of_getLast? ha)
      have hv : v = [] ∨ v.getLast? = some 10 := by
        cases v with
        | nil => exact Or.inl rfl
        | cons x v =>
          right
          rw [List.getLast?_append, List.getLast?_cons_cons] at ha
          rw [List.getLast?_cons] at ha ⊢
          simpa using ha
      rw [show u ++ 10 :: v ++ b = u ++ 10 :: (v ++ b) by simp]
      rw [Stdin.lines_eq (u ++ 10 :: (v ++ b)) (by simp), Stdin.lines_eq (u ++ 10 :: v) (by simp), Stdin.readUntil_newline hu, Stdin.readUntil_newline hu]
      simp only
      cases fromUtf8 (u ++ [10]) with
      | none => exact Or.inl rfl
      | some t =>
        rcases ih v.length (by rw [← hk]; simp; omega) v rfl hv b with h | h
        · left; simp only; rw [h]
        · right; simp only; rw [h]; rfl

theorem loop_prefix : ∀ (a b : List Str) (e : ε) (s : Session), (Stdin.loop dbg E a e s).1 <+: (Stdin.loop dbg E (a ++ b) e s).1 ∧
    ((Stdin.loop dbg E a e s).2 = true → Stdin.loop dbg E (a ++ b) e s = Stdin.loop dbg E a e s)
  | [], b, e, s => ⟨by simp [Stdin.loop], by simp [Stdin.loop]⟩
  | l :: a, b, e, s => by
    simp only [List.cons_append, Stdin.loop]
    by_cases ht : trim l = []
    · simp only [if_pos ht]; exact loop_prefix a b e s
    · simp only [if_neg ht]
      cases handleCommand dbg E e s (parseCommand (trim l)) with
      | none => simp
      | some x =>
        obtain ⟨out, e', s'⟩ := x
        simp only
        split_ifs with hq
        · simp
        · have := loop_prefix a b e' s'
          refine ⟨List.prefix_append_right_inj out |>.2 this.1, fun h => ?_⟩
          rw [this.2 h]

/-- **C90** What has been answered stays: if complete lines have come in, then what is written to them comes first whatever comes in later. -/
theorem C90_prefix (a b : List UInt8) (ha : a = [] ∨ a.getLast? = some 10) (e : ε) :
    (Stdin.runStdio dbg E e a).1 <+: (Stdin.runStdio dbg E e (a ++ b)).1 ∧
    ((Stdin.runStdio dbg E e a).2 = true → Stdin.runStdio dbg E e (a ++ b) = Stdin.runStdio dbg E e a) := by
  unfold Stdin.runStdio
  simp only
  rcases lines_append_complete a ha b with h | h
  · rw [h]; exact ⟨List.prefix_rfl, fun _ => rfl⟩
  · rw [h]
    have := loop_prefix (dbg := dbg) (E := E) (Stdin.lines a) (Stdin.lines b) e (Session.new E e)
    refine ⟨?_, fun hp => by rw [this.2 hp]⟩
    obtain ⟨t, ht⟩ := this.1
    rw [← ht, List.flatMap_append]
    exact List.prefix_append _ _

/-! ## Examples -/

/-- A client that asks for a move, and quits once it has got one. The state is what it has received, and the number of lines it has sent. -/
def client : World (List UInt8 × Nat) where
  read w := (some (utf8 (if w.2 = 0 then "dice 6 1\r\n".toList else if w.2 = 1 then "go\n".toList
    else if w.1 = utf8 "bestmove 24/18\n".toList then "quit\n".toList else "ubgi\n".toList)), (w.1, w.2 + 1))
  write w b := (true, (w.1 ++ b, w.2))
  flush w := (true, w)

theorem client_lined : client.Lined := by
  intro w b h
  simp only [client, Option.some.injEq] at h
  rw [← h]
  split_ifs <;> decide +kernel

/-- The client gets its answer before it sends the next line. -/
example : (session true Ubgi.demo client 9 ([], 0) 0).events = [.read (some (utf8 "dice 6 1\r\n".toList)), .read (some (utf8 "go\n".toList)),
    .write (utf8 "bestmove 24/18".toList) true, .write [10] true, .flush true, .read (some (utf8 "quit\n".toList))] ∧
    (session true Ubgi.demo client 9 ([], 0) 0).status = .ended := by decide +kernel
example := C90_dialogue (dbg := true) (E := Ubgi.demo) client client_lined 9 ([], 0) 0

/-- The same input, but nobody takes the output. -/
def deaf : World Nat where
  read w := (some (utf8 (if w = 0 then "dice 6 1\r\n".toList else if w = 1 then "go\n".toList else "quit\n".toList)), w + 1)
  write w _ := (false, w)
  flush w := (false, w)

example : heard (session true Ubgi.demo client 9 ([], 0) 0).events = heard (session true Ubgi.demo deaf 9 0 0).events ∧
    said (session true Ubgi.demo deaf 9 0 0).events = [] ∧ said (session true Ubgi.demo client 9 ([], 0) 0).events ≠ [] := by decide +kernel

/-- Reading fails after an answer. -/
example : (session true Ubgi.demo { deaf with read := fun w => if w = 2 then (none, w) else deaf.read w } 9 0 0).events =
    [.read (some (utf8 "dice 6 1\r\n".toList)), .read (some (utf8 "go\n".toList)), .write (utf8 "bestmove 24/18".toList) false, .flush false, .read none] := by
  decide +kernel

example := C90_pipe (dbg := true) (E := Ubgi.demo) 99 (utf8 "dice 6 1\r\n\ngo\nquit\nkeys".toList) (by decide +kernel) 0
example := C90_prefix (dbg := true) (E := Ubgi.demo) (utf8 "dice 6 1\r\n".toList) (utf8 "go\n".toList) (Or.inr (by decide +kernel)) 0

end Bkgm.Io
