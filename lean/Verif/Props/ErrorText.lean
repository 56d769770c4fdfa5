import Verif.Model.ErrorText
import Verif.Props.EngineGrammar
import Verif.Props.FibsText
import Verif.Props.CodecText
/-!
# C92: what the errors print
-/
namespace Bkgm

theorem quoted_inj {a x y : Str} (h : a ++ x ++ "'".toList = a ++ y ++ "'".toList) : x = y :=
  List.append_cancel_left (List.append_cancel_right h)

theorem take_ne {l a x y : Str} (n : Nat) (hn : n ≤ a.length) (h : l.take n ≠ a.take n) : l ≠ a ++ x ++ y := by
  rintro rfl
  exact h (by rw [List.append_assoc, List.take_append_of_le_length hn])

/-- **C92** Different errors print different texts. -/
theorem C92_texts_distinct : Function.Injective Xgid.Error.text ∧ Function.Injective Fibs.Error.text ∧ Function.Injective GnuId.Error.text ∧
    Function.Injective MoveText.Error.text ∧ Function.Injective GameError.text := by
  refine ⟨?_, ?_, ?_, ?_, ?_⟩
  · have p1 : ∀ n : String, Xgid.Error.text .invalidPayload ≠ Xgid.Error.text (.invalidField n) := fun n =>
      take_ne 14 (by decide +kernel) (by decide +kernel)
    have p2 : ∀ n : String, Xgid.Error.text .invalidPosition ≠ Xgid.Error.text (.invalidField n) := fun n =>
      take_ne 14 (by decide +kernel) (by decide +kernel)
    have p3 : Xgid.Error.text .invalidPayload ≠ Xgid.Error.text .invalidPosition := by decide +kernel
    intro a b h
    cases a <;> cases b
    · rfl
    · exact absurd h (p1 _)
    · exact absurd h p3
    · exact absurd h.symm (p1 _)
    · exact congrArg _ (String.toList_inj.1 (quoted_inj h))
    · exact absurd h.symm (p2 _)
    · exact absurd h.symm p3
    · exact absurd h (p2 _)
    · rfl
  · have p1 : ∀ n : String, Fibs.Error.text .invalidPayload ≠ Fibs.Error.text (.invalidField n) := fun n =>
      take_ne 14 (by decide +kernel) (by decide +kernel)
    have p2 : ∀ n : String, Fibs.Error.text .invalidPosition ≠ Fibs.Error.text (.invalidField n) := fun n =>
      take_ne 14 (by decide +kernel) (by decide +kernel)
    have p3 : Fibs.Error.text .invalidPayload ≠ Fibs.Error.text .invalidPosition := by decide +kernel
    intro a b h
    cases a <;> cases b
    · rfl
    · exact absurd h (p1 _)
    · exact absurd h p3
    · exact absurd h.symm (p1 _)
    · exact congrArg _ (String.toList_inj.1 (quoted_inj h))
    · exact absurd h.symm (p2 _)
    · exact absurd h.symm p3
    · exact absurd h (p2 _)
    · rfl
  · intro a b h
    cases a <;> cases b <;> first | rfl | (exfalso; revert h; decide +kernel)
  · intro a b h
    cases a <;> cases b <;> first | rfl | (exfalso; revert h; decide +kernel)
  · intro a b h
    cases a <;> cases b <;> first | rfl | (exfalso; revert h; decide +kernel)

/-- **C92** The messages of `parse_xgid`, and what each of them says about the text. -/
theorem C92_xgid (s : Str) (e : Xgid.Error) (h : Xgid.parse s = .error e) : Spec.Xgid.Fails s e ∧ e.text ∈
    ["invalid XGID payload".toList, "invalid XGID field 'board'".toList, "invalid XGID field 'cube_owner'".toList,
     "invalid XGID field 'move_flag'".toList, "invalid XGID field 'dice'".toList] := by
  have hf := (C26_error_iff s e).1 h
  refine ⟨hf, ?_⟩
  obtain ⟨p, ts, k, -, -, -, ⟨-, -, rfl⟩ | ⟨t, -, -, rfl⟩⟩ := hf
  · decide +kernel
  · unfold Spec.Xgid.errorOf
    split <;> decide +kernel

/-- **C92** The messages of the three decoders. -/
theorem C92_decoders (dbg : Bool) (N : Nat) (s : Str) :
    (∀ e, Xgid.decode dbg N s = some (.error e) → e.text ∈ ["invalid XGID field 'board'".toList, "invalid XGID position".toList]) ∧
    (∀ e, Fibs.decode dbg N s = some (.error e) → e.text ∈ ["invalid FIBS payload".toList, "invalid FIBS field 'count'".toList,
      "invalid FIBS field 'points'".toList, "invalid FIBS field 'turn'".toList, "invalid FIBS position".toList]) ∧
    (∀ e, GnuId.decode dbg N s = some (.error e) → e.text ∈ ["invalid GNUID payload".toList, "invalid GNUID field 'key_length'".toList]) := by
  refine ⟨fun e h => ?_, fun e h => ?_, fun e h => ?_⟩
  · rcases C27_errors dbg s e h with ⟨rfl, -⟩ | ⟨rfl, -⟩ <;> decide +kernel
  · rcases C29_errors dbg s e h with ⟨rfl, -⟩ | ⟨_, _, _, _, -, ⟨rfl, -⟩ | ⟨_, _, _, _, _, -, -, -, ⟨rfl, -⟩ | ⟨rfl, -⟩ | ⟨_, -, -, rfl | ⟨rfl, -⟩⟩⟩⟩ <;>
      decide +kernel
  · cases e <;> decide +kernel

/-- **C92** The messages of `parse_engine_spec` quote the text, and the first override that is not one. -/
theorem C92_engine_spec (s msg : Str) : (∃ x, EngineSpec.parse s = .error x ∧ x.text = msg) ↔
    (msg = "invalid engine spec '".toList ++ s ++ "'".toList ∧ Spec.Engine.NoName s) ∨
    ∃ p, msg = "invalid engine override '".toList ++ p ++ "' in '".toList ++ s ++ "'".toList ∧ Spec.Engine.BadOverride s p := by
  constructor
  · rintro ⟨x, h, rfl⟩
    rcases (C78_error_iff s x).1 h with ⟨rfl, h'⟩ | ⟨p, rfl, h'⟩
    · exact Or.inl ⟨rfl, h'⟩
    · exact Or.inr ⟨p, rfl, h'⟩
  · rintro (⟨rfl, h⟩ | ⟨p, rfl, h⟩)
    · exact ⟨_, (C78_error_iff s _).2 (Or.inl ⟨rfl, h⟩), rfl⟩
    · exact ⟨_, (C78_error_iff s _).2 (Or.inr ⟨p, rfl, h⟩), rfl⟩

/-- The messages occur. -/
example : (match Xgid.parse "XGID=-b----E-C---eE---c-e----B-:0:0:1".toList with | .error e => e.text | .ok _ => []) = "invalid XGID payload".toList := by decide +kernel
example : (match Xgid.parse "XGID=?b----E-C---eE---c-e----B-:0:0:1:00:0:0:0:0:10".toList with | .error e => e.text | .ok _ => []) = "invalid XGID field 'board'".toList := by decide +kernel
example : (match Xgid.parse "XGID=-b----E-C---eE---c-e----B-:0:0:1:00:0:0:07:0:10".toList with | .error e => e.text | .ok _ => []) = "invalid XGID field 'dice'".toList := by decide +kernel
example : (match Xgid.parse "XGID=-b----E-C---eE---c-e----B-:0:0:1:0:0:21:5:0:10".toList with | .error e => e.text | .ok _ => []) = "invalid XGID field 'move_flag'".toList := by decide +kernel
example : ∃ x, EngineSpec.parse "hawk:ply=2,top".toList = .error x ∧ x.text = "invalid engine override 'top' in 'hawk:ply=2,top'".toList :=
  ⟨.invalidOverride "top".toList "hawk:ply=2,top".toList, by decide +kernel, by decide⟩

end Bkgm
