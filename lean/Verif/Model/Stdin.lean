import Verif.Model.Ubgi
import Verif.Model.Utf8
import Mathlib.Tactic.SplitIfs
/-!
# Model of the byte level of `run_ubgi_stdio` (src/ubgi/runtime.rs 80-100, 302-305)

Standard input is a list of bytes and standard output a list of bytes. Reading never fails except for bytes that are not UTF-8; writing never fails
(`reply` ignores errors).
-/
namespace Bkgm.Stdin

/-- `BufRead::read_until(b'\n')`: the bytes up to the first newline, which is included, and the bytes left. (`lines` in src/ubgi/runtime.rs 85.) -/
def readUntil : List UInt8 → List UInt8 × List UInt8
  | [] => ([], [])
  | b :: l => if b = 10 then ([b], l) else (b :: (readUntil l).1, (readUntil l).2)

theorem readUntil_length : ∀ l : List UInt8, l ≠ [] → (readUntil l).2.length < l.length
  | [], h => absurd rfl h
  | b :: l, _ => by
    unfold readUntil
    split_ifs
    · simp
    · cases l with
      | nil => simp [readUntil]
      | cons c l =>
        have := readUntil_length (c :: l) (by simp)
        simp only [List.length_cons] at this ⊢
        omega

/-- What `Lines::next` removes from the line read: `\n`, and a `\r` before it. (src/ubgi/runtime.rs 85.) -/
def chomp (t : Str) : Str :=
  if t.getLast? = some '\n' then (if t.dropLast.getLast? = some '\r' then t.dropLast.dropLast else t.dropLast) else t

/-- `for line in stdin.lock().lines() { let Ok(line) = line else { break }; .. }` (src/ubgi/runtime.rs 85-86): the lines the loop sees. -/
def lines (bytes : List UInt8) : List Str :=
  if h : bytes = [] then []
  else
    match fromUtf8 (readUntil bytes).1 with
    | none => []
    | some t => chomp t :: lines (readUntil bytes).2
termination_by bytes.length
decreasing_by exact readUntil_length bytes h

open Ubgi in
/-- The loop of `run_ubgi_stdio` (src/ubgi/runtime.rs 85-99) again, now with what has been written when it ends: the reply lines in order, and whether
it ended in a panic. -/
def loop {ε : Type} (dbg : Bool) (E : Engine ε) : List Str → ε → Session → List Str × Bool
  | [], _, _ => ([], false)
  | line :: rest, e, s =>
    if trim line = [] then loop dbg E rest e s
    else
      match handleCommand dbg E e s (parseCommand (trim line)) with
      | none => ([], true)
      | some (out, e', s') =>
        if parseCommand (trim line) = .quit then (out, false)
        else (out ++ (loop dbg E rest e' s').1, (loop dbg E rest e' s').2)

/-- `reply` (src/ubgi/runtime.rs 302-305): `writeln!(out, "{line}")`. -/
def reply (line : Str) : List UInt8 := utf8 line ++ [10]

/-- `run_ubgi_stdio` (src/ubgi/runtime.rs 80-100): the bytes written, and whether the call panics. -/
def runStdio {ε : Type} (dbg : Bool) (E : Ubgi.Engine ε) (e : ε) (stdin : List UInt8) : List UInt8 × Bool :=
  let r := loop dbg E (lines stdin) e (Ubgi.Session.new E e)
  (r.1.flatMap reply, r.2)

end Bkgm.Stdin
