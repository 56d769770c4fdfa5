import Verif.Model.Stdin
/-!
# Model of `run_ubgi_stdio` in a conversation (src/ubgi/runtime.rs 80-100, 302-305)

`Model/Stdin.lean` takes all of standard input at once. Here the world outside is a state machine that is asked for one line after the other and is
handed the bytes written, so that what comes in may depend on what went out; reading, writing and flushing may fail at any time.
-/
namespace Bkgm.Io
open Stdin (utf8 fromUtf8)

/-- The world outside: `read` is `read_until(b'\n')` on standard input (the bytes of one line, none at the end of the input, or an error), `write`
is `write_all` and `flush` is `flush` on standard output, with `false` for an error. (src/ubgi/runtime.rs 81-82.) -/
structure World (ω : Type) where
  read : ω → Option (List UInt8) × ω
  write : ω → List UInt8 → Bool × ω
  flush : ω → Bool × ω

/-- What the session does with the outside, and what comes of it. (src/ubgi/runtime.rs 85, 303, 304.) -/
inductive Event where
  | read (r : Option (List UInt8))
  | write (b : List UInt8) (ok : Bool)
  | flush (ok : Bool)
deriving DecidableEq, Repr

/-- `reply` (src/ubgi/runtime.rs 302-305). `writeln!(out, "{line}")` writes the text and then the newline, and stops at the first error; errors are
dropped, and `flush` is called in any case. -/
def reply {ω : Type} (W : World ω) (w : ω) (line : Str) : List Event × ω :=
  let a := W.write w (utf8 line)
  if a.1 then
    let b := W.write a.2 [10]
    let c := W.flush b.2
    ([.write (utf8 line) true, .write [10] b.1, .flush c.1], c.2)
  else
    let c := W.flush a.2
    ([.write (utf8 line) false, .flush c.1], c.2)

/-- `for line in handle_command(..) { reply(&mut stdout, &line); }` (src/ubgi/runtime.rs 93-95). -/
def replies {ω : Type} (W : World ω) : ω → List Str → List Event × ω
  | w, [] => ([], w)
  | w, line :: rest =>
    let a := reply W w line
    let b := replies W a.2 rest
    (a.1 ++ b.1, b.2)

/-- How things stand: the session goes on, it has returned, it has panicked. -/
inductive Status where
  | running
  | ended
  | panicked
deriving DecidableEq, Repr

/-- The state after some turns of the loop. -/
structure Run (ω ε : Type) where
  events : List Event
  status : Status
  world : ω
  engine : ε
  session : Ubgi.Session

open Ubgi Stdin in
/-- At most `n` turns of the loop of `run_ubgi_stdio` (src/ubgi/runtime.rs 85-99). -/
def turns {ω ε : Type} (dbg : Bool) (E : Engine ε) (W : World ω) : Nat → ω → ε → Session → Run ω ε
  | 0, w, e, s => ⟨[], .running, w, e, s⟩
  | n + 1, w, e, s =>
    match W.read w with
    | (none, w') => ⟨[.read none], .ended, w', e, s⟩
    | (some b, w') =>
      if b = [] then ⟨[.read (some b)], .ended, w', e, s⟩
      else
        match fromUtf8 b with
        | none => ⟨[.read (some b)], .ended, w', e, s⟩
        | some t =>
          if trim (chomp t) = [] then
            let r := turns dbg E W n w' e s
            { r with events := .read (some b) :: r.events }
          else
            match handleCommand dbg E e s (parseCommand (trim (chomp t))) with
            | none => ⟨[.read (some b)], .panicked, w', e, s⟩
            | some (out, e', s') =>
              let a := replies W w' out
              if parseCommand (trim (chomp t)) = .quit then ⟨.read (some b) :: a.1, .ended, a.2, e', s'⟩
              else
                let r := turns dbg E W n a.2 e' s'
                { r with events := .read (some b) :: (a.1 ++ r.events) }

/-- `run_ubgi_stdio` (src/ubgi/runtime.rs 80-100), for at most `n` turns of its loop. -/
def session {ω ε : Type} (dbg : Bool) (E : Ubgi.Engine ε) (W : World ω) (n : Nat) (w : ω) (e : ε) : Run ω ε :=
  turns dbg E W n w e (Ubgi.Session.new E e)

end Bkgm.Io
