import Verif.Model.Io
import Verif.Spec.CommandLine
import Verif.Spec.Ubgi
/-!
# A conversation with a UBGI session — specification
-/
namespace Bkgm.Io
open Stdin (utf8 fromUtf8)
open Spec.Cli (Lines)

/-- `read` hands out one line at a time: a newline comes only at the end. -/
def World.Lined {ω : Type} (W : World ω) : Prop := ∀ w b, (W.read w).1 = some b → (10 : UInt8) ∉ b.dropLast

/-- The events are what happens in the world, which goes from `w` to `w'`. -/
inductive Happens {ω : Type} (W : World ω) : ω → List Event → ω → Prop where
  | done (w : ω) : Happens W w [] w
  | read {w : ω} {evs : List Event} {w' : ω} : Happens W (W.read w).2 evs w' → Happens W w (.read (W.read w).1 :: evs) w'
  | write {w : ω} {b : List UInt8} {evs : List Event} {w' : ω} : Happens W (W.write w b).2 evs w' → Happens W w (.write b (W.write w b).1 :: evs) w'
  | flush {w : ω} {evs : List Event} {w' : ω} : Happens W (W.flush w).2 evs w' → Happens W w (.flush (W.flush w).1 :: evs) w'

/-- The bytes are those of the line `l`, with its line break if it has one. -/
def Line (b : List UInt8) (l : Str) : Prop := ∃ text, b = utf8 text ∧ Lines text [l]

/-- The reply `r` is written, its line break after it unless the first writing fails, and flushed. -/
inductive Reply (r : Str) : List Event → Prop where
  | sent (ok ok' : Bool) : Reply r [.write (utf8 r) true, .write [10] ok, .flush ok']
  | failed (ok : Bool) : Reply r [.write (utf8 r) false, .flush ok]

/-- The replies one after the other. -/
inductive Replies : List Str → List Event → Prop where
  | nil : Replies [] []
  | cons {r : Str} {rs : List Str} {a b : List Event} : Reply r a → Replies rs b → Replies (r :: rs) (a ++ b)

/-- A line is read, its replies are written and flushed, then the next line is read, and so on. -/
inductive Dialogue : List (Str × List Str) → List Event → Prop where
  | nil : Dialogue [] []
  | cons {b : List UInt8} {l : Str} {rs : List Str} {a : List Event} {T : List (Str × List Str)} {evs : List Event} :
    Line b l → Replies rs a → Dialogue T evs → Dialogue ((l, rs) :: T) (.read (some b) :: (a ++ evs))

/-- There is nothing (more) to read: the input has ended, reading fails, or the bytes are not a text. -/
def Nothing : Option (List UInt8) → Prop
  | none => True
  | some b => b = [] ∨ ¬ ∃ text, b = utf8 text

/-- The line is the command `quit`. -/
def Quit (l : Str) : Prop := trim l = "quit".toList

/-- What was read, in order. -/
def heard (evs : List Event) : List (Option (List UInt8)) := evs.filterMap fun | .read r => some r | _ => none

/-- What was written without an error, in order. -/
def said (evs : List Event) : List UInt8 := evs.flatMap fun | .write b true => b | _ => []

/-- A pipe with all of the input in it and an output that takes everything: the state is the bytes not yet read. -/
def pipe : World (List UInt8) where
  read w := (some (Stdin.readUntil w).1, (Stdin.readUntil w).2)
  write w _ := (true, w)
  flush w := (true, w)

end Bkgm.Io
