import Verif.Spec.Fibs
import Verif.Model.EngineSpec
/-!
# What an engine spec says

Independent of the parser: `name`, `name@version`, or one of them followed by `:` and overrides `key=value` separated by commas. White space around the parts is
ignored (`trim`), blank overrides are skipped, `engine.` may be left out of a key, and a later override of the same key wins.
-/
namespace Spec.Engine
open Bkgm (Str trim join)
open Spec.Fibs (Pieces)

/-- The text before the first `:` and the text after it, empty if there is none. -/
def Halves (s h o : Str) : Prop := ':' ∉ h ∧ (s = h ++ ':' :: o ∨ s = h ∧ o = [])

/-- Name and version. A version that is only white space does not count: the whole text is the name. -/
def Name (h a : Str) (v : Option Str) : Prop :=
  (∃ x y, h = x ++ '@' :: y ∧ '@' ∉ x ∧ trim y ≠ [] ∧ a = trim x ∧ v = some (trim y)) ∨
  (∀ x y, h = x ++ '@' :: y → '@' ∉ x → trim y = []) ∧ a = trim h ∧ v = none

/-- The full name of a key: `engine.` is put in front unless it is there. -/
def Full (x k : Str) : Prop :=
  "engine.".toList <+: x ∧ k = x ∨ ¬ "engine.".toList <+: x ∧ k = "engine.".toList ++ x

/-- An override, cut at its first `=`. -/
def Setting (p : Str) (kv : Str × Str) : Prop := ∃ x y, p = x ++ '=' :: y ∧ '=' ∉ x ∧ Full (trim x) kv.1 ∧ kv.2 = trim y

/-- The overrides that are not blank. -/
def nonblank (ps : List Str) : List Str := ps.filter fun p => trim p ≠ []

/-- The settings, in the order of the text. -/
def Overrides (o : Str) (sets : List (Str × Str)) : Prop := ∃ ps, Pieces ',' o ps ∧ List.Forall₂ Setting (nonblank ps) sets

/-- The last setting of `k` is `v`. -/
def LastFor (sets : List (Str × Str)) (k v : Str) : Prop := ∃ pre post, sets = pre ++ (k, v) :: post ∧ ∀ g ∈ post, g.1 ≠ k

/-- What a text says. The options are a map, listed in the order of the keys. -/
def Says (s : Str) (e : Bkgm.EngineSpec.Spec) : Prop :=
  ∃ h o sets, Halves s h o ∧ Name h e.aliasName e.version ∧ e.aliasName ≠ [] ∧ Overrides o sets ∧
    e.options.Pairwise (fun a b => a.1 < b.1) ∧ ∀ k v, (k, v) ∈ e.options ↔ LastFor sets k v

/-- The name is empty. -/
def NoName (s : Str) : Prop := ∃ h o v, Halves s h o ∧ Name h [] v

/-- The name is there, and `p` is the first override that is neither blank nor has an `=`. -/
def BadOverride (s p : Str) : Prop :=
  (∃ h o a v, Halves s h o ∧ Name h a v ∧ a ≠ [] ∧ ∃ pre q post, Pieces ',' o (pre ++ q :: post) ∧ p = trim q ∧ p ≠ [] ∧ '=' ∉ q ∧
    ∀ g ∈ pre, trim g = [] ∨ '=' ∈ g)

/-- A key without `engine.` in front, however often it stands there. -/
def Short (k r : Str) : Prop := ∃ n, k = (List.replicate n "engine.".toList).flatten ++ r ∧ ¬ "engine.".toList <+: r

/-- The order in which options are shown: `engine.ply`, `engine.top_k`, then the others. -/
def shownOrder (opts : List (Str × Str)) : List (Str × Str) :=
  (opts.filter fun o => o.1 = "engine.ply".toList) ++ (opts.filter fun o => o.1 = "engine.top_k".toList) ++
  opts.filter fun o => o.1 ≠ "engine.ply".toList ∧ o.1 ≠ "engine.top_k".toList

/-- The text shown for a spec. -/
def Text (e : Bkgm.EngineSpec.Spec) (t : Str) : Prop :=
  ∃ shown, List.Forall₂ (fun (o : Str × Str) s => ∃ r, Short o.1 r ∧ s = r ++ '=' :: o.2) (shownOrder e.options) shown ∧
    t = e.aliasName ++ (match e.version with | some v => '@' :: v | none => []) ++ (if shown = [] then [] else ':' :: join [','] shown)

end Spec.Engine
