import Verif.Spec.Ubgi
/-!
# What a key line of the UBGI protocol says

Independent of the parser: the words `key <name> <type> [<domain>] <default> [!] <description>`. There is a domain unless the type is `bool`, or `int` followed by a
word without `..` in it.
-/
namespace Spec.KeyLine
open Bkgm (Str join splitWs)
open Bkgm.Ubgi (KeyLineSpec)

/-- The words between the type and the default. -/
def Domain (k : KeyLineSpec) (dom : List Str) : Prop :=
  dom = [] ∧ k.domain = none ∧ (k.keyType = "bool".toList ∨ k.keyType = "int".toList ∧ ¬ "..".toList <:+: k.default) ∨
  ∃ d, dom = [d] ∧ k.domain = some d ∧ k.keyType ≠ "bool".toList ∧ (k.keyType = "int".toList → "..".toList <:+: d)

/-- The words after the default. -/
def Tail (k : KeyLineSpec) (tail : List Str) : Prop :=
  k.minor = true ∧ (∃ r, tail = "!".toList :: r ∧ k.description = join " ".toList r) ∨
  k.minor = false ∧ tail.head? ≠ some "!".toList ∧ k.description = join " ".toList tail

/-- What a line says. -/
def Says (line : Str) (k : KeyLineSpec) : Prop :=
  ∃ dom tail, splitWs line = "key".toList :: k.name :: k.keyType :: dom ++ k.default :: tail ∧ Domain k dom ∧ Tail k tail

end Spec.KeyLine
