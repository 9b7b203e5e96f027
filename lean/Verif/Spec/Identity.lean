import Verif.Model.Identity
/-!
# Names

What names look like in the language, and what it is for a type to stand in no other type.
-/

namespace Verif.Identity

/-- A name as the language has them: of at least one character, none of which has a meaning of its own. -/
def Identifier (s : Text) : Prop :=
  s ≠ [] ∧ ∀ c ∈ s, c ≠ '.' ∧ c ≠ '<' ∧ c ≠ '>' ∧ c ≠ ',' ∧ c ≠ '[' ∧ c ≠ ']' ∧ c ≠ ' '

/-- A name of several parts. -/
def Names (o : Option (List Text)) : Prop := ∀ parts, o = some parts → parts ≠ [] ∧ ∀ s ∈ parts, Identifier s

/-- All names of a type are names, and no type that it is nested in has parameters of the kind `params`. -/
structure WellNamed (g : General) : Prop where
  assembly : Names g.assembly
  namespace_ : Names g.namespace_
  hosts : ∀ h ∈ g.hosts, Identifier h.name ∧ ∀ p ∈ h.params, Identifier p.1 ∧ p.2 = false
  name : Identifier g.name

/-- A type that is well named and, if it is an array, one of at least one dimension. -/
def WellNamedTy : Ty → Prop
  | .general g => WellNamed g
  | .array e d => WellNamedTy e ∧ 1 ≤ d

/-- A type of an assembly — or an array of such — that is not nested in another. -/
def TopLevel (assembly : Option (List Text)) : Ty → Prop
  | .general g => g.assembly = assembly ∧ g.hosts = []
  | .array e _ => TopLevel assembly e

/-- The number of parts of the name of a namespace. -/
def depth (o : Option (List Text)) : Nat := (o.getD []).length

end Verif.Identity
