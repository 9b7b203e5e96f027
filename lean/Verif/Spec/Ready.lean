import Verif.Model.Ready

/-!
# What it means that the types of a program are ready
-/

namespace Verif.Ready

/-- A class is derived from another. -/
inductive Inherits (p : Prog) : Nat → Nat → Prop
  | base {t b : Nat} {i : Info} : p[t]? = some (.named i) → i.base = some b → Inherits p t b
  | step {t b u : Nat} {i : Info} : p[t]? = some (.named i) → i.base = some b → Inherits p b u → Inherits p t u

/-- A struct, an enum. -/
def IsValue (p : Prog) (t : Nat) : Prop := ∃ i, p[t]? = some (.named i) ∧ (i.form = .struct_ ∨ i.form = .enum_)

/-- The types of a program can be put in order: a type is after the class it is derived from, after the structs it contains and
after the type of its elements; the bases are classes, and every method of an interface is there. -/
structure Ordered (p : Prog) : Prop where
  base : ∀ (t : Nat) (i : Info) (b : Nat), p[t]? = some (.named i) → i.base = some b → b < t ∧ ∃ j, p[b]? = some (.named j) ∧ j.form = .class_
  field : ∀ (t : Nat) (i : Info) (f : Nat), p[t]? = some (.named i) → f ∈ i.fields → f < p.length ∧ (IsValue p f → f < t)
  element : ∀ (t e : Nat), p[t]? = some (.array e) → e < t
  complete : ∀ (t : Nat) (i : Info), p[t]? = some (.named i) → i.complete = true

/-- The type of the objects of a type: the elements of arrays of arrays are looked through. -/
inductive Innermost (p : Prog) : Nat → Info → Prop
  | named {t : Nat} {i : Info} : p[t]? = some (.named i) → Innermost p t i
  | array {t e : Nat} {i : Info} : p[t]? = some (.array e) → Innermost p e i → Innermost p t i

end Verif.Ready
