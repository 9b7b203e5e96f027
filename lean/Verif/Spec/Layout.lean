import Verif.Model.Layout

/-!
# What a user of local variables relies on

A method declares local variables one after another.  The index of a declaration is the number of variables whose
scope it is in: those declared before, whose scope is still open.  So the scope of a variable ends with the first
declaration whose index is not greater.
-/

namespace Verif.Layout

/-- The variable `a` is in scope where the variable `b` is declared (both by their order): no declaration after `a`,
up to `b`, has an index that is not greater. -/
def Sees (defs : List Def) (a b : Nat) : Prop :=
  a < b ∧ ∀ (m : Nat) (da dm : Def), a < m → m ≤ b → defs[a]? = some da → defs[m]? = some dm → da.index < dm.index

/-- Bytes from `o1` on, `s1` of them, and from `o2` on, `s2` of them, have none in common. -/
def DisjointBytes (o1 s1 o2 s2 : Nat) : Prop := ∀ byte, ¬ ((o1 ≤ byte ∧ byte < o1 + s1) ∧ (o2 ≤ byte ∧ byte < o2 + s2))

/-- Among the variables of one storage type, the indices tell the scopes: if every variable of the storage type after
`a`, up to `b`, has an index that is greater, then `a` is in scope where `b` is declared. -/
def Faithful (defs : List Def) (s : Storage) : Prop :=
  ∀ (a b : Nat) (da db : Def), a < b → defs[a]? = some da → defs[b]? = some db → da.storage = s → db.storage = s →
    (∀ (m : Nat) (dm : Def), a < m → m ≤ b → defs[m]? = some dm → dm.storage = s → da.index < dm.index) →
    Sees defs a b

/-- From the first variable of the storage type to the last, each declaration is in the scope of all before. -/
def Flat (defs : List Def) (s : Storage) : Prop :=
  ∀ (a b : Nat) (da db : Def), a < b → defs[a]? = some da → defs[b]? = some db → da.storage = s → db.storage = s →
    ∀ (m : Nat) (d d' : Def), a ≤ m → m < b → defs[m]? = some d → defs[m + 1]? = some d' → d.index < d'.index

end Verif.Layout
