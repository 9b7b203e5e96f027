import Verif.Model.Asm

/-
  Which class of an assembly a member belongs to, told from what the reader of the assembly
  gives for the list of members of the class.
-/

namespace Verif.Host.Spec

open Verif.Asm

/-- The lists of members of a class: the column and the table. -/
def memberLists : List (String × Kind) :=
  [("methods", .method), ("fields", .field), ("nest_types", .nestType),
   ("properties", .property), ("events", .event)]

/-- Reading the list in column `f` of the class with row `i` gives an object with row `j` of
    table `k`. -/
def Listed (t : Tables) (i : Nat) (f : String) (k : Kind) (j : Nat) : Prop :=
  i < (t .type).length ∧ ∃ l, getMany t k (refAt (rowOf t (.type, i)) f) = .ok l ∧ (k, j) ∈ l

/-- Reading the nested classes of the class with row `i` gives the class with row `c`. -/
def Nested (t : Tables) (i c : Nat) : Prop :=
  ∃ j, Listed t i "nest_types" .nestType j ∧
    getType t (refAt (rowOf t (.nestType, j)) "type") = .ok (some (.type, c))

end Verif.Host.Spec
