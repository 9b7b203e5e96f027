import Verif.Model.TypeNames
/-!
# Types with names

Which types are meant: those that values have and that are not nested in others.
-/

namespace Verif.TypeNames

/-- A name — with its namespace — as the language has them. -/
def Name (s : Text) : Prop :=
  s ≠ [] ∧ ∀ c ∈ s, c ≠ '<' ∧ c ≠ '>' ∧ c ≠ ',' ∧ c ≠ '[' ∧ c ≠ ']'

/-- A type that is not nested in another and has no type parameters that stand for nothing; its arguments are such
types, too. -/
inductive Whole : RTy → Prop
  | plain (n : Text) (ds : List Nat) : Name n → (∀ d ∈ ds, 1 ≤ d) → Whole (.plain n [] ds)
  | inst (n : Text) (as : List RTy) (ds : List Nat) : Name n → (∀ a ∈ as, Whole a) → (∀ d ∈ ds, 1 ≤ d) →
      Whole (.inst n as ds)

end Verif.TypeNames
