/-!
# Rows and columns

The order of the elements of an array with several dimensions, as it is defined for a user.
-/

namespace Verif.Arr

/-- The number of elements. -/
def product (lengths : List Int) : Int := lengths.foldr (· * ·) 1

/-- The place of an element: row by row, the last index running fastest. -/
def rowMajor (lengths indices : List Int) : Int :=
  (lengths.zip indices).foldl (fun place p => place * p.1 + p.2) 0

/-- As many indices as dimensions, each within its dimension. -/
def Valid (lengths indices : List Int) : Prop :=
  lengths.length = indices.length ∧ ∀ p ∈ lengths.zip indices, 0 ≤ p.2 ∧ p.2 < p.1

/-- Lengths of an array: at least one, all positive, and the number of elements is an `int32_t`. -/
def Lengths (lengths : List Int) : Prop :=
  lengths ≠ [] ∧ (∀ l ∈ lengths, 1 ≤ l) ∧ product lengths < 2 ^ 31

end Verif.Arr
