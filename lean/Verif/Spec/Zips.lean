import Verif.Model.Zips
/-!
# What walking several sequences at once means

One row for every position that all sequences have, in order; the item `j` of the row at `k` is the item at
`k` of the sequence `j`.
-/

namespace Verif.Zips

variable {α : Type}

/-- The positions that all sequences have are those below `n`. -/
def Common (cols : List (List α)) (n : Nat) : Prop := ∀ k, k < n ↔ ∀ c ∈ cols, k < c.length

/-- The rows of sequences. -/
structure Rows (cols : List (List α)) (rows : List (List (Option α))) : Prop where
  count : Common cols rows.length
  width : ∀ r ∈ rows, r.length = cols.length
  item : ∀ (k j : Nat) (c : List α), cols[j]? = some c → k < rows.length → ∃ x, c[k]? = some x ∧
    (rows[k]?.bind (·[j]?)) = some (some x)

end Verif.Zips
