import Verif.Model.SVector

/-! # What a vector should do: the same as a list -/

namespace Verif.SVector

variable {α : Type}

/-- The elements, as indexing and iteration give them. -/
def SV.toList (v : SV α) : List (Option α) := (List.range v.size).map v.at_

/-- An operation on a sequence; `none`: it is refused. -/
def onList (l : List α) : Op α → Option (List α)
  | .push x => some (l ++ [x])
  | .pop => if l = [] then none else some l.dropLast
  | .insert vs i => if i ≤ l.length then some (l.take i ++ vs ++ l.drop i) else none
  | .truncate m => some (l.take m)
  | .clear => some []

/-- A history of operations on a sequence. -/
def runList : List α → List (Op α) → List α
  | l, [] => l
  | l, o :: os => runList ((onList l o).getD l) os

/-- How many elements an operation adds. -/
def added : Op α → Nat
  | .push _ => 1
  | .insert vs _ => vs.length
  | _ => 0

end Verif.SVector
