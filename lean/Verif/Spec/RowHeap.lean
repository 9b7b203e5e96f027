import Verif.Model.RowHeap

/-! # What the calls of the row heap mean on a list -/

namespace Verif.RowHeap

variable {α : Type}

/-- What a call means. -/
def onList (l : List α) : Op α → List α
  | .new x => l ++ [x]
  | .insert i x => l.take i ++ x :: l.drop i
  | .delete i => l.eraseIdx i
  | .clear => []

/-- What a history means. -/
def runList : List α → List (Op α) → List α
  | l, [] => l
  | l, o :: os => runList (onList l o) os

/-- The objects by index, `0` to `size - 1`. -/
def RH.toList (h : RH α) : List (Option α) := (List.range h.size).map h.at_

/-- The calls for which the list is what the heap gives: an object is inserted at an existing place,
and a deleted object lies in the row of the end of the heap, which is not full, and is not the last
one of that row. -/
def Good (rs : Nat) (l : List α) : Op α → Prop
  | .new _ => True
  | .insert i _ => i ≤ l.length
  | .delete i => i < l.length ∧ (i + 1) / rs = l.length / rs ∧ (i + 1) % rs ≠ 0
  | .clear => True

/-- All calls of a history are such. -/
def AllGood (rs : Nat) : List α → List (Op α) → Prop
  | _, [] => True
  | l, o :: os => Good rs l o ∧ AllGood rs (onList l o) os

end Verif.RowHeap
