import Verif.Model.DotNames

/-!
# What names with dots should be
-/

namespace Verif.DotNames

/-- The pieces of a text between its dots. -/
def pieces : Text → List Text
  | [] => [[]]
  | c :: cs =>
    if c = '.' then [] :: pieces cs
    else
      match pieces cs with
      | [] => [[c]]
      | p :: ps => (c :: p) :: ps

/-- Pieces with dots between them. -/
def dotted (ps : List Text) : Text := List.intercalate ['.'] ps

/-- Simple names have no dots. -/
def Simple : Op → Prop
  | .toMname n => '.' ∉ n
  | .combineName _ n => '.' ∉ n
  | .readNamespace n => '.' ∉ n
  | .internal ps => ps ≠ [] ∧ ∀ p ∈ ps, '.' ∉ p
  | .join ps => ∀ p ∈ ps, '.' ∉ p
  | _ => True

/-- The name at a place. -/
def nameAt (s : St) (i : Nat) : Option Name := s.objs[i]?

end Verif.DotNames
