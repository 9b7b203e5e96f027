import Verif.Model.LrTree

/-! # Reading a tree from an arena; what a map means -/

namespace Verif.LrTree

variable {α : Type}

mutual
/-- Node `i` of the arena, with this parent, is the tree. -/
def Is (A : List (Node α)) (parent : Option Nat) (i : Nat) : Tree α → Prop
  | .node v cs => ∃ n, A[i]? = some n ∧ n.value = v ∧ n.parent = parent ∧ Chain A i n.first cs
/-- The chain of siblings from here on is the list of trees. -/
def Chain (A : List (Node α)) (parent : Nat) (o : Option Nat) : List (Tree α) → Prop
  | [] => o = none
  | t :: ts => ∃ i n, o = some i ∧ A[i]? = some n ∧ Is A (some parent) i t ∧ Chain A parent n.next ts
end

mutual
/-- No node has more than 255 children. -/
def Narrow : Tree α → Prop
  | .node _ cs => cs.length ≤ 255 ∧ Narrows cs
/-- So for several trees. -/
def Narrows : List (Tree α) → Prop
  | [] => True
  | t :: ts => Narrow t ∧ Narrows ts
end

/-- The value of a key after a history of additions: that of the last one. -/
def lastValue {κ ν : Type} [DecidableEq κ] : List (κ × ν) → κ → Option ν
  | [], _ => none
  | (k, v) :: rest, q => (lastValue rest q).or (if k = q then some v else none)

/-- A strict weak order, which `std::sort` needs. -/
structure StrictWeak {κ : Type} (lt : κ → κ → Bool) : Prop where
  irrefl : ∀ a, lt a a = false
  trans : ∀ a b c, lt a b = true → lt b c = true → lt a c = true
  incomp : ∀ a b c, lt a b = false → lt b c = false → lt a c = false

end Verif.LrTree
