import Verif.Model.Links
/-!
# What a tree is for its user

A number of nodes, each with a value and a list of children.  Nothing here is taken from the memory of the
program; only the names of the calls (`Op`) and of their results (`Res`) are.
-/

namespace Verif.Links

variable {α : Type}

/-- The trees as the user sees them: how many nodes were made, their values, the children of each in order,
and the nodes that were made as roots and have not been put below another node. -/
structure Forest (α : Type) where
  count : Nat
  value : Nat → α
  kids : Nat → List Nat
  roots : List Nat

/-- One entry of a function changed. -/
def upd {β : Type} (f : Nat → β) (n : Nat) (b : β) : Nat → β := fun x => if x = n then b else f x

/-- A list with `n` put after the first `m`. -/
def insertAfter (m n : Nat) : List Nat → List Nat
  | [] => []
  | x :: xs => if x = m then x :: n :: xs else x :: insertAfter m n xs

/-- `x` is `n` or below it. -/
inductive Under (F : Forest α) (n : Nat) : Nat → Prop
  | self : Under F n n
  | kid {p c : Nat} : Under F n p → c ∈ F.kids p → Under F n c

/-- The node is below no other. -/
def Forest.Free (F : Forest α) (n : Nat) : Prop := ∀ p, n ∉ F.kids p

/-- A new node. -/
def Forest.make (F : Forest α) (v : α) : Forest α :=
  { F with count := F.count + 1, value := upd F.value F.count v, kids := upd F.kids F.count [] }

/-- The children of a node changed. -/
def Forest.setKids (F : Forest α) (p : Nat) (l : List Nat) : Forest α := { F with kids := upd F.kids p l }

/-- What a call does, when it may be made.  A node that is put somewhere must be below no other node, and
not be above the place it is put at. -/
inductive Step [DecidableEq α] (F : Forest α) : Op α → Forest α → Res → Prop
  | root (v) : Step F (.root v) { F.make v with roots := F.count :: F.roots } (.node F.count)
  | child {p : Nat} (v) (hp : p < F.count) :
      Step F (.child p v) ((F.make v).setKids p (F.count :: F.kids p)) (.node F.count)
  | sibling {m p : Nat} (v) (hm : m ∈ F.kids p) :
      Step F (.sibling m v) ((F.make v).setKids p (insertAfter m F.count (F.kids p))) (.node F.count)
  | attach {p n : Nat} (hp : p < F.count) (hn : n < F.count) (hf : F.Free n) (hu : ¬ Under F n p) :
      Step F (.attach p n) { F.setKids p (n :: F.kids p) with roots := F.roots.filter (· ≠ n) } (.node n)
  | attachSibling {m n p : Nat} (hm : m ∈ F.kids p) (hn : n < F.count) (hf : F.Free n) (hu : ¬ Under F n p) :
      Step F (.attachSibling m n)
        { F.setKids p (insertAfter m n (F.kids p)) with roots := F.roots.filter (· ≠ n) } (.node n)
  | found {p n : Nat} {v : α} (hp : p < F.count) (h : (F.kids p).find? (fun c => F.value c = v) = some n) :
      Step F (.findOrAdd p v) F (.node n)
  | added {p : Nat} {v : α} (hp : p < F.count) (h : ∀ c ∈ F.kids p, F.value c ≠ v) :
      Step F (.findOrAdd p v) ((F.make v).setKids p (F.count :: F.kids p)) (.node F.count)
  | remove {p n : Nat} (hp : p < F.count) :
      Step F (.remove p n) (F.setKids p ((F.kids p).filter (· ≠ n))) (.flag (decide (n ∈ F.kids p)))
  | removeValue {p n : Nat} {v : α} (hp : p < F.count)
      (h : (F.kids p).find? (fun c => F.value c = v) = some n) :
      Step F (.removeValue p v) (F.setKids p ((F.kids p).filter (· ≠ n))) (.found (some n))
  | removeNone {p : Nat} {v : α} (hp : p < F.count) (h : ∀ c ∈ F.kids p, F.value c ≠ v) :
      Step F (.removeValue p v) F (.found none)
  | removeSelf {p n : Nat} (h : n ∈ F.kids p) :
      Step F (.removeSelf n) (F.setKids p ((F.kids p).filter (· ≠ n))) (.flag true)
  | removeRoot {n : Nat} (h : n ∈ F.roots) : Step F (.removeSelf n) F .error

/-- Several calls. -/
inductive Steps [DecidableEq α] : Forest α → List (Op α) → Forest α → List Res → Prop
  | nil (F) : Steps F [] F []
  | cons {F G H : Forest α} {op ops r rs} : Step F op G r → Steps G ops H rs → Steps F (op :: ops) H (r :: rs)

/-- No nodes. -/
def Forest.empty (v : α) : Forest α := ⟨0, fun _ => v, fun _ => [], []⟩

/-- The memory holds the trees. -/
inductive Chain (h : Heap α) : Option Nat → List Nat → Prop
  | nil : Chain h none []
  | cons {n : Nat} {l : List Nat} : Chain h (h.cell n).next l → Chain h (some n) (n :: l)

/-- The memory holds the trees: every chain has the children in their order, every child knows its parent,
the roots have none. -/
structure Holds (h : Heap α) (F : Forest α) : Prop where
  count : h.top = F.count
  value : ∀ n, n < F.count → (h.cell n).value = F.value n
  kids : ∀ p, p < F.count → Chain h (h.cell p).first (F.kids p)
  parent : ∀ p c, c ∈ F.kids p → (h.cell c).parent = some p
  root : ∀ r, r ∈ F.roots → (h.cell r).parent = none

/-- A tree written out. -/
inductive Tree where
  | node (n : Nat) (below : List Tree)

/-- The node at the top. -/
def Tree.id : Tree → Nat
  | .node n _ => n

/-- The top nodes. -/
def ids : List Tree → List Nat
  | [] => []
  | t :: ts => t.id :: ids ts

mutual
/-- The tree is what is below its top node. -/
def Tree.Fits (F : Forest α) : Tree → Prop
  | .node n ts => F.kids n = ids ts ∧ AllFit F ts
/-- All of them are. -/
def AllFit (F : Forest α) : List Tree → Prop
  | [] => True
  | t :: ts => t.Fits F ∧ AllFit F ts
end

mutual
/-- All nodes, each before those below it. -/
def Tree.all : Tree → List Nat
  | .node n ts => n :: alls ts
/-- All nodes of some trees. -/
def alls : List Tree → List Nat
  | [] => []
  | t :: ts => t.all ++ alls ts
end

/-- All nodes but the top one. -/
def Tree.rest : Tree → List Nat
  | .node _ ts => alls ts

mutual
/-- The nodes with nothing below them. -/
def Tree.leaves : Tree → List Nat
  | .node n [] => [n]
  | .node _ (t :: ts) => t.leaves ++ leavess ts
/-- Those of some trees. -/
def leavess : List Tree → List Nat
  | [] => []
  | t :: ts => t.leaves ++ leavess ts
end

mutual
/-- All nodes, without what is below a node that `pred` refuses. -/
def Tree.pruned (pred : Nat → Bool) : Tree → List Nat
  | .node n ts => n :: (if pred n then pruneds pred ts else [])
/-- Those of some trees. -/
def pruneds (pred : Nat → Bool) : List Tree → List Nat
  | [] => []
  | t :: ts => t.pruned pred ++ pruneds pred ts
end

/-- `n` is `k` levels below the root `r`. -/
inductive Depth (F : Forest α) : Nat → Nat → Prop
  | root {r : Nat} : r ∈ F.roots → Depth F r 0
  | kid {p c k : Nat} : Depth F p k → c ∈ F.kids p → Depth F c (k + 1)

end Verif.Links
