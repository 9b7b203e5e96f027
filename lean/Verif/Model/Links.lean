/-!
# Trees of linked nodes

Model of `lr_tree_node_t` — `algorithm/__collections.h:965-1228` — with `new_lr_tree_root`
(`__collections.h:1231-1243`), `walk_tree` (`__collections.h:1246-1256`) and `pick_leaves`
(`__collections.h:1259-1283`).  The parser keeps everything it is still considering in such a tree.

Simplifications.  A node is a number; a new node gets a number that no node had before, and nodes are not
freed.  A new node has null pointers, since `new_obj` value-initialises it (`include/common.h:1846-1852`).
Every loop has a number of rounds it may take; `none` is a loop that has not come to its end by then.
Callbacks do not change the tree.  The output to a stream is not modelled.
-/

namespace Verif.Links

variable {α : Type}

/-- `lr_tree_node_t`, its fields: `algorithm/__collections.h:1220-1223`. -/
structure Node (α : Type) where
  value : α
  first : Option Nat
  next : Option Nat
  parent : Option Nat

/-- The memory the nodes are in; the numbers below `top` are in use. -/
structure Heap (α : Type) where
  top : Nat
  cell : Nat → Node α

/-- A write to one node. -/
def Heap.set (h : Heap α) (n : Nat) (f : Node α → Node α) : Heap α :=
  { h with cell := fun x => if x = n then f (h.cell n) else h.cell x }

/-- `memory_t::new_obj`, `include/common.h:1846-1852`, followed by the assignment of the value:
`algorithm/__collections.h:1000-1005`. -/
def Heap.alloc (h : Heap α) (v : α) : Heap α × Nat :=
  ({ top := h.top + 1, cell := fun x => if x = h.top then ⟨v, none, none, none⟩ else h.cell x }, h.top)

/-- `new_lr_tree_root`, `algorithm/__collections.h:1231-1243`. -/
def newRoot (h : Heap α) (v : α) : Heap α × Nat := h.alloc v

/-- `append_child(node)`, `algorithm/__collections.h:987-997`. -/
def appendChild (h : Heap α) (p n : Nat) : Heap α :=
  let h1 := h.set n fun c => { c with parent := some p }
  let h2 := h1.set n fun c => { c with next := (h1.cell p).first }
  h2.set p fun c => { c with first := some n }

/-- `append_child(memory, value)`, `algorithm/__collections.h:980-985, 999-1006`. -/
def appendNew (h : Heap α) (p : Nat) (v : α) : Heap α × Nat :=
  let (h1, n) := h.alloc v
  (appendChild h1 p n, n)

/-- `append_sibling(node)`, `algorithm/__collections.h:1026-1033`. -/
def appendSibling (h : Heap α) (p n : Nat) : Heap α :=
  let h1 := h.set n fun c => { c with parent := (h.cell p).parent }
  let h2 := h1.set n fun c => { c with next := (h1.cell p).next }
  h2.set p fun c => { c with next := some n }

/-- `append_sibling(memory, value)`, `algorithm/__collections.h:1019-1023, 1036-1042`. -/
def siblingNew (h : Heap α) (p : Nat) (v : α) : Heap α × Nat :=
  let (h1, n) := h.alloc v
  (appendSibling h1 p n, n)

/-- The loop of `find_child`, `algorithm/__collections.h:1098-1102`; the outer `none` is a loop that goes
on. -/
def findFrom (h : Heap α) (pred : Nat → Bool) : Nat → Option Nat → Option (Option Nat)
  | 0, _ => none
  | _ + 1, none => some none
  | k + 1, some n => if pred n then some (some n) else findFrom h pred k (h.cell n).next

/-- `find_child(value)`, `algorithm/__collections.h:1096-1105`. -/
def findChild [DecidableEq α] (h : Heap α) (fuel p : Nat) (v : α) : Option (Option Nat) :=
  findFrom h (fun n => decide ((h.cell n).value = v)) fuel (h.cell p).first

/-- `find_or_append_child`, `algorithm/__collections.h:1008-1016`. -/
def findOrAppend [DecidableEq α] (h : Heap α) (fuel p : Nat) (v : α) : Option (Heap α × Nat) :=
  match findChild h fuel p v with
  | none => none
  | some (some n) => some (h, n)
  | some none => some (appendNew h p v)

/-- The loop of `remove_child`, `algorithm/__collections.h:1067-1075`: `child` is the one before. -/
def unlinkFrom (h : Heap α) (n : Nat) : Nat → Nat → Option (Heap α × Bool)
  | 0, _ => none
  | k + 1, child =>
    match (h.cell child).next with
    | none => some (h, false)
    | some sibling =>
      if sibling = n then
        some (h.set child fun c => { c with next := (h.cell sibling).next }, true)
      else unlinkFrom h n k sibling

/-- `remove_child(node)`, `algorithm/__collections.h:1054-1078`. -/
def removeChild (h : Heap α) (fuel p n : Nat) : Option (Heap α × Bool) :=
  match (h.cell p).first with
  | none => some (h, false)
  | some f =>
    if n = f then some (h.set p fun c => { c with first := (h.cell n).next }, true)
    else unlinkFrom h n fuel f

/-- `remove_child(value)`, `algorithm/__collections.h:1045-1051`. -/
def removeValue [DecidableEq α] (h : Heap α) (fuel p : Nat) (v : α) : Option (Heap α × Option Nat) :=
  match findChild h fuel p v with
  | none => none
  | some none => some (h, none)
  | some (some n) =>
    match removeChild h fuel p n with
    | none => none
    | some (h', _) => some (h', some n)

/-- `remove()`, `algorithm/__collections.h:1081-1087`; the inner `none` is the error. -/
def removeSelf (h : Heap α) (fuel n : Nat) : Option (Option (Heap α)) :=
  match (h.cell n).parent with
  | none => some none
  | some p =>
    match removeChild h fuel p n with
    | none => none
    | some (h', _) => some (some h')

/-- `is_leaf`, `algorithm/__collections.h:1090-1093`. -/
def isLeaf (h : Heap α) (n : Nat) : Bool := (h.cell n).first.isNone

/-- `is_root`, `algorithm/__collections.h:1147-1150`. -/
def isRoot (h : Heap α) (n : Nat) : Bool := (h.cell n).parent.isNone

/-- `height`, `algorithm/__collections.h:1153-1163`. -/
def height (h : Heap α) : Nat → Nat → Option Nat
  | 0, _ => none
  | k + 1, n =>
    match (h.cell n).parent with
    | none => some 0
    | some p => (height h k p).map (· + 1)

/-- `each_child` with a callback that goes on into the node, from one node of a chain on:
`algorithm/__collections.h:1167-1186, 1246-1256`.  The nodes in the order of the calls. -/
def visit (h : Heap α) : Nat → Option Nat → Option (List Nat)
  | 0, _ => none
  | _ + 1, none => some []
  | k + 1, some n =>
    match visit h k (h.cell n).first with
    | none => none
    | some below =>
      match visit h k (h.cell n).next with
      | none => none
      | some rest => some (n :: (below ++ rest))

/-- `walk_tree`, `algorithm/__collections.h:1246-1256`. -/
def walkTree (h : Heap α) (fuel root : Nat) : Option (List Nat) := visit h fuel (h.cell root).first

/-- `pick_leaves`, `algorithm/__collections.h:1259-1270`. -/
def pickLeaves (h : Heap α) (fuel root : Nat) : Option (List Nat) :=
  (walkTree h fuel root).map (List.filter (isLeaf h))

/-- `walk(pred)`, the loop over the children from one of them on: `algorithm/__collections.h:1122-1131`.
The nodes `pred` was asked about. -/
def walkFrom (h : Heap α) (pred : Nat → Bool) : Nat → Option Nat → Option (List Nat)
  | 0, _ => none
  | _ + 1, none => some []
  | k + 1, some n =>
    match (if pred n then walkFrom h pred k (h.cell n).first else some []) with
    | none => none
    | some below =>
      match walkFrom h pred k (h.cell n).next with
      | none => none
      | some rest => some (n :: (below ++ rest))

/-- `walk(pred)`, `algorithm/__collections.h:1121-1143`. -/
def walk (h : Heap α) (pred : Nat → Bool) (fuel root : Nat) : Option (List Nat) :=
  if pred root then (walkFrom h pred fuel (h.cell root).first).map (root :: ·) else some [root]

/-- What a program does with trees. -/
inductive Op (α : Type) where
  | root (v : α)
  | child (p : Nat) (v : α)
  | sibling (n : Nat) (v : α)
  | attach (p n : Nat)
  | attachSibling (m n : Nat)
  | findOrAdd (p : Nat) (v : α)
  | remove (p n : Nat)
  | removeValue (p : Nat) (v : α)
  | removeSelf (n : Nat)

/-- What it gets back. -/
inductive Res where
  | node (n : Nat)
  | found (n : Option Nat)
  | flag (b : Bool)
  | error
deriving DecidableEq, Repr

/-- One call. -/
def step [DecidableEq α] (fuel : Nat) (h : Heap α) : Op α → Option (Heap α × Res)
  | .root v => let (h', n) := newRoot h v; some (h', .node n)
  | .child p v => let (h', n) := appendNew h p v; some (h', .node n)
  | .sibling m v => let (h', n) := siblingNew h m v; some (h', .node n)
  | .attach p n => some (appendChild h p n, .node n)
  | .attachSibling m n => some (appendSibling h m n, .node n)
  | .findOrAdd p v => (findOrAppend h fuel p v).map fun (h', n) => (h', .node n)
  | .remove p n => (removeChild h fuel p n).map fun (h', b) => (h', .flag b)
  | .removeValue p v => (removeValue h fuel p v).map fun (h', r) => (h', .found r)
  | .removeSelf n =>
    match removeSelf h fuel n with
    | none => none
    | some none => some (h, .error)
    | some (some h') => some (h', .flag true)

/-- A sequence of calls, with all the results. -/
def run [DecidableEq α] (fuel : Nat) (h : Heap α) : List (Op α) → Option (Heap α × List Res)
  | [] => some (h, [])
  | op :: ops =>
    match step fuel h op with
    | none => none
    | some (h1, r) =>
      match run fuel h1 ops with
      | none => none
      | some (h2, rs) => some (h2, r :: rs)

/-- Memory without nodes; it may contain anything. -/
def start (any : Nat → Node α) : Heap α := ⟨0, any⟩

end Verif.Links
