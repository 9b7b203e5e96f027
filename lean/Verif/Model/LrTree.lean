/-!
# Trees kept in a flat sequence, and small maps

Model of `lr_tree_state_t` — `algorithm/__collections.h:1337-1427` — with the parts of `lr_tree_node_t`
that it uses (`__collections.h:980-1039`), of `small_map_t` (`__collections.h:1620-1731`) and of
`fixed_map_t` (`__collections.h:1741-1842`).

Simplifications.  A tree that is stored is a value and a list of children, in the order of the sibling
chain.  A tree that is restored is in an arena: a node is its index.  `queue_pop` returns a reference to
an element that was just removed (`algorithm/__std.h:180-188`); it is modelled as giving the element.
The order of `std::sort` among equal keys is not fixed by the model.
-/

namespace Verif.LrTree

variable {α : Type}

/-- A tree. -/
inductive Tree (α : Type) where
  | node (value : α) (children : List (Tree α))

mutual
/-- The number of nodes. -/
def Tree.size : Tree α → Nat
  | .node _ cs => 1 + sizes cs
/-- The number of nodes of some trees. -/
def sizes : List (Tree α) → Nat
  | [] => 0
  | t :: ts => t.size + sizes ts
end

/-- The loop of `store` — `__collections.h:1364-1375`: the values and the numbers of children
(`uint8_t`), in the order in which the queue gives the nodes.  `fuel` is the number of nodes. -/
def storeLoop : Nat → List (Tree α) → List α × List Nat
  | 0, _ => ([], [])
  | _ + 1, [] => ([], [])
  | fuel + 1, .node v cs :: queue =>
    let r := storeLoop fuel (queue ++ cs)
    (v :: r.1, cs.length % 256 :: r.2)

/-- `store` — `__collections.h:1353-1376`. -/
def store : Option (Tree α) → List α × List Nat
  | none => ([], [])
  | some t => storeLoop t.size [t]

/-- `lr_tree_node_t` — `__collections.h:1219-1222`. -/
structure Node (α : Type) where
  value : α
  first : Option Nat
  next : Option Nat
  parent : Option Nat
  deriving DecidableEq, Repr

/-- Changing a node. -/
def update (A : List (Node α)) (i : Nat) (f : Node α → Node α) : List (Node α) :=
  match A[i]? with
  | none => A
  | some n => A.set i (f n)

/-- `append_child(memory, value)` — `__collections.h:979-1001`: the new node becomes the first child. -/
def appendChild (A : List (Node α)) (node : Nat) (x : α) : List (Node α) :=
  update (A ++ [⟨x, none, (A[node]?).bind (·.first), some node⟩]) node (fun n => { n with first := some A.length })

/-- `append_sibling(memory, value)` — `__collections.h:1015-1039`: the new node comes after the node. -/
def appendSibling (A : List (Node α)) (node : Nat) (x : α) : List (Node α) :=
  update (A ++ [⟨x, none, (A[node]?).bind (·.next), (A[node]?).bind (·.parent)⟩]) node
    (fun n => { n with next := some A.length })

/-- How `restore` can fail. -/
inductive Err where
  | queueEmpty | nodesEmpty
  deriving DecidableEq, Repr

/-- The inner loop of `restore` — `__collections.h:1412-1424`: `k` children are left; gives the arena,
the nodes made and the data left. -/
def appendAll (node : Nat) : Nat → Option Nat → List α → List (Node α) → Except Err (List (Node α) × List Nat × List α)
  | 0, _, data, A => .ok (A, [], data)
  | _ + 1, _, [], _ => .error .nodesEmpty
  | k + 1, last, x :: data, A =>
    let A' := match last with
      | none => appendChild A node x
      | some l => appendSibling A l x
    match appendAll node k (some A.length) data A' with
    | .error e => .error e
    | .ok (A'', ids, rest) => .ok (A'', A.length :: ids, rest)

/-- The loop of `restore` over the numbers of children — `__collections.h:1403-1425`. -/
def restoreLoop : List Nat → List Nat → List α → List (Node α) → Except Err (List (Node α))
  | [], _, _, A => .ok A
  | _ :: _, [], _, _ => .error .queueEmpty
  | count :: counts, node :: queue, data, A =>
    match appendAll node count none data A with
    | .error e => .error e
    | .ok (A', ids, rest) => restoreLoop counts (queue ++ ids) rest A'

/-- `restore` — `__collections.h:1389-1428`; the root is node 0, `none` is the null pointer. -/
def restore (s : List α × List Nat) : Except Err (Option (List (Node α))) :=
  match s.1 with
  | [] => .ok none
  | x :: data =>
    match restoreLoop s.2 [0] data [⟨x, none, none, none⟩] with
    | .ok A => .ok (some A)
    | .error e => .error e

/-! ## Small map -/

variable {κ ν : Type} [DecidableEq κ]

/-- `add` — `__collections.h:1641-1653`. -/
def smallAdd : List (κ × ν) → κ → ν → List (κ × ν)
  | [], k, v => [(k, v)]
  | it :: rest, k, v => if it.1 = k then (it.1, v) :: rest else it :: smallAdd rest k v

/-- `get` and `find` — `__collections.h:1656-1681`; `none` is the exception, or `end()`. -/
def smallGet : List (κ × ν) → κ → Option ν
  | [], _ => none
  | it :: rest, k => if it.1 = k then some it.2 else smallGet rest k

/-- `operator[]` of a map that can be changed — `__collections.h:1696-1708`: a missing key is added
with the default value. -/
def smallAt (dflt : ν) (m : List (κ × ν)) (k : κ) : List (κ × ν) × ν :=
  match smallGet m k with
  | some v => (m, v)
  | none => (m ++ [(k, dflt)], dflt)

/-! ## Fixed map -/

/-- `fixed_map_t`: `__items` with its capacity, and the items up to `__p`. -/
structure Fixed (κ ν : Type) where
  capacity : Option Nat
  items : List (κ × ν)

/-- How a call can fail. -/
inductive FixedErr where
  | notInitialized | overflow | alreadyInitialized
  deriving DecidableEq, Repr

/-- The constructor — `__collections.h:1771-1772`. -/
def Fixed.empty : Fixed κ ν := ⟨none, []⟩

/-- `init` — `__collections.h:1787-1795`. -/
def Fixed.init (m : Fixed κ ν) (size : Nat) : Except FixedErr (Fixed κ ν) :=
  match m.capacity with
  | some _ => .error .alreadyInitialized
  | none => .ok ⟨some size, []⟩

/-- `append` — `__collections.h:1775-1784`. -/
def Fixed.append (m : Fixed κ ν) (k : κ) (v : ν) : Except FixedErr (Fixed κ ν) :=
  match m.capacity with
  | none => .error .notInitialized
  | some c => if m.items.length ≥ c then .error .overflow else .ok ⟨m.capacity, m.items ++ [(k, v)]⟩

/-- A number of calls of `append`. -/
def Fixed.appendAll (m : Fixed κ ν) : List (κ × ν) → Except FixedErr (Fixed κ ν)
  | [] => .ok m
  | (k, v) :: rest =>
    match m.append k v with
    | .error e => .error e
    | .ok m' => m'.appendAll rest

/-- What `commit` may leave — `__collections.h:1798-1801`: by `std::sort`, the items in an order in which
no key is less than one before it. -/
def Fixed.Commits (lt : κ → κ → Bool) (m m' : Fixed κ ν) : Prop :=
  m'.capacity = m.capacity ∧ m'.items.Perm m.items ∧ m'.items.Pairwise (fun a b => lt b.1 a.1 = false)

/-- `find` — `__collections.h:1804-1811`: the first of the items with an equal key, as `std::equal_range`
finds it in sorted items; `none` is `end()`. -/
def Fixed.find (lt : κ → κ → Bool) (m : Fixed κ ν) (k : κ) : Option (κ × ν) :=
  let first := (m.items.takeWhile (fun it => lt it.1 k)).length
  let second := (m.items.takeWhile (fun it => !lt k it.1)).length
  if first = second then none else m.items[first]?

end Verif.LrTree
