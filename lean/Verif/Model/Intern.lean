/-!
# The pool of strings

Model of `tspool_t::to_sid` and `tsid_t` (`algorithm/__string.h:589-663`).

The pool is a `std::set` of strings.  It is a search tree, and the search is the one of libstdc++
(`_M_get_insert_unique_pos`): down the tree with `<` only, then one comparison with the last node where it went
right.  A string id is the address of the string in its node.  Simplifications: the tree is not balanced
(a rotation moves no node and does not change the order), and the allocator is any function that gives an address
that is not in use.  A character is a `wchar_t`, which is signed on Linux; the order is that of `char_traits`.
-/

namespace Verif.Intern

/-- A string. -/
abbrev Str := List Int

/-- `char_traits::compare` of the first `n` characters: `wmemcmp`. -/
def compareN : Nat → Str → Str → Int
  | 0, _, _ => 0
  | n + 1, a :: as, b :: bs => if a = b then compareN n as bs else if a < b then -1 else 1
  | _ + 1, _, _ => 0

/-- `basic_string::compare`: the common length first, then the lengths. -/
def compareStr (a b : Str) : Int :=
  let r := compareN (min a.length b.length) a b
  if r ≠ 0 then r else (a.length : Int) - b.length

/-- `operator <` — what `std::less` uses. -/
def less (a b : Str) : Bool := decide (compareStr a b < 0)

/-- The tree: each node has an address and a string. -/
inductive Tree where
  | leaf
  | node (l : Tree) (addr : Nat) (s : Str) (r : Tree)
  deriving Repr, DecidableEq

/-- The search for the node with the string: `best` is the last node where it went right. -/
def search (k : Str) : Tree → Option (Nat × Str) → Option Nat
  | .leaf, none => none
  | .leaf, some (a, x) => if less x k then none else some a
  | .node l a x r, best => if less k x then search k l best else search k r (some (a, x))

/-- A new node. -/
def place (k : Str) (a : Nat) : Tree → Tree
  | .leaf => .node .leaf a k .leaf
  | .node l b x r => if less k x then .node (place k a l) b x r else .node l b x (place k a r)

/-- The nodes, in order. -/
def Tree.nodes : Tree → List (Nat × Str)
  | .leaf => []
  | .node l a s r => l.nodes ++ (a, s) :: r.nodes

/-- `to_sid` — `__string.h:649-653`: `insert`, then the address of the string in the set. -/
def toSid (alloc : Tree → Nat) (t : Tree) (s : Str) : Tree × Nat :=
  match search s t none with
  | some a => (t, a)
  | none => (place s (alloc t) t, alloc t)

/-- A history: the strings in the order in which they are given to `to_sid`, and the ids. -/
def history (alloc : Tree → Nat) : Tree → List Str → Tree × List Nat
  | t, [] => (t, [])
  | t, s :: ss =>
    let r := toSid alloc t s
    let rs := history alloc r.1 ss
    (rs.1, r.2 :: rs.2)

/-- `operator __string_t`, `c_str` — `__string.h:608-617`: what the id points to; `none` when nothing is there. -/
def deref (t : Tree) (a : Nat) : Option Str := (t.nodes.find? (fun p => p.1 == a)).map (·.2)

end Verif.Intern
