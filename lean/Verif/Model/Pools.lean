/-!
# Memory managers that own what they give

Model of `memory_t::new_obj`, `delete_obj` and `alloc` — `include/common.h:1801-1929` —, of
`default_memory_t` — `common/common.cpp:366-397` — and of `pool_t` — `include/common.h:2186-2226`,
`common/common.cpp:399-449`.

Simplifications.  A block of memory is the number of its address, its bytes are left out except in
`realloc`.  `::operator new` is a function `pick` from the blocks that are in use to a new one; that it
gives none that is in use is a hypothesis of the theorems.  It does not fail (`operator new` throws by
itself, the test after it never succeeds).  The `object_t` part of an object is at its beginning.
Constructors and destructors do not use the pool themselves.  `none` is undefined behaviour: running the
destructor of what is no object, returning what is not in use, reading through an iterator that is at the
end or was erased.
-/

namespace Verif.Pools

/-- What can be seen of memory: an object was made, bytes were given, a destructor ran, a block was given
back with `::operator delete`. -/
inductive Event where
  | made (a : Nat)
  | given (a : Nat)
  | gone (a : Nat)
  | back (a : Nat)
  deriving DecidableEq, Repr

/-- The blocks in use, those that hold an object, and what happened. -/
structure World where
  live : List Nat
  built : List Nat
  log : List Event
  deriving DecidableEq, Repr

/-- `::operator new`. -/
def World.new (pick : List Nat → Nat) (w : World) : World × Nat :=
  ({ w with live := pick w.live :: w.live }, pick w.live)

/-- `obj->~object_t()`. -/
def World.destroy (w : World) (a : Nat) : Option World :=
  if a ∈ w.built then some { w with built := w.built.erase a, log := w.log ++ [.gone a] } else none

/-- `::operator delete(obj)`. -/
def World.delete (w : World) (a : Nat) : Option World :=
  if a ∈ w.live then some { w with live := w.live.erase a, log := w.log ++ [.back a] } else none

/-- `pool_t::__objects`, a `std::set`: in the order of addresses — `include/common.h:2225`. -/
structure Pool where
  objects : List Nat
  deriving DecidableEq, Repr

def Pool.empty : Pool := ⟨[]⟩

/-- `std::set::insert`. -/
def insertSet (a : Nat) : List Nat → List Nat
  | [] => [a]
  | b :: l => if a < b then a :: b :: l else if a = b then b :: l else b :: insertSet a l

/-- An iterator of the set: at an element, at the end, or at an element that was erased. -/
inductive Iter where
  | elem (a : Nat)
  | ending
  | stale
  deriving DecidableEq, Repr

/-- `std::set::find`. -/
def Pool.find (p : Pool) (a : Nat) : Iter := if a ∈ p.objects then .elem a else .ending

/-- `*it`. -/
def Iter.deref : Iter → Option Nat
  | .elem a => some a
  | _ => none

/-- `__objects.erase(it)`: the iterator cannot be used afterwards. -/
def Pool.erase (p : Pool) : Iter → Pool × Iter
  | .elem a => (⟨p.objects.erase a⟩, .stale)
  | it => (p, it)

/-- `pool_t::alloc` — `common/common.cpp:404-414`. -/
def Pool.alloc (pick : List Nat → Nat) (p : Pool) (w : World) (isObject : Bool) : Pool × World × Nat :=
  let (w1, a) := w.new pick
  if isObject then (⟨insertSet a p.objects⟩, w1, a) else (p, w1, a)

/-- `pool_t::free` — `common/common.cpp:418-428`. -/
def Pool.free (p : Pool) (w : World) (a : Nat) : Option (Pool × World) :=
  match p.find a with
  | .elem b => do
    let w1 ← w.destroy b
    let (p1, it) := p.erase (.elem b)
    let x ← it.deref
    let w2 ← w1.delete x
    pure (p1, w2)
  | it => do
    let x ← it.deref
    let w2 ← w.delete x
    pure (p, w2)

/-- `memory_t::delete_obj` of a pool — `include/common.h:1865-1871`. -/
def Pool.deleteObj (p : Pool) (w : World) (a : Nat) : Option (Pool × World) := do
  let w1 ← w.destroy a
  p.free w1 a

/-- `memory_t::new_obj` of a pool, for a class that is an `object_t` — `include/common.h:1825-1831`,
`__revise_memory_flag`, `1917-1928`.  When the constructor throws there is no object, and nothing takes
back the block: the placement form of `new` gives nothing back. -/
def Pool.newObj (pick : List Nat → Nat) (p : Pool) (w : World) (throws : Bool) : Pool × World × Nat :=
  let (p1, w1, a) := p.alloc pick w true
  if throws then (p1, w1, a)
  else (p1, { w1 with built := a :: w1.built, log := w1.log ++ [.made a] }, a)

/-- The same for a class that is none and needs no destructor, and `alloc` without a flag. -/
def Pool.newPlain (pick : List Nat → Nat) (p : Pool) (w : World) : Pool × World × Nat :=
  let (p1, w1, a) := p.alloc pick w false
  (p1, { w1 with log := w1.log ++ [.given a] }, a)

/-- The loop of the destructor. -/
def closeList : List Nat → World → Option World
  | [], w => some w
  | a :: l, w => do
    let w1 ← w.destroy a
    let w2 ← w1.delete a
    closeList l w2

/-- `pool_t::~pool_t` — `common/common.cpp:438-446`. -/
def Pool.close (p : Pool) (w : World) : Option World := closeList p.objects w

/-- A call of a pool. -/
inductive Call where
  | object (throws : Bool)
  | plain
  | free (a : Nat)
  | delete (a : Nat)
  deriving DecidableEq, Repr

/-- One call, with the address it is about. -/
def step (pick : List Nat → Nat) (p : Pool) (w : World) : Call → Option (Pool × World × Nat)
  | .object t => some (p.newObj pick w t)
  | .plain => some (p.newPlain pick w)
  | .free a => (p.free w a).map fun r => (r.1, r.2, a)
  | .delete a => (p.deleteObj w a).map fun r => (r.1, r.2, a)

/-- The calls of a pool. -/
def run (pick : List Nat → Nat) : List Call → Pool → World → Option (Pool × World × List Nat)
  | [], p, w => some (p, w, [])
  | c :: cs, p, w => do
    let (p1, w1, a) ← step pick p w c
    let (p2, w2, as) ← run pick cs p1 w1
    pure (p2, w2, a :: as)

/-- `new_obj` of the default memory manager — `common/common.cpp:370-377`. -/
def defaultNew (pick : List Nat → Nat) (w : World) : World × Nat :=
  let (w1, a) := w.new pick
  ({ w1 with built := a :: w1.built, log := w1.log ++ [.made a] }, a)

/-- `delete_obj` of the default memory manager — `include/common.h:1865-1871`,
`common/common.cpp:380-383`. -/
def defaultDelete (w : World) (a : Nat) : Option World := do
  let w1 ← w.destroy a
  w1.delete a

/-- A call of the default memory manager. -/
inductive DCall where
  | new
  | delete (a : Nat)
  deriving DecidableEq, Repr

/-- The calls of the default memory manager; gives the addresses of the objects made. -/
def defaultRun (pick : List Nat → Nat) : List DCall → World → Option (World × List Nat)
  | [], w => some (w, [])
  | .new :: cs, w => do
    let (w1, a) := defaultNew pick w
    let (w2, as) ← defaultRun pick cs w1
    pure (w2, a :: as)
  | .delete a :: cs, w => do
    let w1 ← defaultDelete w a
    defaultRun pick cs w1

/-- Blocks with their bytes. -/
abbrev Bytes := List (Nat × List UInt8)

/-- `default_memory_t::realloc` — `common/common.cpp:386-390`: frees and allocates.  What is in the new
block is not defined: `fill`. -/
def realloc (pick : List Nat → Nat) (fill : Nat → UInt8) (m : Bytes) (a size : Nat) : Option (Bytes × Nat) :=
  if a ∈ m.map (·.1) then
    let m1 := m.filter fun b => b.1 ≠ a
    let n := pick (m1.map (·.1))
    some ((n, (List.range size).map fill) :: m1, n)
  else none

end Verif.Pools
