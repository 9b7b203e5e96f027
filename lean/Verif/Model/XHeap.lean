import Verif.Model.Bits

/-!
# The heap for small objects

Model of `xheap_t` — `algorithm/__collections.h:428-478`, `algorithm/collections.cpp:9-143` — and of
`heap_t<obj_t[]>` — `algorithm/__collections.h:338-421`.

Simplifications.  A buffer from `new byte_t[…]` is a number that was not given out before; an address
is a buffer and an offset.  `free` does nothing and `realloc` throws, so they are not modelled.
`int16_t` counters are natural numbers (they stay below 257).
-/

namespace Verif.XHeap

open Verif.Bits

/-- A block of memory. -/
structure Block where
  buf : Nat
  off : Nat
  len : Nat
  deriving DecidableEq, Repr

/-- `__row_t`. -/
structure Row where
  buf : Nat
  objs : Nat
  deriving DecidableEq, Repr

/-- `__row_collection_t` of the given index; the newest row first (`current_row` is set to the last
row whenever one is added, `collections.cpp:48-50`), and `bytes_count`. -/
structure Class where
  idx : Nat
  rows : List Row
  bytes : Nat
  deriving DecidableEq, Repr

/-- `xheap_t`; `next` is the next buffer that `new` gives. -/
structure Heap where
  next : Nat
  classes : List Class
  largeObjs : List Nat
  largeBytes : List Nat
  deriving DecidableEq, Repr

/-- `__row_size` and `__large_object_size` — `__collections.h:454-455`. -/
def rowSize : Nat := 1024
def largeObjectSize : Nat := 128

/-- `rc.capacity` — `collections.cpp:19`. -/
def capacity (idx : Nat) : Nat := rowSize / (4 * (idx + 1))

/-- The constructor — `collections.cpp:9-24`. -/
def Heap.empty : Heap := ⟨0, (List.range 32).map (fun k => ⟨k, [], 0⟩), [], []⟩

/-- Taking memory from a row collection — `collections.cpp:44-68`.  Also returns the next buffer. -/
def Class.alloc (c : Class) (next : Nat) (newSize : Nat) (isObj : Bool) : Class × Nat × Block :=
  let r : Row × List Row × Nat × Nat :=
    match c.rows with
    | r :: rest =>
      if c.bytes + r.objs ≥ capacity c.idx then (⟨next, 0⟩, c.rows, 0, next + 1) else (r, rest, c.bytes, next)
    | [] => (⟨next, 0⟩, [], 0, next + 1)
  let (row, older, bytes, next') := r
  if isObj then
    (⟨c.idx, ⟨row.buf, row.objs + 1⟩ :: older, bytes⟩, next', ⟨row.buf, row.objs * newSize, newSize⟩)
  else
    (⟨c.idx, row :: older, bytes + 1⟩, next', ⟨row.buf, (capacity c.idx - bytes - 1) * newSize, newSize⟩)

/-- `xheap_t::alloc` — `collections.cpp:27-72`.  `none`: the row collection with the index
`new_size / sizeof(int) - 1` does not exist. -/
def Heap.alloc (h : Heap) (size : BitVec 64) (isObj : Bool) : Option (Heap × Block) :=
  let newSize := (alignf size 4#64).toNat
  if newSize > largeObjectSize then
    if isObj then some (⟨h.next + 1, h.classes, h.largeObjs ++ [h.next], h.largeBytes⟩, ⟨h.next, 0, newSize⟩)
    else some (⟨h.next + 1, h.classes, h.largeObjs, h.largeBytes ++ [h.next]⟩, ⟨h.next, 0, newSize⟩)
  else if newSize = 0 then none
  else
    match h.classes[newSize / 4 - 1]? with
    | none => none
    | some c =>
      let (c', next', b) := c.alloc h.next newSize isObj
      some (⟨next', h.classes.set (newSize / 4 - 1) c', h.largeObjs, h.largeBytes⟩, b)

/-- A history of requests; the blocks that were given out, the newest first. -/
def Heap.run : Heap → List (BitVec 64 × Bool) → Option (Heap × List (Block × Bool))
  | h, [] => some (h, [])
  | h, (size, isObj) :: rest =>
    match h.run rest with
    | none => none
    | some (h', bs) =>
      match h'.alloc size isObj with
      | none => none
      | some (h'', b) => some (h'', (b, isObj) :: bs)

/-- The objects of a row collection that are destroyed, as buffer and offset —
`collections.cpp:98-112`. -/
def Class.destroyed (c : Class) : List (Nat × Nat) :=
  c.rows.flatMap (fun r => (List.range r.objs).map (fun i => (r.buf, i * ((c.idx + 1) * 4))))

/-- The objects whose destructors are called by `~xheap_t` — `collections.cpp:90-113`. -/
def Heap.destroyed (h : Heap) : List (Nat × Nat) :=
  h.largeObjs.map (fun b => (b, 0)) ++ h.classes.flatMap Class.destroyed

/-- The buffers that `~xheap_t` frees — `collections.cpp:116-137`. -/
def Heap.freed (h : Heap) : List Nat :=
  h.largeObjs ++ h.classes.flatMap (fun c => c.rows.map (·.buf)) ++ h.largeBytes

/-! ## Arrays of objects -/

/-- `heap_t<obj_t[]>`; lengths and offsets in objects. -/
structure Arrays where
  rowSize : Nat
  next : Nat
  /-- `__current_row`, `__current_col`, `__current_size`. -/
  current : Option (Nat × Nat × Nat)
  deriving DecidableEq, Repr

/-- The constructor — `__collections.h:353-357`. -/
def Arrays.empty (rowSize : Nat) : Arrays := ⟨rowSize, 0, none⟩

/-- The last lines of `acquire` — `__collections.h:379-382`. -/
def Arrays.take (a : Arrays) (next row col size n : Nat) : Arrays × Block :=
  (⟨a.rowSize, next, some (row, col + n, size)⟩, ⟨row, col, n⟩)

/-- `acquire` — `__collections.h:360-383`. -/
def Arrays.acquire (a : Arrays) (n : Nat) : Arrays × Block :=
  match a.current with
  | some (row, col, size) =>
    if size - col < n then
      if n ≥ a.rowSize then (⟨a.rowSize, a.next + 1, a.current⟩, ⟨a.next, 0, n⟩)
      else a.take (a.next + 1) a.next 0 a.rowSize n
    else a.take a.next row col size n
  | none =>
    if n ≥ a.rowSize then (⟨a.rowSize, a.next + 1, none⟩, ⟨a.next, 0, n⟩)
    else a.take (a.next + 1) a.next 0 a.rowSize n

/-- A history of requests; the arrays that were given out, the newest first. -/
def Arrays.run : Arrays → List Nat → Arrays × List Block
  | a, [] => (a, [])
  | a, n :: rest =>
    let (a', bs) := a.run rest
    let (a'', b) := a'.acquire n
    (a'', b :: bs)

end Verif.XHeap
