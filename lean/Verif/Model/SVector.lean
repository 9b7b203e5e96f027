import Verif.Model.Bits

/-!
# The small vector

Model of `svector_t` — `algorithm/__collections.h:637-954`.  A vector of inline capacity `n` keeps its
elements in an array inside itself and moves to a buffer on the heap when more are pushed.

Simplifications.  A cell is `some x` after it was written and `none` before.  `__p` is kept as its
distance from the start of the cells in use.  Writing outside of the cells is the outcome `ub`.
Elements are plain values: construction and destruction of elements is not modelled, and neither are
the constructor from two iterators (which leaves `__p` uninitialised, line 669) and moving.
-/

namespace Verif.SVector

variable {α : Type}

/-- `union { __array; struct { __buffer_start; __buffer_size; } }` — lines 932-941.  `arr` has
`_init_size + 1` cells, `buf` has `__buffer_size` of them. -/
inductive Store (α : Type) where
  | arr (cells : List (Option α))
  | buf (cells : List (Option α))
  deriving DecidableEq

/-- The vector; `p` is `__p - __array` or `__p - __buffer_start`. -/
structure SV (α : Type) where
  store : Store α
  p : Nat
  deriving DecidableEq

/-- What can go wrong: an exception, or an access outside of the cells. -/
inductive Err where
  | throw | ub
  deriving DecidableEq, Repr

/-- The cells in use. -/
def SV.cells (v : SV α) : List (Option α) :=
  match v.store with
  | .arr c => c
  | .buf c => c

/-- The constructor — lines 648-650. -/
def SV.empty (n : Nat) : SV α := ⟨.arr (List.replicate (n + 1) none), 0⟩

/-- `size` — lines 897-903. -/
def SV.size (v : SV α) : Nat := v.p

/-- `at`, `operator[]`, `*(begin() + index)` — lines 845-870. -/
def SV.at_ (v : SV α) (i : Nat) : Option α := (v.cells[i]?).join

/-- `std::copy` of values to the cells from `i` on. -/
def write (cells : List (Option α)) (i : Nat) (vs : List (Option α)) : Except Err (List (Option α)) :=
  if i + vs.length ≤ cells.length then .ok (cells.take i ++ vs ++ cells.drop (i + vs.length))
  else .error .ub

/-- `push_back` — lines 736-771. -/
def SV.push (n : Nat) (v : SV α) (x : α) : Except Err (SV α) :=
  match v.store with
  | .arr c =>
    if v.p < n then
      match write c v.p [some x] with
      | .ok c => .ok ⟨.arr c, v.p + 1⟩
      | .error e => .error e
    else
      -- `__p == __array + _init_size`
      match write (List.replicate (n * 2) none) 0 (c.take n) with
      | .error e => .error e
      | .ok b =>
        match write b n [some x] with
        | .ok b => .ok ⟨.buf b, n + 1⟩
        | .error e => .error e
  | .buf b =>
    if b.length ≤ v.p then
      match write (List.replicate (b.length * 2) none) 0 (b.take v.p) with
      | .error e => .error e
      | .ok b' =>
        match write b' b.length [some x] with
        | .ok b' => .ok ⟨.buf b', b.length + 1⟩
        | .error e => .error e
    else
      match write b v.p [some x] with
      | .ok b => .ok ⟨.buf b, v.p + 1⟩
      | .error e => .error e

/-- `push_back(v[i])`: the argument is a reference to an element of the vector itself.  When the cells
move, the reference is read after the array was overwritten by `__buffer_start` and `__buffer_size`
(lines 749-753) or after the old buffer was freed (lines 764-768). -/
def SV.pushOwn (n : Nat) (v : SV α) (i : Nat) : Except Err (SV α) :=
  match v.at_ i with
  | none => .error .ub
  | some x =>
    match v.store with
    | .arr _ => if v.p < n then v.push n x else .error .ub
    | .buf b => if b.length ≤ v.p then .error .ub else v.push n x

/-- `truncate` — lines 833-842. -/
def SV.truncate (v : SV α) (m : Nat) : SV α := if m < v.size then ⟨v.store, m⟩ else v

/-- `pop_back` — lines 727-733. -/
def SV.pop (v : SV α) : Except Err (SV α) :=
  if v.size = 0 then .error .throw else .ok (v.truncate (v.size - 1))

/-- `clear` — lines 912-918. -/
def SV.clear (v : SV α) : SV α := ⟨v.store, 0⟩

/-- `_alignd` — `include/common.h:321-332`, for the sizes of vectors. -/
def grown (size newSize : Nat) : Except Err Nat :=
  match Verif.Bits.alignd 63 (BitVec.ofNat 64 size) (BitVec.ofNat 64 newSize) with
  | some r => .ok r.toNat
  | none => .error .ub

/-- `insert` with elements in the same cells: `std::move_backward` and `std::copy` — lines 791-793,
814-816. -/
def moveIn (cells : List (Option α)) (p index : Nat) (vs : List α) : Except Err (List (Option α)) :=
  match write cells (index + vs.length) ((cells.take p).drop index) with
  | .error e => .error e
  | .ok c => write c index (vs.map some)

/-- `insert` into a new buffer — lines 797-806, 820-830. -/
def moveOut (cells : List (Option α)) (p index : Nat) (vs : List α) : Except Err (List (Option α)) :=
  match grown p (p + vs.length) with
  | .error e => .error e
  | .ok size =>
    match write (List.replicate size none) 0 (cells.take index) with
    | .error e => .error e
    | .ok b =>
      match write b index (vs.map some) with
      | .error e => .error e
      | .ok b => write b (index + vs.length) ((cells.take p).drop index)

/-- `insert` — lines 782-831. -/
def SV.insert (n : Nat) (v : SV α) (vs : List α) (index : Nat) : Except Err (SV α) :=
  if v.size < index then .error .throw
  else
    match v.store with
    | .arr c =>
      if v.p + vs.length ≤ n then
        match moveIn c v.p index vs with
        | .ok c => .ok ⟨.arr c, v.p + vs.length⟩
        | .error e => .error e
      else
        match moveOut c v.p index vs with
        | .ok b => .ok ⟨.buf b, v.p + vs.length⟩
        | .error e => .error e
    | .buf b =>
      if v.p + vs.length ≤ b.length then
        match moveIn b v.p index vs with
        | .ok b => .ok ⟨.buf b, v.p + vs.length⟩
        | .error e => .error e
      else
        match moveOut b v.p index vs with
        | .ok b => .ok ⟨.buf b, v.p + vs.length⟩
        | .error e => .error e

/-- The operations that change a vector. -/
inductive Op (α : Type) where
  | push (x : α)
  | pop
  | insert (vs : List α) (index : Nat)
  | truncate (m : Nat)
  | clear

/-- One operation. -/
def SV.step (n : Nat) (v : SV α) : Op α → Except Err (SV α)
  | .push x => v.push n x
  | .pop => v.pop
  | .insert vs i => v.insert n vs i
  | .truncate m => .ok (v.truncate m)
  | .clear => .ok v.clear

/-- A history of operations; an operation that throws leaves the vector as it was. -/
def SV.run (n : Nat) : SV α → List (Op α) → Except Err (SV α)
  | v, [] => .ok v
  | v, o :: os =>
    match v.step n o with
    | .ok v' => v'.run n os
    | .error .throw => v.run n os
    | .error .ub => .error .ub

end Verif.SVector
