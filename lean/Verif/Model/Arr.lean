/-!
# Arrays of the virtual machine

Model of the creation of arrays — `modules/mm/mm.cpp:136-191` — of what is read from their header
(`include/modules/mm.h:67-126`) and of the commands that find an element (`modules/exec/commands.cpp:1165-1313`,
`1351-1421`, `2952-3018`, `3526-3590`), on a 64-bit machine.

Simplifications.  Numbers of type `int32_t` are integers; an operation whose result is out of range, a
division by zero, a read outside of the header and a stack that is empty are undefined (`none`).  The
operands of `+` in `__mul_t` are evaluated from left to right (C++ leaves the order open).  Memory is the
number of bytes allocated for the elements; an element is its offset from the first.
-/

namespace Verif.Arr

/-- The result of an operation on `int32_t`. -/
def int32 (x : Int) : Option Int := if -(2 ^ 31) ≤ x ∧ x < 2 ^ 31 then some x else none

/-- `_alignf` — `include/common.h:315-318`. -/
def alignf (size align : Nat) : Nat := (size + align - 1) / align * align

/-- `unit_align` — `modules/rt/__layout.h:11-29`. -/
def unitAlign (offset size : Nat) : Nat :=
  match size with
  | 1 => offset
  | 2 => alignf offset 2
  | 3 => alignf offset 4
  | 4 => alignf offset 4
  | _ => alignf offset 8

/-- An array: the number of dimensions (of its type), the length in the header, the products of lengths in the
header — from the last dimension on, downwards in memory — and the bytes allocated for elements. -/
structure Arr where
  dimension : Nat
  total : Int
  cums : List Int
  bytes : Nat
  deriving DecidableEq, Repr

/-- The number of bytes for `length` elements, in a `size_t` — `mm.cpp:143-144`; `size` is the size of the type
of the elements. -/
def bytesFor (size : Nat) (length : Int) : Nat :=
  alignf ((length * (unitAlign 1 size : Nat)) % 2 ^ 64).toNat 8 % 2 ^ 64

/-- The loop that fills the header — `mm.cpp:180-185`: from the last length. -/
def cumulate : List Int → Int → Option (List Int)
  | [], _ => some []
  | l :: ls, base => do
    let c ← int32 (l * base)
    let cs ← cumulate ls c
    pure (c :: cs)

/-- The loop that multiplies the lengths — `mm.cpp:162-165`. -/
def multiply : Int → List Int → Option Int
  | length, [] => some length
  | length, l :: ls => do multiply (← int32 (length * l)) ls

/-- `new_array` — `mm.cpp:136-191`: the bytes are computed from the first length. -/
def newArray (size : Nat) (lengths : List Int) : Option Arr :=
  match lengths with
  | [] => none
  | [n] => some ⟨1, n, [], bytesFor size n⟩
  | n :: rest => do
    let total ← multiply n rest
    let cums ← cumulate lengths.reverse 1
    pure ⟨lengths.length, total, cums, bytesFor size n⟩

/-- `get_array_length_of_dimension` — `mm.h:105-120`. -/
def lengthOf (a : Arr) (dimension : Int) : Option Int :=
  if dimension = 0 ∧ a.dimension = 1 then some a.total
  else
    let index := (a.dimension : Int) - dimension - 1
    if index = 0 then a.cums[0]?
    else if index < 0 then none
    else do
      let x ← a.cums[index.toNat]?
      let y ← a.cums[index.toNat - 1]?
      if y = 0 then none else int32 (x.tdiv y)

/-- `__mul_array_index` — `commands.cpp:1173-1195`: the sum, and what is left on the stack. -/
def mulIndex : Nat → List Int → List Int → Option (Int × List Int)
  | 0, stack, _ => some (0, stack)
  | n + 1, x :: stack, c :: cums => do
    let p ← int32 (x * c)
    let r ← mulIndex n stack cums
    let s ← int32 (p + r.1)
    pure (s, r.2)
  | _ + 1, _, _ => none

/-- `__array_index` — `commands.cpp:1198-1230`; there is no case for 1.  `fuel`: the elements on the stack. -/
def arrayIndex : Nat → Int → Int → List Int → List Int → Option Int
  | 0, _, _, _, _ => none
  | fuel + 1, index, dimension, stack, cums =>
    if dimension = 0 then some index
    else if 2 ≤ dimension ∧ dimension ≤ 8 then do
      let r ← mulIndex dimension.toNat stack cums
      int32 (index + r.1)
    else do
      let r ← mulIndex 8 stack cums
      let i ← int32 (index + r.1)
      arrayIndex fuel i (dimension - 8) r.2 (cums.drop 8)

/-- The index that the commands compute — `commands.cpp:1256-1263`, `1297-1301`: up to 8 dimensions with the
template, above with the loop.  The stack has the last index on top. -/
def elementIndex (a : Arr) : List Int → Option Int
  | [] => none
  | i :: stack =>
    if a.dimension ≤ 8 then
      if 2 ≤ a.dimension then do
        let r ← mulIndex (a.dimension - 1) stack a.cums
        int32 (i + r.1)
      else some i
    else do
      let s ← arrayIndex (stack.length + 1) 0 ((a.dimension : Int) - 1) stack a.cums
      int32 (i + s)

/-- An element, or the exception. -/
inductive Out where
  | element (index : Int)
  | outOfRange
  deriving DecidableEq, Repr

/-- The check — `commands.cpp:1265-1266`, of the commands that push an element or its address. -/
def checked (a : Arr) (stack : List Int) : Option Out := do
  let index ← elementIndex a stack
  pure (if index ≥ a.total then .outOfRange else .element index)

/-- The command that pops into an element — `commands.cpp:2969-2984`, and 3009-3018 without a check above 8
dimensions. -/
def popElement (a : Arr) (stack : List Int) : Option Out :=
  if a.dimension ≤ 8 then checked a stack else do
    let index ← elementIndex a stack
    pure (.element index)

/-- The command that copies the top of the stack to an element — `commands.cpp:3543-3556`, `3580-3590`: no check. -/
def pickElement (a : Arr) (stack : List Int) : Option Out := do
  let index ← elementIndex a stack
  pure (.element index)

end Verif.Arr
