import Verif.Model.Fields

/-!
# Parameters that stand for any number of arguments

Models where the arguments of a call lie, and the pointer to the arguments of a parameter `T ... items`: `params_layout_t`
(`modules/rt/layout.cpp:743-815`, `modules/rt/__layout.h:419-470`), the parameters of a method (`modules/exec/parser.cpp:172-194`),
the addresses of arguments (`modules/exec/commands.cpp:812-845`) and of the packed arguments (`modules/exec/commands.cpp:1492-1512,
2704-2706`), the stub of a call (`include/modules/exec.h:930-935, 963-971`).

Simplifications.  The stack is a list of bytes, a place on it is a number of units (8 bytes) from its bottom.  The types that a
parameter `T ... items` stands for are given by their sizes; `params` arrays of C# are not this.
-/

namespace Verif.Pack

open Verif.Layout (m16)
open Verif.Fields (Bytes unitSize)

/-- `__stack_stub_size` — `modules/exec/commands.cpp:130`: three pointers. -/
def stubUnits : Nat := 3

/-- `params_layout_t` — `modules/rt/__layout.h:456-470`; `__extends_params_offset` is a `msize_t` (`uint16_t`) that begins with -1. -/
structure Lay where
  offsets : List Nat := []
  cur : Nat := 0
  ext : Nat := 65535
deriving DecidableEq, Repr

/-- `append(rt_type_t *, …)` — `modules/rt/layout.cpp:772-788`; `addr`: a `ref` or `out` parameter, or `this`. -/
def Lay.append (l : Lay) (addr : Bool) (size : Nat) : Lay :=
  { l with offsets := l.offsets ++ [l.cur], cur := m16 (l.cur + if addr then 1 else unitSize size) }

/-- `append(ref_t, …)` — `modules/rt/layout.cpp:743-769`: a `msize_t` is never below 0.  The types are no generic parameters here. -/
def Lay.appendRef (l : Lay) (isExt : Bool) (addr : Bool) (size : Nat) : Lay :=
  let l1 := if isExt && decide ((l.ext : Int) < 0) then { l with ext := l.cur } else l
  l1.append addr size

/-- A parameter: an ordinary one, or one that stands for arguments of these sizes. -/
inductive Param where
  | one (addr : Bool) (size : Nat)
  | many (sizes : List Nat)
deriving DecidableEq, Repr

/-- One parameter of a method — `modules/exec/parser.cpp:177-190`: for packed arguments the overload that takes a type is called. -/
def Lay.add (l : Lay) : Param → Lay
  | .one addr size => l.appendRef false addr size
  | .many sizes => sizes.foldl (fun l s => l.append false s) l

/-- The parameters of a method — `modules/exec/parser.cpp:172-192`. -/
def layout (static : Bool) (ps : List Param) : Lay := ps.foldl Lay.add (if static then {} else ({} : Lay).append true 8)

/-- `offset_of` — `modules/rt/layout.cpp:796-807`; `none` when it throws. -/
def offsetOf (l : Lay) (i : Nat) : Option Nat :=
  match l.offsets[i]? with
  | some o => some (m16 (l.cur + 65536 - o))
  | none => if i = l.offsets.length then some 0 else none

/-- `extends_offset` — `modules/rt/layout.cpp:810-816`. -/
def extendsOffset (l : Lay) : Nat := if (l.ext : Int) < 0 then 0 else m16 (l.cur + 65536 - l.ext)

/-- The place of an argument — `modules/exec/commands.cpp:812, 825, 863`. -/
def argPlace (lp : Int) (l : Lay) (i : Nat) : Option Int := (offsetOf l i).map fun o => lp - (o + stubUnits : Nat)

/-- The pointer to the packed arguments — `modules/exec/commands.cpp:1508-1511`. -/
def packPlace (lp : Int) (l : Lay) : Int := lp - (extendsOffset l : Nat) - 1

/-- What a pointer into the stack points to: the bytes from there on. -/
def bytesAt (stack : Bytes) (place : Int) : Option Bytes :=
  if 0 ≤ place ∧ place.toNat * 8 ≤ stack.length then some (stack.drop (place.toNat * 8)) else none

/-- The stack in a call: what was there, the arguments one after the other, the stub, the variables of the called method
(`include/modules/exec.h:963-971`).  Also `lp`. -/
def frame (below : Bytes) (args : List Bytes) (stub above : Bytes) : Bytes × Int :=
  (below ++ args.flatten ++ stub ++ above, ((below.length + args.flatten.length) / 8 + stubUnits : Nat))

end Verif.Pack
