import Verif.Model.Layout

/-!
# The places of fields in objects

Model of `type_layout_t` (`modules/rt/__layout.h:485-560`), of the sizes of types at run time
(`modules/rt/rt.cpp:326-345`, `439-527`, `741-777`, `1639-1725`), of the address of a field
(`modules/exec/commands.cpp:982-1030`, `1060-1085`), of the creation of an object (`modules/mm/mm.cpp:60-133`) and of
the assignment of the items of a tuple (`modules/rtlib/array.cpp:112-180`).

Types are numbers.  An instance of a generic type is a type of its own, with the types of its fields after
substitution (`rt_generic_type_t::on_caculate_layout` does the same as `rt_general_type_t::on_caculate_layout` but for
where it keeps the offsets).  A failed assertion, `X_UNEXPECTED` and recursion that does not end are `none`: the
functions that follow references between types have fuel.  Offsets and sizes are `msize_t`, 16 bits.  `std::sort` is a
parameter.  Static fields are laid out like the others, as the code does.
-/

namespace Verif.Fields

open Verif.Layout (Storage m16)
open Verif.Arr (alignf unitAlign)

/-- What the run time knows of a type: a basic type or an enum of some size (`get_vtype_size`), an array, an
interface, or a class (`struct` is false) or structure with its base type (only if that is a class) and the types of
its fields. -/
inductive Kind where
  | prim (size : Nat)
  | array
  | iface
  | obj (struct : Bool) (base : Option Nat) (fields : List Nat)
  deriving DecidableEq, Repr

/-- The types of a program. -/
structure World where
  kind : Nat → Kind

/-- `rt_ref_size`, `sizeof(rt_stack_unit_t)`. -/
def refSize : Nat := 8

/-- `unknown_msize` — a size that is this number can not be told from no size (`rt.cpp:336-344`). -/
def unknownSize : Nat := 65535

/-- What `get_size` answers. -/
abbrev Sizes := Nat → Option (Nat × Storage)

/-- `get_variable_size` — `rt.cpp:508-527`, `1858-1863`. -/
def varSize (W : World) (size : Sizes) (t : Nat) : Option (Nat × Storage) :=
  match W.kind t with
  | .array => some (refSize, .ref)
  | .iface => some (refSize, .ref)
  | .obj false _ _ => some (refSize, .ref)
  | .obj true _ _ => size t
  | .prim _ => size t

/-- `type_layout_t::__item_t` — `__layout.h:546-552`; a field is named by its position. -/
structure Item where
  field : Nat
  size : Nat
  storage : Storage
  deriving DecidableEq, Repr

/-- `append` for each field — `__layout.h:501-510`, `rt.cpp:766-772`: the fields from position `k` on. -/
def gather (W : World) (size : Sizes) : Nat → List Nat → Option (List Item)
  | _, [] => some []
  | k, t :: ts =>
    match varSize W size t with
    | none => none
    | some (s, st) =>
      match gather W size (k + 1) ts with
      | none => none
      | some items => some (⟨k, s, st⟩ :: items)

/-- The loop of `commit` — `__layout.h:522-526`: the offset of each field, and the end. -/
def place : List Item → Nat → List (Nat × Nat) × Nat
  | [], offset => ([], offset)
  | it :: rest, offset =>
    let offset1 := m16 (unitAlign offset it.size)
    let r := place rest (m16 (offset1 + it.size))
    ((it.field, offset1) :: r.1, r.2)

/-- The storage type that the same loop computes — `__layout.h:528-535`. -/
def mergeStorage : Option Storage → List Item → Option Storage
  | st, [] => st
  | none, it :: rest => mergeStorage (some it.storage) rest
  | some st, it :: rest => mergeStorage (some (if st = it.storage then st else .mixture)) rest

/-- What is computed for a type: the offsets of its own fields, its size, its storage type — `__layout.h:513-536`. -/
structure Laid where
  offsets : List (Nat × Nat)
  size : Nat
  storage : Storage
  deriving DecidableEq, Repr

/-- `on_caculate_layout` — `rt.cpp:759-777`, `1679-1725`. -/
def layout (W : World) (sort : List Item → List Item) (size : Sizes) (base : Nat) (fields : List Nat) : Option Laid :=
  match gather W size 0 fields with
  | none => none
  | some items =>
    let r := place (sort items) base
    some ⟨r.1, r.2, (mergeStorage none (sort items)).getD .value⟩

/-- The size of the base type — `rt.cpp:497-503`. -/
def baseSize (size : Sizes) : Option Nat → Option Nat
  | none => some 0
  | some b =>
    match size b with
    | none => none
    | some (s, _) => some s

/-- The layout of a class or structure. -/
def layoutOf (W : World) (sort : List Item → List Item) (size : Sizes) (t : Nat) : Option Laid :=
  match W.kind t with
  | .obj _ base fields =>
    match baseSize size base with
    | none => none
    | some b => layout W sort size b fields
  | _ => none

/-- `_A(__size != unknown_msize)` — `rt.cpp:342`. -/
def known (size : Nat) (st : Storage) : Option (Nat × Storage) := if size = unknownSize then none else some (size, st)

/-- `get_size` — `rt.cpp:326-344`, with `on_caculate_size` — `rt.cpp:470-505`, `1866-1871`. -/
def sizeOf (W : World) (sort : List Item → List Item) : Nat → Sizes
  | 0, _ => none
  | fuel + 1, t =>
    match W.kind t with
    | .prim s => known s .value
    | .array => some (refSize, .ref)
    | .iface => none
    | .obj _ _ _ =>
      match layoutOf W sort (sizeOf W sort fuel) t with
      | none => none
      | some l => known l.size l.storage

/-- `__field_offset` — `commands.cpp:982-1030`, `get_field_offset` — `rt.cpp:679-690`, `1503-1523`: the offset of
the field at a position of the type that declares it. -/
def fieldOffset (W : World) (sort : List Item → List Item) (fuel host field : Nat) : Option Nat :=
  match layoutOf W sort (sizeOf W sort fuel) host with
  | none => none
  | some l => l.offsets.lookup field

/-- The type of a field. -/
def fieldType (W : World) (host field : Nat) : Option Nat :=
  match W.kind host with
  | .obj _ _ fields => fields[field]?
  | _ => none

/-- A field whose type is a structure: the compiler takes its address (`modules/compile/expression.cpp:1743-1746`). -/
def isStruct (W : World) (t : Nat) : Bool :=
  match W.kind t with
  | .obj true _ _ => true
  | _ => false

/-- The address of `x.f.g.h` relative to the object `x`: the offsets of the fields are added by
`push field_addr` (`commands.cpp:1066-1085`) and by the command that reads or writes the last one. -/
def resolve (W : World) (sort : List Item → List Item) (fuel : Nat) : Nat → List Nat → Option (Nat × Nat)
  | _, [] => none
  | host, f :: rest =>
    match fieldOffset W sort fuel host f, fieldType W host f with
    | some o, some t =>
      match rest with
      | [] => some (o, t)
      | g :: rest =>
        if isStruct W t then
          match resolve W sort fuel t (g :: rest) with
          | some (a, u) => some (o + a, u)
          | none => none
        else none
    | _, _ => none

/-! ## Memory -/

/-- The bytes of an object. -/
abbrev Bytes := List Nat

/-- Bytes are written; outside of the memory of the object it is `none`. -/
def write (m : Bytes) (a : Nat) (v : Bytes) : Option Bytes :=
  if a + v.length ≤ m.length then some (m.take a ++ v ++ m.drop (a + v.length)) else none

/-- Bytes are read. -/
def read (m : Bytes) (a n : Nat) : Option Bytes :=
  if a + n ≤ m.length then some ((m.drop a).take n) else none

/-- `__zero<_size>(p)` — `mm.cpp:60-83`: words from `p` on become 0. -/
def zeroWords (m : Bytes) (p : Nat) : Nat → Option Bytes
  | 0 => some m
  | n + 1 =>
    match write m p (List.replicate 8 0) with
    | none => none
    | some m1 => zeroWords m1 (p + 8) n

/-- `__zero_memory` — `mm.cpp:88-117`: 16 words at a time while there are more than 16. -/
def zeroMemory (m : Bytes) (p n : Nat) : Option Bytes :=
  if n ≤ 16 then zeroWords m p n
  else
    match zeroWords m p 16 with
    | none => none
    | some m1 => zeroMemory m1 (p + 128) (n - 16)
termination_by n

/-- `new_obj` — `mm.cpp:122-133`: memory that holds anything is allocated and set to 0.  The word before the object
is not part of `junk`. -/
def newObj (W : World) (sort : List Item → List Item) (fuel t : Nat) (junk : Nat → Nat) : Option Bytes :=
  match sizeOf W sort fuel t with
  | none => none
  | some (s, _) =>
    let n := alignf s refSize
    zeroMemory ((List.range n).map junk) 0 (n / 8)

/-- A field is assigned: `pop field` (`commands.cpp:3281-3300`) for a value, a copy of the whole
(`commands.cpp:6690-6710`) for a structure. -/
def setField (W : World) (sort : List Item → List Item) (fuel : Nat) (m : Bytes) (host : Nat) (path : List Nat)
    (v : Bytes) : Option Bytes :=
  match resolve W sort fuel host path with
  | none => none
  | some (a, t) =>
    match varSize W (sizeOf W sort fuel) t with
    | none => none
    | some (s, _) => if v.length = s then write m a v else none

/-- A field is read: `push field` (`commands.cpp:1037-1056`). -/
def getField (W : World) (sort : List Item → List Item) (fuel : Nat) (m : Bytes) (host : Nat) (path : List Nat) :
    Option Bytes :=
  match resolve W sort fuel host path with
  | none => none
  | some (a, t) =>
    match varSize W (sizeOf W sort fuel) t with
    | none => none
    | some (s, _) => read m a s

/-! ## Tuples -/

/-- How many bytes `set_variable_value` writes for a size — `__layout.h:50-82`. -/
def widthFor : Nat → Nat
  | 0 => 0
  | 1 => 1
  | 2 => 2
  | 3 => 4
  | 4 => 4
  | 5 => 8
  | 6 => 8
  | 7 => 8
  | n + 8 => 8 + widthFor n

/-- `unit_size_of` — `__layout.h:37-40`. -/
def unitSize (size : Nat) : Nat := alignf size refSize / refSize

/-- The loop of `tuple_set_range` — `array.cpp:168-177`: the arguments lie one after the other on the stack, each from
a whole unit on. -/
def setRange : List (Nat × Nat) → Bytes → Bytes → Option Bytes
  | [], m, _ => some m
  | (offset, size) :: rest, m, arguments =>
    match read arguments 0 (widthFor size) with
    | none => none
    | some v =>
      match write m offset v with
      | none => none
      | some m1 => setRange rest m1 (arguments.drop (unitSize size * 8))

/-- `__create_fields_info` — `array.cpp:115-143`: the offset and the size of each item, in order, from position `k`
on. -/
def infos (W : World) (sort : List Item → List Item) (fuel host : Nat) : Nat → List Nat → Option (List (Nat × Nat))
  | _, [] => some []
  | k, t :: ts =>
    match fieldOffset W sort fuel host k, varSize W (sizeOf W sort fuel) t, infos W sort fuel host (k + 1) ts with
    | some o, some (s, _), some r => some ((o, s) :: r)
    | _, _, _ => none

/-- `tuple_set_range` — `array.cpp:153-178`. -/
def tupleSet (W : World) (sort : List Item → List Item) (fuel : Nat) (m : Bytes) (t : Nat) (arguments : Bytes) :
    Option Bytes :=
  match W.kind t with
  | .obj _ _ fields =>
    match infos W sort fuel t 0 fields with
    | none => none
    | some is => setRange is m arguments
  | _ => none

end Verif.Fields
