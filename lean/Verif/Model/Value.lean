import Verif.Model.Heap

/-!
Model of typed numeric values (`tvalue_t`, `include/common.h:415-742`, `common/common.cpp:45-190`) and of how they are
stored in and read from the constant table of an assembly (`modules/core/assembly_writer.cpp:1174-1380`,
`modules/core/__assembly_layout.h:786-860`, `1745-1890`).

Floating-point values are modelled as their bit patterns; comparing them is a parameter of the model (`FloatLess`).
`long double` values carry no payload (the writer rejects them).
-/

namespace Verif.Value

open Verif.Heap (Byte Heap)

/-- `tvalue_t` — `include/common.h:415-443`, `545-565`, `678-700`: a type tag and a value of that type.  `char_t` is
`wchar_t`, a signed 32-bit type on the supported platform. -/
inductive TValue where
  | int8 (v : BitVec 8)
  | uint8 (v : BitVec 8)
  | int16 (v : BitVec 16)
  | uint16 (v : BitVec 16)
  | int32 (v : BitVec 32)
  | uint32 (v : BitVec 32)
  | int64 (v : BitVec 64)
  | uint64 (v : BitVec 64)
  | float (bits : BitVec 32)
  | double (bits : BitVec 64)
  | ldouble
  | bool (v : Bool)
  | char (v : BitVec 32)
deriving DecidableEq, Repr

/-- `value_type_t` as an integer — `include/common.h:415-443`: the enumerators start after `__default__ = 0`
(`common/__enum.h:252-258`), so the first one is 1. -/
def TValue.tag : TValue → BitVec 8
  | .int8 _ => 1
  | .uint8 _ => 2
  | .int16 _ => 3
  | .uint16 _ => 4
  | .int32 _ => 5
  | .uint32 _ => 6
  | .int64 _ => 7
  | .uint64 _ => 8
  | .float _ => 9
  | .double _ => 10
  | .ldouble => 11
  | .bool _ => 12
  | .char _ => 13

/-- `is_float(value_type_t)` — `include/common.h:445-457`. -/
def TValue.isFloat : TValue → Bool
  | .float _ | .double _ | .ldouble => true
  | _ => false

/-- `get_value<int64_t>()` for a non-floating value — `include/common.h:703-724`; `get_value<uint64_t>()` has the same
bits. -/
def TValue.toBits64 : TValue → BitVec 64
  | .int8 v => v.signExtend 64
  | .uint8 v => v.setWidth 64
  | .int16 v => v.signExtend 64
  | .uint16 v => v.setWidth 64
  | .int32 v => v.signExtend 64
  | .uint32 v => v.setWidth 64
  | .int64 v => v
  | .uint64 v => v
  | .bool v => if v then 1 else 0
  | .char v => v.signExtend 64
  | .float _ | .double _ | .ldouble => 0

/-- The relation `<` of `long double` on two values at least one of which is floating; supplied from outside. -/
abbrev FloatLess := TValue → TValue → Bool

/-- `__compare_tvalue` with `v1 < v2` — `common/common.cpp:64-102`, `109-112`.  When the tags are equal the values are
compared in their own type; when exactly one is `uint64_t` the C++ conversions compare both as unsigned. -/
def less (fl : FloatLess) (a b : TValue) : Bool :=
  match a, b with
  | .int8 x, .int8 y => x.slt y
  | .uint8 x, .uint8 y => x.ult y
  | .int16 x, .int16 y => x.slt y
  | .uint16 x, .uint16 y => x.ult y
  | .int32 x, .int32 y => x.slt y
  | .uint32 x, .uint32 y => x.ult y
  | .int64 x, .int64 y => x.slt y
  | .uint64 x, .uint64 y => x.ult y
  | .bool x, .bool y => !x && y
  | .char x, .char y => x.slt y
  | a, b =>
    if a.isFloat || b.isFloat then fl a b
    else if a.tag = 8 || b.tag = 8 then a.toBits64.ult b.toBits64
    else a.toBits64.slt b.toBits64

/-- `__compare_tvalue` with `v1 == v2` — `common/common.cpp:64-107`; for two integer values. -/
def equal (fe : FloatLess) (a b : TValue) : Bool :=
  if a.isFloat || b.isFloat then fe a b else a.toBits64 == b.toBits64

/-- `to_unsigned` — `common/common.cpp:153-172`. -/
def toUnsigned : TValue → TValue
  | .int8 v => .uint8 v
  | .int16 v => .uint16 v
  | .int32 v => .uint32 v
  | .int64 v => .uint64 v
  | v => v

/-- `to_signed` — `common/common.cpp:175-194`. -/
def toSigned : TValue → TValue
  | .uint8 v => .int8 v
  | .uint16 v => .int16 v
  | .uint32 v => .int32 v
  | .uint64 v => .int64 v
  | v => v

/-- `operator - ()` — `common/common.cpp:134-150`: the C++ promotions make the result of a narrow operand an `int`.
`none`: the negation overflows a signed type (undefined behaviour).  Floating values: the sign bit is flipped. -/
def negate : TValue → Option TValue
  | .int8 v => some (.int32 (-(v.signExtend 32)))
  | .uint8 v => some (.int32 (-(v.setWidth 32)))
  | .int16 v => some (.int32 (-(v.signExtend 32)))
  | .uint16 v => some (.int32 (-(v.setWidth 32)))
  | .int32 v => if v = 0x80000000#32 then none else some (.int32 (-v))
  | .uint32 v => some (.uint32 (-v))
  | .int64 v => if v = 0x8000000000000000#64 then none else some (.int64 (-v))
  | .uint64 v => some (.uint64 (-v))
  | .float v => some (.float (v ^^^ 0x80000000#32))
  | .double v => some (.double (v ^^^ 0x8000000000000000#64))
  | .ldouble => some .ldouble
  | .bool v => some (.int32 (if v then -1 else 0))
  | .char v => if v = 0x80000000#32 then none else some (.int32 (-v))

/-! ## Constants -/

/-- `mt_constant_t` — `modules/core/__assembly_layout.h:836-855`: `data1` and `data2` as little-endian integers. -/
structure Row where
  ctype : BitVec 8
  extern : Bool
  cpl : Bool
  data1 : BitVec 16
  data2 : BitVec 32
deriving DecidableEq, Repr

/-- `al::zero_object` — `modules/core/__assembly_layout.h:393`. -/
def Row.zero : Row := ⟨0, false, false, 0, 0⟩

/-- A value in memory, least significant byte first. -/
def le64 (v : BitVec 64) : List Byte := (List.range 8).map fun i => v.extractLsb' (8 * i) 8

/-- The 64-bit value of eight bytes, least significant first. -/
def ofLe64 (bs : List Byte) : BitVec 64 :=
  BitVec.ofNat 64 (bs.foldr (fun b acc => b.toNat + 256 * acc) 0)

/-- `__assign_uint64` — `modules/core/assembly_writer.cpp:1259-1280`.  `none`: the heap operation fails. -/
def assign64 (c : Heap.Codec) (g : Nat → Byte) (h : Heap) (r : Row) (v : BitVec 64) : Option (Row × Heap) :=
  let r := { r with data2 := v.setWidth 32 }
  let v1 : BitVec 32 := (v >>> 32).setWidth 32
  if v1.toNat ≤ 0xFFFF then some ({ r with data1 := v1.setWidth 16 }, h)
  else
    let v1 := ~~~v1
    if v1.toNat ≤ 0xFFFF then some ({ r with cpl := true, data1 := v1.setWidth 16 }, h)
    else
      match Heap.step c g h (.bytes (le64 v)) with
      | none => none
      | some (h', res) => some ({ r with extern := true, data2 := res }, h')

/-- `__commit_constant_number` — `modules/core/assembly_writer.cpp:1283-1344`, with
`cvalue_type_t::number = 1` (`include/modules/core.h:715-733`).  `none`: an exception. -/
def commitNumber (c : Heap.Codec) (g : Nat → Byte) (h : Heap) (v : TValue) : Option (Row × Heap) :=
  let r := { Row.zero with ctype := (1#8 <<< 5) ||| v.tag }
  match v with
  | .int8 x => some ({ r with data2 := x.setWidth 32 }, h)
  | .uint8 x => some ({ r with data2 := x.setWidth 32 }, h)
  | .int16 x => some ({ r with data2 := x.setWidth 32 }, h)
  | .uint16 x => some ({ r with data2 := x.setWidth 32 }, h)
  | .int32 x => some ({ r with data2 := x }, h)
  | .uint32 x => some ({ r with data2 := x }, h)
  | .int64 x => assign64 c g h r x
  | .uint64 x => assign64 c g h r x
  | .float x => some ({ r with data2 := x }, h)
  | .double x => assign64 c g h r x
  | .bool x => some ({ r with data2 := if x then 1 else 0 }, h)
  | .char x => some ({ r with data2 := x }, h)
  | .ldouble => none

/-- `__read_uint64` — `modules/core/__assembly_layout.h:1813-1830`: without the external flag four bytes are read at
`data1`, that is its two bytes and the first two of `data2`. -/
def read64 (h : Heap) (r : Row) : Option (BitVec 64) :=
  if !r.extern then
    let v2 := r.data2
    let v1 : BitVec 32 := r.data2.extractLsb' 0 16 ++ r.data1
    let v1 := if r.cpl then ~~~v1 else v1
    some ((v1.setWidth 64 <<< 32) ||| v2.setWidth 64)
  else (h.readEntity 8 r.data2).map ofLe64

/-- `to_cvalue_type`, `to_value_type`, `read_const`, `__read_const_number` —
`modules/core/__assembly_layout.h:828-841`, `1753-1777`, `1833-1880`; only numbers are modelled. -/
def readConst (h : Heap) (r : Row) : Option TValue :=
  if r.ctype >>> 5 ≠ 1#8 then none
  else
    match (r.ctype &&& (0xFF#8 >>> 3)).toNat with
    | 1 => some (.int8 (r.data2.setWidth 8))
    | 2 => some (.uint8 (r.data2.setWidth 8))
    | 3 => some (.int16 (r.data2.setWidth 16))
    | 4 => some (.uint16 (r.data2.setWidth 16))
    | 5 => some (.int32 r.data2)
    | 6 => some (.uint32 r.data2)
    | 7 => (read64 h r).map .int64
    | 8 => (read64 h r).map .uint64
    | 9 => some (.float r.data2)
    | 10 => (read64 h r).map .double
    | 12 => some (.bool (r.data2.setWidth 8 != 0#8))
    | 13 => some (.char r.data2)
    | _ => none

/-- The constant table while an assembly is written: `__mt_map` and the rows —
`modules/core/__assembly_layout.h:386-400`, `466-474`. -/
structure Pool where
  rows : List Row
  map : List (TValue × Nat)
  heap : Heap

/-- `std::map::find` with the order `<` of `cvalue_t` (`modules/core/core.cpp:1217-1239`): an entry neither less nor
greater than the key.  Simplification: the search tree is a list, and the first such entry is taken; for keys on which
`<` is an order there is at most one. -/
def Pool.find (fl : FloatLess) (p : Pool) (v : TValue) : Option Nat :=
  (p.map.find? fun e => !less fl e.1 v && !less fl v e.1).map (·.2)

/-- `__commit_constant` for a number — `modules/core/assembly_writer.cpp:1174-1222`: the index of the row. -/
def Pool.commit (c : Heap.Codec) (fl : FloatLess) (g : Nat → Byte) (p : Pool) (v : TValue) : Option (Pool × Nat) :=
  match p.find fl v with
  | some i => some (p, i)
  | none =>
    match commitNumber c g p.heap v with
    | none => none
    | some (r, h) =>
      some ({ rows := p.rows ++ [r], map := (v, p.rows.length) :: p.map, heap := h }, p.rows.length)

/-- A sequence of commits and the row indexes they return. -/
def Pool.commits (c : Heap.Codec) (fl : FloatLess) : Pool → List ((Nat → Byte) × TValue) → Option (Pool × List Nat)
  | p, [] => some (p, [])
  | p, (g, v) :: vs =>
    match p.commit c fl g v with
    | none => none
    | some (p1, i) =>
      match Pool.commits c fl p1 vs with
      | none => none
      | some (p2, is) => some (p2, i :: is)

end Verif.Value
