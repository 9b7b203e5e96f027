import Verif.Model.Varint
import Verif.Model.CStr

/-!
Model of an assembly's metadata heap: `modules/core/__assembly_layout.h:584-699`,
`modules/core/assembly_layout.cpp:195-338`, and of the reading side
(`metadata_reader_t::__read_heap`, `res_reader_t::read_sid`, `modules/core/__assembly_layout.h:1687-1702`,
`1778-1793`).

Sizes are natural numbers: the doubling of `__size` past 2^63 is not modelled (the writer refuses heaps above
64 MB, `include/modules/jc.h:16`).  The conversion of a name to bytes is `std::codecvt_utf8` of the C++ library;
it is a parameter here (`Codec`).
-/

namespace Verif.Heap

open Verif.CStr (Ch)

abbrev Byte := BitVec 8

/-- `string_convert<char_t, char>` and `string_convert<char, char_t>` — `common/__string.h:150-167`; `none` is the
exception `std::range_error`. -/
structure Codec where
  encode : List Ch → Option (List Byte)
  decode : List Byte → Option (List Ch)

/-- `mt_heap_buffer_t` — `modules/core/__assembly_layout.h:588-621`: the allocated bytes (`none`: `nullptr`),
the fill mark `__p - __buffer`, and `__size`. -/
structure Buf where
  buffer : Option (List Byte)
  p : Nat
  size : Nat

/-- `while (__size < need_size) __size <<= 1` — `modules/core/assembly_layout.cpp:222-223`. -/
def growSize (size need : Nat) : Nat :=
  if h : size < need ∧ 0 < size then growSize (size * 2) need else size
termination_by need - size
decreasing_by omega

/-- `n` bytes of freshly allocated memory; their contents are whatever the memory held. -/
def fresh (garbage : Nat → Byte) (n : Nat) : List Byte := (List.range n).map garbage

/-- `__check_grow_size` — `modules/core/assembly_layout.cpp:217-235`.  The result is the new buffer object and the
bytes it owns. -/
def Buf.grow (b : Buf) (garbage : Nat → Byte) (length : Nat) : Buf × List Byte :=
  match b.buffer with
  | none =>
    let size := growSize b.size (b.p + length)
    let bytes := fresh garbage size
    ({ buffer := some bytes, p := b.p, size := size }, bytes)
  | some old =>
    if b.p + length > b.size then
      let size := growSize b.size (b.p + length)
      let bytes := old.take b.p ++ (fresh garbage size).drop b.p
      ({ buffer := some bytes, p := b.p, size := size }, bytes)
    else (b, old)

/-- `acquire(length)` followed by `std::copy` of `length` bytes into the area —
`modules/core/assembly_layout.cpp:206-214`; `none`: a byte outside the allocated memory is written. -/
def Buf.push (b : Buf) (garbage : Nat → Byte) (data : List Byte) : Option Buf :=
  let (b', bytes) := b.grow garbage data.length
  if b'.p + data.length ≤ bytes.length then
    some { b' with buffer := some (bytes.take b'.p ++ data ++ bytes.drop (b'.p + data.length)),
                   p := b'.p + data.length }
  else none

/-- `mt_heap_t` — `modules/core/__assembly_layout.h:627-699`; `std::map<sid_t, res_t>` as an association list. -/
structure Heap where
  map : List (List Ch × BitVec 32)
  buf : Buf

/-- `mt_heap_buffer_t(memory)` — `modules/core/assembly_layout.cpp:199-203`: one zero byte is acquired. -/
def init (garbage : Nat → Byte) : Option Heap :=
  ({ buffer := none, p := 0, size := 1 } : Buf).push garbage [0#8] |>.map fun b => { map := [], buf := b }

/-- Operations of `mt_heap_t`. -/
inductive Op where
  | str (sid : List Ch)
  | block (bytes : List Byte)
  | bytes (bytes : List Byte)

/-- The C string of a sid: everything before the first NUL. -/
def cstr (s : List Ch) : List Ch := s.takeWhile (· ≠ 0#32)

/-- `append_string`, `append_block`, `append_bytes` — `modules/core/assembly_layout.cpp:254-321`.  The result is the
returned `res_t` (a 32-bit position).  `none`: an exception, or a write outside the allocated memory. -/
def step (c : Codec) (garbage : Nat → Byte) (h : Heap) : Op → Option (Heap × BitVec 32)
  | .str sid =>
    if sid = [] then some (h, 0#32)
    else
      match h.map.lookup sid with
      | some res => some (h, res)
      | none =>
        match c.encode (cstr sid) with
        | none => none
        | some s =>
          let res := BitVec.ofNat 32 h.buf.p
          match h.buf.push garbage (s ++ [0#8]) with
          | none => none
          | some buf => some ({ map := (sid, res) :: h.map, buf := buf }, res)
  | .block bytes =>
    if bytes = [] then some (h, 0#32)
    else
      let sizeBytes := Varint.toVarint (BitVec.ofNat 32 bytes.length)
      match h.buf.push garbage (sizeBytes ++ bytes) with
      | none => none
      | some buf => some ({ h with buf := buf }, BitVec.ofNat 32 h.buf.p)
  | .bytes bytes =>
    if bytes = [] then some (h, 0#32)
    else
      match h.buf.push garbage bytes with
      | none => none
      | some buf => some ({ h with buf := buf }, BitVec.ofNat 32 h.buf.p)

/-- A sequence of operations and the positions they return. -/
def run (c : Codec) : Heap → List ((Nat → Byte) × Op) → Option (Heap × List (BitVec 32))
  | h, [] => some (h, [])
  | h, (g, op) :: ops =>
    match step c g h op with
    | none => none
    | some (h1, r) =>
      match run c h1 ops with
      | none => none
      | some (h2, rs) => some (h2, r :: rs)

/-- The memory from a position on; `none`: no memory. -/
def Heap.at (h : Heap) (res : BitVec 32) : Option (List Byte) := h.buf.buffer.map (·.drop res.toNat)

/-- Bytes up to the first NUL; `none`: the end of the memory is reached first. -/
def untilNul : List Byte → Option (List Byte)
  | [] => none
  | b :: rest => if b = 0#8 then some [] else (untilNul rest).map (b :: ·)

/-- `read_sid` — `modules/core/__assembly_layout.h:1778-1793`, `1803-1810`; `none`: an exception or a read outside the
memory. -/
def Heap.readSid (c : Codec) (h : Heap) (res : BitVec 32) : Option (List Ch) :=
  if res.toNat ≥ h.buf.p then none else (h.at res).bind fun m => (untilNul m).bind c.decode

/-- `read_block` — `modules/core/assembly_layout.cpp:324-332`, and the `length` bytes at the pointer it returns;
`none`: an exception or a read outside the memory. -/
def Heap.readBlock (h : Heap) (res : BitVec 32) : Option (List Byte) :=
  (h.at res).bind fun m =>
    match Varint.fromVarint 32 m with
    | .ok length byteLength =>
      if byteLength + length.toNat ≤ m.length then some ((m.drop byteLength).take length.toNat) else none
    | _ => none

/-- `read<t>(res)` for a type of `n` bytes — `modules/core/__assembly_layout.h:682-689`; `none` is the exception
`unexpected_heap_size`. -/
def Heap.readEntity (h : Heap) (n : Nat) (res : BitVec 32) : Option (List Byte) :=
  if res.toNat + n ≥ h.buf.p then none else (h.at res).map (·.take n)

/-- `write_to` — `modules/core/assembly_layout.cpp:238-241`: what is written to the file; `none`: no memory. -/
def Heap.written (h : Heap) : Option (List Byte) := h.buf.buffer.map fun m => (m.drop 1).take (h.buf.p - 1)

/-- The loop of `__read_heap` — `modules/core/__assembly_layout.h:1687-1702`.  The stream is the rest of the file;
a read returns the bytes asked for, or all that are left (`std::istream::read`, `common/common.cpp:462-468`).
`fuel` bounds the number of reads; the theorems give it enough. -/
def load (c : Codec) (garbage : Nat → Byte) : Nat → Heap → (total : Nat) → (stream : List Byte) → Option Heap
  | 0, _, _, _ => none
  | fuel + 1, h, total, stream =>
    let chunk := stream.take (min 1024 total)
    if chunk.length > 0 then
      match step c garbage h (.bytes chunk) with
      | none => none
      | some (h, _) => load c garbage fuel h (total - chunk.length) (stream.drop chunk.length)
    else if total ≠ 0 then none
    else some h

end Verif.Heap
