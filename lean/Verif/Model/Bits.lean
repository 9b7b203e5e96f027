/-!
# Alignment, bit ranges, metadata references, pointer tags and enum flags

`size_t`, `arch_uint_t` are `BitVec 64`; `int32_t` is `BitVec 32` read with `toInt`.
-/

namespace Verif.Bits

/-! ## Alignment helpers — `include/common.h:302-332` -/

/-- `_align` — `include/common.h:303-306`. -/
def align (size alignSize : BitVec 64) : BitVec 64 := size &&& ~~~(alignSize - 1#64)

/-- `__is_aligned` — `include/common.h:309-312`. -/
def isAligned (size alignSize : BitVec 64) : Bool := (size &&& (alignSize - 1#64)) = 0#64

/-- `_alignf` — `include/common.h:315-318`; the addition wraps modulo 2^64. -/
def alignf (size alignSize : BitVec 64) : BitVec 64 :=
  (size + alignSize - 1#64) &&& ~~~(alignSize - 1#64)

/-- The `while` loop of `_alignd` — `include/common.h:326-329`.  The loop is run for at most `fuel`
iterations; `none` means it has not finished by then. -/
def aligndLoop (alignSize : BitVec 64) : Nat → BitVec 64 → Option (BitVec 64)
  | 0, size => if size < alignSize then none else some size
  | fuel + 1, size => if size < alignSize then aligndLoop alignSize fuel (size <<< 1) else some size

/-- `_alignd` — `include/common.h:321-332`, run for at most `fuel` loop iterations. -/
def alignd (fuel : Nat) (size alignSize : BitVec 64) : Option (BitVec 64) :=
  aligndLoop alignSize fuel (if size = 0#64 then 1#64 else size)

/-! ## Ranges of bits — `include/common.h:2927-3028` -/

/-- `max_of_bits<_t,_bits>` for a signed `_t` of `w` bits — `include/common.h:2939-2944`:
`max_value<_t>() >> (w - bits)`. -/
def maxOfBits (w bits : Nat) : Int := ((2 ^ (w - 1) - 1 : Nat) >>> (w - bits) : Nat)

/-- `min_of_bits<_t,_bits>` for a signed `_t` of `w` bits — `include/common.h:2946-2953`:
all ones shifted left by `bits - 1` in the unsigned type, reinterpreted as signed. -/
def minOfBits (w bits : Nat) : Int := ((BitVec.allOnes w) <<< (bits - 1)).toInt

/-- `in_range<_t,_bits>(value)` — `include/common.h:3024-3028`. -/
def inRange (w bits : Nat) (value : Int) : Bool :=
  value ≤ maxOfBits w bits && minOfBits w bits ≤ value

/-! ## Jump instruction — `modules/core/__xil.h:1504-1556`, `modules/core/xil.cpp:816-862` -/

/-- A `jmp_xil_t` with its (at most three) extra bytes: `__cmd1` is the low nibble of the header
byte and `__cmd2` (`hdata`) the high nibble (`modules/core/__xil.h:626-662`). -/
structure Jmp where
  cmd1 : BitVec 4
  hdata : BitVec 4
  e0 : BitVec 8
  e1 : BitVec 8
  e2 : BitVec 8
  deriving DecidableEq, Repr

/-- `jmp_xil_t::distance` — `modules/core/__xil.h:1515-1518`; `true` is `far`. -/
def Jmp.distance (x : Jmp) : BitVec 4 := x.hdata >>> 3

/-- `jmp_xil_t::set_distance` — `modules/core/__xil.h:1521-1524`. -/
def Jmp.setDistance (x : Jmp) (d : BitVec 4) : Jmp :=
  { x with hdata := (x.hdata &&& 0x7#4) ||| (d <<< 3) }

/-- `jmp_xil_t::model` — `modules/core/__xil.h:1527-1530`. -/
def Jmp.model (x : Jmp) : BitVec 4 := x.hdata &&& 0x7#4

/-- `jmp_xil_t::set_model` — `modules/core/__xil.h:1533-1536`. -/
def Jmp.setModel (x : Jmp) (m : BitVec 4) : Jmp :=
  { x with hdata := (x.hdata &&& 0x8#4) ||| m }

/-- `jmp_xil_t::set_step` — `modules/core/xil.cpp:816-832`; `none` is the `overflow` exception.
`set_value_of_bits<int32_t, 24, 8>` stores the low 24 bits into bytes 1..3 (little endian). -/
def Jmp.setStep (x : Jmp) (step : BitVec 32) : Option Jmp :=
  if inRange 8 8 step.toInt then
    some ({ x with e0 := step.setWidth 8 }.setDistance 0#4)
  else if inRange 32 24 step.toInt then
    some ({ x with e0 := step.extractLsb' 0 8, e1 := step.extractLsb' 8 8,
                   e2 := step.extractLsb' 16 8 }.setDistance 1#4)
  else none

/-- `jmp_xil_t::step` — `modules/core/xil.cpp:835-848`; `none` is `X_UNEXPECTED()`. -/
def Jmp.step (x : Jmp) : Option (BitVec 32) :=
  if x.distance = 0#4 then some (x.e0.signExtend 32)
  else if x.distance = 1#4 then some ((x.e2 ++ x.e1 ++ x.e0).signExtend 32)
  else none

/-- `jmp_xil_t::set_tbl` — `modules/core/xil.cpp:851-857`; `none` is the `overflow` exception. -/
def Jmp.setTbl (x : Jmp) (index : BitVec 32) : Option Jmp :=
  if index.toInt < 0 ∨ 255 < index.toInt then none else some { x with e0 := index.setWidth 8 }

/-- `jmp_xil_t::tbl` — `modules/core/xil.cpp:860-863`. -/
def Jmp.tbl (x : Jmp) : BitVec 32 := x.e0.setWidth 32

/-! ## Metadata references — `modules/core/__xil.h:422-495` -/

/-- `ref_t`: `index : 20; extra : 3; count : 9` packed in 32 bits — `modules/core/__xil.h:438-440`. -/
structure Ref where
  index : BitVec 20
  extra : BitVec 3
  count : BitVec 9
  deriving DecidableEq, Repr

/-- `ref_t(index, count, extra)` — `modules/core/__xil.h:433-436`; bit-field initialisation keeps the
low bits. -/
def Ref.mk' (index count extra : BitVec 32) : Ref :=
  { index := index.setWidth 20, extra := extra.setWidth 3, count := count.setWidth 9 }

/-- `operator uint32_t` — `modules/core/__xil.h:446`: the bit fields from the least significant bit. -/
def Ref.toWord (r : Ref) : BitVec 32 := r.count ++ r.extra ++ r.index

/-- Reading a `ref_t` from its 32-bit image. -/
def Ref.ofWord (x : BitVec 32) : Ref :=
  { index := x.extractLsb' 0 20, extra := x.extractLsb' 20 3, count := x.extractLsb' 23 9 }

/-- `ref_t::operator ==` — `modules/core/__xil.h:473-476`. -/
def Ref.beq (a b : Ref) : Bool := a.toWord = b.toWord || (a.count = 0#9 && b.count = 0#9)

/-- `ref_t::operator [] (offset)` — `modules/core/__xil.h:449-452`. -/
def Ref.nth (r : Ref) (offset : BitVec 32) : Ref :=
  Ref.mk' (r.index.setWidth 32 + offset) 1#32 (r.extra.setWidth 32)

/-! ## Tagged pointers — `include/algorithm.h:802-856` -/

/-- `__incorp_mask` — `include/algorithm.h:805`. -/
def incorpMask : BitVec 64 := 0x7#64

/-- `incorp(p, v)` — `include/algorithm.h:808-812`. -/
def incorp (p v : BitVec 64) : BitVec 64 := p ||| (v &&& incorpMask)

/-- `incorp_p` — `include/algorithm.h:814-818`. -/
def incorpP (p : BitVec 64) : BitVec 64 := p &&& ~~~incorpMask

/-- `incorp_v` — `include/algorithm.h:820-824`. -/
def incorpV (p : BitVec 64) : BitVec 64 := p &&& incorpMask

/-- `set_incorp_p` — `include/algorithm.h:826-831`. -/
def setIncorpP (p p1 : BitVec 64) : BitVec 64 := (p &&& ~~~incorpMask) ||| p1

/-- `set_incorp_v` — `include/algorithm.h:833-838`.  The code masks with `__incorp_mask`, not with its
complement. -/
def setIncorpV (p v : BitVec 64) : BitVec 64 := (p &&& incorpMask) ||| v

/-! ## Enum flags — `include/common.h:1452-1547`, `2475-2623`

The underlying integer of an enum is `BitVec w`; parameter packs are lists. -/

section Flags
variable {w : Nat}

/-- `bit_or(args...)` — `include/common.h:1456-1470` (both branches agree). -/
def bitOr (args : List (BitVec w)) : BitVec w := args.foldl (· ||| ·) 0#w

/-- `bit_and(args...)` on an enum — `include/common.h:1486-1489`. -/
def bitAndEnum (args : List (BitVec w)) : BitVec w := args.foldl (· &&& ·) (-1#w)

/-- `bit_and(args...)` on a non-enum integer — `include/common.h:1491-1493`; the fold uses `^`. -/
def bitAndInt (args : List (BitVec w)) : BitVec w := args.foldl (· ^^^ ·) (-1#w)

/-- `bit_xor(args...)` — `include/common.h:1498-1512`. -/
def bitXor (args : List (BitVec w)) : BitVec w := args.foldl (· ^^^ ·) 0#w

/-- `bit_not` — `include/common.h:1515-1526`. -/
def bitNot (v : BitVec w) : BitVec w := ~~~v

/-- `bit_add_flag` — `include/common.h:1473-1477`. -/
def bitAddFlag (v : BitVec w) (args : List (BitVec w)) : BitVec w := bitOr (v :: args)

/-- `bit_remove_flag` on an enum — `include/common.h:1529-1533`. -/
def bitRemoveFlag (v : BitVec w) (args : List (BitVec w)) : BitVec w :=
  bitAndEnum (v :: args.map bitNot)

/-- `bit_has_flag(v, flags...)` on an enum — `include/common.h:1536-1540`. -/
def bitHasFlag (v : BitVec w) (flags : List (BitVec w)) : Bool :=
  bitAndEnum [v, bitXor flags] ≠ 0#w

/-- `bit_match_flag` on an enum — `include/common.h:1543-1547`. -/
def bitMatchFlag (v flag : BitVec w) : Bool := bitAndEnum [v, flag] = flag

/-- `enum_t::has(v, vs...)` — `include/common.h:2577-2581`. -/
def enumHas (value : BitVec w) (vs : List (BitVec w)) : Bool := bitHasFlag value [bitOr vs]

/-- `enum_t::has_only(v, vs...)` — `include/common.h:2584-2596`. -/
def enumHasOnly (value : BitVec w) (vs : List (BitVec w)) : Bool :=
  value ≠ 0#w && value &&& ~~~(bitOr vs) = 0#w

/-- `enum_t::remove(v, vs...)` — `include/common.h:2599-2603`. -/
def enumRemove (value : BitVec w) (vs : List (BitVec w)) : BitVec w :=
  bitRemoveFlag value [bitOr vs]

/-- `enum_t::add(v, vs...)` — `include/common.h:2606-2610`. -/
def enumAdd (value : BitVec w) (vs : List (BitVec w)) : BitVec w := bitOr (value :: vs)

end Flags

end Verif.Bits
