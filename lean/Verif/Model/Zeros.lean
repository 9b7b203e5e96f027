import Verif.Model.Copy
import Verif.Model.Arr
/-!
# Memory of new objects

Model of the creation of objects and arrays with the bytes they hold — `modules/mm/mm.cpp:25-195` — and of
`zero_object` — `include/algorithm.h:321-381` —, on a 64-bit machine.

Simplifications.  Memory is that of `Model/Copy.lean`.  The block that is allocated is given by its first
address (the heap is that of `Model/XHeap.lean`); its bytes are what they were before.  Numbers are stored with
the lowest byte first.
-/

namespace Verif.Zeros

open Verif.Copy (Mem clear)
open Verif.Arr (alignf bytesFor int32 cumulate multiply)

/-- A store of a number of `n` bytes. -/
def store (m : Mem) (p n value : Nat) : Mem :=
  fun a => if p ≤ a ∧ a < p + n then BitVec.ofNat 8 (value / 256 ^ (a - p)) else m a

/-- `__zero_t<_size, arch_uint_t>::zero` — `mm.cpp:65-80`. -/
def zeroT : Nat → Mem → Nat → Mem
  | 0, m, _ => m
  | n + 1, m, p => zeroT n (clear m p 8) (p + 8)

/-- `__max_zero_size` — `mm.cpp:88`. -/
def maxZeroSize : Nat := 16

/-- `__zero(size, p)` — `mm.cpp:90-108`: the cases of the switch are 0 to 16. -/
def zeroSwitch (size : Nat) (m : Mem) (p : Nat) : Bool × Mem :=
  if size ≤ 16 then (true, zeroT size m p) else (false, zeroT maxZeroSize m p)

/-- `__zero_memory` — `mm.cpp:111-118`; `p` is a pointer to words, `size` the number of words; `fuel` bounds the
rounds. -/
def zeroLoop : Nat → Mem → Nat → Nat → Option Mem
  | 0, _, _, _ => none
  | fuel + 1, m, p, size =>
    let r := zeroSwitch size m p
    if r.1 then some r.2 else zeroLoop fuel r.2 (p + 8 * maxZeroSize) (size - maxZeroSize)

def zeroMemory (m : Mem) (p size : Nat) : Option Mem := zeroLoop (size + 1) m p size

/-- `__set_object_type` — `mm.cpp:25-28`. -/
def setType (m : Mem) (obj type : Nat) : Mem := store m (obj - 8) 8 type

/-- `__set_array_length` — `mm.cpp:31-34`; an `array_length_t` has 4 bytes. -/
def setLength (m : Mem) (obj length : Nat) : Mem := store m (obj - 8 - 4) 4 length

/-- The bytes that `new_obj` allocates — `mm.cpp:125-127`, `60-63`. -/
def objectBytes (size : Nat) : Nat := alignf size 8 + 8

/-- `new_obj` — `mm.cpp:123-133`: the memory, and the object. -/
def newObj (m : Mem) (block type size : Nat) : Option (Mem × Nat) := do
  let n := alignf size 8
  let obj := block + 8
  let m1 ← zeroMemory m obj (n / 8)
  pure (setType m1 obj type, obj)

/-- The bytes before the elements — `mm.cpp:150-152`, `167-170`. -/
def headerBytes (dimension : Nat) : Nat :=
  if dimension = 1 then alignf (8 + 4) 8 else alignf (8 + 4 * dimension + 4) 8

/-- A number in 32 bits. -/
def word (x : Int) : Nat := (x % 2 ^ 32).toNat

/-- The loop that stores the lengths — `mm.cpp:177-185`, `include/modules/mm.h:68-71`: downwards from the place below the length. -/
def setLengths (m : Mem) (p : Nat) : List Int → Mem
  | [] => m
  | c :: cs => setLengths (store m p 4 (word c)) (p - 4) cs

/-- The bytes that `new_array` allocates — `mm.cpp:142-144`, `154`, `172`. -/
def arrayBytes (size : Nat) (lengths : List Int) : Nat :=
  headerBytes lengths.length + bytesFor size (lengths.headD 0)

/-- `new_array` — `mm.cpp:136-191`. -/
def newArray (m : Mem) (block type size : Nat) (lengths : List Int) : Option (Mem × Nat) :=
  match lengths with
  | [] => none
  | [n] => do
    let obj := block + headerBytes 1
    let m1 := setLength (setType m obj type) obj (word n)
    let m2 ← zeroMemory m1 obj (bytesFor size n / 8)
    pure (m2, obj)
  | n :: rest => do
    let total ← multiply n rest
    let obj := block + headerBytes lengths.length
    let m1 := setLength (setType m obj type) obj (word total)
    let cums ← cumulate lengths.reverse 1
    let m2 := setLengths m1 (obj - 8 - 8) cums
    let m3 ← zeroMemory m2 obj (bytesFor size n / 8)
    pure (m3, obj)

/-- `__zero_bytes_t<size, unit_size, n>` — `include/algorithm.h:323-352`: `n` stores of a unit, then units of half
the size for what is left; `level` is the exponent of the unit. -/
def zeroBytes (size : Nat) : Nat → Nat → Mem → Nat → Mem
  | level, n + 1, m, p => zeroBytes size level n (clear m p (2 ^ level)) (p + 2 ^ level)
  | 0, 0, m, _ => m
  | level + 1, 0, m, p => zeroBytes size level ((size % 2 ^ (level + 1)) / 2 ^ level) m p
termination_by level n => (level, n)

/-- `zero_object`, `zero_bytes` — `include/algorithm.h:354-381`. -/
def zeroObject (m : Mem) (p size : Nat) : Mem := zeroBytes size 3 (size / 8) m p

end Verif.Zeros
