/-!
Model of `quick_copy` and `quick_zero`: `include/algorithm.h:383-606`, `algorithm/algorithm.cpp`.

Memory is a function from addresses to bytes.  Addresses are natural numbers: pointer arithmetic that wraps
around the address space is not modelled.  A load and store of an `n`-byte integer is one step that reads the
`n` bytes and then writes them.  Alignment faults are not modelled (x86-64 allows unaligned access).
-/

namespace Verif.Copy

/-- Memory. -/
abbrev Mem := Nat → BitVec 8

/-- `*(uintN_t *)(dst) = *(const uintN_t *)(src)` for an `n`-byte integer. -/
def move (m : Mem) (dst src n : Nat) : Mem :=
  fun a => if dst ≤ a ∧ a < dst + n then m (src + (a - dst)) else m a

/-- A sequence of loads and stores, each given by its offset and width. -/
def moves (m : Mem) (dst src : Nat) : List (Nat × Nat) → Mem
  | [] => m
  | (off, n) :: rest => moves (move m (dst + off) (src + off) n) dst src rest

/-- The accesses of `__quick_copy_t<_size>::copy`, `_size <= 8` — `include/algorithm.h:391-440`. -/
def chunks : Nat → List (Nat × Nat)
  | 1 => [(0, 1)]
  | 2 => [(0, 2)]
  | 3 => [(0, 2), (2, 1)]
  | 4 => [(0, 4)]
  | 5 => [(0, 4), (4, 1)]
  | 6 => [(0, 4), (4, 2)]
  | 7 => [(0, 4), (4, 2), (6, 1)]
  | 8 => [(0, 8)]
  | _ => []

/-- The accesses of `__quick_copy_t<_size>::copy_backward`, `_size <= 8` — `include/algorithm.h:442-491`. -/
def chunksBack : Nat → List (Nat × Nat)
  | 1 => [(0, 1)]
  | 2 => [(0, 2)]
  | 3 => [(2, 1), (0, 2)]
  | 4 => [(0, 4)]
  | 5 => [(4, 1), (0, 4)]
  | 6 => [(4, 2), (0, 4)]
  | 7 => [(6, 1), (4, 2), (0, 4)]
  | 8 => [(0, 8)]
  | _ => []

/-- `__quick_copy(dst, src, size)` — `algorithm/algorithm.cpp:9-30`; other sizes do nothing. -/
def quickCopySmall (m : Mem) (dst src size : Nat) : Mem := moves m dst src (chunks size)

/-- `__quick_copy_backward(dst, src, size)` — `algorithm/algorithm.cpp:32-53`. -/
def quickCopyBackSmall (m : Mem) (dst src size : Nat) : Mem := moves m dst src (chunksBack size)

/-- The forward word loop — `algorithm/algorithm.cpp:108-115`: memory, both cursors and the size left. -/
def wordLoop (m : Mem) (dst src size : Nat) : Mem × Nat × Nat × Nat :=
  if 8 ≤ size then wordLoop (move m dst src 8) (dst + 8) (src + 8) (size - 8) else (m, dst, src, size)
termination_by size

/-- The backward word loop — `algorithm/algorithm.cpp:81-88`, cursors just after the bytes still to copy. -/
def wordLoopBack (m : Mem) (dstEnd srcEnd size : Nat) : Mem × Nat :=
  if 8 ≤ size then wordLoopBack (move m (dstEnd - 8) (srcEnd - 8) 8) (dstEnd - 8) (srcEnd - 8) (size - 8)
  else (m, size)
termination_by size

/-- The backward branch of `quick_copy` — `algorithm/algorithm.cpp:64-91`. -/
def quickCopyDown (m : Mem) (dst src size : Nat) : Mem :=
  let dst0 := dst + size
  let src0 := src + size
  let offset := src0 % 8
  if offset > 0 then
    let offset := 8 - offset
    let src0 := src0 - offset
    let dst0 := dst0 - offset
    let size := size - offset
    let (m, size) := wordLoopBack (quickCopyBackSmall m dst0 src0 offset) dst0 src0 size
    quickCopyBackSmall m dst src size
  else
    let (m, size) := wordLoopBack m dst0 src0 size
    quickCopyBackSmall m dst src size

/-- The forward branch of `quick_copy` — `algorithm/algorithm.cpp:92-118`. -/
def quickCopyUp (m : Mem) (dst src size : Nat) : Mem :=
  let offset := src % 8
  if offset > 0 then
    let offset := 8 - offset
    let (m, dst, src, size) := wordLoop (quickCopySmall m dst src offset) (dst + offset) (src + offset) (size - offset)
    quickCopySmall m dst src size
  else
    let (m, dst, src, size) := wordLoop m dst src size
    quickCopySmall m dst src size

/-- `quick_copy(dst, src, size)` — `algorithm/algorithm.cpp:53-119`. -/
def quickCopy (m : Mem) (dst src size : Nat) : Mem :=
  if dst = src ∨ size = 0 then m
  else if size ≤ 8 then quickCopySmall m dst src size
  else if src < dst ∧ dst ≤ src + size then quickCopyDown m dst src size
  else quickCopyUp m dst src size

/-- `quick_copy<_size>(dst, src)` — `include/algorithm.h:494-504`, `520-527`. -/
def quickCopyT (m : Mem) (dst src : Nat) (size : Nat) : Mem :=
  if size ≤ 8 then moves m dst src (chunks size)
  else quickCopyT (move m dst src 8) (dst + 8) (src + 8) (size - 8)
termination_by size

/-- `quick_copy<_size, true>(dst, src)` — `include/algorithm.h:506-517`, `520-527`: the 8 bytes are taken
from offset `_size - 1`. -/
def quickCopyBackT (m : Mem) (dst src : Nat) (size : Nat) : Mem :=
  if size ≤ 8 then moves m dst src (chunksBack size)
  else quickCopyBackT (move m (dst + size - 1) (src + size - 1) 8) dst src (size - 8)
termination_by size

/-- `*(uintN_t *)p = 0`. -/
def clear (m : Mem) (p n : Nat) : Mem := fun a => if p ≤ a ∧ a < p + n then 0 else m a

/-- A sequence of stores of zero. -/
def clears (m : Mem) (p : Nat) : List (Nat × Nat) → Mem
  | [] => m
  | (off, n) :: rest => clears (clear m (p + off) n) p rest

/-- `quick_zero(p, size)` — `algorithm/algorithm.cpp:123-151`, with `__quick_zero_t` of
`include/algorithm.h:536-584` (same access pattern as `copy`). -/
def quickZero (m : Mem) (p size : Nat) : Mem :=
  if 8 < size then quickZero (clear m p 8) (p + 8) (size - 8) else clears m p (chunks size)
termination_by size

/-- `quick_zero<_size>(p)` — `include/algorithm.h:586-604`. -/
def quickZeroT (m : Mem) (p size : Nat) : Mem :=
  if size ≤ 8 then clears m p (chunks size) else quickZeroT (clear m p 8) (p + 8) (size - 8)
termination_by size

end Verif.Copy
