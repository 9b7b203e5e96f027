/-!
# The bit array

Model of `bit_array_t` — `algorithm/__collections.h:484-533`, `algorithm/collections.cpp:141-279`.

Simplifications.  Lengths and indices are natural numbers (in the code they are `size_t`; the memory for
an index near 2⁶⁴ cannot be allocated).  `mem` is what lies in memory behind the old words when they are
copied to a larger buffer.
-/

namespace Verif.BitArray

/-- How a call can fail: it reads memory that it must not read, or (never, see `index_of_first_partial`) the search
does not end within the fuel. -/
inductive Err where
  | ub | fuel
  deriving DecidableEq, Repr

/-- `bit_array_t`: `__bit_length`, and `__data` with `__data_length` words. -/
structure BA where
  bitLength : Nat
  data : Option (List (BitVec 64))
  deriving DecidableEq, Repr

/-- The constructor — `collections.cpp:141`. -/
def BA.empty (initLength : Nat) : BA := ⟨initLength, none⟩

/-- `__data_length_of` — `collections.cpp:235-238`: the bits rounded up to a multiple of 8, by 8. -/
def dataLengthOf (bitLength : Nat) : Nat := (bitLength + 7) / 8

/-- The length of the new buffer — `collections.cpp:208-211`. -/
def newLength (dataLength : Nat) : Nat := if dataLength < 16 then dataLength * 2 else dataLength + 10

/-- The words that `copy_array` reads: `data_length` words from the old buffer on, although it has fewer
— `collections.cpp:216`, `include/algorithm.h:205-214`. -/
def copied (old : List (BitVec 64)) (mem : Nat → BitVec 64) (length : Nat) : List (BitVec 64) :=
  (List.range length).map (fun i => (old[i]?).getD (mem i))

/-- `__check_length` — `collections.cpp:198-224`. -/
def BA.checkLength (a : BA) (mem : Nat → BitVec 64) (bitLength : Nat) : BA :=
  match a.data with
  | none => ⟨bitLength, some (List.replicate (newLength (dataLengthOf bitLength)) 0#64)⟩
  | some d =>
    if bitLength ≤ a.bitLength then a
    else if dataLengthOf bitLength > d.length then
      let length := newLength (dataLengthOf bitLength)
      ⟨bitLength, some ((copied d mem length).take d.length ++ List.replicate (length - d.length) 0#64)⟩
    else ⟨bitLength, some d⟩

/-- Whether `__check_length` reads behind the end of the old buffer. -/
def BA.overreads (a : BA) (bitLength : Nat) : Bool :=
  match a.data with
  | none => false
  | some d =>
    !(bitLength ≤ a.bitLength) && decide (dataLengthOf bitLength > d.length) &&
      decide (newLength (dataLengthOf bitLength) > d.length)

/-- The flag of `__pos_of` — `collections.cpp:230`. -/
def flag (index : Nat) : BitVec 64 := 1#64 <<< (index % 64)

/-- `set` — `collections.cpp:144-155`. -/
def BA.set (a : BA) (mem : Nat → BitVec 64) (index : Nat) (value : Bool) : Except Err BA :=
  let a := a.checkLength mem (index + 1)
  match a.data with
  | none => .error .ub
  | some d =>
    match d[index / 64]? with
    | none => .error .ub
    | some w => .ok ⟨a.bitLength, some (d.set (index / 64) (if value then w ||| flag index else w &&& ~~~flag index))⟩

/-- `get` — `collections.cpp:159-168`. -/
def BA.get (a : BA) (index : Nat) : Except Err Bool :=
  match a.data with
  | none => .ok false
  | some d =>
    if dataLengthOf (index + 1) > d.length then .ok false
    else
      match d[index / 64]? with
      | none => .error .ub
      | some w => .ok (w &&& flag index != 0#64)

/-- `__cut` — `collections.cpp:268-273`. -/
def cut (value : BitVec 64) (from_ to : Nat) : BitVec 64 := (value <<< (64 - to - 1)) >>> (from_ + (64 - to - 1))

/-- The loop of `__index_of_true` — `collections.cpp:249-264`.  A shift by 64 or more is undefined. -/
def search (value : BitVec 64) : Nat → Nat → Nat → Except Err (Option Nat)
  | 0, _, _ => .error .fuel
  | fuel + 1, from_, end_ =>
    let index := (from_ + end_) / 2
    if from_ + (64 - index - 1) ≥ 64 then .error .ub
    else if cut value from_ index ≠ 0#64 then
      if index = from_ then .ok (some index) else search value fuel from_ index
    else if index ≥ end_ then .ok none
    else search value fuel (index + 1) end_

/-- `__index_of_true` — `collections.cpp:241-265`. -/
def indexOfTrue (value : BitVec 64) (from_ : Nat) : Except Err (Option Nat) :=
  if from_ ≥ 64 then .ok none
  else if value &&& (1#64 <<< from_) ≠ 0#64 then .ok (some from_)
  else search value 64 from_ 63

/-- The loop of `index_of` — `collections.cpp:183-192`, over `n` words from `pos` on. -/
def scan (d : List (BitVec 64)) (value : Bool) (bitLength : Nat) : Nat → Nat → Nat → Except Err (Option Nat)
  | 0, _, _ => .ok none
  | n + 1, pos, from0 =>
    match d[pos]? with
    | none => .error .ub
    | some w =>
      match indexOfTrue (if value then w else ~~~w) from0 with
      | .error e => .error e
      | .ok (some index) =>
        .ok (if index + pos * 64 ≥ bitLength then none else some (index + pos * 64))
      | .ok none => scan d value bitLength n (pos + 1) 0

/-- `index_of` — `collections.cpp:172-195`; `none` is `not_found`. -/
def BA.indexOf (a : BA) (value : Bool) (from_ : Nat) : Except Err (Option Nat) :=
  if from_ ≥ a.bitLength then .ok none
  else if from_ / 64 ≥ dataLengthOf a.bitLength then .ok (some 0)
  else
    match a.data with
    | none => .error .ub
    | some d => scan d value a.bitLength (dataLengthOf a.bitLength - from_ / 64) (from_ / 64) (from_ % 64)

/-- A history of calls of `set`, with what lies in memory at each of them. -/
def BA.run : BA → List ((Nat → BitVec 64) × Nat × Bool) → Except Err BA
  | a, [] => .ok a
  | a, (mem, index, value) :: rest =>
    match a.set mem index value with
    | .error e => .error e
    | .ok a' => a'.run rest

end Verif.BitArray
