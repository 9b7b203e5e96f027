/-!
# Variable-length integers

Model of `al::to_varint` / `al::from_varint` (`include/algorithm.h:744-798`).

Bytes are `BitVec 8`; an unsigned C++ integer type of `w` bits is `BitVec w`.  Only unsigned
instantiations are modelled (`assembly_layout.cpp` instantiates `uint32_t`); for a negative signed
value `value >>= 7` never reaches zero and the C++ loop does not terminate.
-/

namespace Verif.Varint

/-- What a decoder call can do.  `outOfBounds` stands for the undefined behaviour of reading past
the end of the buffer; `overflow` is the exception `from_varint number overflow`. -/
inductive Decoded (α : Type) where
  | ok (value : α) (length : Nat)
  | overflow
  | outOfBounds
  deriving DecidableEq, Repr

/-- `al::to_varint` — `include/algorithm.h:747-767`.  Least significant group of seven bits first,
the top bit of a byte set when more bytes follow.  The C++ function writes to a buffer and returns
the length; here the written bytes are returned, the length is the list's length. -/
def toVarint {w : Nat} (value : BitVec w) : List (BitVec 8) :=
  if h : value >>> 7 ≠ 0#w then
    ((value &&& 0x7F#w).setWidth 8 ||| 0x80#8) :: toVarint (value >>> 7)
  else
    [(value &&& 0x7F#w).setWidth 8]
termination_by value.toNat
decreasing_by
  have h1 : (value >>> 7).toNat = value.toNat / 2 ^ 7 := by
    simp [BitVec.toNat_ushiftRight, Nat.shiftRight_eq_div_pow]
  have h2 : (value >>> 7).toNat ≠ 0 := fun h0 => h (BitVec.eq_of_toNat_eq (by simpa using h0))
  omega

/-- The loop of `al::from_varint` — `include/algorithm.h:773-795`; `value`, `offset` are the loop
variables and `len` the number of bytes consumed so far (`buffer - buffer0`). -/
def fromVarintLoop {w : Nat} (value : BitVec w) (offset len : Nat) :
    List (BitVec 8) → Decoded (BitVec w)
  | [] => if offset + 7 > w then .overflow else .outOfBounds
  | byte :: rest =>
    if offset + 7 > w then .overflow
    else if byte &&& 0x80#8 ≠ 0#8 then
      fromVarintLoop (value ||| (((byte &&& 0x7F#8).setWidth w) <<< offset)) (offset + 7)
        (len + 1) rest
    else
      .ok (value ||| ((byte.setWidth w) <<< offset)) (len + 1)

/-- `al::from_varint` — `include/algorithm.h:771-798`. -/
def fromVarint (w : Nat) (buffer : List (BitVec 8)) : Decoded (BitVec w) :=
  fromVarintLoop 0#w 0 0 buffer

end Verif.Varint
