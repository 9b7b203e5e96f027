import Verif.Model.Value

/-!
What a typed number denotes.
-/

namespace Verif.Value

/-- The integer a typed value denotes; floating-point values denote no integer. -/
def TValue.num : TValue → Option Int
  | .int8 v => some v.toInt
  | .uint8 v => some v.toNat
  | .int16 v => some v.toInt
  | .uint16 v => some v.toNat
  | .int32 v => some v.toInt
  | .uint32 v => some v.toNat
  | .int64 v => some v.toInt
  | .uint64 v => some v.toNat
  | .bool v => some (if v then 1 else 0)
  | .char v => some v.toInt
  | .float _ | .double _ | .ldouble => none

/-- The bits of a 64-bit wide value. -/
def TValue.wide : TValue → Option (BitVec 64)
  | .int64 v | .uint64 v | .double v => some v
  | _ => none

end Verif.Value
