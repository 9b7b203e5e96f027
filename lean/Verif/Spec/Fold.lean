import Verif.Model.Fold

/-!
What the operators of the language should compute, independently of C++.
-/

namespace Verif.Fold.Spec

open Verif.Fold

/-- The smallest value of an integer type. -/
def lo : VT → Int
  | .int8 => -128
  | .int16 => -32768
  | .int32 | .char => -2147483648
  | .int64 => -9223372036854775808
  | _ => 0

/-- The largest value of an integer type. -/
def hi : VT → Int
  | .int8 => 127
  | .uint8 => 255
  | .int16 => 32767
  | .uint16 => 65535
  | .int32 | .char => 2147483647
  | .uint32 => 4294967295
  | .int64 => 9223372036854775807
  | .uint64 => 18446744073709551615
  | .bool => 1
  | _ => 0

/-- The integer is a value of the type. -/
def Value (t : VT) (v : Int) : Prop := lo t ≤ v ∧ v ≤ hi t

instance (t : VT) (v : Int) : Decidable (Value t v) := by unfold Value; infer_instance

/-- A constant holds a value of its type. -/
def Valid (c : Const) : Prop := Value c.ty c.v

/-- `v` is what an exact result becomes in the type: the value of the type that differs by a multiple of the number of
values. -/
def Wrapped (t : VT) (exact v : Int) : Prop := Value t v ∧ (hi t - lo t + 1) ∣ (exact - v)

/-- `v` is the result of an operator on `x` and `y`, two values of the type. -/
def Result (t : VT) (x y v : Int) : Arith → Prop
  | .add => Wrapped t (x + y) v
  | .sub => Wrapped t (x - y) v
  | .mul => Wrapped t (x * y) v
  | .div => y ≠ 0 ∧ Wrapped t (x.tdiv y) v
  | .mod => y ≠ 0 ∧ Wrapped t (x.tmod y) v
  | .bitAnd => Value t v ∧ BitVec.ofInt t.bits v = BitVec.ofInt t.bits x &&& BitVec.ofInt t.bits y
  | .bitOr => Value t v ∧ BitVec.ofInt t.bits v = BitVec.ofInt t.bits x ||| BitVec.ofInt t.bits y
  | .bitXor => Value t v ∧ BitVec.ofInt t.bits v = BitVec.ofInt t.bits x ^^^ BitVec.ofInt t.bits y
  | .shl => 0 ≤ y ∧ Wrapped t (x * 2 ^ y.toNat) v
  | .shr => 0 ≤ y ∧ Value t v ∧ v = x / 2 ^ y.toNat

/-- The exact integer an operator computes before it is fitted into a type; `none` for division by zero.  For `mod` it is the
quotient, which has to exist for the remainder to be defined. -/
def exact : Arith → Int → Int → Option Int
  | .add, x, y => some (x + y)
  | .sub, x, y => some (x - y)
  | .mul, x, y => some (x * y)
  | .div, x, y | .mod, x, y => if y = 0 then none else some (x.tdiv y)
  | _, _, _ => some 0

/-- A comparison as a relation between integers. -/
def Holds : Cmp → Int → Int → Prop
  | .gt, x, y => x > y
  | .ge, x, y => x ≥ y
  | .lt, x, y => x < y
  | .le, x, y => x ≤ y
  | .eq, x, y => x = y
  | .ne, x, y => x ≠ y

end Verif.Fold.Spec
