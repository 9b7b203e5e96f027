import Verif.Model.Expr

/-!
# The integer functions of `System.Math`

Models the overloads of `Max`, `Min`, `Abs` and `Sign` for integers in `core_lib/System/Math.cs`, as the compiler gets them:
methods of one `return` statement.  They are compiled and executed by the model of C77.  The overloads for `Single` and
`Double`, and the functions of the runtime library behind `Sqrt`, `Sin` and the others, are not modelled.
-/

namespace Verif.MathLib

open Verif.Fold Verif.Expr

/-- A method of one `return` statement. -/
def returns (params : List VT) (ret : VT) (e : Exp) : Method :=
  { params := params, ret := ret, locals := [], units := 0, body := [.ret e] }

/-- `val1 > val2? val1 : val2` — `core_lib/System/Math.cs:11-49`. -/
def maxM (t : VT) : Method :=
  returns [t, t] t (.cond (.bin (.cmp .gt) (.var (.par 0)) (.var (.par 1))) (.var (.par 0)) (.var (.par 1)))

/-- `val1 < val2? val1 : val2` — `core_lib/System/Math.cs:64-102`. -/
def minM (t : VT) : Method :=
  returns [t, t] t (.cond (.bin (.cmp .lt) (.var (.par 0)) (.var (.par 1))) (.var (.par 0)) (.var (.par 1)))

/-- `val < 0? -val : val` — `core_lib/System/Math.cs:127-135`; for `Int8` and `Int16`
`val < 0? (Int8)(-val) : val`, lines 117-125. -/
def absM (t : VT) : Method :=
  let neg := Exp.un .minus (.var (.par 0))
  returns [t] t (.cond (.bin (.cmp .lt) (.var (.par 0)) (.const ⟨.int32, 0⟩))
    (if t = .int8 ∨ t = .int16 then .cast t neg else neg) (.var (.par 0)))

/-- `val > 0? 1 : val < 0? -1 : 0` — `core_lib/System/Math.cs:150-168`. -/
def signM (t : VT) : Method :=
  returns [t] .int32 (.cond (.bin (.cmp .gt) (.var (.par 0)) (.const ⟨.int32, 0⟩)) (.const ⟨.int32, 1⟩)
    (.cond (.bin (.cmp .lt) (.var (.par 0)) (.const ⟨.int32, 0⟩)) (.un .minus (.const ⟨.int32, 1⟩)) (.const ⟨.int32, 0⟩)))

/-- The types with overloads of `Max` and `Min`. -/
def allInts : List VT := [.int8, .int16, .int32, .int64, .uint8, .uint16, .uint32, .uint64]

/-- The types with overloads of `Abs` and `Sign`. -/
def signedInts : List VT := [.int8, .int16, .int32, .int64]

/-- The methods, in the order of the file. -/
def mathLib : Prog := allInts.map maxM ++ allInts.map minM ++ signedInts.map absM ++ signedInts.map signM

end Verif.MathLib
