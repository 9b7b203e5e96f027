/-!
Model of the operators on typed values: the result-type tables (`modules/core/__vtype_traits.h`), the operators themselves,
the compiler's constant folding (`modules/core/expression_executor.cpp`), and the virtual machine's arithmetic
instructions (`modules/exec/commands.cpp:4800-5322`), which use the same operator templates.

A value of an integer type, of `char_t` (a signed 32-bit type) or of `bool` is the mathematical integer it denotes.  The C++
rules for integers (promotion, usual arithmetic conversions, modular conversion, undefined signed overflow) are written out
in the section "C++".  Floating-point operands: the result type is modelled, the value is not (`Outcome.float`).
-/

namespace Verif.Fold

/-- `vtype_t` — `include/modules/core.h:635-673`. -/
inductive VT where
  | int8 | uint8 | int16 | uint16 | int32 | uint32 | int64 | uint64 | float | double | bool | char | ptr | string | void
  | mobject
deriving DecidableEq, Repr

/-- All of them. -/
def allVT : List VT :=
  [.int8, .uint8, .int16, .uint16, .int32, .uint32, .int64, .uint64, .float, .double, .bool, .char, .ptr, .string, .void,
   .mobject]

/-- Size in bits of the C++ type of an integer, `char` or `bool` value. -/
def VT.bits : VT → Nat
  | .int8 | .uint8 => 8
  | .int16 | .uint16 => 16
  | .int32 | .uint32 | .char => 32
  | .int64 | .uint64 => 64
  | .bool => 1
  | _ => 0

/-- Whether the C++ type is signed. -/
def VT.signed : VT → Bool
  | .int8 | .int16 | .int32 | .int64 | .char => true
  | _ => false

/-- `is_integer` — `include/modules/core.h:694-697`. -/
def VT.isInt : VT → Bool
  | .int8 | .uint8 | .int16 | .uint16 | .int32 | .uint32 | .int64 | .uint64 => true
  | _ => false

/-- `is_float` — `include/modules/core.h:700-703`. -/
def VT.isFloat : VT → Bool
  | .float | .double => true
  | _ => false

/-- Arithmetic and bitwise operators. -/
inductive Arith where
  | add | sub | mul | div | mod | bitAnd | bitOr | bitXor | shl | shr
deriving DecidableEq, Repr

/-- Comparison operators. -/
inductive Cmp where
  | gt | ge | lt | le | eq | ne
deriving DecidableEq, Repr

/-- The binary operators of `__EachBinaryOperators` — `modules/core/__vtype_traits.h:55-83`; `assign` is the compound
assignment. -/
inductive Op where
  | arith (a : Arith)
  | assign (a : Arith)
  | cmp (c : Cmp)
  | logicAnd
  | logicOr
deriving DecidableEq, Repr

/-- The rows of `__IntOps` — `modules/core/__vtype_traits.h:451-494`: result, operands, and whether the row is `__B2` (both
orders). -/
def intRows : List (VT × VT × VT × Bool) :=
  [(.int32, .int8, .int8, false), (.int32, .int8, .uint8, true),
   (.int32, .uint8, .uint8, false),
   (.int32, .int16, .int8, true), (.int32, .int16, .uint8, true), (.int32, .int16, .int16, false),
   (.int32, .int16, .uint16, true),
   (.int32, .uint16, .int8, true), (.int32, .uint16, .uint8, true), (.int32, .uint16, .uint16, false),
   (.int32, .int32, .int8, true), (.int32, .int32, .uint8, true), (.int32, .int32, .int16, true),
   (.int32, .int32, .uint16, true), (.int32, .int32, .int32, false),
   (.int64, .uint32, .int8, true), (.uint32, .uint32, .uint8, true), (.int64, .uint32, .int16, true),
   (.uint32, .uint32, .uint16, true), (.int64, .uint32, .int32, true), (.uint32, .uint32, .uint32, false),
   (.int64, .int64, .int8, true), (.int64, .int64, .uint8, true), (.int64, .int64, .int16, true),
   (.int64, .int64, .uint16, true), (.int64, .int64, .int32, true), (.int64, .int64, .uint32, true),
   (.int64, .int64, .int64, false),
   (.uint64, .uint64, .int8, true), (.uint64, .uint64, .uint8, true), (.uint64, .uint64, .int16, true),
   (.uint64, .uint64, .uint16, true), (.uint64, .uint64, .int32, true), (.uint64, .uint64, .uint32, true),
   (.uint64, .uint64, .int64, true), (.uint64, .uint64, .uint64, false)]

/-- The rows of `__FloatOps` — `modules/core/__vtype_traits.h:496-516`. -/
def floatRows : List (VT × VT × VT × Bool) :=
  [(.float, .float, .int8, true), (.float, .float, .uint8, true), (.float, .float, .int16, true),
   (.float, .float, .uint16, true), (.float, .float, .int32, true), (.float, .float, .uint32, true),
   (.float, .float, .int64, true), (.float, .float, .uint64, true), (.float, .float, .float, false),
   (.double, .double, .int8, true), (.double, .double, .uint8, true), (.double, .double, .int16, true),
   (.double, .double, .uint16, true), (.double, .double, .int32, true), (.double, .double, .uint32, true),
   (.double, .double, .int64, true), (.double, .double, .uint64, true), (.double, .double, .float, true),
   (.double, .double, .double, false)]

/-- The rows of `__CharOps` — `modules/core/__vtype_traits.h:518-526`: one order only. -/
def charRows : List (VT × VT × VT × Bool) :=
  [(.char, .char, .int8, false), (.char, .char, .uint8, false), (.char, .char, .int16, false),
   (.char, .char, .uint16, false), (.char, .char, .int32, false), (.char, .char, .uint32, false),
   (.char, .char, .int64, false), (.char, .char, .uint64, false)]

/-- The rows of `__CharOps2` — `modules/core/__vtype_traits.h:528-537`. -/
def charCmpRows : List (VT × VT × VT × Bool) :=
  [(.bool, .char, .int8, true), (.bool, .char, .uint8, true), (.bool, .char, .int16, true),
   (.bool, .char, .uint16, true), (.bool, .char, .int32, true), (.bool, .char, .uint32, true),
   (.bool, .char, .int64, true), (.bool, .char, .uint64, true), (.bool, .char, .char, false)]

/-- A row that defines the operator for two operand types. -/
def lookup (rows : List (VT × VT × VT × Bool)) (t1 t2 : VT) : Option VT :=
  (rows.find? fun (_, a, b, both) => (a == t1 && b == t2) || (both && a == t2 && b == t1)).map (·.1)

/-- `X_DEFINE_BINARY_OPS` — `modules/core/__vtype_traits.h:561-636`: the result type, `none` where no row is given
(`get_binary_vtype` then returns `__unknown__`, lines 644-676). -/
def resultOf : Op → VT → VT → Option VT
  | .arith .add, t1, t2 => lookup (intRows ++ floatRows ++ charRows) t1 t2
  | .arith .sub, t1, t2 => lookup (intRows ++ floatRows ++ charRows ++ [(.int32, .char, .char, false)]) t1 t2
  | .arith .mul, t1, t2 | .arith .div, t1, t2 => lookup (intRows ++ floatRows) t1 t2
  | .arith _, t1, t2 => lookup intRows t1 t2
  | .assign .add, t1, t2 | .assign .sub, t1, t2 | .assign .mul, t1, t2 | .assign .div, t1, t2 =>
    (lookup (intRows ++ floatRows) t1 t2).map fun _ => t1
  | .assign _, t1, t2 => (lookup intRows t1 t2).map fun _ => t1
  | .cmp .eq, t1, t2 | .cmp .ne, t1, t2 =>
    (lookup (intRows ++ floatRows ++ charCmpRows ++
      [(.bool, .bool, .bool, false), (.bool, .mobject, .mobject, false), (.bool, .ptr, .ptr, false)]) t1 t2).map
        fun _ => .bool
  | .cmp _, t1, t2 => (lookup (intRows ++ floatRows ++ charCmpRows) t1 t2).map fun _ => .bool
  | .logicAnd, t1, t2 | .logicOr, t1, t2 => lookup [(.bool, .bool, .bool, false)] t1 t2

/-! ## C++ -/

/-- Conversion of an integer to an integer type: modular (C++20); to `bool`: whether it is not zero. -/
def conv (t : VT) (v : Int) : Int :=
  if t = .bool then (if v = 0 then 0 else 1)
  else if t.signed then v.bmod (2 ^ t.bits) else v % (2 ^ t.bits : Nat)

/-- Integral promotion: types narrower than `int`, `wchar_t` and `bool` become `int`. -/
def promote : VT → VT
  | .uint32 => .uint32
  | .int64 => .int64
  | .uint64 => .uint64
  | _ => .int32

/-- The usual arithmetic conversions. -/
def common (t1 t2 : VT) : VT :=
  match promote t1, promote t2 with
  | .uint64, _ | _, .uint64 => .uint64
  | .int64, _ | _, .int64 => .int64
  | .uint32, _ | _, .uint32 => .uint32
  | _, _ => .int32

/-- Whether an integer is a value of the type. -/
def inRange (t : VT) (v : Int) : Bool :=
  if t.signed then -(2 ^ (t.bits - 1) : Nat) ≤ v && v < (2 ^ (t.bits - 1) : Nat) else 0 ≤ v && v < (2 ^ t.bits : Nat)

/-- The result of exact arithmetic in a type: unsigned types wrap, overflow of a signed type is undefined (`none`). -/
def overflow (t : VT) (v : Int) : Option Int :=
  if t.signed then (if inRange t v then some v else none) else some (conv t v)

/-- Operators on two values of the type `t` (for shifts: `t` is the type of the left operand); `none` is undefined
behaviour. -/
def evalArith (t : VT) (x y : Int) : Arith → Option Int
  | .add => overflow t (x + y)
  | .sub => overflow t (x - y)
  | .mul => overflow t (x * y)
  | .div => if y = 0 then none else overflow t (x.tdiv y)
  | .mod => if y = 0 then none else (overflow t (x.tdiv y)).map fun _ => x.tmod y
  | .bitAnd => some (conv t (BitVec.ofInt 64 x &&& BitVec.ofInt 64 y).toInt)
  | .bitOr => some (conv t (BitVec.ofInt 64 x ||| BitVec.ofInt 64 y).toInt)
  | .bitXor => some (conv t (BitVec.ofInt 64 x ^^^ BitVec.ofInt 64 y).toInt)
  | .shl => if y < 0 ∨ (t.bits : Int) ≤ y then none else some (conv t (x * 2 ^ y.toNat))
  | .shr => if y < 0 ∨ (t.bits : Int) ≤ y then none else some (x / 2 ^ y.toNat)

/-- `v1 op v2` for an arithmetic operator. -/
def cppArith (a : Arith) (t1 t2 : VT) (v1 v2 : Int) : Option Int :=
  match a with
  | .shl | .shr => evalArith (promote t1) v1 v2 a
  | _ => evalArith (common t1 t2) (conv (common t1 t2) v1) (conv (common t1 t2) v2) a

/-- A comparison of two integers. -/
def cmpInt (c : Cmp) (x y : Int) : Bool :=
  match c with
  | .gt => y < x
  | .ge => y ≤ x
  | .lt => x < y
  | .le => x ≤ y
  | .eq => x = y
  | .ne => x ≠ y

/-- A truth value as an integer. -/
def ofBool (b : Bool) : Int := if b then 1 else 0

/-- `__binary_op_t` — `modules/core/__vtype_traits.h:197-243`: the C++ operator on values of two types. -/
def cppBinary (op : Op) (t1 t2 : VT) (v1 v2 : Int) : Option Int :=
  match op with
  | .arith a => cppArith a t1 t2 v1 v2
  | .assign a => (cppArith a t1 t2 v1 v2).map (conv t1)
  | .cmp c => some (ofBool (cmpInt c (conv (common t1 t2) v1) (conv (common t1 t2) v2)))
  | .logicAnd => some (ofBool (v1 ≠ 0 && v2 ≠ 0))
  | .logicOr => some (ofBool (v1 ≠ 0 || v2 ≠ 0))

/-! ## Operators -/

/-- A typed value. -/
structure Const where
  ty : VT
  v : Int
deriving DecidableEq, Repr

/-- What evaluating an operator does. -/
inductive Outcome where
  | ok (c : Const)
  /-- undefined behaviour -/
  | ub
  /-- an exception: the operator is refused -/
  | refused
  /-- a floating-point value of this type -/
  | float (t : Option VT)
deriving DecidableEq, Repr

/-- `binary_operator_t<op, t1, t2>()(v1, v2)` — `modules/core/__vtype_traits.h:379-420`: computed by the C++ operator and cast
to the result type; where no row defines the operator the primary template returns the `int` 0 (line 413). -/
def binaryOperator (op : Op) (a b : Const) : Outcome :=
  match resultOf op a.ty b.ty with
  | none => .ok ⟨.int32, 0⟩
  | some r =>
    match cppBinary op a.ty b.ty a.v b.v with
    | none => .ub
    | some x => .ok ⟨r, conv r x⟩

/-- The regions of `binary_expression_t::execute` — `modules/core/expression_executor.cpp:556-647`: default, float, bool,
char.  `none`: the operator is not folded (`nan`). -/
def regions : Op → Option (Bool × Bool × Bool × Bool)
  | .arith .add | .arith .sub => some (true, true, false, true)
  | .arith .mul | .arith .div => some (true, true, false, false)
  | .arith .mod | .arith .bitAnd | .arith .bitOr | .arith .bitXor => some (true, false, false, false)
  | .arith .shl | .arith .shr => none
  | .assign .add | .assign .sub | .assign .mul | .assign .div => some (true, true, false, false)
  | .assign .mod | .assign .bitAnd | .assign .bitOr | .assign .bitXor => some (true, false, false, false)
  | .assign .shl | .assign .shr => none
  | .cmp .gt | .cmp .ge | .cmp .lt | .cmp .le | .cmp .ne => some (true, true, false, false)
  | .cmp .eq => some (true, true, true, true)
  | .logicAnd | .logicOr => some (false, false, true, false)

/-- The pairs of `__binary_execute_t<_op, char_>` — `modules/core/expression_executor.cpp:395-435`. -/
def charRegion (op : Op) (t1 t2 : VT) : Bool :=
  match op with
  | .arith .sub | .cmp .eq | .cmp .ne => (t1 == .char && t2 == .char) || (t1 == .char && t2.isInt) || (t1.isInt && t2 == .char)
  | .arith .add | .cmp .gt | .cmp .ge | .cmp .lt | .cmp .le => (t1 == .char && t2.isInt) || (t1.isInt && t2 == .char)
  | _ => false

/-- Folding a binary operator over two constants — `__binary_execute`, `binary_expression_t::execute`,
`modules/core/expression_executor.cpp:270-647`; `none`: the expression is not folded. -/
def foldBinary (op : Op) (a b : Const) : Option Outcome :=
  (regions op).map fun (d, f, bo, ch) =>
    if d && a.ty.isInt && b.ty.isInt then binaryOperator op a b
    else if f && (a.ty.isFloat && (b.ty.isInt || b.ty.isFloat) || a.ty.isInt && b.ty.isFloat) then
      .float (resultOf op a.ty b.ty)
    else if bo && a.ty == .bool && b.ty == .bool then binaryOperator op a b
    else if ch && charRegion op a.ty b.ty then binaryOperator op a b
    else .refused

/-! ## Unary operators -/

/-- The unary operators — `modules/core/__vtype_traits.h:86-94`. -/
inductive UOp where
  | preInc | postInc | preDec | postDec | minus | positive | bitNot | logicNot
deriving DecidableEq, Repr

/-- `X_DEFINE_UNITARY_OPS` — `modules/core/__vtype_traits.h:293-344`. -/
def uresultOf : UOp → VT → Option VT
  | .positive, t =>
    match t with
    | .int8 | .uint8 | .int16 | .uint16 | .int32 => some .int32
    | .uint32 => some .uint32
    | .int64 => some .int64
    | .uint64 => some .uint64
    | .float => some .float
    | .double => some .double
    | _ => none
  | .minus, t =>
    match t with
    | .int8 | .uint8 | .int16 | .uint16 | .int32 => some .int32
    | .uint32 | .int64 => some .int64
    | .float => some .float
    | .double => some .double
    | _ => none
  | .bitNot, t =>
    match t with
    | .int8 | .uint8 | .int16 | .uint16 | .int32 => some .int32
    | .uint32 => some .uint32
    | .int64 => some .int64
    | .uint64 => some .uint64
    | .float => some .float
    | .double => some .double
    | _ => none
  | .logicNot, t => if t = .bool then some .bool else none
  | _, t => if t.isInt || t.isFloat then some t else none

/-- The C++ unary operator — `modules/core/__vtype_traits.h:153-191`.  `++v` adds 1 in the promoted type and converts back. -/
def cppUnary (op : UOp) (t : VT) (v : Int) : Option Int :=
  match op with
  | .positive => some v
  | .minus => overflow (promote t) (-v)
  | .bitNot => some (conv (promote t) (-v - 1))
  | .logicNot => some (ofBool (v = 0))
  | .preInc => (overflow (promote t) (v + 1)).map (conv t)
  | .preDec => (overflow (promote t) (v - 1)).map (conv t)
  | .postInc => (overflow (promote t) (v + 1)).map fun _ => v
  | .postDec => (overflow (promote t) (v - 1)).map fun _ => v

/-- `unitary_operator_t<op, t>()(v)` — `modules/core/__vtype_traits.h:250-288`; without a row the primary template returns the
`int` 0 (line 281). -/
def unaryOperator (op : UOp) (a : Const) : Outcome :=
  match uresultOf op a.ty with
  | none => .ok ⟨.int32, 0⟩
  | some r =>
    match cppUnary op a.ty a.v with
    | none => .ub
    | some x => .ok ⟨r, conv r x⟩

/-- The operator `unitary_expression_t::execute` runs for each written operator —
`modules/core/expression_executor.cpp:221-249`. -/
def executedOp : UOp → UOp
  | .minus => .minus
  | .positive => .positive
  | .preInc => .preInc
  | .preDec => .postInc
  | .postInc => .preDec
  | .postDec => .postDec
  | .bitNot => .bitNot
  | .logicNot => .logicNot

/-- Folding a unary operator over a constant — `modules/core/expression_executor.cpp:193-250`. -/
def foldUnary (op : UOp) (a : Const) : Outcome :=
  match op with
  | .bitNot => if a.ty.isInt then unaryOperator .bitNot a else .refused
  | .logicNot => if a.ty == .bool then unaryOperator .logicNot a else .refused
  | _ =>
    if a.ty.isInt then unaryOperator (executedOp op) a
    else if a.ty.isFloat then .float (uresultOf (executedOp op) a.ty)
    else .refused

/-! ## The virtual machine -/

/-- The pairs of floating-point types the machine has instructions for — `__CaseFloatBinaries`,
`modules/exec/commands.cpp:4895-4915`: the rows with `uint64` are given in one order only. -/
def vmFloat (t1 t2 : VT) : Bool :=
  (t1.isFloat && (t2.isInt || t2.isFloat)) || (t1.isInt && t1 != .uint64 && t2.isFloat)

/-- Executing a binary instruction on two stack values — `__binary_command_t`, `__new_al_command`, `__new_bit_command`,
`__new_logic_command`, `__new_cmp_command`, `modules/exec/commands.cpp:4935-5322`.  `none`: there is no instruction for
the operand types (`X_UNEXPECTED`).  There are no compound-assignment instructions. -/
def vmBinary (op : Op) (a b : Const) : Option Outcome :=
  match op with
  | .arith .add | .arith .sub | .arith .mul | .arith .div =>
    if a.ty.isInt && b.ty.isInt then some (binaryOperator op a b)
    else if vmFloat a.ty b.ty then some (.float (resultOf op a.ty b.ty)) else none
  | .arith _ => if a.ty.isInt && b.ty.isInt then some (binaryOperator op a b) else none
  | .cmp .eq | .cmp .ne =>
    if a.ty.isInt && b.ty.isInt then some (binaryOperator op a b)
    else if vmFloat a.ty b.ty then some (.float (resultOf op a.ty b.ty))
    else if (a.ty == .bool && b.ty == .bool) || (a.ty == .char && b.ty == .char) then some (binaryOperator op a b)
    else none
  | .cmp _ =>
    if a.ty.isInt && b.ty.isInt then some (binaryOperator op a b)
    else if vmFloat a.ty b.ty then some (.float (resultOf op a.ty b.ty))
    else if a.ty == .char && b.ty == .char then some (binaryOperator op a b)
    else none
  | .logicAnd | .logicOr => if a.ty == .bool && b.ty == .bool then some (binaryOperator op a b) else none
  | .assign _ => none

/-- Executing a unary instruction — `modules/exec/commands.cpp:5059-5110`, `5170-5230`. -/
def vmUnary (op : UOp) (a : Const) : Option Outcome :=
  match op with
  | .minus | .positive =>
    if a.ty.isInt then some (unaryOperator op a)
    else if a.ty.isFloat then some (.float (uresultOf op a.ty)) else none
  | .bitNot => if a.ty.isInt then some (unaryOperator op a) else none
  | .logicNot => if a.ty == .bool then some (unaryOperator op a) else none
  | _ => none

end Verif.Fold
