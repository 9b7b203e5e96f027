/-!
# Evaluation of expressions at compile time

Models `execute` of literals, names, unary and binary expressions and casts (`modules/core/expression_executor.cpp:195-253,
541-660`, `modules/core/core.cpp:5435-5439, 5494-5505, 7297-7313`), the text of a constant (`modules/core/core.cpp:1161-1182`,
`algorithm/string.cpp:262-345`), the conversion of a constant (`modules/core/core.cpp:1301-1333`) and the replacement of an
expression by a constant when it is compiled (`__try_compile_constant_expression`, `modules/compile/expression.cpp:139-162`, and
`2089-2093`; `modules/april/compiler.cpp:577-600`).

Simplifications.  What the operators give for numbers, and the text of a number, are parameters (they are C12, C13, C14, C61).  The
constants that names stand for are given by a table: what `execute` returns for a constant local variable or a static constant
field.  Characters are numbers.
-/

namespace Verif.ConstExec

/-- The operators that compute a value from two — `modules/core/expression_executor.cpp:566-633`, without those that assign. -/
inductive Bin where
  | add | sub | mul | div | mod | bitAnd | bitOr | bitXor | gt | ge | lt | le | eq | ne | logicAnd | logicOr
deriving DecidableEq, Repr

/-- The unary operators that compute a value. -/
inductive Un where
  | minus | positive | bitNot | logicNot
deriving DecidableEq, Repr

/-- `++` and `--` on either side. -/
inductive Step where
  | leftInc | leftDec | rightInc | rightDec
deriving DecidableEq, Repr

/-- `operator_t` of a binary expression. -/
inductive Op where
  | value (b : Bin)
  | valueAssign (b : Bin)
  | memberPoint
  | assign
  | other (k : Nat)
deriving DecidableEq, Repr

/-- A text. -/
abbrev Text := List Nat

/-- What is known about numbers: the operators, which fail for types they do not have; conversion; the text of a number; and what is
found when a constant that is no number is read as one. -/
structure Arith (N : Type) where
  bin : Bin → N → N → Option N
  un : Un → N → Option N
  step : Step → N → Option N
  cast : Nat → N → N
  text : N → Text
  junk : Nat → N

/-- `cvalue_t` — `include/modules/core.h:1653-1690`. -/
inductive Cv (N : Type) where
  | num (n : N)
  | str (s : Text)
  | null
  | type (t : Nat)
  | nan

/-- An expression: a literal, a name, a name of a type, the operators, a cast, and anything else (calls, `this`, `new`, …). -/
inductive Ex (N : Type) where
  | num (n : N)
  | str (s : Text)
  | null
  | name (i : Nat)
  | type (t : Nat)
  | un (u : Un) (e : Ex N)
  | step (s : Step) (e : Ex N)
  | bin (op : Op) (a b : Ex N)
  | cast (t : Nat) (e : Ex N)
  | other (k : Nat)

variable {N : Type}

/-- `__escape_char` — `algorithm/string.cpp:262-323`. -/
def escapeChar (c : Nat) : Text :=
  if c = 10 then [92, 110] else if c = 13 then [92, 114] else if c = 9 then [92, 116] else if c = 7 then [92, 97]
  else if c = 8 then [92, 98] else if c = 12 then [92, 102] else if c = 11 then [92, 118] else if c = 92 then [92, 92]
  else if c = 63 then [92, 63] else if c = 34 then [92, 34] else if c = 39 then [92, 39]
  else if c < 32 then [92, 120, c / 16, c % 16]
  else [c]

/-- The name of a type: `_str(mobject)`. -/
abbrev TypeName := Nat → Text

/-- The text of a constant — `modules/core/core.cpp:1161-1182`.  The title of `nan` is `nan` (`core.cpp:104-121`). -/
def text (A : Arith N) (T : TypeName) : Cv N → Text
  | .str s => [34] ++ s.flatMap escapeChar ++ [34]
  | .num n => A.text n
  | .null => [110, 117, 108, 108]
  | .type t => T t
  | .nan => [110, 97, 110]

/-- The number of the type `string` among the types of casts. -/
def stringType : Nat := 0

/-- `change_type` — `modules/core/core.cpp:1301-1333`.  Type 0 is `string`, 1 any type without values of its own (`object`, …), the
others are numeric. -/
def changeType (A : Arith N) (t : Nat) : Cv N → Cv N
  | .str s => if t = stringType then .str s else if t = 1 then .nan else .num (A.junk t)
  | .num n => if t = stringType ∨ t = 1 then .nan else .num (A.cast t n)
  | _ => if t = stringType ∨ t = 1 then .nan else .num (A.junk t)

/-- `execute`; `none` when an exception is thrown. -/
def execute (A : Arith N) (T : TypeName) (K : Nat → Cv N) : Ex N → Option (Cv N)
  | .num n => some (.num n)
  | .str s => some (.str s)
  | .null => some .null
  | .name i => some (K i)
  | .type t => some (.type t)
  | .un u e =>
    match execute A T K e with
    | none => none
    | some (.num n) => (A.un u n).map .num
    | some _ => some .nan
  | .step s e =>
    match execute A T K e with
    | none => none
    | some (.num n) => (A.step s n).map .num
    | some _ => some .nan
  | .bin op a b =>
    match execute A T K a, execute A T K b with
    | some c, some d =>
      match c, d with
      | .str s, d => some (.str (text A T (.str s) ++ text A T d))
      | c, .str s => some (.str (text A T c ++ text A T (.str s)))
      | .num n, .num m =>
        match op with
        | .value o => (A.bin o n m).map .num
        | .valueAssign o => (A.bin o n m).map .num
        | .memberPoint =>
          match a with
          | .type _ => some (.num m)
          | _ => some .nan
        | _ => some .nan
      | _, _ => some .nan
    | _, _ => none
  | .cast t e =>
    match execute A T K e with
    | none => none
    | some .nan => some .nan
    | some c => some (changeType A t c)
  | .other _ => some .nan

/-- What is compiled in place of a binary expression: `some (some c)` the constant `c`, `some none` the expression itself, `none` an
exception — `modules/compile/expression.cpp:139-162, 2089-2093`; from level 1 on (`modules/april/compiler.cpp:591`). -/
def replaced (A : Arith N) (T : TypeName) (K : Nat → Cv N) (level : Nat) (e : Ex N) : Option (Option (Cv N)) :=
  if 1 ≤ level then
    match execute A T K e with
    | none => none
    | some .nan => some none
    | some c => some (some c)
  else some none

end Verif.ConstExec
