import Verif.Model.Fold
import Verif.Model.Codegen

/-!
Model of how expressions over integers and truth values, with calls of static methods, are compiled
(`modules/compile/expression.cpp`, `modules/lang_cs/expressions.cpp`, `modules/compile/xilx.cpp`) and of how the virtual
machine runs the result (`modules/exec/commands.cpp`, `include/modules/exec.h`).

Not modelled here: floating-point and character values, objects, structs, fields, properties, arrays, `ref` and `out`
parameters, instance methods, generics, `??`, `is`, `as`, operator overloading.  Statements: definitions with an initial
value, expressions and `return`; control flow between statements is the subject of `Verif.Model.Codegen`.
-/

namespace Verif.Expr

open Verif.Fold

/-! ## Programs -/

/-- A variable: a local of the method or one of its parameters — `local_variable_t`, `param_variable_t`,
`include/modules/core.h:5330-5440`. -/
inductive Var where
  | loc (i : Nat)
  | par (i : Nat)
deriving DecidableEq, Repr

/-- Binary operators of `__sys_t<binary_expression_t>::compile` — `modules/compile/expression.cpp:2117-2162`. -/
inductive BOp where
  | arith (a : Arith)
  | cmp (c : Cmp)
  | and
  | or
deriving DecidableEq, Repr

/-- The operator of the operator tables. -/
def BOp.op : BOp → Op
  | .arith a => .arith a
  | .cmp c => .cmp c
  | .and => .logicAnd
  | .or => .logicOr

/-- Unary operators without an assignment — `modules/compile/expression.cpp:2297-2303`. -/
inductive NOp where
  | minus | positive | bitNot | logicNot
deriving DecidableEq, Repr

/-- The operator of the operator tables. -/
def NOp.op : NOp → UOp
  | .minus => .minus
  | .positive => .positive
  | .bitNot => .bitNot
  | .logicNot => .logicNot

mutual

/-- Expressions.  `inc post dec x`: `++x`, `--x`, and with `post` `x++`, `x--`. -/
inductive Exp where
  | const (c : Const)
  | var (x : Var)
  | bin (o : BOp) (a b : Exp)
  | un (o : NOp) (a : Exp)
  | assign (x : Var) (e : Exp)
  | opAssign (o : Arith) (x : Var) (e : Exp)
  | inc (post dec : Bool) (x : Var)
  | cond (c a b : Exp)
  | cast (t : VT) (e : Exp)
  | call (f : Nat) (args : Args)

/-- Arguments of a call. -/
inductive Args where
  | nil
  | cons (e : Exp) (rest : Args)

end

/-- Statements. -/
inductive Stmt where
  /-- the definition of a local with its initial value -/
  | init (i : Nat) (e : Exp)
  /-- an expression as a statement -/
  | exp (e : Exp)
  /-- `return e` -/
  | ret (e : Exp)

/-- A static method: the types of its parameters and of its result, its locals with the byte offsets the layout gave them
(`Verif.Model.Layout`), the size of its frame in units of 8 bytes (`stack_unit_size`), and its body. -/
structure Method where
  params : List VT
  ret : VT
  locals : List (VT × Nat)
  units : Nat
  body : List Stmt

/-- A program; methods are called by their number. -/
abbrev Prog := List Method

/-- The declared type of a variable. -/
def Method.tyOf (m : Method) : Var → Option VT
  | .loc i => (m.locals[i]?).map (·.1)
  | .par i => m.params[i]?

/-- `get_vtype` — `modules/core/expression_executor.cpp:13-28`, `255-283`, `modules/core/core.cpp:7209-7230`, `8074-8122`,
`modules/lang_cs/expressions.cpp:14-17` (`?:` has the type of its second operand). -/
def vty (p : Prog) (m : Method) : Exp → Option VT
  | .const c => some c.ty
  | .var x => m.tyOf x
  | .bin o a b => do resultOf o.op (← vty p m a) (← vty p m b)
  | .un o a => do uresultOf o.op (← vty p m a)
  | .assign x _ => m.tyOf x
  | .opAssign o x e => do resultOf (.assign o) (← m.tyOf x) (← vty p m e)
  | .inc post dec x => do
    uresultOf (if post then (if dec then .postDec else .postInc) else (if dec then .preDec else .preInc)) (← m.tyOf x)
  | .cond _ a _ => vty p m a
  | .cast t _ => some t
  | .call f _ => (p[f]?).map (·.ret)

/-! ## Constant expressions -/

/-- The outcome of folding: `none` when the compiler throws (or the folding has undefined behaviour), `some none` for
`nan`. -/
def folded : Option Outcome → Option (Option Const)
  | none => some none
  | some (.ok c) => some (some c)
  | some _ => none

/-- `execute` — `modules/core/expression_executor.cpp:207-250`, `540-662`, `modules/core/core.cpp:1309-1340`, `5435-5439`,
`include/modules/core.h:6675`, `modules/lang_cs/expressions.cpp:68-79`.  Variables are not constants here (a local that is
marked constant is one whose value is `nan`, see `marks`); both operands of an operator are executed. -/
def execute : Exp → Option (Option Const)
  | .const c => some (some c)
  | .var _ => some none
  | .bin o a b => do
    match ← execute a, ← execute b with
    | some x, some y => folded (foldBinary o.op x y)
    | _, _ => some none
  | .un o a => do
    match ← execute a with
    | some x => folded (some (foldUnary o.op x))
    | none => some none
  | .assign _ e => do let _ ← execute e; some none
  | .opAssign _ _ e => do let _ ← execute e; some none
  | .inc _ _ _ => some none
  | .cond c a b => do
    match ← execute c with
    | some ⟨.bool, v⟩ => if v = 0 then execute b else execute a
    | _ => some none
  | .cast t e => do
    match ← execute e with
    | some x => some (some ⟨t, conv t x.v⟩)
    | none => some none
  | .call _ _ => some none

/-! ## Compiling -/

/-- Instructions of the intermediate language (`xil`). -/
inductive Ins where
  | pushConst (t : VT) (v : Int)
  | pushLocal (i : Nat) (t : VT)
  | pushArg (i : Nat) (t : VT)
  | popLocal (i : Nat) (t : VT)
  | popArg (i : Nat) (t : VT)
  | pickLocal (i : Nat) (t : VT)
  | pickArg (i : Nat) (t : VT)
  | popEmpty
  | bin (op : Op) (t1 t2 : VT)
  | un (op : UOp) (t : VT)
  | convert (t1 t2 : VT)
  | call (f : Nat)
  | ret
  | jmp (n : Nat)
  | jmpFalse (n : Nat)
deriving DecidableEq, Repr

/-- The optimisation level — `modules/april/compiler.cpp:577-600`: from 1 constants are folded, from 2 on operations with
neutral operands are left out. -/
abbrev Level := Nat

/-- What is compiled of an operation — `__compile_add` … `__compile_logic_or`, `modules/compile/expression.cpp:675-960`. -/
inductive Short where
  /-- both operands and the operator -/
  | both
  /-- only the first operand -/
  | left
  /-- only the second operand -/
  | right
  /-- the second operand and `minus` -/
  | negate
deriving DecidableEq, Repr

/-- `__execute_expression(e) == cvalue_t(k)` — `modules/core/core.cpp:1186-1206`, `common/common.cpp:64-107`: the types are
ignored. -/
def isValue (e : Exp) (k : Int) : Bool :=
  match execute e with
  | some (some c) => c.v == k
  | _ => false

/-- The operations that are left out — `modules/compile/expression.cpp:675-950`. -/
def shortcut (lvl : Level) (o : BOp) (a b : Exp) : Short :=
  if lvl < 2 then .both
  else match o with
    | .arith .add => if isValue a 0 then .right else if isValue b 0 then .left else .both
    | .arith .sub => if isValue a 0 then .negate else if isValue b 0 then .left else .both
    | .arith .mul => if isValue a 1 then .right else if isValue b 1 then .left else .both
    | .arith .div => if isValue b 1 then .left else .both
    | .arith .bitOr => if isValue a 0 then .right else if isValue b 0 then .left else .both
    | .arith .shl | .arith .shr => if isValue b 0 then .left else .both
    | .and => if isValue a 1 then .right else if isValue b 1 then .left else .both
    | .or => if isValue a 0 then .right else if isValue b 0 then .left else .both
    | _ => .both

/-- The type in the environment of an expression: the type the context wants (`expression_compile_environment_t`,
`include/modules/core.h:6601-6646`), or none. -/
abbrev Want := Option VT

/-- `__compile_cvalue` — `modules/compile/expression.cpp:2553-2580`: a number is converted to the type the context wants. -/
def constIns (want : Want) (c : Const) : Ins :=
  match want with
  | none => .pushConst c.ty c.v
  | some t => .pushConst t (conv t c.v)

/-- The store of an assignment — `xil::write_assign_xil`, `modules/compile/xilx.cpp:110-245`; `pick` leaves the value on
the stack. -/
def storeIns (pick : Bool) (x : Var) (t : VT) : Ins :=
  match x with
  | .loc i => if pick then .pickLocal i t else .popLocal i t
  | .par i => if pick then .pickArg i t else .popArg i t

/-- Reading a variable — `__compile_local_variable`, `__compile_param_variable`, `modules/compile/expression.cpp:1657-1728`:
a local is pushed as the type the context wants, a parameter as its own type.  A local marked constant has no value to
compile (`none`: `_A(cvalue != cvalue_t::nan)`, line 1666). -/
def readIns (marked : List Nat) (want : Want) (x : Var) (t : VT) : Option Ins :=
  match x with
  | .loc i => if marked.contains i then none else some (.pushLocal i (want.getD t))
  | .par i => some (.pushArg i t)

/-- An operation — `__compile_add` … `__compile_logic_or`, `modules/compile/expression.cpp:675-1040`; only the operands that
are needed are compiled. -/
def binIns (s : Short) (op : Op) (t1 t2 : VT) (ca cb : Unit → Option (List Ins)) : Option (List Ins) :=
  match s with
  | .both => do some ((← ca ()) ++ (← cb ()) ++ [.bin op t1 t2])
  | .left => ca ()
  | .right => cb ()
  | .negate => do some ((← cb ()) ++ [.un .minus t1])

/-- `__try_compile_constant_expression` — `modules/compile/expression.cpp:139-157`: from level 1 on a constant expression is
compiled to its value, everything else as `code` says. -/
def foldOr (lvl : Level) (want : Want) (value : Option (Option Const)) (code : Unit → Option (List Ins)) :
    Option (List Ins) :=
  if 1 ≤ lvl then
    match value with
    | none => none
    | some (some c) => some [constIns want c]
    | some none => code ()
  else code ()

/-- `__post_compile_expression` — `modules/compile/expression.cpp:2044-2080` with `_N`, `include/common.h:150`, and
`__try_append_convert_xil`, lines 478-489: a value of the type `t` is converted to the type the context wants.  (The other
two cases are not met here: an expression whose value is needed has a parent, `set_assign_parent`,
`modules/compile/statements.cpp:508-512`; no context wants a reference.) -/
def post (want : Want) (t : VT) (c : List Ins) : List Ins :=
  match want with
  | some w => if w = t then c else c ++ [.convert t w]
  | none => c

mutual

/-- `compile` of an expression whose value is needed — `modules/compile/expression.cpp:1143-1345` (assignment), `1352-1440`
(compound assignment), `1581-1617` (increment), `2089-2170` (binary), `2276-2320` (unary), `2404-2430` (names), `2590-2615`
(constants), `2705-2790` (calls), `2880-2945` (casts), `modules/lang_cs/expressions.cpp:26-65` (`?:`).  `none`: the compiler
throws.  A constant and a local are first pushed as the type that is wanted and then converted once more from their own
type; a folded expression is not converted again; the operands of `?:` are compiled without a wanted type, and its value
is not converted. -/
def compile (lvl : Level) (p : Prog) (m : Method) (marked : List Nat) : Want → Exp → Option (List Ins)
  | want, .const c => some (post want c.ty [constIns want c])
  | want, .var x => do
    let t ← m.tyOf x
    some (post want t [← readIns marked want x t])
  | want, .bin o a b =>
    foldOr lvl want (execute (.bin o a b)) fun _ => do
      let c ← binIns (shortcut lvl o a b) o.op (← vty p m a) (← vty p m b) (fun _ => compile lvl p m marked none a)
        (fun _ => compile lvl p m marked none b)
      some (post want (← vty p m (.bin o a b)) c)
  | want, .un o a =>
    foldOr lvl want (execute (.un o a)) fun _ => do
      let c ← compile lvl p m marked none a
      some (post want (← vty p m (.un o a)) (c ++ [.un o.op (← vty p m a)]))
  | want, .assign x e =>
    foldOr lvl want (execute (.assign x e)) fun _ => do
      let t ← m.tyOf x
      some (post want t ((← compile lvl p m marked (some t) e) ++ [storeIns true x t]))
  | want, .opAssign o x e =>
    foldOr lvl want (execute (.opAssign o x e)) fun _ => do
      let t ← m.tyOf x
      let c ← binIns (shortcut lvl (.arith o) (.var x) e) (.arith o) t (← vty p m e)
        (fun _ => do some [← readIns marked none x t]) (fun _ => compile lvl p m marked none e)
      some (post want (← vty p m (.opAssign o x e)) (c ++ [storeIns true x t]))
  | want, .inc post dec x => do
    let t ← m.tyOf x
    let cx ← readIns marked none x t
    let op := .bin (.arith (if dec then .sub else .add)) t .int32
    let r ← vty p m (.inc post dec x)
    if post then some (Expr.post want r [cx, cx, .pushConst .int32 1, op, storeIns false x t])
    else some (Expr.post want r [cx, .pushConst .int32 1, op, storeIns true x t])
  | _, .cond c a b =>
    match execute c with
    | none => none
    | some (some ⟨.bool, v⟩) => if v = 0 then compile lvl p m marked none b else compile lvl p m marked none a
    | _ => do
      let cc ← compile lvl p m marked none c
      let ca ← compile lvl p m marked none a
      let cb ← compile lvl p m marked none b
      some (cc ++ [.jmpFalse (ca.length + 1)] ++ ca ++ [.jmp cb.length] ++ cb)
  | want, .cast t e => do some (post want t (← compile lvl p m marked (some t) e))
  | want, .call f args =>
    match p[f]? with
    | none => none
    | some m' => do
      let cs ← compileArgs lvl p m marked m'.params args
      match want with
      | some t => if t = m'.ret then some (cs ++ [.call f]) else some (cs ++ [.call f, .convert m'.ret t])
      | none => some (cs ++ [.call f])

/-- `__compile_arguments`, `__compile_argument` — `modules/compile/expression.cpp:1053-1127`: in order, each as the type of
the parameter. -/
def compileArgs (lvl : Level) (p : Prog) (m : Method) (marked : List Nat) : List VT → Args → Option (List Ins)
  | [], .nil => some []
  | t :: ts, .cons e rest => do
    let ce ← foldOr lvl (some t) (execute e) fun _ => compile lvl p m marked (some t) e
    some (ce ++ (← compileArgs lvl p m marked ts rest))
  | _, _ => none

end

/-- `compile` of an expression that is a statement — the same places: the value of an assignment is popped
(`modules/compile/expression.cpp:1216`), so is the result of a call (lines 1812-1828, 2783).  Other expressions are not
statements of the language and not modelled (`none`). -/
def compileStmtExp (lvl : Level) (p : Prog) (m : Method) (marked : List Nat) : Exp → Option (List Ins)
  | .assign x e =>
    foldOr lvl none (execute (.assign x e)) fun _ => do
      let t ← m.tyOf x
      some ((← compile lvl p m marked (some t) e) ++ [storeIns false x t])
  | .opAssign o x e =>
    foldOr lvl none (execute (.opAssign o x e)) fun _ => do
      let t ← m.tyOf x
      let c ← binIns (shortcut lvl (.arith o) (.var x) e) (.arith o) t (← vty p m e)
        (fun _ => do some [← readIns marked none x t]) (fun _ => compile lvl p m marked none e)
      some (c ++ [storeIns false x t])
  | .inc _ dec x => do
    let t ← m.tyOf x
    let cx ← readIns marked none x t
    some [cx, .pushConst .int32 1, .bin (.arith (if dec then .sub else .add)) t .int32, storeIns false x t]
  | .call f args =>
    match p[f]? with
    | none => none
    | some m' => do some ((← compileArgs lvl p m marked m'.params args) ++ [.call f, .popEmpty])
  | _ => none

mutual

/-- How often a local counts as written in an expression — `__walk_variables`, `modules/compile/statements.cpp:388-417`: a
variable counts as written when the operator above it is an assignment, on either side. -/
def writes (i : Nat) : Exp → Nat
  | .const _ | .var _ => 0
  | .bin _ a b => writes i a + writes i b
  | .un _ a => writes i a
  | .assign x e => (if x = .loc i then 1 else 0) + below i e + writes i e
  | .opAssign _ x e => (if x = .loc i then 1 else 0) + below i e + writes i e
  | .inc _ _ x => if x = .loc i then 1 else 0
  | .cond c a b => writes i c + writes i a + writes i b
  | .cast _ e => writes i e
  | .call _ args => writesArgs i args

/-- The same for arguments. -/
def writesArgs (i : Nat) : Args → Nat
  | .nil => 0
  | .cons e rest => writes i e + writesArgs i rest

/-- A variable below an assignment. -/
def below (i : Nat) : Exp → Nat
  | .var x => if x = .loc i then 1 else 0
  | _ => 0

end

/-- `write_count` of a local after all statements are analysed — `modules/compile/statements.cpp:515-535`, `98-107`, `657`. -/
def writeCount (i : Nat) (body : List Stmt) : Nat :=
  (body.map fun
    | .init j e => (if j = i then 1 else 0) + writes i e
    | .exp e => writes i e
    | .ret e => writes i e).sum

/-- Whether a definition marks its local constant — `local_assign_xilx_t::write`, `modules/compile/xilx.cpp:447-462` with
`is_constant_expression`, `include/modules/core.h:6733-6736`, which holds when the value is `nan`. -/
def marks (lvl : Level) (body : List Stmt) (i : Nat) (e : Exp) : Bool :=
  decide (2 ≤ lvl) && writeCount i body == 1 && execute e == some none

/-- The statements of a body — `local_assign_xilx_t::write`, `return_xilx_t::write`, `modules/compile/xilx.cpp:425-500`. -/
def compileBody (lvl : Level) (p : Prog) (m : Method) : List Nat → List Stmt → Option (List Ins)
  | _, [] => some []
  | marked, .init i e :: rest => do
    let t ← m.tyOf (.loc i)
    let ce ← compile lvl p m marked (some t) e
    if writeCount i m.body = 1 then let _ ← execute e
    let cs ← compileBody lvl p m (if marks lvl m.body i e then i :: marked else marked) rest
    some (ce ++ [.popLocal i t] ++ cs)
  | marked, .exp e :: rest => do
    let ce ← compileStmtExp lvl p m marked e
    let cs ← compileBody lvl p m marked rest
    some (ce ++ cs)
  | marked, .ret e :: rest => do
    let ce ← compile lvl p m marked (some m.ret) e
    let cs ← compileBody lvl p m marked rest
    some (ce ++ [.ret] ++ cs)

/-! ## Commands -/

/-- Commands of the virtual machine: instructions with resolved types and offsets — `modules/exec/commands.cpp`. -/
inductive Cmd where
  | pushConst (t : VT) (v : Int)
  | pushLocal (off : Nat) (t1 t2 : VT)
  | pushArg (off : Nat) (t1 t2 : VT)
  | popLocal (off : Nat) (t1 t2 : VT)
  | popArg (off : Nat) (t1 t2 : VT)
  | pickLocal (off : Nat) (t1 t2 : VT)
  | pickArg (off : Nat) (t1 t2 : VT)
  | popEmpty
  | bin (op : Op) (t1 t2 : VT)
  | un (op : UOp) (t : VT)
  | convert (t1 t2 : VT)
  | call (f : Nat)
  | ret (locals params : Nat)
  | jmp (n : Nat)
  | jmpFalse (n : Nat)
  /-- a jump of a statement, relative to the command itself (`Verif.Model.Flow`) -/
  | go (m : Stmt.JmpModel) (step : Int)
  /-- the jump of a `switch` (`Verif.Model.Flow`) -/
  | switch (rows : List (BitVec 32 × Int)) (dflt : Int)
  /-- there is no such variable: creating the command throws -/
  | bad
deriving DecidableEq, Repr

/-- `params_layout_t::offset_of` — `modules/rt/layout.cpp:795-806`: all the parameters here take one unit. -/
def argOffset (params : List VT) (i : Nat) : Nat := params.length - i

/-- Creating the command of an instruction — `__analyze_xil_types`, `modules/exec/commands.cpp:1896-1955`, `2677-2785`,
`3114-3200`, `3630-3700`, `new_ret_command`, lines 5659-5700. -/
def create (m : Method) : Ins → Cmd
  | .pushConst t v => .pushConst t v
  | .pushLocal i t => match m.locals[i]? with | some (t1, off) => .pushLocal off t1 t | none => .bad
  | .popLocal i t => match m.locals[i]? with | some (t1, off) => .popLocal off t1 t | none => .bad
  | .pickLocal i t => match m.locals[i]? with | some (t1, off) => .pickLocal off t1 t | none => .bad
  | .pushArg i t => match m.params[i]? with | some t1 => .pushArg (argOffset m.params i) t1 t | none => .bad
  | .popArg i t => match m.params[i]? with | some t1 => .popArg (argOffset m.params i) t1 t | none => .bad
  | .pickArg i t => match m.params[i]? with | some t1 => .pickArg (argOffset m.params i) t1 t | none => .bad
  | .popEmpty => .popEmpty
  | .bin op t1 t2 => .bin op t1 t2
  | .un op t => .un op t
  | .convert t1 t2 => .convert t1 t2
  | .call f => .call f
  | .ret => .ret m.units m.params.length
  | .jmp n => .jmp n
  | .jmpFalse n => .jmpFalse n

/-- The compiled program: the commands of all methods one behind the other, and for each method the position of its first
command and the size of its frame (`exec_method_t`, `get_commands`, `stack_unit_size`).  In the code each method has an
array of its own. -/
structure Image where
  code : List Cmd
  entry : List (Nat × Nat)

/-- The commands of all methods. -/
def compileAll (lvl : Level) (p : Prog) : List Method → Option (List (List Cmd))
  | [] => some []
  | m :: ms => do
    let c ← compileBody lvl p m [] m.body
    let cs ← compileAll lvl p ms
    some (c.map (create m) :: cs)

/-- Where the methods begin. -/
def entries : Nat → List Method → List (List Cmd) → List (Nat × Nat)
  | start, m :: ms, c :: cs => (start, m.units) :: entries (start + c.length) ms cs
  | _, _, _ => []

/-- Compiling a program. -/
def build (lvl : Level) (p : Prog) : Option Image := do
  let cs ← compileAll lvl p p
  some ⟨cs.flatten, entries 0 p cs⟩

/-! ## The machine -/

/-- A byte of the stack.  The three pointers of a calling stub (`__calling_stub_t`, `include/modules/exec.h:930-936`) are kept
in its first byte as they are; read as data that byte is 0, and writing data there loses them. -/
inductive Cell where
  | data (b : Nat)
  | stub (lp current : Nat)
deriving DecidableEq, Repr

/-- A byte read as data. -/
def Cell.byte : Cell → Nat
  | .data b => b % 256
  | .stub _ _ => 0

/-- Memory: the stack buffer, by byte.  Its size is not modelled (the stack does not check it). -/
abbrev Mem := Nat → Cell

/-- Bytes of a value in memory. -/
def bytes (t : VT) : Nat := if t = .bool then 1 else t.bits / 8

/-- The little-endian number in some bytes. -/
def load (mem : Mem) (a : Nat) : Nat → Nat
  | 0 => 0
  | n + 1 => (mem a).byte + 256 * load mem (a + 1) n

/-- Storing the low bytes of a number. -/
def store (mem : Mem) (a n v : Nat) : Mem := fun x => if a ≤ x ∧ x < a + n then .data (v / 256 ^ (x - a) % 256) else mem x

/-- `*(t *)address`. -/
def readAt (t : VT) (mem : Mem) (a : Nat) : Int := conv t (load mem a (bytes t))

/-- The bytes of a value. -/
def enc (t : VT) (v : Int) : Nat := (v % (256 ^ bytes t : Nat)).toNat

/-- `*(t *)address = v`. -/
def writeAt (t : VT) (mem : Mem) (a : Nat) (v : Int) : Mem := store mem a (bytes t) (enc t v)

/-- The machine between two commands: `current`, the frame pointer `lp`, the stack pointer `top` (in units of 8 bytes) and
the memory. -/
structure State where
  pc : Nat
  lp : Nat
  top : Nat
  mem : Mem

/-- What the unused bytes of a pushed unit are: unspecified, `__stack_operation_t<t, true>::assign`,
`include/modules/exec.h:112-121` copies a whole union of which only one member was set.  They may depend on anything. -/
abbrev Junk := State → Nat

/-- `stack.push` — `include/modules/exec.h:168-173`. -/
def push (junk : Junk) (s : State) (t : VT) (v : Int) : State :=
  { s with mem := store s.mem (8 * s.top) 8 (enc t v + 256 ^ bytes t * junk s), top := s.top + 1 }

/-- `stack.pick` — `include/modules/exec.h:211-215`. -/
def top (s : State) (t : VT) : Int := readAt t s.mem (8 * (s.top - 1))

/-- The unit below the top. -/
def second (s : State) (t : VT) : Int := readAt t s.mem (8 * (s.top - 2))

/-- The size of a calling stub in units (`__stack_stub_size`). -/
def stubSize : Nat := 3

/-- Writing a calling stub — `include/modules/exec.h:963-968`.  The other bytes of the stub are not needed. -/
def writeStub (mem : Mem) (a lp current : Nat) : Mem := fun x =>
  if x = a then .stub lp current else if a ≤ x ∧ x < a + 24 then .data 0 else mem x

/-- `copy_array<1>`: copies one unit. -/
def copyUnit (mem : Mem) (src dst : Nat) : Mem := fun x =>
  if 8 * dst ≤ x ∧ x < 8 * dst + 8 then mem (8 * src + (x - 8 * dst)) else mem x

/-- The result of an operator. -/
def result : Option Outcome → Option Const
  | some (.ok c) => some c
  | _ => none

/-- `ctx.current += step - 1` — `modules/exec/commands.cpp:6178-6181, 6300-6303, 6350`; `none`: before the first command. -/
def goTo (s : State) (step : Int) : Option State :=
  let t := (s.pc : Int) + (step - 1)
  if t < 0 then none else some { s with pc := t.toNat }

/-- Executing a command; `current` already points behind it.  `none`: undefined behaviour, or there is no such command. -/
def exec (img : Image) (junk : Junk) (s : State) : Cmd → Option State
  /- `modules/exec/commands.cpp:696-722` -/
  | .pushConst t v => some (push junk s t v)
  /- `modules/exec/commands.cpp:727-752` -/
  | .pushLocal off t1 t2 => some (push junk s t2 (conv t2 (readAt t1 s.mem (8 * s.lp + off))))
  /- `modules/exec/commands.cpp:809-842` -/
  | .pushArg off t1 t2 => some (push junk s t2 (conv t2 (readAt t1 s.mem (8 * (s.lp - (off + stubSize))))))
  /- `modules/exec/commands.cpp:2817-2841` -/
  | .popLocal off t1 t2 =>
    some { s with mem := writeAt t1 s.mem (8 * s.lp + off) (conv t1 (top s t2)), top := s.top - 1 }
  /- `modules/exec/commands.cpp:2850-2870` -/
  | .popArg off t1 t2 =>
    some { s with mem := writeAt t1 s.mem (8 * (s.lp - (off + stubSize))) (conv t1 (top s t2)), top := s.top - 1 }
  /- `modules/exec/commands.cpp:3421-3440` -/
  | .pickLocal off t1 t2 => some { s with mem := writeAt t1 s.mem (8 * s.lp + off) (conv t1 (top s t2)) }
  /- `modules/exec/commands.cpp:3450-3472` -/
  | .pickArg off t1 t2 => some { s with mem := writeAt t1 s.mem (8 * (s.lp - (off + stubSize))) (conv t1 (top s t2)) }
  /- `modules/exec/commands.cpp:3063-3085` -/
  | .popEmpty => some { s with top := s.top - 1 }
  /- `modules/exec/commands.cpp:4935-4975` -/
  | .bin op t1 t2 => do
    let c ← result (vmBinary op ⟨t1, second s t1⟩ ⟨t2, top s t2⟩)
    some (push junk { s with top := s.top - 2 } c.ty c.v)
  /- `modules/exec/commands.cpp:5059-5090` -/
  | .un op t => do
    let c ← result (vmUnary op ⟨t, top s t⟩)
    some (push junk { s with top := s.top - 1 } c.ty c.v)
  /- `modules/exec/commands.cpp:1117-1146`: nothing when the C++ types are the same -/
  | .convert t1 t2 => some (push junk { s with top := s.top - 1 } t2 (conv t2 (top s t1)))
  /- `modules/exec/commands.cpp:4091-4106`, `include/modules/exec.h:963-970` -/
  | .call f => do
    let (start, units) ← img.entry[f]?
    some { pc := start, lp := s.top + stubSize, top := s.top + stubSize + units, mem := writeStub s.mem (8 * s.top) s.lp s.pc }
  /- `modules/exec/commands.cpp:5537-5571` -/
  | .ret locals params =>
    match s.mem (8 * (s.lp - stubSize)) with
    | .stub lp current =>
      let total := params + stubSize + locals
      let p := s.top - total
      some { pc := current, lp := lp, top := p, mem := copyUnit s.mem (p + total - 1) (p - 1) }
    | .data _ => none
  /- `modules/exec/commands.cpp:6155-6180` -/
  | .jmp n => some { s with pc := s.pc + n }
  | .jmpFalse n => some { s with top := s.top - 1, pc := if top s .bool = 0 then s.pc + n else s.pc }
  /- `modules/exec/commands.cpp:6100-6190` -/
  | .go .always step => goTo s step
  | .go .ifTrue step => if top s .bool = 0 then some { s with top := s.top - 1 } else goTo { s with top := s.top - 1 } step
  | .go .ifFalse step => if top s .bool = 0 then goTo { s with top := s.top - 1 } step else some { s with top := s.top - 1 }
  /- `modules/exec/commands.cpp:6285-6333` -/
  | .switch rows dflt =>
    goTo { s with top := s.top - 1 } ((Stmt.search rows (BitVec.ofInt 32 (top s .int32))).getD dflt)
  | .bad => none

/-- One command — `(*ctx.current++)->execute(ctx)`. -/
def step (img : Image) (junk : Junk) (s : State) : Option State := do
  let c ← img.code[s.pc]?
  exec img junk { s with pc := s.pc + 1 } c

/-- Some commands. -/
def steps (img : Image) (junk : Junk) : Nat → State → Option State
  | 0, s => some s
  | n + 1, s => do steps img junk n (← step img junk s)

end Verif.Expr
