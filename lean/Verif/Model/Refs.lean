import Verif.Model.Fold

/-!
# Expressions over references

Models how `modules/compile/expression.cpp` compiles `??`, `??=`, `is`, `as`, casts, string constants and the boxing of
values, at every optimisation level, and the commands of `modules/exec/commands.cpp` that the code runs on.

Simplifications, for the whole file:
* the variables are parameters (locals that are assigned once are the subject of C77 and C101);
* a unit of the stack holds a tagged value; a command that finds another kind of value than it reads is stuck (it would read
  the number as an address, or the address as a number).  The bytes of units are the subject of C77;
* what a method does is arbitrary: the world gives its result, or the exception it throws, for the arguments and the heap;
* the test whether an object of one type may be cast to another is arbitrary, too (it is the subject of C73);
* methods have at most one parameter; the only arithmetic is the addition of `int`s;
* custom structs and generic parameters, which are copied and not boxed, are not modelled.
-/

namespace Verif.Refs

open Verif.Fold

/-- Types: values, enums (by number), classes and interfaces (by number), `System.String`, the type of `null`
(`include/modules/core.h:2106-2130, 2665`). -/
inductive Ty where
  | val (t : VT) | enm (n : Nat) | cls (n : Nat) | str | null
deriving DecidableEq, Repr

/-- `is_ref_type` — `modules/core/core.cpp:3209-3217`, `include/modules/core.h:2119-2123`. -/
def Ty.isRef : Ty → Bool
  | .cls _ | .str | .null => true
  | _ => false

/-- `is_value_type`: structs only, not enums — `include/modules/core.h:2126-2130`. -/
def Ty.isValue : Ty → Bool
  | .val _ => true
  | _ => false

/-- The types a unit is read as. -/
inductive XT where
  | num (t : VT) | object | string | unknown
deriving DecidableEq, Repr

/-- `to_xil_type` — `modules/core/xil.cpp:215-283`; enums have the type of their numbers, `int`
(`modules/core/core.cpp:4594-4597`, `modules/compile/ast.cpp:3353-3361`). -/
def Ty.xil : Ty → XT
  | .val t => .num t
  | .enm _ => .num .int32
  | .cls _ => .object
  | .str => .string
  | .null => .unknown

/-- References: to the text of a literal or to an object of the heap. -/
inductive Ref where
  | null | lit (s : String) | obj (n : Nat)
deriving DecidableEq, Repr

/-- What a unit of the stack holds. -/
inductive Val where
  | ref (r : Ref) | num (t : VT) (v : Int)
deriving DecidableEq, Repr

/-- An object: its type and, if it is a boxed value, the value. -/
structure Obj where
  ty : Ty
  v : Int
deriving DecidableEq, Repr

abbrev Heap := List Obj

inductive Exn where
  | nullReference | invalidCast | user (n : Nat)
deriving DecidableEq, Repr

/-- How a call ends. -/
inductive Called where
  | ret (v : Val) (h : Heap) | thrown (e : Exn) (h : Heap)

/-- What is outside of the modelled method. -/
structure World where
  /-- the cast test of the machine, from the type of an object to a type -/
  test : Ty → Ty → Bool
  /-- methods: parameter and result type -/
  sig : Nat → Option Ty × Ty
  call : Nat → List Val → Heap → Called

/-- Expressions.  `is`, `as` and casts have a type; `var` is a parameter. -/
inductive E where
  | null
  | str (s : String)
  | num (t : VT) (v : Int)
  | var (x : Nat)
  | call (k : Nat)
  | call1 (k : Nat) (a : E)
  | add (a b : E)
  | coal (a b : E)
  | coalAssign (x : Nat) (e : E)
  | assign (x : Nat) (e : E)
  | is (a : E) (t : Ty)
  | as (a : E) (t : Ty)
  | cast (t : Ty) (a : E)
deriving DecidableEq, Repr

/-- `get_type` — `modules/core/core.cpp:8094-8124` (binary), `7449-7471` (cast), `7480-7500` (constants),
`modules/core/expression_executor.cpp:255-285`: the type of `is` is `bool` if its operand has a type other than that of
`null`, that of `??` the type of the first operand that is not `null`. -/
def ty (w : World) (Γ : List Ty) : E → Option Ty
  | .null => some .null
  | .str _ => some .str
  | .num t _ => some (.val t)
  | .var x => Γ[x]?
  | .call k => some (w.sig k).2
  | .call1 k _ => some (w.sig k).2
  | .add a b => do
    let t1 ← ty w Γ a
    let t2 ← ty w Γ b
    if t1 = .val .int32 ∧ t2 = .val .int32 then some (.val .int32) else none
  | .coal a b => do
    let t ← ty w Γ a
    if t = .null then ty w Γ b else some t
  | .coalAssign x _ => Γ[x]?
  | .assign x _ => Γ[x]?
  | .is a _ => do
    let t ← ty w Γ a
    if t = .null then none else some (.val .bool)
  | .as _ t => some t
  | .cast t _ => some t

/-- `cvalue_t` — `include/modules/core.h:1653-1717`. -/
inductive CV where
  | nan | null | num (t : VT) (v : Int) | str (s : String) | type (t : Ty)
deriving DecidableEq, Repr

/-- `is_string`. -/
def CV.isStr : CV → Bool
  | .str _ => true
  | _ => false

/-- The text of a value that is put into a folded string — `modules/core/core.cpp:1161-1183`.  Simplified: text is not
escaped, numbers and types are written in some way. -/
def CV.text : CV → String
  | .nan => "nan"
  | .null => "null"
  | .num _ v => toString v
  | .str s => "\"" ++ s ++ "\""
  | .type _ => "type"

/-- The start of `binary_expression_t::execute` — `modules/core/expression_executor.cpp:547-555`: with a string among the
operands the result is the text of both, whatever the operator; without, and if one of them is no number, there is no
result; else the operator decides. -/
def executeBin (a b : CV) (op : VT → Int → VT → Int → CV) : CV :=
  if a.isStr || b.isStr then .str (a.text ++ b.text)
  else
    match a, b with
    | .num t v, .num t' v' => op t v t' v'
    | _, _ => .nan

/-- `execute` — `modules/core/expression_executor.cpp:540-663`, `modules/core/core.cpp:7297-7313` (names),
`1301-1334` (`change_type`).  Parameters and calls have no value.  `none`: the union of a string or `null` is read as a
number, which is undefined. -/
def execute : E → Option CV
  | .null => some .null
  | .str s => some (.str s)
  | .num t v => some (.num t v)
  | .var _ | .call _ | .call1 _ _ => some .nan
  | .add a b => do
    some (executeBin (← execute a) (← execute b) fun t v t' v' =>
      if t = .int32 ∧ t' = .int32 then .num .int32 (conv .int32 (v + v')) else .nan)
  | .coal a b => do some (executeBin (← execute a) (← execute b) fun _ _ _ _ => .nan)
  | .coalAssign _ e => do some (executeBin .nan (← execute e) fun _ _ _ _ => .nan)
  | .assign _ e => do some (executeBin .nan (← execute e) fun _ _ _ _ => .nan)
  | .is a t => do some (executeBin (← execute a) (.type t) fun _ _ _ _ => .nan)
  | .as a t => do some (executeBin (← execute a) (.type t) fun _ _ _ _ => .nan)
  | .cast t a => do
    match ← execute a, t with
    | .nan, _ => some .nan
    | .str s, .str => some (.str s)
    | .num _ v, .val t => some (.num t (conv t v))
    | .num _ v, .enm _ => some (.num .int32 (conv .int32 v))
    | _, .val _ | _, .enm _ => none
    | _, _ => some .nan

/-- Instructions. -/
inductive Ins where
  | pushNull | pushStr (s : String) | pushNum (t : VT) (v : Int) | pushPar (x : Nat) | popPar (pick : Bool) (x : Nat)
  | dup | popEmpty | cmpNull | jmpFalse (n : Nat)
  | castTo (t : Ty) | isOf (t : Ty) | asOf (t : Ty)
  | box (t : Ty) | unbox (t : Ty) | convert (a b : XT)
  | add | call (k : Nat) (args : Nat)
deriving DecidableEq, Repr

/-- The type the context wants (`env`); `none`: any. -/
abbrev Want := Option Ty

/-- `__compile_cvalue` — `modules/compile/expression.cpp:2552-2579`.  `none`: the number has no value as a type that is not
one of numbers (`change_type`), and `__compile_number` throws. -/
def cvalue (want : Want) : CV → Option (List Ins)
  | .str s => some [.pushStr s]
  | .null => some [.pushNull]
  | .num t v =>
    match want.map Ty.xil with
    | none => some [.pushNum t v]
    | some (.num t') => some [.pushNum t' (conv t' v)]
    | some _ => none
  | .nan => none
  | .type _ => none

/-- `__post_compile_expression` — `modules/compile/expression.cpp:2044-2080`: a value is boxed where a reference is wanted,
and converted where another type of value is. -/
def post (want : Want) (t : Ty) (c : List Ins) : List Ins :=
  match want with
  | none => c
  | some w =>
    if t.isValue && w.isRef then c ++ [.box t]
    else if w.isValue && t.isValue && t.xil ≠ w.xil then c ++ [.convert t.xil w.xil]
    else c

/-- The conversion behind a call — `modules/compile/expression.cpp:2783-2786, 478-513`. -/
def afterCall (want : Want) (t : Ty) (c : List Ins) : List Ins :=
  match want with
  | none => c
  | some w => if t.xil ≠ w.xil ∧ t.xil ≠ .unknown ∧ w.xil ≠ .unknown then c ++ [.convert t.xil w.xil] else c

/-- `__try_compile_constant_expression` — `modules/compile/expression.cpp:139-158`. -/
def foldOr (lvl : Nat) (want : Want) (value : Option CV) (code : Unit → Option (List Ins)) : Option (List Ins) :=
  if 1 ≤ lvl then
    match value with
    | none => none
    | some .nan => code ()
    | some v => cvalue want v
  else code ()

/-- `__compile_null_coalescing` — `modules/compile/expression.cpp:1475-1511`. -/
def coalIns (lvl : Nat) (t1 t2 : Ty) (v1 v2 : Option CV) (a b : List Ins) : Option (List Ins) :=
  if t1.isRef && t2.isRef then
    if 2 ≤ lvl ∧ v1 = some .null then some b
    else if 2 ≤ lvl ∧ v2 = some .null then some a
    else some (a ++ [.dup, .pushNull, .cmpNull, .jmpFalse (b.length + 1), .popEmpty] ++ b)
  else none

/-- `__compile_null_coalescing_assign` — `modules/compile/expression.cpp:1514-1545`. -/
def coalAssignIns (lvl : Nat) (pick : Bool) (x : Nat) (t1 t2 : Ty) (v2 : Option CV) (b : List Ins) : Option (List Ins) :=
  if t1.isRef && t2.isRef then
    if 2 ≤ lvl ∧ v2 = some .null then some []
    else some ([.pushPar x, .pushNull, .cmpNull, .jmpFalse (b.length + 1)] ++ b ++ [.popPar pick x])
  else none

/-- Compiles an expression whose value is used — `modules/compile/expression.cpp`: constants 2582-2609, names 2405-2435,
calls 2707-2786 with the arguments 1053-1110, binary expressions 2089-2172, assignments 1293-1341, `as` and `is` 1549-1577,
casts 2883-2948. -/
def compile (lvl : Nat) (w : World) (Γ : List Ty) : Want → E → Option (List Ins)
  | want, .null => some (post want .null [.pushNull])
  | want, .str s => some (post want .str [.pushStr s])
  | want, .num t v => do
    let c ← cvalue (if want.map Ty.xil = some .object then none else want) (.num t v)
    some (post want (.val t) c)
  | want, .var x => do some (post want (← Γ[x]?) [.pushPar x])
  | want, .call k =>
    if (w.sig k).1 = none then some (afterCall want (w.sig k).2 [.call k 0]) else none
  | want, .call1 k a => do
    let p ← (w.sig k).1
    let ca ← foldOr lvl (some p) (execute a) fun _ => compile lvl w Γ (some p) a
    some (afterCall want (w.sig k).2 (ca ++ [.call k 1]))
  | want, .add a b =>
    foldOr lvl want (execute (.add a b)) fun _ => do
      let t ← ty w Γ (.add a b)
      some (post want t ((← compile lvl w Γ none a) ++ (← compile lvl w Γ none b) ++ [.add]))
  | want, .coal a b =>
    foldOr lvl want (execute (.coal a b)) fun _ => do
      let c ← coalIns lvl (← ty w Γ a) (← ty w Γ b) (execute a) (execute b) (← compile lvl w Γ none a)
        (← compile lvl w Γ none b)
      some (post want (← ty w Γ (.coal a b)) c)
  | want, .coalAssign x e =>
    foldOr lvl want (execute (.coalAssign x e)) fun _ => do
      let c ← coalAssignIns lvl true x (← Γ[x]?) (← ty w Γ e) (execute e) (← compile lvl w Γ none e)
      some (post want (← Γ[x]?) c)
  | want, .assign x e =>
    foldOr lvl want (execute (.assign x e)) fun _ => do
      let t ← Γ[x]?
      some (post want t ((← compile lvl w Γ (some t) e) ++ [.popPar true x]))
  | want, .is a t =>
    foldOr lvl want (execute (.is a t)) fun _ => do
      let r ← ty w Γ (.is a t)
      some (post want r ((← compile lvl w Γ none a) ++ [.isOf t]))
  | want, .as a t =>
    foldOr lvl want (execute (.as a t)) fun _ => do
      some (post want t ((← compile lvl w Γ none a) ++ [.asOf t]))
  | want, .cast t a => do
    let t' ← ty w Γ a
    let c ←
      if t.isRef then
        if t'.isValue then do some ((← compile lvl w Γ none a) ++ [.box t'])
        else do some ((← compile lvl w Γ none a) ++ [.castTo t])
      else if t'.isRef then do some ((← compile lvl w Γ none a) ++ [.unbox t])
      else compile lvl w Γ (some t) a
    some (post want t c)

/-- Statements: an assignment, `??=`, a call. -/
inductive St where
  | assign (x : Nat) (e : E) | coalAssign (x : Nat) (e : E) | call (k : Nat) | call1 (k : Nat) (a : E)
deriving DecidableEq, Repr

/-- Compiles a statement — the same places; nothing is left on the stack by an assignment
(`modules/compile/expression.cpp:1204`), and the result of a call is popped (1812-1828).  `void` methods are not modelled. -/
def compileSt (lvl : Nat) (w : World) (Γ : List Ty) : St → Option (List Ins)
  | .assign x e =>
    foldOr lvl none (execute (.assign x e)) fun _ => do
      let t ← Γ[x]?
      some ((← compile lvl w Γ (some t) e) ++ [.popPar false x])
  | .coalAssign x e =>
    foldOr lvl none (execute (.coalAssign x e)) fun _ => do
      coalAssignIns lvl false x (← Γ[x]?) (← ty w Γ e) (execute e) (← compile lvl w Γ none e)
  | .call k => do some ((← compile lvl w Γ none (.call k)) ++ [.popEmpty])
  | .call1 k a => do some ((← compile lvl w Γ none (.call1 k a)) ++ [.popEmpty])

/-- A body: statements and the result (`modules/compile/xilx.cpp:476-496`: the result is wanted as the result type). -/
def compileBody (lvl : Nat) (w : World) (Γ : List Ty) (r : Ty) : List St → E → Option (List Ins)
  | [], e => compile lvl w Γ (some r) e
  | s :: rest, e => do some ((← compileSt lvl w Γ s) ++ (← compileBody lvl w Γ r rest e))

/-- The machine accepts the code: there are commands for conversions between numbers and of a type to itself only
(`modules/exec/commands.cpp:2626-2671`). -/
def loads (c : List Ins) : Bool :=
  c.all fun
    | .convert (.num _) (.num _) => true
    | .convert a b => a == b
    | _ => true

/-- The machine: stack (top first), parameters, heap. -/
structure State where
  stack : List Val
  vars : List Val
  heap : Heap
deriving DecidableEq, Repr

/-- What one command does. -/
inductive Step where
  | next (s : State) | skip (n : Nat) (s : State) | raise (e : Exn) (vars : List Val) (h : Heap) | stuck
deriving DecidableEq, Repr

/-- The type of the object behind a reference (`__RtTypeOf`). -/
def tyOf (h : Heap) : Ref → Option Ty
  | .null => none
  | .lit _ => some .str
  | .obj n => h[n]?.map Obj.ty

/-- One command.  Casts: `modules/exec/commands.cpp:5372-5437`; boxing: 1566-1590; unboxing: 1679-1700 (a `null` raises, and
so does an object of any other type); duplicate: 1094-1106; `popPar`: the value stays on the stack with `pick`. -/
def step (w : World) (i : Ins) (s : State) : Step :=
  match i, s.stack with
  | .pushNull, st => .next { s with stack := .ref .null :: st }
  | .pushStr t, st => .next { s with stack := .ref (.lit t) :: st }
  | .pushNum t v, st => .next { s with stack := .num t v :: st }
  | .pushPar x, st =>
    match s.vars[x]? with
    | some v => .next { s with stack := v :: st }
    | none => .stuck
  | .popPar pick x, v :: st =>
    if x < s.vars.length then .next { s with stack := if pick then v :: st else st, vars := s.vars.set x v } else .stuck
  | .dup, v :: st => .next { s with stack := v :: v :: st }
  | .popEmpty, _ :: st => .next { s with stack := st }
  | .cmpNull, .ref a :: .ref b :: st => .next { s with stack := .num .bool (if a = b then 1 else 0) :: st }
  | .jmpFalse n, .num .bool v :: st =>
    if v = 0 then .skip n { s with stack := st } else .next { s with stack := st }
  | .castTo t, .ref r :: st =>
    if r = .null then .next { s with stack := .ref r :: st }
    else
      match tyOf s.heap r with
      | some t' => if w.test t' t then .next { s with stack := .ref r :: st } else .raise .invalidCast s.vars s.heap
      | none => .stuck
  | .isOf t, .ref r :: st =>
    if r = .null then .next { s with stack := .num .bool 0 :: st }
    else
      match tyOf s.heap r with
      | some t' => .next { s with stack := .num .bool (if w.test t' t then 1 else 0) :: st }
      | none => .stuck
  | .asOf t, .ref r :: st =>
    if r = .null then .next { s with stack := .ref r :: st }
    else
      match tyOf s.heap r with
      | some t' => .next { s with stack := .ref (if w.test t' t then r else .null) :: st }
      | none => .stuck
  | .box t, .num t' v :: st =>
    if t = .val t' then .next { s with stack := .ref (.obj s.heap.length) :: st, heap := s.heap ++ [⟨t, v⟩] } else .stuck
  | .unbox t, .ref r :: st =>
    match r, t.xil with
    | .null, _ => .raise .nullReference s.vars s.heap
    | .lit _, _ => .raise .invalidCast s.vars s.heap
    | .obj n, .num x =>
      match s.heap[n]? with
      | some o => if o.ty = t then .next { s with stack := .num x o.v :: st } else .raise .invalidCast s.vars s.heap
      | none => .stuck
    | _, _ => .stuck
  | .convert (.num t) (.num t'), .num t'' v :: st =>
    if t = t'' then .next { s with stack := .num t' (conv t' v) :: st } else .stuck
  | .add, .num .int32 b :: .num .int32 a :: st => .next { s with stack := .num .int32 (conv .int32 (a + b)) :: st }
  | .call k 0, st =>
    match w.call k [] s.heap with
    | .ret v h => .next { s with stack := v :: st, heap := h }
    | .thrown e h => .raise e s.vars h
  | .call k 1, a :: st =>
    match w.call k [a] s.heap with
    | .ret v h => .next { s with stack := v :: st, heap := h }
    | .thrown e h => .raise e s.vars h
  | _, _ => .stuck

/-- How code ends. -/
inductive Out where
  | done (s : State) | raised (e : Exn) (vars : List Val) (h : Heap) | stuck
deriving DecidableEq, Repr

/-- Runs code; the number counts the commands that a jump still skips (all jumps are forward). -/
def exec (w : World) : Nat → List Ins → State → Out
  | 0, [], s => .done s
  | _ + 1, [], _ => .stuck
  | k + 1, _ :: rest, s => exec w k rest s
  | 0, i :: rest, s =>
    match step w i s with
    | .next s' => exec w 0 rest s'
    | .skip n s' => exec w n rest s'
    | .raise e vs h => .raised e vs h
    | .stuck => .stuck

end Verif.Refs
