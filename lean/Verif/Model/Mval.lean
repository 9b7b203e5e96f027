import Verif.Model.Overload

/-!
# Methods as values

Models what happens to the name of a method that is not called: which method it is
(`modules/compile/ast_utils.cpp:60-89`, `1000-1043`, `1283-1324`, `1355-1448`), its type (`modules/core/core.cpp:5608-5625`), the
commands that make a delegate of it (`modules/compile/expression.cpp:885-898`, `1293-1349`, `1870-1915`, `2017-2037`) and what these do
(`modules/exec/commands.cpp:4486-4640`, `core_lib/System/System.cs:181-196`).

Simplifications.  The variable is a local one, a parameter, a field or an element, and no variable of a reference type (for such
a variable the delegate is boxed).  `ref` and `out` parameters of the method do not become part of the type of the delegate here, so
methods have parameters passed by value.  What else than a method has the name is not asked (C103, C106).  A value on the
stack has a kind; using it as something else is a fault, and so is taking more values than the assignment pushed.
-/

namespace Verif.Mval

open Verif.Overload (Ty Tys Slot Method World Res Query getMember)

/-- The program: its types, the classes `Delegate` and `MulticastDelegate` and the types of the results of the methods. -/
structure Env where
  W : World
  delegate : Nat
  multicast : Nat
  ret : Nat → Ty
  /-- The number of steps that a search through the base classes may take. -/
  fuel : Nat

/-- A list of types as the arguments of a generic type. -/
def toTys : List Ty → Tys
  | [] => .nil
  | t :: ts => .cons t (toTys ts)

/-- The arguments of a generic type as a list. -/
def ofTys : Tys → List Ty
  | .nil => []
  | .cons t ts => t :: ofTys ts

/-- `method_variable_t::get_type` — `modules/core/core.cpp:5608-5625`. -/
def typeOf (E : Env) (m : Method) : Ty := .gen E.delegate (.cons (E.ret m.id) (toTys (m.params.map (·.2))))

/-! ## The type that is expected -/

/-- What stands around an expression, from the inside out: an assignment with the type of its left side, another binary operator (the dot
among them), a cast, or something else, such as a call that it is an argument of.  A variable that is declared with a type casts its
initial value (`modules/compile/ast.cpp:3973-3979`). -/
inductive Up where
  | assign (left : Ty)
  | binary
  | cast (t : Ty)
  | other
deriving DecidableEq

/-- `pick_type_from_current_context` — `modules/compile/ast_utils.cpp:60-89`. -/
def context : List Up → Option Ty
  | [] => none
  | .assign t :: _ => some t
  | .binary :: us => context us
  | .cast t :: _ => some t
  | .other :: us => context us

/-- `__pick_argument_types_from_context_type` — `ast_utils.cpp:1283-1324`.  The result type is passed on, but nothing reads it. -/
def argumentTypes (E : Env) : Ty → List Slot
  | .gen t (.cons _ ps) => if t = E.delegate ∨ t = E.multicast then (ofTys ps).map fun p => (.default_, p) else []
  | _ => []

/-- `__pick_method_from_current_context` — `ast_utils.cpp:1355-1377`; `none` for the null pointer that comes back without a context. -/
def pickFrom (E : Env) (host : Ty) (name : Nat) (up : List Up) : Option Res :=
  match context up with
  | none => none
  | some c => some (getMember E.W ⟨name, .normal, none, some (argumentTypes E c)⟩ E.fuel host)

/-! ## Which method it is -/

/-- The method, an error that is reported, or an exception that the walk does not catch. -/
inductive Choice where
  | method (m : Method)
  | error
  | thrown
deriving DecidableEq

/-- `__walk_name` for a name that stands for a method — `ast_utils.cpp:1009-1037`.  `first` is the method that the region has for the
name, `host` the class it is declared in. -/
def walkName (E : Env) (host : Ty) (first : Method) (up : List Up) : Choice :=
  match pickFrom E host first.name up with
  | none => .method first
  | some (.found p) => .method p.method
  | some .notFound => .error
  | some _ => .thrown

/-- `__try_get_member` for a name behind a dot — `ast_utils.cpp:1379-1448`.  A search that finds several methods throws a
`method_compare_error_t` (`core.cpp:3360-3392`, `include/modules/core.h:2386-2405`), which is not the `logic_error_t` that is caught. -/
def walkDot (E : Env) (type : Ty) (name : Nat) : Choice :=
  match getMember E.W ⟨name, .normal, none, none⟩ E.fuel type with
  | .found p => .method p.method
  | .notFound => .error
  | _ => .thrown

/-! ## Commands -/

/-- What stands before the name: nothing, a type and a dot, `this` and a dot, `base` and a dot, or an expression (with an object for a
value) and a dot. -/
inductive Left where
  | plain
  | type
  | this
  | base
  | value (o : Nat)
deriving DecidableEq

/-- The commands.  `place` pushes the address of a variable. -/
inductive Instr where
  | place (p : Nat)
  | obj (o : Nat)
  | this
  | null
  | meth (m : Nat)
  | callType
  | ctor (arguments : Nat)
deriving DecidableEq

/-- The left side of the dot — `expression.cpp:885-898`; `base` pushes `this` (`3459-3464`), and the name of a type nothing
(`2428-2430`). -/
def compileLeft : Left → List Instr
  | .plain => []
  | .type => []
  | .this => [.this]
  | .base => [.this]
  | .value o => [.obj o]

/-- `__compile_method_variable` — `expression.cpp:1870-1915`; `base` is `__left_is_base` (`2033-2036`). -/
def compileMethod (m : Method) (base : Bool) : List Instr :=
  (if m.static_ then [.null] else []) ++ [.meth m.id] ++ (if base then [.callType, .ctor 3] else [.ctor 2])

/-- `__compile_assign` — `expression.cpp:1293-1333`, with the type of the variable: the types must be the same. -/
def compileAssign (E : Env) (p : Nat) (declared : Ty) (left : Left) (m : Method) : Option (List Instr) :=
  if declared ≠ typeOf E m then none
  else some (.place p :: (compileLeft left ++ compileMethod m (left == .base)))

/-! ## Execution -/

/-- A value on the stack. -/
inductive Val where
  | place (p : Nat)
  | obj (o : Nat)
  | null
  | meth (m : Nat)
  | callType
deriving DecidableEq

/-- A delegate: `__instance` and `__method`. -/
structure Delegate where
  inst : Option Nat
  method : Nat
deriving DecidableEq

/-- The stack of the expression and the variables of delegate types. -/
structure State where
  stack : List Val
  vars : Nat → Option Delegate

/-- A reference to an object or `null`. -/
def Val.ref : Val → Option (Option Nat)
  | .obj o => some (some o)
  | .null => some none
  | _ => none

/-- `delegate_init` — `commands.cpp:4553-4580`: the values go to where the third one from the top points. -/
def init (s : State) : Option State :=
  match s.stack with
  | .meth m :: v :: .place p :: rest =>
    match v.ref with
    | some i => some ⟨rest, fun q => if q = p then some ⟨i, m⟩ else s.vars q⟩
    | none => none
  | _ => none

/-- One command; `this` is the object the method runs on.  `ctor 3` is `delegate_init_with_call_type` (`commands.cpp:4585-4635`); the call
type that it keeps is not used later (`4655-4665`). -/
def step (this : Option Nat) (s : State) : Instr → Option State
  | .place p => some { s with stack := .place p :: s.stack }
  | .obj o => some { s with stack := .obj o :: s.stack }
  | .this =>
    match this with
    | some o => some { s with stack := .obj o :: s.stack }
    | none => none
  | .null => some { s with stack := .null :: s.stack }
  | .meth m => some { s with stack := .meth m :: s.stack }
  | .callType => some { s with stack := .callType :: s.stack }
  | .ctor 2 => init s
  | .ctor 3 =>
    match s.stack with
    | .callType :: rest => init { s with stack := rest }
    | _ => none
  | .ctor _ => none

/-- Commands one after the other. -/
def run (this : Option Nat) : List Instr → State → Option State
  | [], s => some s
  | i :: is, s =>
    match step this s i with
    | some s => run this is s
    | none => none

/-! ## An assignment -/

/-- What becomes of `v = f` or `v = e.f` when it is compiled. -/
inductive Compiled where
  | code (m : Method) (is : List Instr)
  | rejected
  | thrown

/-- The walk and the compilation of `v = f` for a plain name: the variable `p` has the type `declared`. -/
def assignName (E : Env) (p : Nat) (declared : Ty) (host : Ty) (first : Method) : Compiled :=
  match walkName E host first [.assign declared] with
  | .method m =>
    match compileAssign E p declared .plain m with
    | some is => .code m is
    | none => .rejected
  | .error => .rejected
  | .thrown => .thrown

/-- The walk and the compilation of `v = e.f`: `type` is the type of `e`. -/
def assignDot (E : Env) (p : Nat) (declared : Ty) (left : Left) (type : Ty) (name : Nat) : Compiled :=
  match walkDot E type name with
  | .method m =>
    match compileAssign E p declared left m with
    | some is => .code m is
    | none => .rejected
  | .error => .rejected
  | .thrown => .thrown

end Verif.Mval
