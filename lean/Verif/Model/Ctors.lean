/-!
# Constructors and the initial values of fields

Models what the compiler does to constructors (`__method_utils_t::revise_constructor`, `__get_base_contructor`, `__init_fields`,
`__check_default_value`, `modules/compile/ast.cpp:2473-2589`), the constructor it adds (`modules/compile/ast.cpp:2712-2740,
3404-3420`), the search for a constructor (`find_constructor`, `modules/compile/ast_utils.cpp:1724-1761`, with
`__type_get_member_t`, `modules/core/core.cpp:4960-5060`, and `__general_type_like_base_t::get_member`, `3689-3731`), and the call of
one at `new` (`modules/compile/ast.cpp:4697-4724`, `modules/compile/expression.cpp:3059-3156`).

Simplifications.  All parameters have one type, so that the overload that is selected (C78) is the one with the number of the
arguments.  The body of a constructor is any function of its arguments and of the object with what was written; what bodies are
compiled to is C105.  The arguments of a base constructor are functions of the same.  Values of fields are integers, the default
value is 0, and a new object consists of zeros (C79).  Structs, generic types, static constructors and access are left out; static
and constant fields are treated like the others, as `__init_fields` does.  The chain of base classes is not circular (C80): a base
class has a smaller number.
-/

namespace Verif.Ctors

/-- An object under construction: the value of field `i` that class `c` declares, and what has been written so far. -/
structure Obj where
  flds : Nat → Nat → Int := fun _ _ => 0
  out : List Int := []

/-- Assigning a field. -/
def Obj.set (o : Obj) (c i : Nat) (v : Int) : Obj :=
  { o with flds := fun c' i' => if c' = c ∧ i' = i then v else o.flds c' i' }

/-- The initial value of a field: a constant expression and its value, or an expression that is not constant. -/
inductive Init where
  | const (v : Int)
  | other

/-- `method_t` of a constructor.  `base` is what is written behind `: base`. -/
structure Ctor where
  params : Nat
  base : Option (List (List Int → Obj → Int)) := none
  body : List Int → Obj → Obj := fun _ o => o

/-- `general_type_t` of a class. -/
structure Class where
  base : Option Nat := none
  fields : List (Option Init) := []
  ctors : List Ctor := []

/-- The classes. -/
abbrev Prog := List Class

/-- What ends a compilation: no constructor for the arguments (`ast.cpp:2542-2544`), or a value that is not constant
(`ast.cpp:2583-2585`, an exception). -/
inductive Err where
  | notFound | invalidValue
deriving DecidableEq, Repr

/-- The constructors of a class: one without parameters is added when there is none —
`modules/compile/ast.cpp:2715-2725, 3404-3420`. -/
def Class.all (C : Class) : List Ctor := if C.ctors.isEmpty then [{ params := 0 }] else C.ctors

/-- `__general_type_like_base_t::get_member` for constructors — `modules/core/core.cpp:3718-3728`. -/
def Class.own (C : Class) (n : Nat) : Option Nat := C.all.findIdx? (·.params == n)

/-- `__type_get_member_t::get_member` with base types — `modules/core/core.cpp:4990-5018`: the class itself, then
its base classes.  The first argument bounds the recursion. -/
def find (P : Prog) : Nat → Nat → Nat → Option (Nat × Nat)
  | 0, _, _ => none
  | d + 1, c, n =>
    match P[c]? with
    | none => none
    | some C =>
      match C.own n with
      | some k => some (c, k)
      | none =>
        match C.base with
        | none => none
        | some b => find P d b n

/-- `find_constructor` — `modules/compile/ast_utils.cpp:1757-1761`. -/
def findCtor (P : Prog) (c n : Nat) : Option (Nat × Nat) := find P (P.length + 1) c n

/-- The statements put in front of the body. -/
inductive Op where
  | call (c k : Nat) (args : List (List Int → Obj → Int))
  | assign (c i : Nat) (v : Int)

/-- `__get_base_contructor` and the first statement — `modules/compile/ast.cpp:2488-2497, 2526-2547`. -/
def baseCall (P : Prog) (C : Class) (K : Ctor) : Except Err (List Op) :=
  let args := K.base.getD []
  match C.base with
  | none => if args.isEmpty then .ok [] else .error .notFound
  | some b =>
    match findCtor P b args.length with
    | none => .error .notFound
    | some (c, k) => .ok [.call c k args]

/-- `__init_fields` — `modules/compile/ast.cpp:2550-2573`, from field `i` on: a field whose value is not the default value is
assigned (`__check_default_value`, `2576-2589`). -/
def initFields (c : Nat) : Nat → List (Option Init) → Except Err (List Op)
  | _, [] => .ok []
  | i, none :: fs => initFields c (i + 1) fs
  | _, some .other :: _ => .error .invalidValue
  | i, some (.const v) :: fs =>
    match initFields c (i + 1) fs with
    | .ok ops => .ok (if v ≠ 0 then .assign c i v :: ops else ops)
    | .error e => .error e

/-- `revise_constructor` — `modules/compile/ast.cpp:2486-2509`: what runs before the body. -/
def revise (P : Prog) (c : Nat) (C : Class) (K : Ctor) : Except Err (List Op) :=
  match baseCall P C K with
  | .error e => .error e
  | .ok ops =>
    match initFields c 0 C.fields with
    | .error e => .error e
    | .ok ops' => .ok (ops ++ ops')

/-- Whether a constructor is compiled without error. -/
def reviseOk (P : Prog) (c : Nat) (C : Class) (K : Ctor) : Bool :=
  match revise P c C K with
  | .ok _ => true
  | .error _ => false

/-- All constructors are compiled without error. -/
def compiles (P : Prog) : Bool :=
  (List.range P.length).all fun c =>
    match P[c]? with
    | none => true
    | some C => C.all.all fun K => reviseOk P c C K

/-- The statements in front of the body, one after the other; `call` runs a constructor. -/
def runOps (call : Nat → Nat → List Int → Obj → Option Obj) (args : List Int) : List Op → Obj → Option Obj
  | [], o => some o
  | .call c k as :: ops, o =>
    match call c k (as.map fun f => f args o) o with
    | none => none
    | some o' => runOps call args ops o'
  | .assign c i v :: ops, o => runOps call args ops (o.set c i v)

/-- A call of constructor `k` of class `c`.  The first argument bounds the depth of the calls. -/
def run (P : Prog) : Nat → Nat → Nat → List Int → Obj → Option Obj
  | 0, _, _, _, _ => none
  | d + 1, c, k, args, o =>
    match P[c]? with
    | none => none
    | some C =>
      match C.all[k]? with
      | none => none
      | some K =>
        match revise P c C K with
        | .error _ => none
        | .ok ops =>
          match runOps (run P d) args ops o with
          | none => none
          | some o' => some (K.body args o')

/-- `new` for class `c` in a program that is compiled — `modules/compile/ast.cpp:4706-4724`; that the
constructor may be one of a base class is what `__check_constructor_calltype` allows, `modules/compile/expression.cpp:3078`. -/
def new (P : Prog) (c : Nat) (args : List Int) : Option Obj :=
  if compiles P then
    match findCtor P c args.length with
    | none => none
    | some (c', k) => run P (P.length + 1) c' k args {}
  else none

end Verif.Ctors
