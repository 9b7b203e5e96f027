/-!
# Model: virtual methods of generic classes

The table of virtual methods of a class and the place of a method in it, when classes of the hierarchy have type parameters:
`__build_vfunctions` (`modules/rt/rt.cpp:838-897`), `get_prototype` and `get_virtual_method_offset` (`rt.cpp:3138-3228`), `compare_to`
(`rt.cpp:1950-1998`), `search_method` (`rt.cpp:707-737`, `1546-1551`) and `get_type` (`rt.cpp:2624-2705`).  `Verif.Dispatch` has the same
functions for classes without type parameters, with prototypes that are just equal or not.

Simplified: all classes are in one assembly (`Verif.Dispatch` has several), they are not inside of others, and no type parameter takes
several types.  Types are shared, so two of them are the same object when they are equal.  A generic type with several arguments is written
as one with an argument, to which the next argument is given.
-/

namespace Verif.Gvirt

/-- A type as metadata have it: a type parameter, by its name, a class, a generic type with an argument. -/
inductive Ty where
  | param (name : Nat)
  | cls (id : Nat)
  | app (template : Ty) (arg : Ty)
  deriving DecidableEq, Repr

/-- `generic_param_manager_t`: what the type parameters stand for; `type_at` of a name that is not there is null — `layout.cpp:46-56`. -/
abbrev Env := Nat → Option Ty

/-- `assembly_analyzer_t::get_type` — `rt.cpp:2624-2705` — with the manager of type parameters that the analyzer has, or without one.
Outside, `none`: the null pointer is used as a manager (line 2695), or an argument is null (line 2680).  Inside, `none`: the null type. -/
def getType : Option Env → Ty → Option (Option Ty)
  | none, .param _ => none
  | some e, .param n => some (e n)
  | _, .cls t => some (some (.cls t))
  | e, .app f a =>
    match getType e f, getType e a with
    | some (some f'), some (some a') => some (some (.app f' a'))
    | _, _ => none

/-- A method: its name, how many type parameters it has, its type, the kinds and types of its parameters, and what `__is_virtual` and
`__is_override` say of it (`rt.cpp:86-111`). -/
structure Method where
  name : Nat
  typeParams : Nat := 0
  ret : Ty
  params : List (Nat × Ty) := []
  virt : Bool := false
  over : Bool := false
  deriving DecidableEq, Repr

/-- A class: its number, its type parameters, the arguments it gives to its base class, and its methods, in the order of the table. -/
structure Class where
  id : Nat
  typeParams : List Nat := []
  baseArgs : List Ty := []
  methods : List Method
  deriving DecidableEq, Repr

/-- `get_kind() == generic` for a base class, `is_generic_template` for the class itself — `rt.cpp:809-818`. -/
def Class.generic (c : Class) : Bool := !c.typeParams.isEmpty

/-- The manager for an object of the class with these type arguments — `rt.cpp:1289-1290`, `layout.cpp:265-294`; there is none for a class
without type parameters (`rt.cpp:1164-1167`, `1069-1070`). -/
def managerOf (c : Class) (args : List Ty) : Option Env :=
  if c.generic then some (fun n => (c.typeParams.zip args).lookup n) else none

/-- `method_prototype_t`. -/
structure Prototype where
  name : Nat
  typeParams : Nat
  ret : Option Ty
  params : List (Nat × Option Ty)
  deriving DecidableEq, Repr

/-- The parameters of a prototype — `rt.cpp:3210-3217`. -/
def protoParams (e : Option Env) : List (Nat × Ty) → Option (List (Nat × Option Ty))
  | [] => some []
  | (k, t) :: ps =>
    match getType e t with
    | none => none
    | some u => (protoParams e ps).map ((k, u) :: ·)

/-- `get_prototype` — `rt.cpp:3203-3222`. -/
def getPrototype (e : Option Env) (m : Method) : Option Prototype :=
  match protoParams e m.params with
  | none => none
  | some ps =>
    match getType e m.ret with
    | none => none
    | some r => some ⟨m.name, m.typeParams, r, ps⟩

/-- The loop of `compare_to` over the parameters — `rt.cpp:1972-1995`; there are as many of the one as of the other. -/
def compareParams (e : Option Env) : List (Nat × Ty) → List (Nat × Option Ty) → Option Bool
  | (k, t) :: ps, (k', t') :: qs =>
    if k ≠ k' then some false
    else match getType e t with
      | none => none
      | some u => if u ≠ t' then some false else compareParams e ps qs
  | _, _ => some true

/-- `rt_method_t::compare_to` — `rt.cpp:1950-1998`. -/
def compareTo (e : Option Env) (m : Method) (p : Prototype) : Option Bool :=
  if m.name ≠ p.name then some false
  else if p.typeParams ≠ m.typeParams then some false
  else if p.params.length ≠ m.params.length then some false
  else match getType e m.ret with
    | none => none
    | some r => if p.ret ≠ r then some false else compareParams e m.params p.params

/-- An entry of the table: the class and the row of the method in it, with the method that is found there. -/
structure Entry where
  cls : Nat
  row : Nat
  method : Method
  deriving DecidableEq, Repr

/-- The method number `i` of a class, as an entry. -/
def Class.entry (c : Class) (i : Nat) (m : Method) : Entry := ⟨c.id, i, m⟩

/-- How it ends: a result, the exception that a virtual method is not found, or undefined behaviour. -/
inductive Res (α : Type) where
  | ok (a : α)
  | notFound
  | crash
  deriving DecidableEq, Repr

/-- The loop that puts an overriding method in its place — `rt.cpp:865-878`: the methods of the table are compared without a manager
(`__compare_method(env, prototype, rt_method0)`). -/
def replaceFirst (p : Prototype) (e : Entry) : List Entry → Res (List Entry)
  | [] => .notFound
  | x :: rest =>
    match compareTo none x.method p with
    | none => .crash
    | some true => .ok (e :: rest)
    | some false =>
      match replaceFirst p e rest with
      | .ok r => .ok (x :: r)
      | .notFound => .notFound
      | .crash => .crash

/-- The callback for each method in `__build_vfunctions` — `rt.cpp:853-896`. -/
def addMethods (e : Option Env) (c : Class) : Nat → List Method → List Entry → Res (List Entry)
  | _, [], v => .ok v
  | i, m :: ms, v =>
    if m.virt then addMethods e c (i + 1) ms (v ++ [c.entry i m])
    else if m.over then
      match getPrototype e m with
      | none => .crash
      | some p =>
        match replaceFirst p (c.entry i m) v with
        | .ok v' => addMethods e c (i + 1) ms v'
        | .notFound => .notFound
        | .crash => .crash
    else .ok v

/-- `__build_vfunctions` — `rt.cpp:838-897` — of a class with its base classes after it: the manager is handed on to the base classes. -/
def vfunctions (e : Option Env) : List Class → Res (List Entry)
  | [] => .ok []
  | c :: bases =>
    match vfunctions e bases with
    | .ok v => addMethods e c 0 c.methods v
    | .notFound => .notFound
    | .crash => .crash

/-- The table of virtual methods for objects of the first class with these type arguments — `__build_vtbl`, `rt.cpp:1068-1077`, called from
`pre_new` (`rt.cpp:1271-1302`). -/
def table (args : List Ty) : List Class → Res (List Entry)
  | [] => .ok []
  | c :: bases => vfunctions (managerOf c args) (c :: bases)

/-- `on_caculate_virtual_count` and `get_virtual_count` — `rt.cpp:346-386`. -/
def virtualCount : List Class → Nat
  | [] => 0
  | c :: bases => (c.methods.takeWhile (·.virt)).length + virtualCount bases

/-- The type of the base class is made without a manager — `rt_type->get_base_type(env)` with the class of the method, `rt.cpp:621-640`,
`2658-2687`.  Does that work? -/
def baseKnown (c : Class) : Bool := c.baseArgs.all (fun t => match getType none t with | some (some _) => true | _ => false)

/-- `rt_general_type_t::search_method` — `rt.cpp:707-737`: the first method that compares equal, without a manager. -/
def findMethod (p : Prototype) : Nat → List Method → Res Nat
  | _, [] => .notFound
  | i, m :: ms =>
    match compareTo none m p with
    | none => .crash
    | some true => .ok i
    | some false => findMethod p (i + 1) ms

/-- The search of the overridden method and its place — `rt.cpp:3176-3185`; `caller` is the manager of the method that has the call.  In a
generic class nothing is found: `rt_generic_type_t::search_method`, `rt.cpp:1546-1551`. -/
def searchOffset (caller : Option Env) (p : Prototype) : List Class → Res Nat
  | [] => .notFound
  | b :: bases =>
    if b.generic then searchOffset caller p bases
    else match findMethod p 0 b.methods with
      | .crash => .crash
      | .notFound => searchOffset caller p bases
      | .ok j =>
        match b.methods[j]? with
        | none => .crash
        | some m =>
          if m.virt then .ok (j + virtualCount bases)
          else if m.over then
            match getPrototype caller m with
            | none => .crash
            | some p' => searchOffset caller p' bases
          else .notFound

/-- `get_virtual_method_offset` of method `i` of the first class — `rt.cpp:3138-3189`. -/
def offset (caller : Option Env) : List Class → Nat → Res Nat
  | [], _ => .crash
  | c :: bases, i =>
    match c.methods[i]? with
    | none => .crash
    | some m =>
      if m.virt then (if baseKnown c then .ok (i + virtualCount bases) else .crash)
      else if m.over then
        match getPrototype caller m with
        | none => .crash
        | some p => if baseKnown c then searchOffset caller p bases else .crash
      else .notFound

/-- A virtual call: the entry at the place of the called method (method `i` of the first class of `target`), in the table of the class of the
object — `commands.cpp:4312-4363`, `4476-4481`. -/
def call (caller : Option Env) (target : List Class) (i : Nat) (args : List Ty) (object : List Class) : Res Entry :=
  match table args object, offset caller target i with
  | .ok v, .ok k => match v[k]? with | some e => .ok e | none => .crash
  | .notFound, _ => .notFound
  | .crash, _ => .crash
  | _, .notFound => .notFound
  | _, .crash => .crash

end Verif.Gvirt
