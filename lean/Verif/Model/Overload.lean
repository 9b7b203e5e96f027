import Verif.Model.Fold

/-!
# Choosing the method that a call means

Model of implicit conversions (`modules/core/core.cpp:2461-2476`, `2741-2780`), of the comparison of the
arguments of a call with the parameters of a method and the inference of type arguments
(`core.cpp:2783-3093`, `3135-3170`), of the choice among the methods of one class (`core.cpp:3326-3525`), of
the search through the base classes and the base interfaces (`core.cpp:4958-5062`), of the lookup of
constructors (`modules/compile/ast_utils.cpp:1717-1768`) and of overloaded operators
(`ast_utils.cpp:1157-1240`).

Simplifications.  Types are terms; the code compares pointers to interned types.  The type of an argument
is always known (`atype.type == nullptr` does not occur).  A type parameter is its name; the code has a map
by name and, inside one comparison, one by pointer.  Methods that implement an interface explicitly (with an
owner type) are left out: a query without an owner never sees them.  `exact_match` is off.  The error a
failed search reports (`not_match` with a list of methods) is `notFound`.  What the code asserts or throws
inside a comparison is `crash`.
-/

namespace Verif.Overload

open Verif.Fold (VT)

mutual
/-- `type_t` and `gtype_t`: the type of `null`, a general type, a generic type with its template and its
arguments, a type parameter, an array. -/
inductive Ty where
  | null
  | base (c : Nat)
  | gen (t : Nat) (args : Tys)
  | param (n : Nat)
  | arr (e : Ty) (dim : Nat)
/-- A list of types. -/
inductive Tys where
  | nil
  | cons (t : Ty) (ts : Tys)
end

mutual
/-- Equality of types. -/
def Ty.beq : Ty → Ty → Bool
  | .null, .null => true
  | .base a, .base b => a == b
  | .gen a as, .gen b bs => a == b && Tys.beq as bs
  | .param a, .param b => a == b
  | .arr a d, .arr b e => Ty.beq a b && d == e
  | _, _ => false
/-- Equality of lists of types. -/
def Tys.beq : Tys → Tys → Bool
  | .nil, .nil => true
  | .cons a as, .cons b bs => Ty.beq a b && Tys.beq as bs
  | _, _ => false
end

mutual
theorem Ty.beq_eq : (a b : Ty) → (Ty.beq a b = true ↔ a = b)
  | .null, b => by cases b <;> simp [Ty.beq]
  | .base c, b => by cases b <;> simp [Ty.beq]
  | .gen c as, b => by cases b <;> simp [Ty.beq, Tys.beq_eq]
  | .param c, b => by cases b <;> simp [Ty.beq]
  | .arr c d, b => by cases b <;> simp [Ty.beq, Ty.beq_eq]
theorem Tys.beq_eq : (a b : Tys) → (Tys.beq a b = true ↔ a = b)
  | .nil, b => by cases b <;> simp [Tys.beq]
  | .cons c cs, b => by cases b <;> simp [Tys.beq, Ty.beq_eq, Tys.beq_eq]
end

instance : DecidableEq Ty := fun a b => decidable_of_iff _ (Ty.beq_eq a b)
instance : DecidableEq Tys := fun a b => decidable_of_iff _ (Tys.beq_eq a b)

/-- `param_type_t` — `include/modules/core.h:1932-1944`. -/
inductive PType where
  | default_ | ref | out | params | extends
  deriving DecidableEq, Repr

/-- A parameter, or an argument with its type: `param_t`, `atype_t`. -/
abbrev Slot := PType × Ty

/-- `method_trait_t`: what a lookup by trait asks for. -/
inductive Trait where
  | normal | constructor | destructor | staticConstructor
  deriving DecidableEq, Repr

/-- `method_t`, the fields that a lookup reads.  `id` is its address. -/
structure Method where
  id : Nat
  name : Nat
  trait : Trait
  gparams : List Nat
  params : List Slot
  static_ : Bool
  deriving DecidableEq

/-- The types of a program.  `vt` is `general_type_t::this_vtype` (`core.cpp:4594-4597`: the underlying type
for an enum), `supers` is `each_super_type`, `sup` is `has_super_type` (`core.cpp:2675-2684`), `baseOf` is
`get_base_type` (`core.cpp:3965-3980`).  `isRef` and `isEnum` are not read by what is modelled here. -/
structure World where
  vt : Nat → VT
  supers : Ty → List Ty
  sup : Ty → Ty → Bool
  methods : Ty → List Method
  baseOf : Ty → Option Ty
  iface : Ty → Bool
  isRef : Ty → Bool
  isEnum : Nat → Bool

/-! ## Conversions -/

/-- The number of a `vtype_t` — `include/modules/core.h:635-671`. -/
def rank : VT → Nat
  | .int8 => 1 | .uint8 => 2 | .int16 => 3 | .uint16 => 4 | .int32 => 5 | .uint32 => 6
  | .int64 => 7 | .uint64 => 8 | .float => 9 | .double => 10 | .bool => 11 | .char => 12
  | .ptr => 13 | .string => 14 | .void => 15 | .mobject => 16

/-- `is_float_vtype` — `modules/core/core.cpp:2491-2494`. -/
def isFloatV (v : VT) : Bool := rank .float ≤ rank v && rank v ≤ rank .double

/-- `is_numberic_vtype` — `modules/core/core.cpp:2497-2500`. -/
def isNumeric (v : VT) : Bool := rank .int8 ≤ rank v && rank v ≤ rank .double

/-- `is_signed_vtype` — `modules/core/core.cpp:2503-2507`. -/
def isSignedV (v : VT) : Bool :=
  isFloatV v || (rank .int8 ≤ rank v && rank v ≤ rank .uint64 && rank v % 2 == rank .int8 % 2)

/-- `is_vtype_compatible` — `modules/core/core.cpp:2461-2476`; `none` is `__unknown__`. -/
def vtCompat (a b : Option VT) : Bool :=
  if a = b then true
  else match a, b with
    | some a, some b =>
      if !isNumeric a || !isNumeric b then false
      else if rank b < rank a then false
      else if isFloatV a then isFloatV b
      else isSignedV a == isSignedV b
    | _, _ => false

/-- `this_vtype` — `core.cpp:4594-4597`, `include/modules/core.h:2673`, `2773`, `4538-4541`, `4655`.  A template
is a class, an interface or a struct. -/
def World.vtype (W : World) : Ty → Option VT
  | .null => none
  | .base c => some (W.vt c)
  | .gen _ _ => some .mobject
  | .param _ => none
  | .arr _ _ => some .mobject

/-- `__is_mobject` — `modules/core/core.cpp:2754-2757`. -/
def World.isMobject (W : World) (t : Ty) : Bool := W.vtype t == some .mobject

/-- `is_null`. -/
def Ty.isNull : Ty → Bool
  | .null => true
  | _ => false

/-- `is_type_compatible` — `modules/core/core.cpp:2762-2780`. -/
def compat (W : World) (a b : Ty) : Bool :=
  if a = b then true
  else if a.isNull then W.isMobject a || a.isNull
  else if b.isNull then W.isMobject b || a.isNull
  else if W.isMobject a || W.isMobject b then W.sup a b
  else vtCompat (W.vtype a) (W.vtype b)

/-! ## Comparing a call with a method -/

/-- `__generic_param_map`: what the type parameters of the method stand for so far. -/
abbrev Env := List (Nat × Ty)

/-- `__member_compare_t`. -/
inductive Compare where
  | notMatch | matched | equals | sameName | auto | autoFailed | crash
  deriving DecidableEq, Repr

/-- `is_generic_param`. -/
def Ty.isParam : Ty → Bool
  | .param _ => true
  | _ => false

mutual
/-- `has_generic_params` — `modules/core/core.cpp:3235-3251`. -/
def Ty.hasParams : Ty → Bool
  | .gen _ args => Tys.hasParams args
  | _ => false
/-- Its loop over the arguments. -/
def Tys.hasParams : Tys → Bool
  | .nil => false
  | .cons t ts => t.isParam || t.hasParams || ts.hasParams
end

mutual
/-- One argument of `__determine_generic_param_types` — `core.cpp:3055-3079`.  `env` is `__generic_param_map`,
`map` is what this type adds.  An argument that is neither a type parameter nor generic is not compared. -/
def determineTy (env : Env) : Ty → Ty → Env → Option Env
  | .param n, a, map =>
    match env.lookup n, map.lookup n with
    | some t, _ => if t = a then some map else none
    | none, some t => if t = a then some map else none
    | none, none => some ((n, a) :: map)
  | .gen t ps, a, map =>
    match a with
    | .gen t' as => if t = t' then determineTys env ps as map else none
    | _ => none
  | .null, _, map => some map
  | .base _, _, map => some map
  | .arr _ _, _, map => some map
/-- `__determine_generic_param_types` — `core.cpp:3044-3083`, for the same template on both sides.  The number
of arguments is asserted to be equal; here another number is no match. -/
def determineTys (env : Env) : Tys → Tys → Env → Option Env
  | .nil, .nil, map => some map
  | .cons p ps, .cons a as, map =>
    match determineTy env p a map with
    | some map => determineTys env ps as map
    | none => none
  | _, _, _ => none
end

mutual
/-- One argument of `__fill_generic_type` — `core.cpp:3017-3038`; `none`: the assertion that the type parameter
is known fails. -/
def fillTy (env : Env) : Ty → Option Ty
  | .param n => env.lookup n
  | .gen t args =>
    match fillTys env args with
    | some as => some (.gen t as)
    | none => none
  | .null => some .null
  | .base c => some (.base c)
  | .arr e d => some (.arr e d)
/-- `__fill_generic_type` — `core.cpp:3012-3041`. -/
def fillTys (env : Env) : Tys → Option Tys
  | .nil => some .nil
  | .cons t ts =>
    match fillTy env t, fillTys env ts with
    | some t, some ts => some (.cons t ts)
    | _, _ => none
end

/-- The outcome of `__to_real_type`: a type to compare with, and what is known now; or the comparison is
already decided. -/
inductive Real where
  | type (t : Ty) (env : Env)
  | decided (r : Compare) (env : Env)

/-- `__each_types` with the callback of `__to_real_type` — `core.cpp:2966-2983`, `3086-3092`: the argument type
and its direct super types that are instances of the template, each with what it determines. -/
def candidates (W : World) (env : Env) (t : Nat) (ps : Tys) (a : Ty) : List (Ty × Env) :=
  (a :: W.supers a).filterMap fun s =>
    match s with
    | .gen t' as =>
      if t' = t then
        match determineTys env ps as [] with
        | some map => some (s, map)
        | none => none
      else none
    | _ => none

/-- The test of a call inside a generic method — `core.cpp:2950-2955`: the argument has a general type that
converts to the template. -/
def isRaw (W : World) (a : Ty) (t : Nat) : Bool :=
  match a with
  | .base c => compat W (.base c) (.base t)
  | _ => false

/-- `core.cpp:2985-3004`: there must be one instance. -/
def single (env : Env) : List (Ty × Env) → Real
  | [(s, map)] => .type s (map ++ env)
  | _ => .decided .autoFailed env

/-- `__to_real_type` — `modules/core/core.cpp:2926-3010`.  `given`: the call has type arguments.  The new part
of the map is put in front of the old one; their names are different. -/
def toReal (W : World) (given : Bool) (env : Env) (p a : Ty) : Real :=
  match p with
  | .param n =>
    match env.lookup n with
    | some t => .type t env
    | none => .decided .auto ((n, a) :: env)
  | .gen t ps =>
    if ps.hasParams then
      if isRaw W a t then .type a env
      else if given then
        match fillTys env ps with
        | some as => .type (.gen t as) env
        | none => .decided .crash env
      else single env (candidates W env t ps a)
    else .type p env
  | p => .type p env

/-- `__compare_argument` — `modules/core/core.cpp:2885-2923`. -/
def compareArg (W : World) (given : Bool) (env : Env) (p a : Slot) : Compare × Env :=
  if p.1 ≠ a.1 then (.notMatch, env)
  else match toReal W given env p.2 a.2 with
    | .decided r env => (r, env)
    | .type t env =>
      if t = a.2 then (.equals, env)
      else if p.1 = .ref then (.notMatch, env)
      else if p.1 = .out then
        if compat W t a.2 then (.matched, env) else (.notMatch, env)
      else
        if compat W a.2 t then (.matched, env) else (.notMatch, env)

/-- The loop of `compare` — `modules/core/core.cpp:2840-2868`. -/
def compareLoop (W : World) (given : Bool) : Env → List Slot → List Slot → Compare → Compare × Env
  | env, p :: ps, a :: as, r =>
    match compareArg W given env p a with
    | (.notMatch, env) => (.notMatch, env)
    | (.autoFailed, env) => (.notMatch, env)
    | (.matched, env) => compareLoop W given env ps as (if r = .auto then .auto else .matched)
    | (.auto, env) => compareLoop W given env ps as .auto
    | (.equals, env) => compareLoop W given env ps as r
    | (_, env) => (.crash, env)
  | env, _, _, r => (r, env)

/-- `compare` — `modules/core/core.cpp:2832-2871`. -/
def compareAll (W : World) (given : Bool) (env : Env) (ps as : List Slot) : Compare × Env :=
  if as.length ≠ ps.length then (.notMatch, env) else compareLoop W given env ps as .equals

/-- The type arguments found, in the order of the type parameters: the loop of `core.cpp:3159-3168`. -/
def gather (env : Env) : List Nat → Option (List Ty)
  | [] => some []
  | n :: ns =>
    match env.lookup n, gather env ns with
    | some t, some ts => some (t :: ts)
    | _, _ => none

/-- `__compare_method` — `modules/core/core.cpp:3135-3171`: the outcome and the type arguments found.  `ga` are
the type arguments of the call, `as` its arguments; without a list of arguments only the name counts. -/
def compareMethod (W : World) (m : Method) (ga : Option (List Ty)) (as : Option (List Slot)) :
    Compare × List Ty :=
  match as with
  | none =>
    match ga with
    | none => (.sameName, [])
    | some ga => if m.gparams.length = ga.length then (.sameName, []) else (.notMatch, [])
  | some as =>
    if as.length = 0 then (if m.params.length = 0 then .equals else .notMatch, [])
    else if as.length ≠ m.params.length then (.notMatch, [])
    else
      match ga with
      | some ga =>
        if ga.length ≠ m.gparams.length then (.crash, [])
        else ((compareAll W true (m.gparams.zip ga) m.params as).1, [])
      | none =>
        let r := compareAll W false [] m.params as
        if m.gparams.length > 0 then
          match gather r.2 m.gparams with
          | some ts => (r.1, ts)
          | none => (.autoFailed, [])
        else (r.1, [])

/-! ## One class -/

/-- `analyze_member_args_t`: a name, or a trait instead of it; type arguments; arguments. -/
structure Query where
  name : Nat
  trait : Trait
  gargs : Option (List Ty)
  args : Option (List Slot)

/-- A method with the type arguments that were found for it: `__mi_t`. -/
structure Pick where
  method : Method
  types : List Ty
  deriving DecidableEq

/-- The fields of `__method_analyzer_t` — `core.cpp:3416-3427`. -/
structure Acc where
  equaled : Option Pick
  matched : List Pick
  failed : List Method
  crashed : Bool

/-- `__analyze` — `modules/core/core.cpp:3431-3468`. -/
def analyzeOne (W : World) (q : Query) (s : Acc) (m : Method) : Acc :=
  match compareMethod W m q.gargs q.args with
  | (.equals, ts) => { s with equaled := some ⟨m, ts⟩ }
  | (.auto, ts) => { s with equaled := some ⟨m, ts⟩ }
  | (.matched, ts) => { s with matched := s.matched ++ [⟨m, ts⟩] }
  | (.sameName, ts) => { s with matched := s.matched ++ [⟨m, ts⟩] }
  | (.notMatch, _) => s
  | (.autoFailed, _) => { s with failed := s.failed ++ [m] }
  | (.crash, _) => { s with crashed := true }

/-- The methods that the first enumeration of `analyze` visits — `core.cpp:3344-3347`,
`include/modules/core.h:4204-4255`: methods with the name and the number of type parameters, or all with the
trait.  The maps keep the order of declaration among equal keys. -/
def firstRound (q : Query) (ms : List Method) : List Method :=
  match q.trait with
  | .normal => ms.filter fun m => m.name == q.name && m.gparams.length == (q.gargs.getD []).length
  | t => ms.filter fun m => m.trait == t

/-- The methods of the second enumeration — `core.cpp:3349-3356`. -/
def secondRound (q : Query) (ms : List Method) : List Method :=
  ms.filter fun m => m.name == q.name && m.gparams.length > 0

/-- `__not_found` — `core.cpp:3521-3524`. -/
def Acc.notFound (s : Acc) : Bool := s.equaled.isNone && s.matched.isEmpty

/-- `analyze` — `modules/core/core.cpp:3337-3357`. -/
def analyze (W : World) (q : Query) (ms : List Method) : Acc :=
  let s := (firstRound q ms).foldl (analyzeOne W q) ⟨none, [], [], false⟩
  if s.notFound && (q.gargs.getD []).length = 0 then
    (secondRound q ms).foldl (analyzeOne W q) s
  else s

/-- The outcome of a lookup. -/
inductive Res where
  | found (p : Pick)
  | notFound
  | conflict
  | undetermined
  | crash
  | outOfFuel
  deriving DecidableEq

/-- `get_method` — `modules/core/core.cpp:3360-3392`. -/
def Acc.result (s : Acc) : Res :=
  if s.crashed then .crash
  else match s.equaled with
    | some p => .found p
    | none =>
      match s.matched with
      | _ :: _ :: _ => .conflict
      | [p] => .found p
      | [] => if s.failed.isEmpty then .notFound else .undetermined

/-- `get_member` of one type, for methods — `core.cpp:3689-3731`. -/
def inType (W : World) (q : Query) (t : Ty) : Res := (analyze W q (W.methods t)).result

/-! ## Base classes and base interfaces -/

/-- `__get_member_for_non_interface` — `modules/core/core.cpp:5008-5018`.  `walked` is `__walked_types`; the
first argument bounds the number of steps. -/
def inBases (W : World) (q : Query) : Nat → List Ty → Option Ty → Res
  | 0, _, _ => .outOfFuel
  | _ + 1, _, none => .notFound
  | n + 1, walked, some t =>
    if t ∈ walked then .notFound
    else match inType W q t with
      | .notFound => inBases W q n (t :: walked) (W.baseOf t)
      | r => r

/-- The loop over the super types with the callback of `core.cpp:5030-5033`: it goes on while nothing is
found. -/
def eachSuper (visit : Ty → List Ty → Res × List Ty) : List Ty → List Ty → Res × List Ty
  | [], walked => (.notFound, walked)
  | s :: ss, walked =>
    match visit s walked with
    | (.notFound, walked) => eachSuper visit ss walked
    | r => r

/-- `__get_member_for_interface` — `modules/core/core.cpp:5021-5036`. -/
def inInterface (W : World) (q : Query) : Nat → Ty → List Ty → Res × List Ty
  | 0, _, walked => (.outOfFuel, walked)
  | n + 1, t, walked =>
    if t ∈ walked then (.notFound, walked)
    else match inType W q t with
      | .notFound => eachSuper (inInterface W q n) (W.supers t) (t :: walked)
      | r => (r, t :: walked)

/-- `type_t::get_member` with base types — `modules/core/core.cpp:4989-5005`, `5059-5062`. -/
def getMember (W : World) (q : Query) (n : Nat) (t : Ty) : Res :=
  if W.iface t then (inInterface W q n t []).1
  else match inType W q t with
    | .notFound => inBases W q n [t] (W.baseOf t)
    | r => r

/-! ## Constructors and operators -/

/-- `find_constructor` — `modules/compile/ast_utils.cpp:1740-1753`. -/
def findConstructor (W : World) (n : Nat) (t : Ty) (as : Option (List Slot)) : Res :=
  getMember W ⟨0, .constructor, none, as⟩ n t

/-- `has_default_constructor` — `modules/compile/ast_utils.cpp:1756-1766`; a conflict is an exception. -/
def hasDefaultConstructor (W : World) (n : Nat) (t : Ty) : Option Bool :=
  match findConstructor W n t none with
  | .found _ => some true
  | .notFound => some false
  | _ => none

/-- `is_object` — `include/modules/core.h:678-681`. -/
def World.isObject (W : World) (t : Ty) : Bool :=
  W.vtype t == some .mobject || W.vtype t == some .string

/-- The loop over the operands of `__walk_op_expression` — `modules/compile/ast_utils.cpp:1216-1229`: the vector
`methods`; `none` in it is a null pointer.  An exception of the lookup is `none` outside. -/
def operatorLoop (W : World) (q : Query) (n : Nat) : List Ty → List (Option Method) → Option (List (Option Method))
  | [], out => some out
  | t :: ts, out =>
    if !W.isObject t then operatorLoop W q n ts out
    else match getMember W q n t with
      | .found p =>
        if p.method.static_ then some out else operatorLoop W q n ts (out ++ [some p.method])
      | .notFound => operatorLoop W q n ts (out ++ [none])
      | _ => none

/-- The end of `__walk_op_expression` — `ast_utils.cpp:1196-1240`: the overload that the expression gets, or
`none` for the error that the operator is not defined. -/
def operatorMethod (W : World) (n : Nat) (op : Nat) (operands : List Ty) : Option (Option Method) :=
  match operatorLoop W ⟨op, .normal, none, some (operands.map fun t => (.default_, t))⟩ n operands [] with
  | some (m :: _) => some m
  | some [] => none
  | none => none

end Verif.Overload
