/-!
# Checks of declarations: super types, constraints, members and modifiers

`/repo/modules/compile/ast.cpp` (checks) and `/repo/modules/core/core.cpp` (super types, search for
a member that is already declared).
-/

namespace Verif.Decl

/-! ## Super types -/

/-- The types of a program and the types they name as super types.  A type is a number.
`/repo/modules/core/core.cpp:4058-4071` (`each_super_type`: the names that were resolved, in the
order of the declaration), `/repo/modules/core/core.cpp:3254-3270` (`to_general`: an instance of a
generic type stands for its template, an array for its base type). -/
structure Types where
  /-- How many types there are. -/
  count : Nat
  /-- The super types as written in the declaration. -/
  supers : Nat → List Nat
  /-- The template a type is an instance of, or the type itself. -/
  general : Nat → Nat

/-- `each_super_type` with a callback that keeps a set of types: the walk goes on while the check
says no.  `/repo/modules/core/core.cpp:4058-4071`, callback of
`/repo/modules/compile/ast.cpp:3448-3455`. -/
def eachSuper (f : List Nat → Nat → Bool × List Nat) : List Nat → List Nat → Bool × List Nat
  | walked, [] => (false, walked)
  | walked, s :: rest =>
    match f walked s with
    | (true, walked') => (true, walked')
    | (false, walked') => eachSuper f walked' rest

/-- `__check_circle_base_types(walked_types, super_type)`: whether `this` is met on the way up from
`super_type`.  `/repo/modules/compile/ast.cpp:3436-3478`.  The recursion is bounded by a number that
the theorems show to be enough. -/
def circleFrom (p : Types) (this : Nat) : Nat → List Nat → Nat → Bool × List Nat
  | 0, walked, _ => (false, walked)
  | fuel + 1, walked, superType =>
    let t := p.general superType
    if walked.contains t then (false, walked)
    else if t == this then (true, t :: walked)
    else eachSuper (circleFrom p this fuel) (t :: walked) (p.supers t)

/-- `__check_circle_base_types()`: the super type named in the message, if there is one.  Every super
type is walked with a set of its own.  `/repo/modules/compile/ast.cpp:3423-3433`. -/
def checkCircle (p : Types) (this : Nat) : Option Nat :=
  (p.supers this).find? fun s => (circleFrom p this (p.count + 1) [] s).1

/-! ## Constraints on type parameters -/

/-- `__param_dependencies`: the type parameters a type parameter is constrained by, in the order of
the clauses.  `/repo/modules/compile/ast.cpp:3122-3133, 3199-3211`. -/
abbrev Deps := List (Nat × List Nat)

/-- `__param_dependencies.find(name)`. -/
def depsOf (d : Deps) (name : Nat) : List Nat :=
  match d.find? fun e => e.1 == name with
  | some e => e.2
  | none => []

/-- The walk over the names a parameter depends on; it ends when one is rejected.
`/repo/modules/compile/ast.cpp:3240-3250`. -/
def eachName (f : List Nat → Nat → Bool × List Nat) : List Nat → List Nat → Bool × List Nat
  | walked, [] => (true, walked)
  | walked, n :: rest =>
    match f walked n with
    | (false, walked') => (false, walked')
    | (true, walked') => eachName f walked' rest

/-- `__check_circle_dependency(ctx, dependency_name)`: false when the name was walked before.  The
set of walked names belongs to the whole walk, not to the path.
`/repo/modules/compile/ast.cpp:3252-3272`.  The text of the path is not modelled. -/
def nameOk (d : Deps) : Nat → List Nat → Nat → Bool × List Nat
  | 0, walked, _ => (true, walked)
  | fuel + 1, walked, name =>
    if walked.contains name then (false, walked)
    else eachName (nameOk d fuel) (name :: walked) (depsOf d name)

/-- `__check_circle_dependency()`: the parameter whose constraints are reported, if there is one.
`/repo/modules/compile/ast.cpp:3219-3238`. -/
def checkDependency (d : Deps) : Option Nat :=
  (d.map (·.1)).find? fun name =>
    !(eachName (nameOk d ((d.flatMap fun e => e.1 :: e.2).length + 1)) [name] (depsOf d name)).1

/-! ## Members that are declared twice -/

/-- A type as the check compares it: by the address of its object.  A parameter of a generic type or
method has an object of its own for every declaration (`owner`), and an index.  Instances of generic
types are pooled, so that they are the same object when their parts are. -/
inductive Ty where
  | base (id : Nat)
  | param (owner index : Nat)
  | inst (template : Nat) (arg : Ty)
  deriving DecidableEq, Repr

/-- `member_type_t`, without the kinds the check does not know. -/
inductive Kind where
  | field | event | type | typeDef | method | property
  deriving DecidableEq, Repr

/-- `access_value_t` — `/repo/include/modules/core.h:1503-1509`. -/
inductive Acc where
  | public_ | protected_ | private_ | internal | protectedOrInternal | protectedAndInternal
  deriving DecidableEq, Repr

/-- The modifiers of a declaration.  `/repo/include/modules/core.h:1560-1640`. -/
structure Mods where
  virtual_ : Bool := false
  static_ : Bool := false
  abstract_ : Bool := false
  sealed_ : Bool := false
  const_ : Bool := false
  readonly_ : Bool := false
  extern_ : Bool := false
  override_ : Bool := false
  new_ : Bool := false
  access : Option Acc := none
  deriving DecidableEq, Repr

/-- A member.  `id` is the address of its object, `host` the type it is declared in, `owner` the
interface it implements explicitly, `ctor` whether it is a constructor, a static constructor or a
destructor, `params` the types and the kinds (`ref`, `out`, …) of its parameters, `generics` the
number of its type parameters, `ty` its type, `body` whether it has a body (one of the two methods of
a property). -/
structure Member where
  id : Nat
  kind : Kind
  name : Nat
  host : Nat
  owner : Option Nat := none
  ctor : Bool := false
  params : List (Ty × Nat) := []
  generics : Nat := 0
  ty : Ty := .base 0
  body : Bool := false
  mods : Mods := {}
  deriving DecidableEq, Repr

/-- The outcome of a comparison or a search: `undefined` when an object that is no type parameter is
read as one. -/
inductive Found (α : Type) where
  | none
  | some (a : α)
  | undefined
  deriving DecidableEq, Repr

/-- The parameters of two indexed properties.  `/repo/modules/core/core.cpp:3816-3841`; a missing list
counts as the empty one. -/
def indexEq (a b : List (Ty × Nat)) : Bool := a == b

/-- One step of the loop over the parameters of two methods.
`/repo/modules/core/core.cpp:3859-3876`: when the first is a type parameter, the index of the second
is read without asking what it is (the test names the first type twice). -/
def typeEq : Ty → Ty → Found Unit
  | .param _ i, .param _ j => if i = j then .some () else .none
  | .param _ _, _ => .undefined
  | a, b => if a = b then .some () else .none

/-- The loop over the parameters of two methods. -/
def typesEq : List (Ty × Nat) → List (Ty × Nat) → Found Unit
  | [], _ => .some ()
  | _ :: _, [] => .none
  | a :: as, b :: bs =>
    match typeEq a.1 b.1 with
    | .some _ => typesEq as bs
    | .none => .none
    | .undefined => .undefined

/-- `__is_params_equals` of two methods.  `/repo/modules/core/core.cpp:3843-3883`. -/
def methodEq (a b : Member) : Found Unit :=
  if a.params.length ≠ b.params.length then .none
  else if a.generics ≠ b.generics then .none
  else typesEq a.params b.params

/-- `members.each(name, f)`: the members the search sees.  Methods are kept under their name and the
interface they implement, and are searched for under no interface.
`/repo/include/modules/core.h:4110-4120, 4229-4247`. -/
def visible (ms : List Member) (kind : Kind) (name : Nat) : List Member :=
  ms.filter fun m => m.kind == kind && m.name == name && (kind != .method || m.owner == none)

/-- `__search_member`: the members in front of the member itself, with the same owner.
`/repo/modules/core/core.cpp:3792-3814`. -/
def searchIn (m : Member) (f : Member → Found Unit) : List Member → Found Member
  | [] => .none
  | x :: xs =>
    if x.id == m.id then .none
    else if x.owner != m.owner then searchIn m f xs
    else match f x with
      | .some _ => .some x
      | .none => searchIn m f xs
      | .undefined => .undefined

/-- `__search_member` in one of the lists of the type. -/
def search (ms : List Member) (m : Member) (kind : Kind) (f : Member → Found Unit) : Found Member :=
  searchIn m f (visible ms kind m.name)

/-- `__SearchRet`: the first answer of several searches. -/
def orElse (a b : Found Member) : Found Member :=
  match a with
  | .none => b
  | r => r

/-- `__general_type_like_base_t::check_duplicate`.  `/repo/modules/core/core.cpp:3888-3952`.
`ms` are the members of the type in the order they were declared. -/
def checkDuplicate (ms : List Member) (m : Member) : Found Member :=
  let any := fun _ => Found.some ()
  let byName := fun k => search ms m k any
  orElse (byName .field) <| orElse (byName .event) <| orElse (byName .type) <|
    orElse (byName .typeDef) <|
    match m.kind with
    | .method => orElse (byName .property) (search ms m .method fun x => methodEq m x)
    | .property =>
      orElse (byName .method) (search ms m .property fun x =>
        if indexEq m.params x.params then .some () else .none)
    | _ => orElse (byName .method) (byName .property)

/-- `ttype_t` of the declaring type, as far as the checks ask for it. -/
inductive TKind where
  | class_ | struct_ | interface_ | enum_
  deriving DecidableEq, Repr

/-- A type with its members: its name, its members in the order of the declaration, and the class it
derives from. -/
structure Decl where
  name : Nat
  kind : TKind := .class_
  abstract_ : Bool := false
  members : List Member := []
  base : Option Nat := none

/-- The types of a program, by number. -/
abbrev Decls := Nat → Decl

/-- What the checks of a member report: nothing, a warning, or an error. -/
inductive Report where
  | sameAsType
  | duplicated (m : Member)
  | undefined
  | interfaceField
  | interfaceModifier
  | interfaceBody
  | virtualPrivate
  | virtualStatic
  | overrideNew
  | noBaseMember
  | baseSealed
  | typeChanged
  | abstractInConcrete
  | sealedNotOverride
  | notValid
  | externNotStatic
  | externBody
  | accessChanged
  deriving DecidableEq, Repr

/-- `__utils_t::__check_duplicate`.  `/repo/modules/compile/ast.cpp:674-712`. -/
def checkDup (t : Decl) (m : Member) : Option Report :=
  if m.name == t.name && !(m.kind == .method && m.ctor) then some .sameAsType
  else match checkDuplicate t.members m with
    | .some x => some (.duplicated x)
    | .none => none
    | .undefined => some .undefined

/-! ## Modifiers -/

/-- `check_duplicate(member, true)` from the base type on: the first class up the chain with a member
the search finds.  `/repo/modules/core/core.cpp:5063-5085`; the set of walked classes is passed by
value, so it holds exactly the classes on the way up. -/
def baseMember (ds : Decls) (m : Member) : Nat → List Nat → Option Nat → Found Member
  | _, _, none => .none
  | 0, _, _ => .none
  | fuel + 1, walked, some t =>
    if walked.contains t then .none
    else match checkDuplicate (ds t).members m with
      | .none => baseMember ds m fuel (t :: walked) (ds t).base
      | r => r

/-- `get_access_value`.  `/repo/modules/core/core.cpp:1380-1398`, for a member of a type. -/
def accessOf (ds : Decls) (m : Member) : Acc :=
  match m.mods.access with
  | some a => a
  | none => if (ds m.host).kind = .interface_ then .public_ else .private_

/-- `is_private`.  `/repo/include/modules/core.h:2243-2247`. -/
def isPrivate (ds : Decls) (m : Member) : Bool := accessOf ds m == .private_

/-- `is_virtual_or_abstract_or_override`.  `/repo/include/modules/core.h:1642-1646`. -/
def isVirtual (m : Member) : Bool := m.mods.virtual_ || m.mods.abstract_ || m.mods.override_

/-- The part for members of interfaces.  `/repo/modules/compile/ast.cpp:741-799`. -/
def checkInterface (m : Member) : Option Report :=
  if m.kind == .field then some .interfaceField
  else if m.mods.virtual_ || m.mods.static_ || m.mods.abstract_ || m.mods.sealed_ || m.mods.const_
      || m.mods.readonly_ || m.mods.extern_ || m.mods.access.isSome then some .interfaceModifier
  else if (m.kind == .method || m.kind == .property) && m.body then some .interfaceBody
  else none

/-- The part for an overriding member.  `/repo/modules/compile/ast.cpp:822-862`. -/
def checkOverride (m : Member) (bm : Option Member) : Option Report :=
  if m.mods.virtual_ || m.mods.new_ then some .overrideNew
  else match bm with
    | none => some .noBaseMember
    | some b =>
      if !isVirtual b then some .noBaseMember
      else if b.mods.sealed_ then some .baseSealed
      else if b.ty != m.ty then some .typeChanged
      else none

/-- The part for methods, properties and events outside interfaces.
`/repo/modules/compile/ast.cpp:802-917`. -/
def checkVirtual (ds : Decls) (t : Decl) (m : Member) (bm : Option Member) : Option Report :=
  if isVirtual m && isPrivate ds m then some .virtualPrivate
  else if isVirtual m && m.mods.static_ then some .virtualStatic
  else match (if m.mods.override_ then checkOverride m bm else none) with
    | some r => some r
    | none =>
      if m.mods.abstract_ && !t.abstract_ then some .abstractInConcrete
      else if m.mods.sealed_ && !m.mods.override_ then some .sealedNotOverride
      else if m.mods.readonly_ || m.mods.const_ then some .notValid
      else if m.mods.extern_ then
        if m.kind != .method then some .notValid
        else if !m.mods.static_ then some .externNotStatic
        else if m.body then some .externBody
        else none
      else none

/-- The part for fields and type definitions.  `/repo/modules/compile/ast.cpp:918-948`. -/
def checkField (m : Member) : Option Report :=
  if m.mods.virtual_ || m.mods.abstract_ || m.mods.override_ || m.mods.extern_ || m.mods.sealed_ then
    some .notValid
  else if m.kind == .typeDef && (m.mods.const_ || m.mods.readonly_ || m.mods.static_) then
    some .notValid
  else none

/-- The last part: the member and the one it hides.  `/repo/modules/compile/ast.cpp:950-985`; only the
error is modelled, the warnings are not. -/
def checkHiding (ds : Decls) (m : Member) (bm : Option Member) : Option Report :=
  match bm with
  | none => none
  | some b =>
    if !isPrivate ds b && !isPrivate ds m && m.kind == b.kind && isVirtual b
        && (m.mods.override_ || m.mods.new_) && accessOf ds m != accessOf ds b then
      some .accessChanged
    else none

/-- `__utils_t::__check_modifier`.  `/repo/modules/compile/ast.cpp:715-986`. -/
def checkModifier (ds : Decls) (fuel ti : Nat) (m : Member) : Option Report :=
  let t := ds ti
  match baseMember ds m fuel [] t.base with
  | .undefined => some .undefined
  | found =>
    let bm := match found with
      | .some b => if b.host == ti then none else some b
      | _ => none
    let first :=
      if t.kind == .interface_ then checkInterface m
      else if m.kind == .property || m.kind == .method || m.kind == .event then checkVirtual ds t m bm
      else checkField m
    match first with
    | some r => some r
    | none => checkHiding ds m bm

/-- `__utils_t::__check_member`.  `/repo/modules/compile/ast.cpp:989-1008`. -/
def checkMember (ds : Decls) (fuel ti : Nat) (m : Member) : Option Report :=
  match checkDup (ds ti) m with
  | some r => some r
  | none => checkModifier ds fuel ti m

end Verif.Decl
