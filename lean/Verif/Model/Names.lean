/-
  The meaning of the name of a type in a program: modules/compile/ast_utils.cpp, the class
  `__type_resolver_t`, and the tables of types it looks into, modules/core/assembly.cpp,
  `types_t`.
-/

namespace Verif.Names

/-- A declared class, struct, interface or enum, or a type parameter of one. -/
abbrev Id := Nat
abbrev Name := String

/-- The parts of the name of a namespace; `[]` is the null pointer, outside of all
    namespaces.  The code compares the parts joined with dots; names contain no dots. -/
abbrev Ns := List Name

mutual
/-- include/modules/core.h, `type_t` and its kinds.  Generic and array types are interned
    (modules/core/assembly.cpp:150-186), so that equal types are one object. -/
inductive Ty where
  /-- the null pointer -/
  | null
  /-- `general_type_t`, the class itself -/
  | gen (t : Id)
  /-- `generic_type_t`: template, arguments, host type -/
  | inst (t : Id) (args : Tys) (host : Ty)
  /-- `generic_param_t` -/
  | gparam (p : Id)
  /-- `type_def_param_t`, with its index -/
  | dparam (i : Nat)
  /-- `array_type_t` -/
  | array (e : Ty) (dimension : Nat)
inductive Tys where
  | nil
  | cons (t : Ty) (l : Tys)
end

deriving instance DecidableEq for Ty, Tys
deriving instance Repr for Ty, Tys

def Tys.length : Tys → Nat
  | .nil => 0
  | .cons _ l => l.length + 1

def Tys.get : Tys → Nat → Ty
  | .nil, _ => .null
  | .cons t _, 0 => t
  | .cons _ l, n + 1 => l.get n

/-- modules/compile/__ast.h:1651-1709, `name_unit_t`: a part of a name, with the types given
    as its arguments. -/
structure NameUnit where
  name : Name
  args : Tys := .nil
deriving DecidableEq, Repr

/-- modules/compile/__ast.h:1700, `generic_args_count`. -/
def NameUnit.count (u : NameUnit) : Nat := u.args.length

/-- modules/compile/__ast.h:1703, `is_generic`. -/
def NameUnit.isGeneric (u : NameUnit) : Bool := u.count != 0

/-- modules/core/__assembly.h, `__general_type_key_t`; `count = none` stands for
    `UNCERTERN_PARAM_COUNT`. -/
structure TKey where
  ns : Ns
  name : Name
  count : Option Nat
  host : Option Id
deriving DecidableEq, Repr

/-- modules/core/__assembly.h, `__type_def_key_t`. -/
structure DKey where
  ns : Ns
  name : Name
  count : Nat
  host : Option Id
deriving DecidableEq, Repr

/-- modules/core/__assembly.h, the maps of `types_t`.  An entry for a typedef has the type
    its name stands for, `none` when that is not known yet. -/
structure Tables where
  types : List (TKey × Id) := []
  typeDefs : List (DKey × Option Ty) := []

/-- The declared classes of all assemblies. -/
structure World where
  tables : Nat → Tables
  /-- `general_type_t::assembly` -/
  assembly : Id → Nat
  /-- `general_type_t::namespace_` -/
  ns : Id → Ns
  /-- the `host_type`, its `host_type` and so on -/
  hosts : Id → List Id
  /-- `general_type_t::params` -/
  params : Id → List (Name × Id)
  /-- the names of type parameters -/
  paramName : Id → Name

/-- include/modules/core.h:2898-2922, `import_t`, with the assembly that `load_assembly`
    gives for it. -/
structure Import where
  alias_ : Option Name := none
  assembly : List Name
  loaded : Option Nat

/-- include/modules/core.h:2929-2950, `using_namespace_t`. -/
structure Using where
  alias_ : Option Name := none
  ns : Ns

/-- Where the name stands: `ast_walk_context_t`. -/
structure Context where
  self : Nat
  ns : Ns := []
  type : Option Id := none
  methodParams : List (Name × Id) := []
  /-- the parameters of the typedef the name is in -/
  typeDef : List (Name × Nat) := []
  imports : List Import := []
  usings : List Using := []

inductive Err where
  /-- `type_def_unsolved` -/
  | unsolved
  /-- a failed assertion, or a cast to a class of what is none -/
  | undefined
deriving DecidableEq, Repr

abbrev Res := Except Err (Option Ty)

/-- The pattern `if (r.success) return r.type;` before the next attempt. -/
def alt (a b : Res) : Res :=
  match a with
  | .error e => .error e
  | .ok (some t) => .ok (some t)
  | .ok none => b

def first {α : Type} (f : α → Res) : List α → Res
  | [] => .ok none
  | a :: l => alt (f a) (first f l)

/-- modules/core/assembly.cpp:80-91, `__ns_to_sid`: the namespace of the outermost class. -/
def outerNs (W : World) (t : Id) : Ns := W.ns ((W.hosts t).getLast?.getD t)

/-- modules/core/assembly.cpp:125-147, `get_general_type`; the host is not generic. -/
def getGeneral (W : World) (A : Nat) (ns : Ns) (u : NameUnit) (host : Ty) :
    Except Err (Option Id) :=
  let look (ns : Ns) (h : Option Id) : Option Id :=
    match (W.tables A).types.lookup ⟨ns, u.name, some u.count, h⟩ with
    | some t => some t
    | none =>
      match (W.tables A).types.lookup ⟨ns, u.name, none, h⟩ with
      | some t => if 0 < (W.params t).length ∧ (W.params t).length - 1 ≤ u.count
          then some t else none
      | none => none
  match host with
  | .null => .ok (look ns none)
  | .gen h => .ok (look (outerNs W h) (some h))
  | _ => .error .undefined

/-- modules/core/core.cpp:1819-1832, `__find_param`, as an index. -/
def paramIndex (l : List (Name × Id)) (n : Name) : Option Nat :=
  l.findIdx? fun p => p.1 == n

/-- modules/compile/ast_utils.cpp:713-730: the argument for a type parameter, in the generic
    types around. -/
def hostArg (W : World) (n : Name) : Ty → Option Ty
  | .inst t args host =>
    match paramIndex (W.params t) n with
    | some j => some (args.get j)
    | none => hostArg W n host
  | _ => none

mutual
/-- modules/compile/ast_utils.cpp:688-775, `__assign_type_def_param`: the type a typedef
    stands for, with the arguments for its parameters, and for the type parameters of the
    class it is in.  The flag `break_away` only spares making a type that exists. -/
def expand (W : World) (args : Tys) (host : Ty) : Ty → Ty
  | .null => .null
  | .dparam i => args.get i
  | .array e d => .array (expand W args host e) d
  | .gparam p => (hostArg W (W.paramName p) host).getD (.gparam p)
  | .gen t => .gen t
  | .inst t l h => .inst t (expandAll W args host l) (expand W args host h)
def expandAll (W : World) (args : Tys) (host : Ty) : Tys → Tys
  | .nil => .nil
  | .cons t l => .cons (expand W args host t) (expandAll W args host l)
end

/-- modules/compile/ast_utils.cpp:454-459: the template of a generic host. -/
def rawHost : Ty → Ty
  | .inst t _ _ => .gen t
  | t => t

/-- modules/compile/ast_utils.cpp:457: the assembly of a generic host. -/
def hostAssembly (W : World) (A : Nat) : Ty → Nat
  | .inst t _ _ => W.assembly t
  | _ => A

def hostId : Ty → Option Id
  | .gen h => some h
  | _ => none

/-- A pointer that may be null. -/
def ofPointer (t : Ty) : Option Ty := if t = .null then none else some t

/-- modules/compile/ast_utils.cpp:449-500, `__get_type`. -/
def getType (W : World) (C : Context) (A : Nat) (ns : Ns) (u : NameUnit) (host : Ty) : Res :=
  let A := hostAssembly W A host
  match (if u.count = 0 then C.typeDef.lookup u.name else none) with
  | some i => .ok (some (.dparam i))
  | none =>
    match getGeneral W A ns u (rawHost host) with
    | .error e => .error e
    | .ok (some t) => .ok (some (if u.count > 0 then .inst t u.args host else .gen t))
    | .ok none =>
      match (W.tables A).typeDefs.lookup ⟨ns, u.name, u.count, hostId (rawHost host)⟩ with
      | none => .ok none
      | some none => .error .unsolved
      | some (some ty) => .ok (ofPointer (expand W u.args host ty))

def isInst : Ty → Bool
  | .inst .. => true
  | _ => false

/-- modules/compile/ast_utils.cpp:519-545, the body of the inner loop of `__find_nest_type`:
    one part of the name, in a class. -/
def nestOne (W : World) (C : Context) (A : Nat) (ns : Ns) (nest : Ty) (u : NameUnit) : Res :=
  match getType W C A ns u nest with
  | .error e => .error e
  | .ok none => .ok none
  | .ok (some (.gen x)) =>
    if (isInst nest || decide (u.count > 0)) ∧ (W.hosts x).head? = hostId (rawHost nest)
        ∧ (W.hosts x).head?.isSome then
      if (W.params x).length = u.count then .ok (some (.inst x u.args nest))
      else .error .undefined
    else .ok (some (.gen x))
  | .ok (some t) => .ok (some t)

/-- modules/compile/ast_utils.cpp:515-558, the inner loop: the parts one in the other. -/
def down (W : World) (C : Context) (A : Nat) (ns : Ns) : Ty → List NameUnit → Res
  | t, [] => .ok (some t)
  | t, u :: us =>
    match nestOne W C A ns t u with
    | .error e => .error e
    | .ok none => .ok none
    | .ok (some t') => down W C A ns t' us

/-- modules/compile/ast_utils.cpp:511-565, the outer loop: a class and the classes around
    it, until one has the first part. -/
def outward (W : World) (C : Context) (A : Nat) (ns : Ns) (u : NameUnit) (us : List NameUnit) :
    List Ty → Res
  | [] => .ok none
  | t :: ts =>
    match nestOne W C A ns t u with
    | .error e => .error e
    | .ok none => outward W C A ns u us ts
    | .ok (some t') => down W C A ns t' us

/-- `type` and `as<general_type_t *>(type->host_type)` and so on; other kinds of types have
    no host. -/
def around (W : World) : Ty → List Ty
  | .null => []
  | .gen t => .gen t :: (W.hosts t).map .gen
  | .inst t args (.gen h) => .inst t args (.gen h) :: .gen h :: (W.hosts h).map .gen
  | t => [t]

/-- modules/compile/ast_utils.cpp:502-568, `__find_nest_type`. -/
def findNest (W : World) (C : Context) (A : Nat) (ns : Ns) (t : Ty) : List NameUnit → Res
  | [] => .ok (if t = .null then none else some t)
  | u :: us => outward W C A ns u us (around W t)

/-- modules/compile/ast_utils.cpp:664-686, `__find_type`. -/
def findType (W : World) (C : Context) (A : Nat) : Ns → List NameUnit → Res
  | _, [] => .ok none
  | ns, u :: us =>
    match getType W C A ns u .null with
    | .error e => .error e
    | .ok t =>
      alt (findNest W C A ns (t.getD .null) us)
        (if u.count = 0 then findType W C A (ns ++ [u.name]) us else .ok none)

/-- modules/compile/ast_utils.cpp:637-661, `__search_type`. -/
def searchType (W : World) (C : Context) (A : Nat) : Ns → List NameUnit → Res
  | _, [] => .ok none
  | ns, u :: us =>
    alt (findType W C A ns (u :: us))
      (if us ≠ [] ∧ u.isGeneric = false then searchType W C A (ns ++ [u.name]) us else .ok none)

/-- modules/compile/ast_utils.cpp:622-636, `__starts_with`. -/
def startsWith : List Name → List NameUnit → Bool
  | [], us => !us.isEmpty
  | _ :: _, [] => false
  | n :: ns, u :: us => !u.isGeneric && u.name == n && startsWith ns us

/-- modules/compile/ast_utils.cpp:601-619, `__import_starts_with`. -/
def importPrefix (i : Import) : List NameUnit → Nat
  | [] => 0
  | u :: us =>
    match i.alias_ with
    | some a => if !u.isGeneric && u.name == a then 1 else 0
    | none => if startsWith i.assembly (u :: us) then i.assembly.length else 0

/-- modules/compile/ast_utils.cpp:581-596, one import. -/
def inImport (W : World) (C : Context) (us : List NameUnit) (i : Import) : Res :=
  if importPrefix i us > 0 then
    match i.loaded with
    | none => .ok none
    | some A => searchType W C A [] (us.drop (importPrefix i us))
  else .ok none

/-- modules/compile/ast_utils.cpp:570-599, `__search_global_type`; there is a document. -/
def searchGlobal (W : World) (C : Context) (us : List NameUnit) : Res :=
  alt (searchType W C C.self [] us) (first (inImport W C us) C.imports)

/-- modules/compile/ast_utils.cpp:399-423, one `using`. -/
def inUsing (W : World) (C : Context) (us : List NameUnit) (v : Using) : Res :=
  match v.alias_ with
  | none => searchGlobal W C (v.ns.map (⟨·, .nil⟩) ++ us)
  | some a =>
    match us with
    | u :: u' :: us =>
      if !u.isGeneric && u.name == a
      then searchGlobal W C (v.ns.map (⟨·, .nil⟩) ++ u' :: us) else .ok none
    | _ => .ok none

/-- modules/compile/ast_utils.cpp:313-344, `__ascertain_param_type`. -/
def ofParam (W : World) (C : Context) : List NameUnit → Option Id
  | [u] =>
    if u.isGeneric then none
    else
      match C.methodParams.lookup u.name with
      | some p => some p
      | none =>
        match C.type with
        | none => none
        | some t => (t :: W.hosts t).findSome? fun t => (W.params t).lookup u.name
  | _ => none

/-- modules/compile/ast_utils.cpp:379-388: the loop over the namespace and those around
    it. -/
def upward (W : World) (C : Context) (us : List NameUnit) : Nat → Ns → Res
  | 0, ns => findType W C C.self ns us
  | n + 1, ns => alt (findType W C C.self ns us) (upward W C us n ns.dropLast)

/-- modules/compile/__ast.h:1717-1727, `global_type_t`. -/
inductive Global where
  | default_ | root | global
deriving DecidableEq, Repr

/-- modules/compile/ast_utils.cpp:297-428, `__ascertain_type`, `__ascertain_general_type`. -/
def resolve (W : World) (C : Context) (g : Global) (us : List NameUnit) : Res :=
  match ofParam W C us with
  | some p => .ok (some (.gparam p))
  | none =>
    match g with
    | .global => searchGlobal W C us
    | .root => alt (findType W C C.self [] us) (searchGlobal W C us)
    | .default_ =>
      alt (match C.type with
        | none => .ok none
        | some t => findNest W C C.self C.ns (.gen t) us)
      (alt (upward W C us C.ns.length C.ns)
        (alt (searchGlobal W C us) (first (inUsing W C us) C.usings)))

/-! ## The names of a program, one after the other -/

/-- A name of a type in the program, and whether it is what a typedef stands for: then the
    key of the typedef. -/
structure Use where
  ctx : Context
  global : Global := .default_
  units : List NameUnit
  defines : Option DKey := none

/-- The typedef has got its type. -/
def World.solve (W : World) (A : Nat) (k : DKey) (t : Ty) : World :=
  { W with tables := fun B =>
      if B = A then
        { W.tables A with
          typeDefs := (W.tables A).typeDefs.map fun e => if e.1 = k then (k, some t) else e }
      else W.tables B }

/-- modules/compile/ast.cpp:1262-1271, `__walk_confirm`, for all names in the order of the
    program; an error is reported and the next name is looked at. -/
def confirm (W : World) : List Use → List Res
  | [] => []
  | x :: xs =>
    let r := resolve W x.ctx x.global x.units
    let W' := match x.defines, r with
      | some k, .ok (some t) => W.solve x.ctx.self k t
      | _, _ => W
    r :: confirm W' xs

end Verif.Names
