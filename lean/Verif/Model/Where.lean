import Verif.Model.Subst
import Verif.Model.Decl

/-!
# Constraints of type parameters

Models the check of a use of a generic type or method (`__check_generic_constraints_t`, `modules/compile/ast.cpp:1278-1575`) and the
check of the clauses themselves (`__check_generic_template_constraints_t`, `modules/compile/ast.cpp:3070-3219`); circular clauses are
`Verif.Decl.checkDependency` (C81).

Simplifications.  What a type is (class, struct, sealed, its conversions and constructors) is given by a `World`; the conversions
themselves are C78's matter.  Names are numbers.  The use of a null pointer and a failed assertion are `none`.
-/

namespace Verif.Where

open Verif.Subst

/-- `ttype_t`. -/
inductive Kind where
  | class_ | interface | struct_ | enum | unknown
  deriving DecidableEq

/-- What is known about types: `this_ttype`, `is_type_compatible`, `has_public_default_constructor`, `is_sealed`, the types `System.Enum`
and `System.Object`. -/
structure World where
  kind : Ty → Kind
  compat : Ty → Ty → Bool
  ctor : Ty → Bool
  isSealed : Ty → Bool
  enumType : Nat
  objectType : Nat

/-- `type == __XPool.get_…_type()`. -/
def isBasic : Ty → Nat → Bool
  | .basic m, n => m == n
  | _, _ => false

/-- `generic_constraint_t` — `include/modules/core.h:2851-2889`: `where name : class, types…, new()`. -/
structure Clause where
  name : Nat
  types : List Ty
  isClass : Bool := false
  isStruct : Bool := false
  isNew : Bool := false

/-- The codes of the reports — `modules/compile/ast.cpp:584-659`. -/
inductive Code where
  | noConversion
  | expectValue
  | expectReference
  | expectConstructor
  | invalidType
  | duplicateClause
  | duplicateType
  | classOrStruct
  | specialType
  | position
  | combined
  | newWithStruct
  | circular
  deriving DecidableEq

/-! ## A use -/

/-- Where the use is: the clauses of the current method, if there is one, and of the current type and those that enclose it. -/
structure Ctx where
  method : Option (List Clause)
  types : List (List Clause)

/-- `__search_constraint(constraints, name)` — `modules/compile/ast.cpp:1545-1557`. -/
def clauseIn (cs : List Clause) (name : Nat) : Option Clause := cs.find? fun c => c.name == name

/-- `__search_constraint(name)` — `modules/compile/ast.cpp:1518-1542`; the current method is used without a test. -/
def clauseOf (ctx : Ctx) (name : Nat) : Option (Option Clause) :=
  match ctx.method with
  | none => none
  | some cs => some ((clauseIn cs name).or (ctx.types.findSome? fun cs => clauseIn cs name))

/-- `__generic_param_types_t`: `__fill` and `get_type(name)` — `modules/compile/ast.cpp:1283-1352`: the parameters and arguments of the
generic and of the generic types that enclose it; the later ones overwrite. -/
def getType (levels : List (List Nat × List Ty)) (name : Nat) : Ty :=
  (levels.reverse.findSome? fun l => (l.1.zip l.2).reverse.lookup name).getD .null

/-- `is_ref_type` — `modules/core/core.cpp:3209-3217`, `include/modules/core.h:2122-2125`. -/
def World.isRef (W : World) : Ty → Bool
  | .nullType => true
  | t => W.kind t == .class_ || W.kind t == .interface

/-- `__is_type_compatible` — `modules/compile/ast.cpp:1440-1463`. -/
def fits (W : World) (ctx : Ctx) (from_ to : Ty) : Option Bool :=
  match from_ with
  | .param n => (clauseOf ctx n).map fun
    | none => false
    | some c => c.types.any fun t => W.compat t to
  | .null => none
  | t => some (W.compat t to)

/-- `__is_ref_type` — `modules/compile/ast.cpp:1466-1495`. -/
def refType (W : World) (ctx : Ctx) (t : Ty) : Option Bool :=
  match t with
  | .param n => (clauseOf ctx n).map fun
    | none => false
    | some c => c.isClass || c.types.any fun t => !isBasic t W.enumType && !isBasic t W.objectType && W.kind t == .class_
  | .null => none
  | t => some (W.isRef t)

/-- `__has_public_default_constructor` — `modules/compile/ast.cpp:1504-1515`. -/
def newable (W : World) (ctx : Ctx) (t : Ty) : Option Bool :=
  match t with
  | .param n => (clauseOf ctx n).map fun
    | none => false
    | some c => c.isNew
  | .null => some false
  | t => some ((W.kind t == .class_ || W.kind t == .struct_) && W.ctor t)

/-- The loop over the types of a clause — `modules/compile/ast.cpp:1409-1420`.  A report, if there is one. -/
def checkTypes (W : World) (ctx : Ctx) (names : Nat → Ty) (arg : Ty) : List Ty → Option (Option Code)
  | [] => some none
  | t :: ts =>
    if t.isNull || (transform names t).isNull then checkTypes W ctx names arg ts
    else if W.kind (transform names t) == .struct_ then some (some .invalidType)
    else match fits W ctx arg (transform names t) with
      | none => none
      | some false => some (some .noConversion)
      | some true => checkTypes W ctx names arg ts

/-- The tests of `class`, `struct` and `new()` — `modules/compile/ast.cpp:1424-1435`. -/
def checkFlags (W : World) (ctx : Ctx) (arg : Ty) (c : Clause) : Option (Option Code) :=
  match (if c.isClass then refType W ctx arg else some true) with
  | none => none
  | some false => some (some .expectValue)
  | some true =>
    match (if c.isStruct then (refType W ctx arg).map (!·) else some true) with
    | none => none
    | some false => some (some .expectReference)
    | some true =>
      match (if c.isNew then newable W ctx arg else some true) with
      | none => none
      | some false => some (some .expectConstructor)
      | some true => some none

/-- `__check(constraint)` — `modules/compile/ast.cpp:1402-1438`. -/
def checkClause (W : World) (ctx : Ctx) (names : Nat → Ty) (c : Clause) : Option (Option Code) :=
  match checkTypes W ctx names (names c.name) c.types with
  | none => none
  | some (some r) => some (some r)
  | some none => checkFlags W ctx (names c.name) c

/-- `check()` — `modules/compile/ast.cpp:1370-1386`: the reports. -/
def checkUse (W : World) (ctx : Ctx) (names : Nat → Ty) : List Clause → Option (List Code)
  | [] => some []
  | c :: cs =>
    match checkClause W ctx names c with
    | none => none
    | some r => (checkUse W ctx names cs).map fun rs => r.toList ++ rs

/-! ## The clauses -/

mutual
/-- Equal types are one object. -/
def tyEq : Ty → Ty → Bool
  | .null, .null => true
  | .nullType, .nullType => true
  | .basic a, .basic b => a == b
  | .param a, .param b => a == b
  | .array a d, .array b e => tyEq a b && d == e
  | .gen t as h, .gen u bs k => t == u && tysEq as bs && tyEq h k
  | _, _ => false
/-- Lists of types. -/
def tysEq : List Ty → List Ty → Bool
  | [], [] => true
  | a :: as, b :: bs => tyEq a b && tysEq as bs
  | _, _ => false
end

/-- The dependency that is noted for a type — `modules/compile/ast.cpp:3173-3179`. -/
def noted : Ty → List Nat
  | .param n => [n]
  | _ => []

/-- The loop over the types of a clause — `modules/compile/ast.cpp:3142-3183`: a report, and the type parameters that were noted. -/
def declTypes (W : World) (c : Clause) : List Ty → Nat → List Ty → List Nat → Option Code × List Nat
  | _, _, [], deps => (none, deps)
  | seen, index, t :: ts, deps =>
    if seen.any (tyEq t) then (some .duplicateType, deps)
    else if W.kind t == .class_ && !isBasic t W.enumType && (c.isClass || c.isStruct) then (some .classOrStruct, deps)
    else if isBasic t W.objectType then (some .specialType, deps)
    else if W.isSealed t then (some .invalidType, deps)
    else if W.kind t == .class_ && decide (index ≥ 1) then (some .position, deps)
    else declTypes W c (t :: seen) (index + 1) ts (deps ++ noted t)

/-- `__check(constraint)` — `modules/compile/ast.cpp:3136-3206`. -/
def declClause (W : World) (c : Clause) : Option Code × List Nat :=
  match declTypes W c [] 0 c.types [] with
  | (some r, deps) => (some r, deps)
  | (none, deps) =>
    if c.isClass && c.isStruct then (some .combined, deps)
    else if c.isStruct && c.isNew then (some .newWithStruct, deps)
    else (none, deps)

/-- The loop of `check()` — `modules/compile/ast.cpp:3097-3110`; the dependencies of `__append_dependency` — `ast.cpp:3208-3219`.  A second
clause for a parameter ends the whole check: then there are no dependencies. -/
def declLoop (W : World) : List Nat → List Clause → Verif.Decl.Deps → List Code × Option Verif.Decl.Deps
  | _, [], deps => ([], some deps)
  | names, c :: cs, deps =>
    if names.contains c.name then ([.duplicateClause], none)
    else
      let r := declClause W c
      let rest := declLoop W (c.name :: names) cs (if r.2.isEmpty then deps else deps ++ [(c.name, r.2)])
      (r.1.toList ++ rest.1, rest.2)

/-- `check()` — `modules/compile/ast.cpp:3089-3116`: the reports. -/
def checkDecl (W : World) (cs : List Clause) : List Code :=
  match declLoop W [] cs [] with
  | (rs, none) => rs
  | (rs, some deps) => rs ++ (if (Verif.Decl.checkDependency deps).isSome then [.circular] else [])

end Verif.Where
