import Verif.Model.Names

/-
  What the name of a type means: which readings a name has, and which of them counts.
-/

namespace Verif.Names.Spec

open Verif.Names

/-- A name without type arguments. -/
def plain (n : Name) : NameUnit := ⟨n, .nil⟩

/-- The class `x` is declared in the assembly `A`, in the namespace `ns` and the class `h`
    (or in none), with the name and the number of type parameters that `u` has; or with a
    list of type parameters that `u` fits and no such class is there. -/
def Class (W : World) (A : Nat) (ns : Ns) (h : Option Id) (u : NameUnit) (x : Id) : Prop :=
  (W.tables A).types.lookup ⟨ns, u.name, some u.count, h⟩ = some x ∨
  ((W.tables A).types.lookup ⟨ns, u.name, some u.count, h⟩ = none ∧
    (W.tables A).types.lookup ⟨ns, u.name, none, h⟩ = some x ∧
    0 < (W.params x).length ∧ (W.params x).length - 1 ≤ u.count)

/-- The typedef `u` is declared there, and stands for `ty`. -/
def Alias (W : World) (A : Nat) (ns : Ns) (h : Option Id) (u : NameUnit) (ty : Ty) : Prop :=
  (W.tables A).typeDefs.lookup ⟨ns, u.name, u.count, h⟩ = some (some ty)

/-- A type declared outside of all classes. -/
def Top (W : World) (A : Nat) (ns : Ns) (u : NameUnit) (t : Ty) : Prop :=
  (∃ x, Class W A ns none u x ∧ t = if u.args = .nil then .gen x else .inst x u.args .null) ∨
  ((∀ x, ¬ Class W A ns none u x) ∧ ∃ ty, Alias W A ns none u ty ∧
    t = expand W u.args .null ty ∧ t ≠ .null)

/-- The class of a class or of one of its instances. -/
def classOf : Ty → Option Id
  | .gen h => some h
  | .inst h _ _ => some h
  | _ => none

/-- A class of a class `host`: without type arguments in a class without them it is itself. -/
def within (host : Ty) (u : NameUnit) (x : Id) : Ty :=
  if u.args = .nil ∧ isInst host = false then .gen x else .inst x u.args host

/-- A type declared inside the class, or instance, `host`. -/
def Member (W : World) (host : Ty) (u : NameUnit) (t : Ty) : Prop :=
  ∃ h, classOf host = some h ∧
    ((∃ x, Class W (W.assembly h) (outerNs W h) (some h) u x ∧ t = within host u x) ∨
     ((∀ x, ¬ Class W (W.assembly h) (outerNs W h) (some h) u x) ∧
      ∃ ty, Alias W (W.assembly h) (outerNs W h) (some h) u ty ∧
        match expand W u.args host ty with
        | .gen x => t = if (W.hosts x).head? = some h then within host u x else .gen x
        | t' => t = t' ∧ t ≠ .null))

/-- The parts `us` lead from the type `t` to the type `r`, each inside the one before. -/
def Inside (W : World) : Ty → List NameUnit → Ty → Prop
  | t, [], r => r = t
  | t, u :: us, r => ∃ t', Member W t u t' ∧ Inside W t' us r

/-- The name read in the namespace `ns`: the first `k` parts are namespaces, the next one is
    a type there, the others are inside it. -/
def Reading (W : World) (A : Nat) (ns : Ns) (us : List NameUnit) (k : Nat) (t : Ty) : Prop :=
  ∃ pre u post t0, us = pre.map plain ++ u :: post ∧ pre.length = k ∧
    Top W A (ns ++ pre) u t0 ∧ Inside W t0 post t

/-- A place to look in, and the name to look for. -/
inductive Place where
  /-- a class and the classes around it, the innermost first -/
  | classes (hs : List Id) (us : List NameUnit)
  /-- a namespace of an assembly -/
  | namespace_ (A : Nat) (ns : Ns) (us : List NameUnit)

/-- What the name means in a place.  Among classes the innermost class counts that has the
    first part of the name; in a namespace the reading counts that takes the fewest parts
    for namespaces. -/
def Answer (W : World) : Place → Ty → Prop
  | .classes hs us, t => ∃ inner h outer u post t1, hs = inner ++ h :: outer ∧ us = u :: post ∧
      (∀ h' ∈ inner, ∀ t', ¬ Member W (.gen h') u t') ∧ Member W (.gen h) u t1 ∧
      Inside W t1 post t
  | .namespace_ A ns us, t => ∃ k, Reading W A ns us k t ∧ ∀ j < k, ∀ t', ¬ Reading W A ns us j t'

/-- What is left of the name after the name of an import. -/
def afterImport (i : Import) (us : List NameUnit) : Option (List NameUnit) :=
  match i.alias_ with
  | some a =>
    match us with
    | u :: rest => if u = plain a then some rest else none
    | [] => none
  | none =>
    if i.assembly ≠ [] ∧ us.take i.assembly.length = i.assembly.map plain ∧
        i.assembly.length < us.length
    then some (us.drop i.assembly.length) else none

/-- The assembly itself, then the imported assemblies. -/
def everywhere (C : Context) (us : List NameUnit) : List Place :=
  .namespace_ C.self [] us :: C.imports.filterMap fun i =>
    match afterImport i us, i.loaded with
    | some rest, some A => some (.namespace_ A [] rest)
    | _, _ => none

/-- The name with the namespace of a `using`. -/
def byUsing (v : Using) (us : List NameUnit) : Option (List NameUnit) :=
  match v.alias_ with
  | none => some (v.ns.map plain ++ us)
  | some a =>
    match us with
    | u :: u' :: rest => if u = plain a then some (v.ns.map plain ++ u' :: rest) else none
    | _ => none

/-- A namespace and those around it. -/
def enclosing (ns : Ns) : List Ns :=
  (List.range (ns.length + 1)).map fun i => ns.take (ns.length - i)

/-- Where a name is looked for, in this order. -/
def places (W : World) (C : Context) (us : List NameUnit) : Global → List Place
  | .global => everywhere C us
  | .root => .namespace_ C.self [] us :: everywhere C us
  | .default_ =>
    (match C.type with
      | none => []
      | some t => [.classes (t :: W.hosts t) us]) ++
    (enclosing C.ns).map (.namespace_ C.self · us) ++ everywhere C us ++
    C.usings.flatMap fun v =>
      match byUsing v us with
      | none => []
      | some us => everywhere C us

/-- The type parameters that can be seen, the innermost first. -/
def typeParams (W : World) (C : Context) : List (Name × Id) :=
  C.methodParams ++ match C.type with
    | none => []
    | some t => (t :: W.hosts t).flatMap W.params

/-- The type parameter a name stands for. -/
def asParam (W : World) (C : Context) : List NameUnit → Option Id
  | [u] => if u.args = .nil then (typeParams W C).lookup u.name else none
  | _ => none

/-- The meaning of a name: a type parameter that can be seen, or what the first place says
    that says anything. -/
def Meaning (W : World) (C : Context) (g : Global) (us : List NameUnit) (t : Ty) : Prop :=
  match asParam W C us with
  | some p => t = .gparam p
  | none => ∃ before p after, places W C us g = before ++ p :: after ∧ Answer W p t ∧
      ∀ q ∈ before, ∀ t', ¬ Answer W q t'

/-! ## Conditions -/

/-- The tables hold the classes as they are declared. -/
structure WellFormed (W : World) : Prop where
  hosts : ∀ t h tl, W.hosts t = h :: tl → tl = W.hosts h ∧ W.assembly t = W.assembly h
  tables : ∀ A k x, (k, x) ∈ (W.tables A).types →
    W.assembly x = A ∧ k.host = (W.hosts x).head? ∧ k.ns = outerNs W x

/-- The class a name stands in belongs to the assembly and the namespace. -/
def Placed (W : World) (C : Context) : Prop :=
  ∀ t, C.type = some t → W.assembly t = C.self ∧ outerNs W t = C.ns

/-- No typedef has this name. -/
def NoAlias (W : World) (n : Name) : Prop :=
  ∀ A e, e ∈ (W.tables A).typeDefs → e.1.name ≠ n

/-- Only the last part of the name may be a typedef. -/
def AliasLast (W : World) (C : Context) (us : List NameUnit) : Prop :=
  (∀ u ∈ us.dropLast, NoAlias W u.name) ∧ ∀ v ∈ C.usings, ∀ n ∈ v.ns, NoAlias W n

/-- All typedefs have got their types. -/
def Solved (W : World) : Prop := ∀ A e, e ∈ (W.tables A).typeDefs → e.2.isSome

/-- Every class has a fixed number of type parameters, the one in the table. -/
def Counted (W : World) : Prop :=
  ∀ A k x, (k, x) ∈ (W.tables A).types → k.count = some (W.params x).length

/-- The typedefs stand outside of classes. -/
def AliasesOutside (W : World) : Prop := ∀ A e, e ∈ (W.tables A).typeDefs → e.1.host = none

end Verif.Names.Spec
