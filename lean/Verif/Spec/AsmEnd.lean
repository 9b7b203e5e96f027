import Verif.Spec.Asm

/-
  A program that is finite: all its declarations, and everything they name, are in one
  list.  Nothing is said about circles: a class may name itself through its members, its
  base types, type arguments, attributes and so on.
-/

namespace Verif.Asm.Spec

open Verif.Asm

/-- What a request of a method body names. -/
def asked : Load → Id
  | .type t => t
  | .method m => m
  | .field f => f

/-- All declarations the program reaches are in the list `U`. -/
structure FiniteProgram (W : World) (U : List Id) : Prop where
  types : ∀ t ∈ W.types, t ∈ U
  typeDefs : ∀ t ∈ W.typeDefs, t ∈ U
  self : W.self ∈ U
  loads : ∀ l ∈ W.loads, asked l ∈ U
  one : ∀ e ∈ U, ∀ f x, W.one e f = some x → x ∈ U
  many : ∀ e ∈ U, ∀ f, ∀ x ∈ W.many e f, x ∈ U

/-! ## Programs that are complete and well scoped -/

/-- The lists of declarations that a declaration has. -/
def lists : Kind → List (String × Kind)
  | .type => [("generic_params", .genericParam), ("methods", .method),
      ("properties", .property), ("fields", .field), ("events", .event),
      ("type_defs", .typeDef), ("nest_types", .nestType), ("super_types", .superType),
      ("attributes", .attribute)]
  | .genericType => [("args", .genericArgument)]
  | .methodRef => [("params", .methodRefParam)]
  | .attribute => [("arguments", .attributeArgument)]
  | .genericParam | .typeDefParam | .param | .field | .event => [("attributes", .attribute)]
  | .method => [("generic_params", .genericParam), ("attributes", .attribute),
      ("params", .param)]
  | .property => [("attributes", .attribute), ("params", .param)]
  | .typeDef => [("params", .typeDefParam)]
  | _ => []

/-- The attributes that are types. -/
def typeColumns : Kind → List String
  | .typeRef => ["host"]
  | .genericType => ["template", "host"]
  | .arrayType => ["element_type"]
  | .methodRef => ["host", "type"]
  | .methodRefParam | .attribute | .param | .field | .typeDef => ["type"]
  | .method | .property | .event => ["type", "owner"]
  | _ => []

/-- The attributes that are constants. -/
def constantColumns : Kind → List String
  | .attributeArgument => ["value"]
  | .param => ["default_value"]
  | .field => ["init_value"]
  | _ => []

/-- The type `t` is named in the attribute `f` of `e`.  An element of a list of types names
    itself. -/
inductive Names (W : World) : Kind → Id → String → Id → Prop
  | column {k e f t} : f ∈ typeColumns k → W.one e f = some t → Names W k e f t
  | element {k e} : k = .genericArgument ∨ k = .nestType ∨ k = .superType → Names W k e "" e
  | constant {k e f c t} : f ∈ constantColumns k → W.one e f = some c →
      W.one c "type" = some t → Names W k e f t

def isParam : GType → Bool
  | .genericParam _ | .typeDefParam => true
  | _ => false

/-- The table the row of a type goes to. -/
def tableOf : GType → Option Kind
  | .general true => some .type
  | .general false => some .typeRef
  | .generic => some .genericType
  | .array => some .arrayType
  | _ => none

/-- The type parameters a declaration declares. -/
def declared (W : World) : Kind → Id → List Id
  | .type, e | .method, e => W.many e "generic_params"
  | .typeDef, e => W.many e "params"
  | _, _ => []

/-- The type of a method of another assembly, or of one of its parameters, may be a type
    parameter of that method or its class. -/
def foreign (W : World) (k : Kind) (f : String) (p : Id) : Prop :=
  (k = .methodRef ∨ k = .methodRefParam) ∧ f = "type" ∧ ∃ j, W.gtype p = .genericParam j

/-- The type parameter `p` is free in `e`: it is named there, or in a type named there, or
    in a declaration that is part of `e`, and `e` does not declare it.  Naming a class of
    the assembly does not mean naming what occurs inside the class. -/
inductive Mentions (W : World) : Kind → Id → Id → Prop
  | param {k e f p} : Names W k e f p → isParam (W.gtype p) = true → p ∉ declared W k e →
      ¬ foreign W k f p → Mentions W k e p
  | type {k e f t k' p} : Names W k e f t → tableOf (W.gtype t) = some k' → k' ≠ .type →
      Mentions W k' t p → p ∉ declared W k e → Mentions W k e p
  | part {k e f k' x p} : (f, k') ∈ lists k → x ∈ W.many e f → Mentions W k' x p →
      p ∉ declared W k e → Mentions W k e p

/-- The type parameters of the classes of the assembly. -/
def ofClass (W : World) (p : Id) : Prop := ∃ t ∈ W.types, p ∈ W.many t "generic_params"

/-- The type parameters of the methods of the classes of the assembly. -/
def ofMethod (W : World) (p : Id) : Prop :=
  ∃ t ∈ W.types, ∃ m ∈ W.many t "methods", p ∈ W.many m "generic_params"

/-- The names that must not be empty. -/
def requiredNames : Kind → List String
  | .assemblyRef | .typeDefParam | .method | .param | .field | .event => ["name"]
  | _ => []

/-- The types that must be there. -/
def requiredTypes : Kind → List String
  | .genericType => ["template"]
  | .arrayType => ["element_type"]
  | .param | .property | .field | .event | .typeDef | .methodRefParam | .attribute => ["type"]
  | _ => []

/-- A program without errors.  `D k e` says that `e` is one of the declarations of kind `k`
    of the program. -/
structure Legal (W : World) (D : Kind → Id → Prop) : Prop where
  types : ∀ t ∈ W.types, D .type t ∧ W.gtype t = .general true
  typeDefs : ∀ d ∈ W.typeDefs, D .typeDef d
  self : D .assembly W.self
  /-- every class of the assembly is in the list of classes -/
  own : ∀ t, D .type t → t ∈ W.types
  lists : ∀ k e f k' x, D k e → (f, k') ∈ lists k → x ∈ W.many e f → D k' x
  names : ∀ k e f t k', D k e → Names W k e f t → tableOf (W.gtype t) = some k' → D k' t
  /-- a class or typedef is nested in a class of the assembly -/
  host : ∀ e h, D .type e ∨ D .typeDef e → W.one e "host" = some h →
    D .type h ∧ W.gtype h = .general true
  /-- a foreign class is nested in a foreign class and belongs to an assembly -/
  foreignHost : ∀ e h, D .typeRef e → W.one e "host" = some h → W.gtype h = .general false
  assembly : ∀ e, D .typeRef e → ∃ a, W.one e "assembly" = some a ∧ D .assemblyRef a
  /-- accessors, attribute constructors and the entry point are methods of the assembly -/
  methods : ∀ k e f m, D k e → f ∈ methodColumns → W.one e f = some m →
    W.own m = true ∧ ∃ t ∈ W.types, m ∈ W.many t "methods"
  nested : ∀ x, D .nestType x → W.gtype x = .general true
  requiredNames : ∀ k e f, D k e → f ∈ requiredNames k → W.text e f ≠ ""
  requiredTypes : ∀ k e f, D k e → f ∈ requiredTypes k → ∃ t, W.one e f = some t
  /-- an attribute is a class without type parameters; its constructor gets as many
      arguments as it has parameters, and not more than one (`two_arguments_refuted`) -/
  attributes : ∀ e, D .attribute e →
    (∀ t, W.one e "type" = some t → (∃ b, W.gtype t = .general b) ∧
      W.many t "generic_params" = []) ∧
    ∃ c, W.one e "constructor" = some c ∧
      (W.many c "params").length = (W.many e "arguments").length ∧
      (W.many e "arguments").length ≤ 1
  /-- the type parameters of classes may be used anywhere, all others inside what declares
      them -/
  typeScope : ∀ t ∈ W.types, ∀ p, Mentions W .type t p → ofClass W p
  typeDefScope : ∀ d ∈ W.typeDefs, ∀ p, Mentions W .typeDef d p → ofClass W p
  /-- methods of other assemblies have no type parameters inside their types
      (`foreign_generic_refuted`) -/
  foreignScope : ∀ m p, D .methodRef m → ¬ Mentions W .methodRef m p
  /-- what is declared as a type parameter is one -/
  params : ∀ k e p, D k e → p ∈ declared W k e →
    if k = .typeDef then W.gtype p = .typeDefParam else ∃ j, W.gtype p = .genericParam j
  /-- what method bodies name is declared; they may name the type parameters of classes and
      of methods -/
  loads : ∀ l ∈ W.loads, match l with
    | .type t => (∀ k', tableOf (W.gtype t) = some k' → D k' t) ∧
        (isParam (W.gtype t) = true → ofClass W t ∨ ofMethod W t) ∧
        ∀ k' p, tableOf (W.gtype t) = some k' → k' ≠ .type → Mentions W k' t p →
          ofClass W p ∨ ofMethod W p
    | .method m => if W.own m then ∃ t ∈ W.types, m ∈ W.many t "methods" else D .methodRef m
    | .field f => ∃ t ∈ W.types, f ∈ W.many t "fields"

end Verif.Asm.Spec
