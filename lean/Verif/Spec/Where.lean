import Verif.Model.Where
import Verif.Spec.Subst

/-!
# What the constraints of type parameters mean
-/

namespace Verif.Where

open Verif.Subst

/-- The argument for a parameter; that of the innermost generic counts. -/
def argument : List (List Nat × List Ty) → Nat → Option Ty
  | [], _ => none
  | l :: ls, n => (bind l.1 l.2 n).or (argument ls n)

/-- Classes, interfaces. -/
def Reference (W : World) (t : Ty) : Prop := W.kind t = .class_ ∨ W.kind t = .interface

/-- Structs, enums. -/
def Value (W : World) (t : Ty) : Prop := W.kind t = .struct_ ∨ W.kind t = .enum

/-- It can be created with `new T()`. -/
def Creatable (W : World) (t : Ty) : Prop := (W.kind t = .class_ ∨ W.kind t = .struct_) ∧ W.ctor t = true

/-- An argument meets a clause. -/
structure Meets (W : World) (σ : Nat → Option Ty) (c : Clause) (arg : Ty) : Prop where
  converts : ∀ t ∈ c.types, W.compat arg (replace σ t) = true
  reference : c.isClass = true → Reference W arg
  value : c.isStruct = true → Value W arg
  creatable : c.isNew = true → Creatable W arg

/-- A type that is neither a parameter nor nothing, of a known kind. -/
def Actual (W : World) (t : Ty) : Prop := t.isNull = false ∧ (∀ n, t ≠ .param n) ∧ t ≠ .nullType ∧ W.kind t ≠ .unknown

/-- Proper levels: no name twice, an argument for each parameter. -/
def Levels (levels : List (List Nat × List Ty)) : Prop :=
  (levels.flatMap (·.1)).Nodup ∧ ∀ l ∈ levels, l.1.length ≤ l.2.length

/-- A clause of a generic: for one of its parameters, with types over these that are no structs. -/
def Proper (W : World) (levels : List (List Nat × List Ty)) (c : Clause) : Prop :=
  c.name ∈ levels.flatMap (·.1) ∧
  ∀ t ∈ c.types, Over (levels.flatMap (·.1)) t ∧ W.kind (replace (argument levels) t) ≠ .struct_

/-- Conversions are transitive, and only references convert to a class, except to `Object` and `Enum`. -/
structure Sane (W : World) : Prop where
  trans : ∀ a b c, W.compat a b = true → W.compat b c = true → W.compat a c = true
  up : ∀ a b, W.compat a b = true → W.kind b = .class_ → isBasic b W.enumType = false → isBasic b W.objectType = false → Reference W a

/-- The clause that holds for a type parameter. -/
def governs (ctx : Ctx) (n : Nat) : Option Clause := (ctx.method.toList ++ ctx.types).findSome? fun cs => cs.find? fun c => c.name == n

/-- The types of the clauses of a place are without parameters, and the arguments meet them. -/
def Obeys (W : World) (ctx : Ctx) (τ : Nat → Option Ty) : Prop :=
  ∀ n a, τ n = some a → Actual W a ∧ ∀ c, governs ctx n = some c → (∀ t ∈ c.types, Closed t) ∧ Meets W τ c a

/-- A clause that is well formed: its types are different, not sealed, and not `Object`; only the first can be a class; there is
no class besides `class` or `struct`, except `Enum`; not `class` and `struct` together, not `struct` and `new()`. -/
structure WellFormed (W : World) (c : Clause) : Prop where
  distinct : c.types.Nodup
  notObject : ∀ t ∈ c.types, t ≠ .basic W.objectType
  notSealed : ∀ t ∈ c.types, W.isSealed t = false
  classFirst : ∀ t ∈ c.types.tail, W.kind t ≠ .class_
  noClass : c.isClass = true ∨ c.isStruct = true → ∀ t ∈ c.types, W.kind t = .class_ → t = .basic W.enumType
  notBoth : ¬(c.isClass = true ∧ c.isStruct = true)
  notNew : ¬(c.isStruct = true ∧ c.isNew = true)

/-- A type parameter. -/
def paramOf : Ty → Option Nat
  | .param n => some n
  | _ => none

/-- The type parameters among the types of the clauses. -/
def dependencies (cs : List Clause) : Verif.Decl.Deps :=
  (cs.map fun c => (c.name, c.types.filterMap paramOf)).filter fun e => !e.2.isEmpty

end Verif.Where
