import Verif.Model.Subst

/-!
# Replacing type parameters
-/

namespace Verif.Subst

mutual
/-- The type with arguments in place of parameters. -/
def replace (σ : Nat → Option Ty) : Ty → Ty
  | .param n => (σ n).getD (.param n)
  | .array e d => .array (replace σ e) d
  | .gen t args h => .gen t (replaceAll σ args) (replace σ h)
  | .null => .null
  | .nullType => .nullType
  | .basic n => .basic n
/-- In each of some types. -/
def replaceAll (σ : Nat → Option Ty) : List Ty → List Ty
  | [] => []
  | t :: ts => replace σ t :: replaceAll σ ts
end

/-- The argument for a parameter. -/
def bind (params : List Nat) (args : List Ty) (n : Nat) : Option Ty := (params.zip args).lookup n

/-- First these, then those. -/
def orElse (σ τ : Nat → Option Ty) (n : Nat) : Option Ty := (σ n).or (τ n)

mutual
/-- A type whose parameters are all among these, and that is not enclosed in another type. -/
def Over (params : List Nat) : Ty → Prop
  | .param n => n ∈ params
  | .array e _ => Over params e
  | .gen _ args h => OverAll params args ∧ h = .null
  | .null => False
  | .nullType => True
  | .basic _ => True
/-- Each of some types. -/
def OverAll (params : List Nat) : List Ty → Prop
  | [] => True
  | t :: ts => Over params t ∧ OverAll params ts
end

mutual
/-- A type in which no parameter is in an array. -/
def Bare : Ty → Prop
  | .array e _ => Closed e
  | .gen _ args h => BareAll args ∧ Closed h
  | _ => True
/-- Each of some types. -/
def BareAll : List Ty → Prop
  | [] => True
  | t :: ts => Bare t ∧ BareAll ts
/-- A type without parameters. -/
def Closed : Ty → Prop
  | .param _ => False
  | .array e _ => Closed e
  | .gen _ args h => ClosedAll args ∧ Closed h
  | _ => True
/-- Each of some types. -/
def ClosedAll : List Ty → Prop
  | [] => True
  | t :: ts => Closed t ∧ ClosedAll ts
end

/-- Proper arguments. -/
def Given (args : List Ty) : Prop := ∀ t ∈ args, t.isNull = false

/-- Not enclosed in a type with arguments. -/
def Outer (hosts : List Host) : Prop := ∀ h ∈ hosts, h = .plain

end Verif.Subst
