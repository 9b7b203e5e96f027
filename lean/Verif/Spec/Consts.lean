import Verif.Model.Consts

/-!
# What the values of constants should be
-/

namespace Verif.Consts

variable {V : Type}

/-- The value of an expression when the fields have the values `vals`. -/
def den (vals : Nat → V) : Ex V → Option V
  | .lit c => c
  | .field i => some (vals i)
  | .op f a b => f (den vals a) (den vals b)

/-- `vals` gives every constant the value of its expression, or the default value when there is none. -/
def IsValues (decl : List (Fld V)) (vals : Nat → V) : Prop :=
  ∀ (i : Nat) (f : Fld V), decl[i]? = some f → f.const = true →
    match f.init with
    | none => vals i = f.dflt
    | some e => den vals e = some (vals i)

/-- Only constants occur in the values of constants. -/
def OnlyConsts (decl : List (Fld V)) : Prop :=
  ∀ (i : Nat) (f : Fld V) (e : Ex V), decl[i]? = some f → f.const = true → f.init = some e →
    ∀ j ∈ refs e, ∃ g, decl[j]? = some g ∧ g.const = true

/-- Every field that occurs is a field of the class. -/
def Closed (decl : List (Fld V)) : Prop := ∀ (i : Nat) (e : Ex V), initOf decl i = some e → ∀ j ∈ refs e, j < decl.length

/-- `j` occurs in the initial value of `i`. -/
def Needs (s : List (Fld V)) (i j : Nat) : Prop := ∃ e, initOf s i = some e ∧ j ∈ refs e

/-- One or more steps of `Needs`. -/
inductive NeedsPlus (s : List (Fld V)) : Nat → Nat → Prop
  | one {i j} : Needs s i j → NeedsPlus s i j
  | cons {i j k} : Needs s i j → NeedsPlus s j k → NeedsPlus s i k

/-- The value of `i` leads to a field that needs itself. -/
def OnCircle (s : List (Fld V)) (i : Nat) : Prop := ∃ j, (i = j ∨ NeedsPlus s i j) ∧ NeedsPlus s j j

/-- The value that a constant has in the end. -/
def valueOf (s : St V) (i : Nat) : Option V :=
  match initOf s.flds i with
  | some (.lit c) => c
  | _ => none

end Verif.Consts
