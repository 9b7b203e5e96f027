import Verif.Model.Enums

/-!
# What the values of enumerators should be
-/

namespace Verif.Enums

/-- The value of an expression when the enumerators have the values `vals` in the type `t`. -/
def den (t : Fold.VT) (vals : List Int) : Ex → Cv
  | .lit c => c
  | .field i => .num t (vals.getD i 0)
  | .op f a b => f (den t vals a) (den t vals b)

/-- `v` is a value of the underlying type `t`. -/
def Fits (t : Fold.VT) (v : Int) : Prop := minOf t ≤ v ∧ v ≤ maxOf t

instance (t : Fold.VT) (v : Int) : Decidable (Fits t v) := by unfold Fits; infer_instance

/-- The value an enumerator should have: the number its expression stands for, or zero for the first and one
more than the one before for the others; and it fits the underlying type. -/
def Right (t : Fold.VT) (decl : Inits) (vals : List Int) (i : Nat) : Prop :=
  Fits t (vals.getD i 0) ∧
  match initOf decl i with
  | some e => ∃ t', den t vals e = .num t' (vals.getD i 0)
  | none => vals.getD i 0 = if i = 0 then 0 else vals.getD (i - 1) 0 + 1

/-- `vals` are the values of the enumerators. -/
def IsValues (t : Fold.VT) (decl : Inits) (vals : List Int) : Prop :=
  vals.length = decl.length ∧ ∀ i, i < decl.length → Right t decl vals i

/-- Every enumerator that occurs in a value was declared before. -/
def Backward (decl : Inits) : Prop := ∀ i e, initOf decl i = some e → ∀ j ∈ refs e, j < i

/-- Every enumerator that occurs is one of the enumeration. -/
def Closed (decl : Inits) : Prop := ∀ i e, initOf decl i = some e → ∀ j ∈ refs e, j < decl.length

/-- The underlying types. -/
def Integer (t : Fold.VT) : Prop := t.isInt = true

/-- The numbers the expressions stand for are values of their type, an integer type, and `ulong` meets only
`ulong`. -/
def Plain (t : Fold.VT) (decl : Inits) : Prop :=
  ∀ i e, initOf decl i = some e → ∀ vals, (∀ v ∈ vals, Fits t v) → ∀ t' n, den t vals e = .num t' n →
    t'.isInt = true ∧ Fits t' n ∧ (t' = t ∨ (t' ≠ .uint64 ∧ t ≠ .uint64))

/-- `i` cannot have a value before `j` has one. -/
def Needs (s : Inits) (i j : Nat) : Prop :=
  match initOf s i with
  | some e => j ∈ refs e
  | none => j + 1 = i

/-- One or more steps of `Needs`. -/
inductive NeedsPlus (s : Inits) : Nat → Nat → Prop
  | one {i j} : Needs s i j → NeedsPlus s i j
  | cons {i j k} : Needs s i j → NeedsPlus s j k → NeedsPlus s i k

/-- The value of `i` leads to an enumerator that needs itself. -/
def OnCircle (s : Inits) (i : Nat) : Prop := ∃ j, (i = j ∨ NeedsPlus s i j) ∧ NeedsPlus s j j

end Verif.Enums
