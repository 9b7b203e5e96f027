import Verif.Model.Init
import Verif.Spec.Arr

/-!
# What an initialiser means

The shape of nested braces, the expression at a place, and the values, without table, code or stack.
-/

namespace Verif.Init

mutual

/-- All braces at the same depth have as many elements: the lengths, from the outside. -/
inductive Shaped {A : Type} : List Nat → Inits A → Prop
  | mk (n : Nat) (ns : List Nat) (i : Inits A) : i.size = n → Rows ns i → Shaped (n :: ns) i

/-- All elements have the shape. -/
inductive Rows {A : Type} : List Nat → Inits A → Prop
  | one (ns : List Nat) (e : Elem A) : Cell₁ ns e → Rows ns (.one e)
  | more (ns : List Nat) (e : Elem A) (r : Inits A) : Cell₁ ns e → Rows ns r → Rows ns (.more e r)

/-- An expression has no more lengths; braces have the shape. -/
inductive Cell₁ {A : Type} : List Nat → Elem A → Prop
  | expr (e : Expr A) : Cell₁ [] (.expr e)
  | init (n : Nat) (ns : List Nat) (i : Inits A) : Shaped (n :: ns) i → Cell₁ (n :: ns) (.init i)

end

/-- The elements of braces. -/
def Inits.toList {A : Type} : Inits A → List (Elem A)
  | .one e => [e]
  | .more e r => e :: r.toList

/-- The expression that is written at a place: the index of the outermost braces comes first. -/
def Elem.at {A : Type} : List Nat → Elem A → Option (Expr A)
  | [], .expr e => some e
  | k :: ks, .init i =>
    match i.toList[k]? with
    | some e => e.at ks
    | none => none
  | _, _ => none

/-- The value of an expression of an element of so many bytes: constants are constants, actions act. -/
def Expr.eval {A S X : Type} (M : Machine A S X) (size : Nat) : Expr A → S → Except (X × S) (BitVec 64 × S)
  | .lit _ v, s => .ok (low size v, s)
  | .act a, s =>
    match M.act a s with
    | .ok (v, s) => .ok (low size v, s)
    | .error e => .error e

/-- Expressions have values from left to right. -/
def evals {A S X : Type} (M : Machine A S X) (size : Nat) : List (Expr A) → S → Except (X × S) (List (BitVec 64) × S)
  | [], s => .ok ([], s)
  | e :: es, s =>
    match e.eval M size s with
    | .error x => .error x
    | .ok (v, s) =>
      match evals M size es s with
      | .error x => .error x
      | .ok (vs, s) => .ok (v :: vs, s)

/-- The constants of a list have the size of the elements. -/
def Fits {A : Type} (size : Nat) (es : List (Expr A)) : Prop :=
  ∀ w v, Expr.lit w v ∈ es → w = size

end Verif.Init
