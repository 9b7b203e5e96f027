import Verif.Model.ConstExec

/-!
# What expressions do when they run

Independent of `execute`: variables have values, an assignment changes one, `+` with a string joins two texts.
-/

namespace Verif.ConstExec.Spec

open Verif.ConstExec

variable {N : Type}

/-- A value at run time. -/
inductive Val (N : Type) where
  | num (n : N)
  | str (s : Text)
  | null
  | obj (k : Nat)

/-- The variables. -/
abbrev Env (N : Type) := Nat → Val N

/-- The text of a value in `a + b`. -/
def show_ (A : Arith N) : Val N → Text
  | .num n => A.text n
  | .str s => s
  | .null => []
  | .obj _ => []

/-- A run of an expression.  `O` says what all that is not described here does: calls, members of objects, `++`, and so on. -/
def run (A : Arith N) (O : Ex N → Env N → Val N × Env N) : Ex N → Env N → Option (Val N × Env N)
  | .num n, σ => some (.num n, σ)
  | .str s, σ => some (.str s, σ)
  | .null, σ => some (.null, σ)
  | .name i, σ => some (σ i, σ)
  | .type _, _ => none
  | .un u e, σ =>
    match run A O e σ with
    | some (.num n, σ') => (A.un u n).map fun m => (.num m, σ')
    | _ => some (O (.un u e) σ)
  | .bin (.value o) a b, σ =>
    match run A O a σ with
    | none => none
    | some (x, σ₁) =>
      match run A O b σ₁ with
      | none => none
      | some (y, σ₂) =>
        match x, y with
        | .num n, .num m => (A.bin o n m).map fun k => (.num k, σ₂)
        | .str s, y => if o = .add then some (.str (s ++ show_ A y), σ₂) else some (O (.bin (.value o) a b) σ)
        | x, .str s => if o = .add then some (.str (show_ A x ++ s), σ₂) else some (O (.bin (.value o) a b) σ)
        | _, _ => some (O (.bin (.value o) a b) σ)
  | .bin .assign (.name i) b, σ =>
    match run A O b σ with
    | none => none
    | some (y, σ₁) => some (y, fun j => if j = i then y else σ₁ j)
  | .bin .memberPoint (.type _) (.name i), σ => some (σ i, σ)
  | .cast t e, σ =>
    match run A O e σ with
    | some (.num n, σ') => if t = stringType ∨ t = 1 then some (O (.cast t e) σ) else some (.num (A.cast t n), σ')
    | some (.str s, σ') => if t = stringType then some (.str s, σ') else some (O (.cast t e) σ)
    | _ => some (O (.cast t e) σ)
  | e, σ => some (O e σ)

/-- A constant as a value. -/
def IsVal : Cv N → Val N → Prop
  | .num n, v => v = .num n
  | .str s, v => v = .str s
  | .null, v => v = .null
  | _, _ => False

/-- Names that stand for a constant have its value. -/
def Agree (K : Nat → Cv N) (σ : Env N) : Prop :=
  ∀ i, (∀ n, K i = .num n → σ i = .num n) ∧ (∀ s, K i = .str s → σ i = .str s) ∧ (K i = .null → σ i = .null)

/-- What is assigned with an operator, or stepped with `++` or `--`, is not a constant. -/
def Assignable (A : Arith N) (T : TypeName) (K : Nat → Cv N) : Ex N → Prop
  | .un _ e => Assignable A T K e
  | .step _ e => Assignable A T K e ∧ ∀ n, execute A T K e ≠ some (.num n)
  | .bin (.valueAssign _) a b => Assignable A T K a ∧ Assignable A T K b ∧ ∀ n, execute A T K a ≠ some (.num n)
  | .bin _ a b => Assignable A T K a ∧ Assignable A T K b
  | .cast _ e => Assignable A T K e
  | _ => True

/-- Of constants, only numbers are cast to numbers. -/
def CastNumbers (A : Arith N) (T : TypeName) (K : Nat → Cv N) : Ex N → Prop
  | .un _ e => CastNumbers A T K e
  | .step _ e => CastNumbers A T K e
  | .bin _ a b => CastNumbers A T K a ∧ CastNumbers A T K b
  | .cast t e => CastNumbers A T K e ∧
      (t ≠ stringType → t ≠ 1 → ∀ c, execute A T K e = some c → c = .nan ∨ ∃ n, c = .num n)
  | _ => True

/-- There is no operator with two operands. -/
def NoBinary : Ex N → Prop
  | .un _ e => NoBinary e
  | .step _ e => NoBinary e
  | .bin _ _ _ => False
  | .cast _ e => NoBinary e
  | _ => True

end Verif.ConstExec.Spec
