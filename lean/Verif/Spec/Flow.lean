import Verif.Model.Flow
import Verif.Spec.Expr
import Verif.Spec.Codegen

/-!
# What a program of methods with statements means

The meaning of statements is the one of `Verif.Spec.Stmt`, the meaning of expressions the one of `Verif.Spec.Expr`; here
they are put together.  A run keeps the values of the variables and the values of conditions, of `switch` expressions and of
`return` until they are used.  Nothing here knows of commands, labels, memory or optimization levels.
-/

namespace Verif.Flow.Spec

open Verif.Fold Verif.Expr Verif.Expr.Spec

/-- A run between two statements.  `ok`: everything so far has a meaning (no variable without a value was read, no operator
was undefined). -/
structure St where
  ok : Bool
  env : Env
  values : List Const

/-- An expression is evaluated. -/
def evaluated (r : Option (Const × Env)) (s : St) (k : Const → Env → St) : St :=
  match r with
  | some (c, ρ) => k c ρ
  | none => { s with ok := false }

/-- What is done with an expression. -/
def act (p : Expr.Prog) (call : Nat → List Int → Option Int) (m : Expr.Method) : Task → St → St
  | .exp e, s => evaluated (eval p call m e s.env) s fun _ ρ => { s with env := ρ }
  | .init i e, s =>
    match m.tyOf (.loc i) with
    | some t => evaluated (eval p call m e s.env) s fun c ρ => { s with env := ρ.set (.loc i) (conv t c.v) }
    | none => { s with ok := false }
  | .test e, s => evaluated (eval p call m e s.env) s fun c ρ => { s with env := ρ, values := c :: s.values }
  | .choose e, s => evaluated (eval p call m e s.env) s fun c ρ => { s with env := ρ, values := c :: s.values }
  | .ret e, s => evaluated (eval p call m e s.env) s fun c ρ =>
      { s with env := ρ, values := ⟨m.ret, conv m.ret c.v⟩ :: s.values }

/-- A condition has a truth value. -/
def popBool (s : St) : Bool × St :=
  match s.values with
  | ⟨.bool, v⟩ :: r => (v != 0, { s with values := r })
  | _ => (false, { s with ok := false })

/-- What is switched over is an `int`. -/
def popInt (s : St) : BitVec 32 × St :=
  match s.values with
  | ⟨.int32, v⟩ :: r => (BitVec.ofInt 32 v, { s with values := r })
  | _ => (0#32, { s with ok := false })

/-- A truth value. -/
def pushBool (b : Bool) (s : St) : St := { s with values := ⟨.bool, if b then 1 else 0⟩ :: s.values }

/-- The meaning of expressions, as `Verif.Spec.Stmt` needs it; there are no exceptions. -/
def interp (p : Expr.Prog) (call : Nat → List Int → Option Int) (m : Expr.Method) : Stmt.Interp Task St where
  act := fun t s => .ok (act p call m t s)
  popBool := popBool
  popInt := popInt
  pushBool := pushBool
  accepts := fun _ _ => true
  pop_push := by intro b s; cases b <;> rfl
  accepts_all := fun _ => rfl

/-- The result of calling a method: calls are nested less than `n` deep, and no loop has more than `n` rounds. -/
def run (p : Prog) : (n : Nat) → Nat → List Int → Option Int
  | 0, _, _ => none
  | n + 1, f, vs => do
    let m ← p[f]?
    if vs.length = m.params.length then
      match m.body.run (interp (sigs p) (run p n) m.sig) n ⟨true, ⟨fun _ => none, fun i => vs[i]?⟩, []⟩ with
      | some (.ret, ⟨true, _, [c]⟩) => if c.ty = m.ret then some c.v else none
      | _ => none
    else none

/-! ## The programs the theorems are about -/

mutual

/-- The expressions of a statement. -/
def tasks {A : Type} : Stmt.Stmt A → List A
  | .expr e => e
  | .typeDef | .brk | .cont | .goto_ _ | .empty => []
  | .decl inits => inits.flatten
  | .thr e => e.getD []
  | .ret e => e.getD []
  | .block body => tasksAll body
  | .doWhile c body => c.getD [] ++ tasks body
  | .loopUntil c body => c.getD [] ++ tasks body
  | .while_ c body => c.getD [] ++ tasks body
  | .for_ init c inc body => init ++ c.getD [] ++ inc.getD [] ++ tasks body
  | .if_ c yes no => c.getD [] ++ tasks yes ++ tasks no
  | .switch e cases => e ++ tasksCases cases
  | .try_ body catches fin => tasks body ++ tasksCatches catches ++ tasks fin

/-- The expressions of statements. -/
def tasksAll {A : Type} : Stmt.Stmts A → List A
  | .nil => []
  | .cons s rest => tasks s ++ tasksAll rest

/-- The expressions of cases. -/
def tasksCases {A : Type} : Stmt.Cases A → List A
  | .nil => []
  | .cons _ body rest => tasksAll body ++ tasksCases rest

/-- The expressions of catch clauses. -/
def tasksCatches {A : Type} : Stmt.Catches A → List A
  | .nil => []
  | .cons _ body rest => tasks body ++ tasksCatches rest

end

/-- The expressions the theorems are about (`Verif.Expr.Spec.safe`), with the types their places want. -/
def safeTask (lvl : Level) (p : Expr.Prog) (m : Expr.Method) : Task → Bool
  | .exp e => safe lvl p m e
  | .init i e => safe lvl p m e && (match m.tyOf (.loc i) with | some t => fits p m t e | none => false)
  | .test e => safe lvl p m e && vty p m e == some .bool
  | .ret e => safe lvl p m e && fits p m m.ret e
  | .choose e => safe lvl p m e && vty p m e == some .int32

/-- The method is supported: plain types, places of the locals that are inside of the frame and do not overlap, expressions
and statements (`Verif.Stmt.plains`) that are translated rightly, and less than 2³¹ instructions. -/
structure Supported (lvl : Level) (p : Prog) (m : Method) : Prop where
  sig : Expr.Spec.Supported lvl (sigs p) m.sig
  tasks : ∀ t ∈ tasksAll m.body, safeTask lvl (sigs p) m.sig t = true
  body : Stmt.plains (opts lvl) folder m.body = true
  short : ∀ ys, written lvl p m = some ys → ys.length < 2 ^ 31

end Verif.Flow.Spec
