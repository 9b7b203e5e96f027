import Verif.Model.Classes
import Verif.Spec.Place
import Verif.Spec.Codegen
import Verif.Spec.Dispatch

/-!
# What programs of classes mean

A method does what its statements say (`Verif.Spec.Stmt`), its expressions mean what `Verif.Spec.Place` says, and a call
of a virtual method runs the override of the most derived class of the object (`Dispatch.slotImpl`).
-/

namespace Verif.Classes

open Verif.Place

/-- What the tasks of statements do.  The values of conditions, of `switch` and of `return` are left on a stack. -/
def meaning (W : World) (this : Val) : Verif.Stmt.Interp Task Cfg where
  act
    | .run st, (k, s) => match st.run W this s with
      | some s' => .ok (k, s')
      | none => .error dead
    | .value e, (k, s) => match e.eval W this s with
      | some (v, s') => .ok (v :: k, s')
      | none => .error dead
  popBool := popBool
  popInt := popInt
  pushBool := pushBool
  accepts _ _ := true
  pop_push b s := by cases b <;> rfl
  accepts_all _ := rfl

/-- The method a call of a virtual method has to run: the most derived override on the way from the class of the method
down to the class of the object. -/
def Program.target (P : Program) (h : Heap) (m : Nat) (o : Val) : Option Nat :=
  match classOf h o, P.decl m with
  | some k, some (c, i, d) =>
    match below c (P.lineage k), P.loaded c with
    | some ds, some cls => some (Dispatch.slotImpl d.proto (cls.entry i d) (ds.filterMap P.loaded)).1.row
    | _, _ => none
  | _, _ => none

/-- The run of the body of a method ends: by `return`, or, without a result, at the end of the body. -/
def Ends (W : World) (this : Val) (M : Method) (c c' : Cfg) : Prop :=
  ∃ n, M.body.run (meaning W this) n c = some (.ret, c') ∨
    (M.returns = false ∧ M.body.run (meaning W this) n c = some (.pass, c'))

/-- What a method does, when calls may be nested as deeply as given. -/
noncomputable def Program.source (P : Program) : Nat → Calls
  | 0 => fun _ _ _ _ => none
  | d + 1 => fun m this args h =>
    match P.methods[m]? with
    | none => none
    | some M =>
      if args.length = M.arity then
        (theOne (Ends (P.world P.target (P.source d)) this M (frame M args h))).bind (result M)
      else none

/-- The same, with a bound on the number of rounds of every loop: this can be computed. -/
def Program.trial (P : Program) (n : Nat) : Nat → Calls
  | 0 => fun _ _ _ _ => none
  | d + 1 => fun m this args h =>
    match P.methods[m]? with
    | none => none
    | some M =>
      if args.length = M.arity then
        match M.body.run (meaning (P.world P.target (P.trial n d)) this) n (frame M args h) with
        | some (.ret, c) => result M c
        | some (.pass, c) => if M.returns then none else result M c
        | _ => none
      else none

/-! ## The programs for which the compiled code is right -/

/-- The expressions of `Verif.Spec.Place` that are translated rightly. -/
def Task.ok (W : World) : Task → Bool
  | .run st => st.ok W
  | .value e => e.ok W

section All

variable {A : Type} (p : A → Bool)

mutual

/-- Every task of the statement has the property. -/
def allS : Verif.Stmt.Stmt A → Bool
  | .expr e => e.all p
  | .decl inits => inits.all (·.all p)
  | .thr e => (e.getD []).all p
  | .ret e => (e.getD []).all p
  | .block body => allSs body
  | .doWhile c body => (c.getD []).all p && allS body
  | .loopUntil c body => (c.getD []).all p && allS body
  | .while_ c body => (c.getD []).all p && allS body
  | .for_ init c inc body => init.all p && (c.getD []).all p && (inc.getD []).all p && allS body
  | .if_ c yes no => (c.getD []).all p && allS yes && allS no
  | .switch e cases => e.all p && allCases cases
  | .try_ body catches fin => allS body && allCatches catches && allS fin
  | _ => true

/-- All statements. -/
def allSs : Verif.Stmt.Stmts A → Bool
  | .nil => true
  | .cons s rest => allS s && allSs rest

/-- All cases. -/
def allCases : Verif.Stmt.Cases A → Bool
  | .nil => true
  | .cons _ body rest => allSs body && allCases rest

/-- All clauses. -/
def allCatches : Verif.Stmt.Catches A → Bool
  | .nil => true
  | .cons _ body rest => allS body && allCatches rest

end

end All

/-- A list of base classes: each has the rest of the list as its base classes. -/
def Program.lined (P : Program) : List Nat → Bool
  | [] => true
  | b :: rest => decide (P.lineage b = b :: rest) && P.lined rest

/-- A method whose expressions and statements are translated rightly (`Place.Stmt.ok`, `Place.Exp.ok`, `Stmt.plain`,
`Stmt.tidy`), of less than 2³¹ instructions. -/
structure Method.Fine (o : Verif.Stmt.Opts) (P : Program) (M : Method) : Prop where
  tasks : allSs (Task.ok P.sig) M.body = true
  tidy : ∀ body, lowers (Task.compile P.sig) M.body = some body → Verif.Stmt.tidys folder body = true
  plain : ∀ body, lowers (Task.compile P.sig) M.body = some body → Verif.Stmt.plains o folder body = true
  short : ∀ body, P.lowered M = some body → (Verif.Stmt.compileAll o folder false body 0).1.length < 2 ^ 31

/-- A program of such methods that the compiler accepts, whose classes declare nothing twice and hide nothing
(`Dispatch.Tidy`), with virtual methods before overriding ones before others (`Dispatch.Ordered`). -/
structure Program.Fine (o : Verif.Stmt.Opts) (P : Program) : Prop where
  methods : ∀ M ∈ P.methods, M.Fine o P
  accepted : ∀ M ∈ P.methods, (P.compile o M).isSome = true
  lined : ∀ c ∈ P.classes, P.lined c.bases = true
  ordered : ∀ k, ∀ x ∈ P.chain k, Dispatch.Ordered x
  tidy : ∀ k, Dispatch.Tidy (P.chain k)

end Verif.Classes
