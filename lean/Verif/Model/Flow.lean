import Verif.Model.Codegen
import Verif.Model.Expr

/-!
# Methods with statements and expressions

The two halves of the translation together: statements (`Verif.Model.Codegen`) whose expressions are the ones of
`Verif.Model.Expr`, for programs of static methods that call each other, run by the machine of `Verif.Model.Expr`.

Not modelled here: what the two halves do not model (`try`, `goto`; objects, arrays, floating-point numbers, …), methods
without result, `throw` (the command is `bad`), and, where a `switch` is turned into something else, a `switch` without
constants or with the same statements for its constant and its default.
-/

namespace Verif.Flow

open Verif.Fold Verif.Expr

/-- What a statement does with an expression: `expression_statement_t`, `defination_statement_item_t`, the condition of `if`
and of loops, `return_statement_t`, the expression of `switch` — `modules/compile/__statements.h:61-496`. -/
inductive Task where
  | exp (e : Exp)
  | init (i : Nat) (e : Exp)
  | test (e : Exp)
  | ret (e : Exp)
  | choose (e : Exp)

/-- A static method: as `Verif.Expr.Method`, with statements for a body. -/
structure Method where
  params : List VT
  ret : VT
  locals : List (VT × Nat)
  units : Nat
  body : Stmt.Stmts Task

/-- A program; methods are called by their number. -/
abbrev Prog := List Method

/-- The method as its callers, its expressions and its commands see it. -/
def Method.sig (m : Method) : Expr.Method := ⟨m.params, m.ret, m.locals, m.units, []⟩

/-- All of them. -/
def sigs (p : Prog) : Expr.Prog := p.map Method.sig

/-- `execute_expression` of a condition and of the expression of a `switch` — `include/modules/core.h:6739-6745`.  When it
throws, so does compiling the expression (`foldOr`). -/
def folder : Stmt.Folder Task where
  bool
    | [.test e] =>
      match execute e with
      | some (some ⟨.bool, v⟩) => some (v != 0)
      | _ => none
    | _ => none
  int
    | [.choose e] =>
      match execute e with
      | some (some ⟨.int32, v⟩) => some (BitVec.ofInt 32 v)
      | _ => none
    | _ => none

/-- `__method_compile_controller_t::optimize` — `modules/april/compiler.cpp:577-600`: both from level 2 on. -/
def opts (lvl : Level) : Stmt.Opts := ⟨decide (2 ≤ lvl), decide (2 ≤ lvl)⟩

/-- The instructions for an expression — `expression_xilx_t::write`, `local_assign_xilx_t::write`, `return_xilx_t::write`,
`modules/compile/xilx.cpp:425-535`; for the expression of a `switch`, `append_expression`,
`modules/compile/statements.cpp:1172`. -/
def code (lvl : Level) (p : Expr.Prog) (m : Expr.Method) (marked : List Nat) : Task → Option (List Ins)
  | .exp e => compileStmtExp lvl p m marked e
  | .init i e => do
    let t ← m.tyOf (.loc i)
    some ((← compile lvl p m marked (some t) e) ++ [.popLocal i t])
  | .test e => compile lvl p m marked none e
  | .ret e => compile lvl p m marked (some m.ret) e
  | .choose e => compile lvl p m marked none e

/-- How often an expression counts as writing a local — `modules/compile/statements.cpp:388-417`, `519-530`. -/
def taskWrites (i : Nat) : Task → Nat
  | .init j e => (if j = i then 1 else 0) + writes i e
  | .exp e | .test e | .ret e | .choose e => writes i e

/-- `write_count` of a local when everything is compiled: only expressions that were appended are counted —
`append_expression`, `modules/compile/statements.cpp:99-110`. -/
def writeCount (i : Nat) (xs : List (Stmt.X Task)) : Nat :=
  (xs.map fun | .act t => taskWrites i t | _ => 0).sum

/-- The locals marked constant after an expression — `local_assign_xilx_t::write`, `modules/compile/xilx.cpp:447-462` (see
`Verif.Expr.marks`).  `none`: executing the initial value throws. -/
def mark (lvl : Level) (all : List (Stmt.X Task)) (marked : List Nat) : Task → Option (List Nat)
  | .init i e =>
    if writeCount i all = 1 then do
      let v ← execute e
      some (if 2 ≤ lvl ∧ v = none then i :: marked else marked)
    else some marked
  | _ => some marked

/-- Writing what the statements have appended, one after the other: `xilx_t::write` of each.  The comparison of
`__compile_as_if` (`modules/compile/statements.cpp:1344-1363`) is the one of an `int` with an `int` constant. -/
def expand (lvl : Level) (p : Expr.Prog) (m : Expr.Method) (all : List (Stmt.X Task)) :
    List Nat → List (Stmt.X Task) → Option (List (Stmt.X Ins))
  | _, [] => some []
  | marked, x :: xs =>
    match x with
    | .act t => do
      let c ← code lvl p m marked t
      let marked' ← mark lvl all marked t
      some (c.map .act ++ (← expand lvl p m all marked' xs))
    | .eqInt k => do
      some (.act (.pushConst .int32 k.toInt) :: .act (.bin (.cmp .eq) .int32 .int32) ::
        (← expand lvl p m all marked xs))
    | .drop => none
    | .label l => do some (.label l :: (← expand lvl p m all marked xs))
    | .jmp k l => do some (.jmp k l :: (← expand lvl p m all marked xs))
    | .point k => do some (.point k :: (← expand lvl p m all marked xs))
    | .switch rows d => do some (.switch rows d :: (← expand lvl p m all marked xs))
    | .ret => do some (.ret :: (← expand lvl p m all marked xs))
    | .thr => do some (.thr :: (← expand lvl p m all marked xs))
    | .fail => do some (.fail :: (← expand lvl p m all marked xs))

/-- The command of an instruction that has been placed. -/
def make (m : Expr.Method) : Stmt.Cmd Ins → Expr.Cmd
  | .act i => create m i
  | .jmp k step => .go k step
  | .switch rows d => .switch rows d
  | .ret => .ret m.units m.params.length
  | .eqInt _ | .drop | .thr => .bad

/-- What the statements of a method append. -/
def appended (lvl : Level) (m : Method) : List (Stmt.X Task) := (Stmt.compileAll (opts lvl) folder false m.body 0).1

/-- The instructions of a method, with its labels. -/
def written (lvl : Level) (p : Prog) (m : Method) : Option (List (Stmt.X Ins)) :=
  expand lvl (sigs p) m.sig (appended lvl m) [] (appended lvl m)

/-- `method_t::compile` — `modules/core/core.cpp:1767-1815` — and the commands of the method. -/
def compileMethod (lvl : Level) (p : Prog) (m : Method) : Option (List Expr.Cmd) := do
  let ys ← written lvl p m
  let cmds ← (Stmt.commit ys).toOption
  some (cmds.map (make m.sig))

/-- The commands of all methods. -/
def compileAll (lvl : Level) (p : Prog) : List Method → Option (List (List Expr.Cmd))
  | [] => some []
  | m :: ms => do
    let c ← compileMethod lvl p m
    let cs ← compileAll lvl p ms
    some (c :: cs)

/-- Compiling a program; the commands of the methods are one behind the other as in `Verif.Expr.Image`. -/
def build (lvl : Level) (p : Prog) : Option Image := do
  let cs ← compileAll lvl p p
  some ⟨cs.flatten, entries 0 (sigs p) cs⟩

end Verif.Flow
