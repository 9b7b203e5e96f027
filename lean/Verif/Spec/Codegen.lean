import Verif.Spec.Stmt
import Verif.Model.Codegen

/-!
# What the translation of statements should do

The run of a method is the run of its statements (`Verif.Spec.Stmt`); the commands should do the
same.  Here: which statements are translated rightly (`plain`), and what it means that commands
return, throw, run off their end or run for ever.
-/

namespace Verif.Stmt

variable {A S : Type}

/-- The commands act on the state as the statements do. -/
def Interp.machine (I : Interp A S) : Machine A S := ⟨I.act, I.popBool, I.popInt, I.pushBool⟩

/-- From one state of the execution to another. -/
def Reach (M : Machine A S) (cmds : List (Cmd A)) (c c' : Conf S) : Prop :=
  ∃ m, steps M cmds m c = c'

/-- So many commands are executed and the method has not ended. -/
def Live (M : Machine A S) (cmds : List (Cmd A)) (n : Nat) (c : Conf S) : Prop :=
  ∃ pc s, steps M cmds n c = .at_ pc s

/-- The labels placed. -/
def labels (xs : List (X A)) : List Nat :=
  xs.filterMap (fun x => match x with | .label l => some l | _ => none)

/-- The labels that are jumped to. -/
def targets (xs : List (X A)) : List Nat :=
  xs.flatMap (fun x => match x with
    | .jmp _ l => [l]
    | .switch rows d => d :: rows.map (·.2)
    | _ => [])

/-- The real instructions: everything except labels. -/
def real (xs : List (X A)) : List (X A) := xs.filter (fun x => !x.isLabel)

/-- All constants that the cases name, in the order of the source. -/
def constants : Cases A → List (BitVec 32)
  | .nil => []
  | .cons labels _ rest => labels.filterMap id ++ constants rest

mutual

/-- The statement contains a `continue` that belongs to a loop around it. -/
def hasCont : Stmt A → Bool
  | .cont => true
  | .block body => hasConts body
  | .if_ _ yes no => hasCont yes || hasCont no
  | .switch _ cases => hasContCases cases
  | .try_ body catches fin => hasCont body || hasContCatches catches || hasCont fin
  | _ => false

/-- One of the statements does. -/
def hasConts : Stmts A → Bool
  | .nil => false
  | .cons s rest => hasCont s || hasConts rest

/-- One of the cases does. -/
def hasContCases : Cases A → Bool
  | .nil => false
  | .cons _ body rest => hasConts body || hasContCases rest

/-- One of the catch clauses does. -/
def hasContCatches : Catches A → Bool
  | .nil => false
  | .cons _ body rest => hasCont body || hasContCatches rest

end

/-- The last statement is `break`, `continue`, `return` or `throw`. -/
def leaves : Stmts A → Bool
  | .nil => false
  | .cons .brk .nil => true
  | .cons .cont .nil => true
  | .cons (.ret _) .nil => true
  | .cons (.thr _) .nil => true
  | .cons _ rest => leaves rest

/-- Every case leaves the switch. -/
def allLeave : Cases A → Bool
  | .nil => true
  | .cons _ body rest => leaves body && allLeave rest

/-- Every case has a label. -/
def labelled : Cases A → Bool
  | .nil => true
  | .cons labels _ rest => !labels.isEmpty && labelled rest

/-- There is only one case. -/
def single : Cases A → Bool
  | .cons _ _ .nil => true
  | _ => false

mutual

/-- The statements that are translated rightly: all except
* `goto` (nothing is written for it) and `try` (not modelled here);
* `continue` in a loop that tests last, unless the loop never ends by its test (the jump goes to
  the start, without a test);
* blocks with a statement the exit analysis gets wrong, when unreached code is removed;
* a `switch` with two `default`s or with 65536 rows or more, and, when a `switch` with one row is
  turned into an `if`, one whose cases fall through. -/
def plain (o : Opts) (F : Folder A) : Stmt A → Bool
  | .goto_ _ => false
  | .try_ _ _ _ => false
  | .block body => plains o F body && (!o.removeUnreached || tidys F body)
  | .doWhile c body =>
    plain o F body && (!hasCont body || decide (F.cond c = some true ∨ c = none))
  | .loopUntil c body =>
    plain o F body && (!hasCont body || decide (F.cond c = some false ∨ c = none))
  | .while_ _ body => plain o F body
  | .for_ _ _ _ body => plain o F body
  | .if_ _ yes no => plain o F yes && plain o F no
  | .switch _ cases =>
    plainCases o F cases && labelled cases && decide (cases.defaults ≤ 1) &&
      decide (rowCount cases < 65536) &&
      (!(o.switchToIf && rowCount cases == 1) || single cases || allLeave cases)
  | _ => true

/-- All statements of a list. -/
def plains (o : Opts) (F : Folder A) : Stmts A → Bool
  | .nil => true
  | .cons s rest => plain o F s && plains o F rest

/-- All cases. -/
def plainCases (o : Opts) (F : Folder A) : Cases A → Bool
  | .nil => true
  | .cons _ body rest => plains o F body && plainCases o F rest

end

end Verif.Stmt
