import Verif.Model.Block
import Verif.Model.Stmt

/-!
# `try` statements in compiled methods

Model of the commands that methods with `try`, `throw`, `break` and `continue` are compiled to
(`modules/compile/statements.cpp:106-175`, `288-314`, `556-625`, `820-850`, `1020-1060`, `1518-1660`), and of
their execution (`modules/exec/commands.cpp:5840-6060`, `6100-6212`) over the table of blocks and the
machine of `Verif.Model.Block`.

Simplifications.  An expression is one opaque action and one command, and so is a condition.  A label is the
index of the command behind it: how labels become steps is `Verif.Model.Codegen`.  Code that is not reached
is not removed (`compile_optimize_code_t::remove_unreached_codes` is off).  `finally` clauses are there or are
not: one whose statement is empty (`__is_empty_statement`, 117-123) is not there.  The other loops, `switch` and
`return` are left out; `return` in protected code is `Verif.Block.returnCode`.  One call of a method is
modelled: an exception that leaves it is the outcome, and a call of another method that an exception leaves is an
action that raises it.
-/

namespace Verif.Try

open Verif.Block (BType Blk Next QNode)

variable {A S : Type}

mutual
/-- Statements — `modules/compile/__statements.h`: empty 552-572, expression 61-83, group, if 407-428, while
322-341, break 175-186, continue 191-202, throw with and without an expression 207-224, try 523-547. -/
inductive Stmt (A : Type) where
  | skip
  | act (a : A)
  | seq (a b : Stmt A)
  | if_ (c : A) (yes no : Stmt A)
  | while_ (c : A) (body : Stmt A)
  | brk
  | cont
  | thr (a : A)
  | rethrow
  | try_ (body : Stmt A) (catches : Catches A) (fin : Fin A)
/-- `catch_t` — `__statements.h:501-516`: the type of the exceptions, the variable and the statement. -/
inductive Catches (A : Type) where
  | nil
  | cons (type x : Nat) (body : Stmt A) (rest : Catches A)
/-- `finally_statement`. -/
inductive Fin (A : Type) where
  | none
  | some (body : Stmt A)
end

/-- `!catches.empty()` — `statements.cpp:1564`. -/
def Catches.any : Catches A → Bool
  | .nil => false
  | .cons .. => true

/-- `!finally_empty` — `statements.cpp:1563`. -/
def Fin.any : Fin A → Bool
  | .none => false
  | .some _ => true

mutual
/-- The statement as the analysis of exits sees it. -/
def view : Stmt A → Verif.Stmt.Stmt A
  | .skip => .empty
  | .act a => .expr [a]
  | .seq a b => .block (.cons (view a) (.cons (view b) .nil))
  | .if_ c yes no => .if_ (some [c]) (view yes) (view no)
  | .while_ c body => .while_ (some [c]) (view body)
  | .brk => .brk
  | .cont => .cont
  | .thr a => .thr (some [a])
  | .rethrow => .thr none
  | .try_ body catches fin => .try_ (view body) (viewCatches catches) (viewFin fin)
def viewCatches : Catches A → Verif.Stmt.Catches A
  | .nil => .nil
  | .cons type _ body rest => .cons type (view body) (viewCatches rest)
def viewFin : Fin A → Verif.Stmt.Stmt A
  | .none => .empty
  | .some body => view body
end

/-- `__statement_pass` — `statements.cpp:170-174`. -/
def pass (F : Verif.Stmt.Folder A) (s : Stmt A) : Bool :=
  let et := Verif.Stmt.exitType F (view s)
  et == Verif.Stmt.ET.none || et.has Verif.Stmt.ET.pass

/-- What the regions around a statement say: where `break` and `continue` lead to, and `__need_leave`
(`statements.cpp:308-314`): whether there is a region of a `try` on the way.  `has` is true when one of the flags
is there (`include/common.h:2577-2581`), so a `try` without `finally` counts as well. -/
structure Env where
  brk : Nat
  cont : Nat
  need : Bool

/-- The commands of `break` and `continue` — `statements.cpp:559-565`, `581-587`. -/
def exitLen (need : Bool) : Nat := if need then 2 else 1

/-- Whether `break` in the statement of a `try` needs a `leave` — the regions of `statements.cpp:1586-1592`. -/
def needBody (need : Bool) (catches : Catches A) (fin : Fin A) : Bool := need || fin.any || catches.any

/-- The same in a `catch` clause: the region for it has ended — `statements.cpp:1606-1608`. -/
def needCatch (need : Bool) (fin : Fin A) : Bool := need || fin.any

mutual
/-- The number of commands. -/
def len (F : Verif.Stmt.Folder A) (need : Bool) : Stmt A → Nat
  | .skip => 0
  | .act _ => 1
  | .seq a b => len F need a + len F need b
  | .if_ _ yes no => 3 + len F need yes + len F need no
  | .while_ _ body => 3 + len F false body
  | .brk => exitLen need
  | .cont => exitLen need
  | .thr _ => 2
  | .rethrow => 1
  | .try_ body catches fin =>
    len F (needBody need catches fin) body + (pass F body).toNat + lenCatches F (needCatch need fin) catches
      + lenFin F need fin
def lenCatches (F : Verif.Stmt.Folder A) (need : Bool) : Catches A → Nat
  | .nil => 0
  | .cons _ _ body rest => 1 + len F need body + (pass F body).toNat + lenCatches F need rest
def lenFin (F : Verif.Stmt.Folder A) (need : Bool) : Fin A → Nat
  | .none => 0
  | .some body => len F need body + (pass F body).toNat
end

/-- Commands; those that jump have the index of the command that they lead to. -/
inductive Cmd (A : Type) where
  | act (a : A)
  | jmp (target : Nat)
  | jmpFalse (target : Nat)
  | thr
  | rethrow
  | store (x : Nat)
  | leave (target : Nat)
  | endFinally
  deriving DecidableEq

/-- `break_statement_t::compile`, `continue_statement_t::compile` — `statements.cpp:559-565`, `581-587`. -/
def exitCode (need : Bool) (target : Nat) : List (Cmd A) :=
  if need then [.leave target, .jmp target] else [.jmp target]

/-- The jump behind the statement of a `try` or of a `catch` — `statements.cpp:1598-1604`, `1625-1631`. -/
def tailCode (passes leaves : Bool) (target : Nat) : List (Cmd A) :=
  if passes then (if leaves then [.leave target] else [.jmp target]) else []

mutual
/-- The `compile` members — `statements.cpp`: group 327-350, expression 419-425, break 559-565, continue
581-587, throw 603-614, while 823-848, if 1028-1059, try 1561-1660; the statement begins at `pos`. -/
def compile (F : Verif.Stmt.Folder A) (e : Env) : Stmt A → Nat → List (Cmd A)
  | .skip, _ => []
  | .act a, _ => [.act a]
  | .seq a b, pos => compile F e a pos ++ compile F e b (pos + len F e.need a)
  | .if_ c yes no, pos =>
    let no' := pos + 3 + len F e.need yes
    .act c :: .jmpFalse no' :: (compile F e yes (pos + 2) ++
      .jmp (no' + len F e.need no) :: compile F e no no')
  | .while_ c body, pos =>
    let end_ := pos + 3 + len F false body
    .act c :: .jmpFalse end_ :: (compile F ⟨end_, pos, false⟩ body (pos + 2) ++ [.jmp pos])
  | .brk, _ => exitCode e.need e.brk
  | .cont, _ => exitCode e.need e.cont
  | .thr a, _ => [.act a, .thr]
  | .rethrow, _ => [.rethrow]
  | .try_ body catches fin, pos =>
    let bneed := needBody e.need catches fin
    let cneed := needCatch e.need fin
    let c := pos + len F bneed body + (pass F body).toNat
    let f := c + lenCatches F cneed catches
    let end_ := f + lenFin F e.need fin
    compile F { e with need := bneed } body pos ++ (tailCode (pass F body) fin.any end_ ++
      (compileCatches F { e with need := cneed } fin.any end_ catches c ++ compileFin F e fin f))
/-- The `catch` clauses — `statements.cpp:1610-1634`. -/
def compileCatches (F : Verif.Stmt.Folder A) (e : Env) (leaves : Bool) (end_ : Nat) :
    Catches A → Nat → List (Cmd A)
  | .nil, _ => []
  | .cons _ x body rest, pos =>
    .store x :: (compile F e body (pos + 1) ++ (tailCode (pass F body) leaves end_ ++
      compileCatches F e leaves end_ rest (pos + 1 + len F e.need body + (pass F body).toNat)))
/-- The `finally` clause — `statements.cpp:1639-1657`. -/
def compileFin (F : Verif.Stmt.Folder A) (e : Env) : Fin A → Nat → List (Cmd A)
  | .none, _ => []
  | .some body, pos => compile F e body pos ++ (if pass F body then [.endFinally] else [])
end

mutual
/-- The statement as `Verif.Block.emit` sees it. -/
def shape (F : Verif.Stmt.Folder A) (need : Bool) : Stmt A → Block.Stmt
  | .skip => .code 0
  | .act _ => .code 1
  | .seq a b => .seq (shape F need a) (shape F need b)
  | .if_ _ yes no => .seq (.code 2) (.seq (shape F need yes) (.seq (.code 1) (shape F need no)))
  | .while_ _ body => .seq (.code 2) (.seq (shape F false body) (.code 1))
  | .brk => .code (exitLen need)
  | .cont => .code (exitLen need)
  | .thr _ => .code 2
  | .rethrow => .code 1
  | .try_ body catches fin =>
    .try_ (shape F (needBody need catches fin) body) (pass F body)
      (shapeCatches F (needCatch need fin) catches) (shapeFin F need fin)
def shapeCatches (F : Verif.Stmt.Folder A) (need : Bool) : Catches A → Block.Catches
  | .nil => .nil
  | .cons type _ body rest => .cons type (shape F need body) (pass F body) (shapeCatches F need rest)
def shapeFin (F : Verif.Stmt.Folder A) (need : Bool) : Fin A → Block.Fin
  | .none => .none
  | .some body => .some (shape F need body) (pass F body)
end

/-- The table of blocks of a method — `modules/core/core.cpp:8207-8265`, `modules/exec/parser.cpp:238-294`. -/
def blocks (F : Verif.Stmt.Folder A) (W : Stmt A) : List Blk := (Block.emit (shape F false W) 0).2

/-- The commands of a method: `break` and `continue` lead nowhere. -/
def method (F : Verif.Stmt.Folder A) (W : Stmt A) : List (Cmd A) := compile F ⟨0, 0, false⟩ W 0

/-! ## Executing -/

/-- What the opaque parts of commands do with the variables and the stack: an action may raise an exception;
the result of a condition and the exception of a `throw` are taken from the stack (what else is there goes
with a `throw`, `commands.cpp:5961-5962`); an exception is put there, and taken into a variable. -/
structure Machine (A S : Type) where
  act : A → S → Except (Nat × S) S
  popBool : S → Bool × S
  popExc : S → Nat × S
  push : Nat → S → S
  store : Nat → S → S

/-- A method that is being executed: before a command; left with an exception; a read past the table. -/
inductive Conf (S : Type) where
  | at_ (pc : Nat) (s : S) (q : Block.St)
  | left (exc : Option Nat) (s : S)
  | wild

/-- The exception on the top of the stack of exceptions, which `__process_exception` goes on with in the
method that called — `commands.cpp:5843`, `5886-5891`, `6034-6040`. -/
def top (q : Block.St) : Option Nat := q.excs.stack.head?.bind (q.excs.mem[·]?)

/-- What comes next after the command at `pc`; `none`: a read past the table. -/
def go (M : Machine A S) (pc : Nat) (s : S) : Option (Block.St × Next) → Conf S
  | none => .wild
  | some (q, .enter c none) => .at_ c s q
  | some (q, .enter c (some x)) => .at_ c (M.push x s) q
  | some (q, .goto_ t) => .at_ t s q
  | some (q, .following) => .at_ (pc + 1) s q
  | some (q, .leaveCall) => .left (top q) s
  | some (_, .ret) => .wild

/-- One command: jumps `commands.cpp:6100-6190`, `leave` 6185-6212, `throw` 5955-5966, `throw` without an
expression 5975-5995 (nothing is done), the end of a `finally` clause 5999-6056.  `is_ x t`: the exception
`x` is of the type `t`. -/
def exec (M : Machine A S) (is_ : Nat → Nat → Bool) (T : List Blk) (pc : Nat) (s : S) (q : Block.St) :
    Cmd A → Conf S
  | .act a =>
    match M.act a s with
    | .ok s' => .at_ (pc + 1) s' q
    | .error (x, s') => go M pc s' (Block.throw_ T is_ q pc x)
  | .jmp t => .at_ t s q
  | .jmpFalse t => if (M.popBool s).1 then .at_ (pc + 1) (M.popBool s).2 q else .at_ t (M.popBool s).2 q
  | .thr => go M pc (M.popExc s).2 (Block.throw_ T is_ q pc (M.popExc s).1)
  | .rethrow => .at_ (pc + 1) s q
  | .store x => .at_ (pc + 1) (M.store x s) q
  | .leave t => go M pc s (Block.leave T q pc t)
  | .endFinally => go M pc s (Block.endFinally q)

/-- The next state; the end of the commands has been reached when there is no command. -/
def next (M : Machine A S) (is_ : Nat → Nat → Bool) (T : List Blk) (C : List (Cmd A)) : Conf S → Conf S
  | .at_ pc s q =>
    match C[pc]? with
    | some c => exec M is_ T pc s q c
    | none => .at_ pc s q
  | c => c

/-- So many commands. -/
def steps (M : Machine A S) (is_ : Nat → Nat → Bool) (T : List Blk) (C : List (Cmd A)) : Nat → Conf S → Conf S
  | 0, c => c
  | n + 1, c => steps M is_ T C n (next M is_ T C c)

/-- The state of the blocks and the exceptions at the beginning. -/
def fresh : Block.St := ⟨⟨[], [], []⟩, [], []⟩

/-- A call of the method. -/
def call (M : Machine A S) (is_ : Nat → Nat → Bool) (F : Verif.Stmt.Folder A) (W : Stmt A) (n : Nat) (s : S) :
    Conf S :=
  steps M is_ (blocks F W) (method F W) n (.at_ 0 s fresh)

end Verif.Try
