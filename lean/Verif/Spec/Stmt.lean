import Verif.Model.Stmt

/-!
# What statements mean

A specification of the statements of the language, independent of the compiler: running a statement
from a state ends by passing through, or by `break`, `continue`, `return`, `throw` or `goto`.
Loops may run for ever, so the evaluator `Stmt.run` takes a bound `n` on the number of rounds of
each loop and answers `none` when the bound is too small; a statement ends with a result when some
bound gives it.
-/

namespace Verif.Stmt

/-- How the run of a statement ends. -/
inductive Out where
  | pass | brk | cont | ret | thr
  | goto_ (name : Nat)
  deriving DecidableEq, Repr

/-- What the opaque parts of a program do: actions change the state or raise an exception;
conditions and the values that are switched over are left on the evaluation stack, which is part of
the state.  `accepts` says whether a catch clause takes the exception that is pending; the clause
for `System.Exception` takes every one. -/
structure Interp (A S : Type) where
  act : A → S → Except S S
  popBool : S → Bool × S
  popInt : S → BitVec 32 × S
  pushBool : Bool → S → S
  accepts : Nat → S → Bool
  pop_push : ∀ b s, popBool (pushBool b s) = (b, s)
  accepts_all : ∀ s, accepts 0 s = true

variable {A S : Type}

/-- The actions of an expression, one after the other. -/
def Interp.eval (I : Interp A S) : List A → S → Except S S
  | [], s => .ok s
  | a :: as, s =>
    match I.act a s with
    | .ok s' => I.eval as s'
    | .error s' => .error s'

/-- A condition; a missing one holds. -/
def Interp.test (I : Interp A S) (c : Option (List A)) (s : S) : Except S (Bool × S) :=
  match c with
  | none => .ok (true, s)
  | some e =>
    match I.eval e s with
    | .ok s' => .ok (I.popBool s')
    | .error s' => .error s'

/-- An expression that may be missing. -/
def Interp.evalOpt (I : Interp A S) (e : Option (List A)) (s : S) : Except S S :=
  I.eval (e.getD []) s

/-- The folder is right: what it computes is what evaluating gives, without any effect. -/
structure Agrees (F : Folder A) (I : Interp A S) : Prop where
  bool : ∀ e b, F.bool e = some b → ∀ s, ∃ s', I.eval e s = .ok s' ∧ I.popBool s' = (b, s)
  int : ∀ e v, F.int e = some v → ∀ s, ∃ s', I.eval e s = .ok s' ∧ I.popInt s' = (v, s)

/-- Rounds that test first: `while` and `for` (whose third part runs after each round). -/
def rounds (test : S → Except S (Bool × S)) (body : S → Option (Out × S))
    (after : S → Except S S) : Nat → S → Option (Out × S)
  | 0, _ => none
  | n + 1, s =>
    match test s with
    | .error s' => some (.thr, s')
    | .ok (false, s') => some (.pass, s')
    | .ok (true, s') =>
      match body s' with
      | none => none
      | some (.brk, s'') => some (.pass, s'')
      | some (.pass, s'') | some (.cont, s'') =>
        match after s'' with
        | .error s3 => some (.thr, s3)
        | .ok s3 => rounds test body after n s3
      | some (o, s'') => some (o, s'')

/-- Rounds that test last: `do … while`, and `loop … until` with the opposite test. -/
def roundsDo (again : Bool) (test : S → Except S (Bool × S)) (body : S → Option (Out × S)) :
    Nat → S → Option (Out × S)
  | 0, _ => none
  | n + 1, s =>
    match body s with
    | none => none
    | some (.brk, s') => some (.pass, s')
    | some (.pass, s') | some (.cont, s') =>
      match test s' with
      | .error s'' => some (.thr, s'')
      | .ok (b, s'') => if b = again then roundsDo again test body n s'' else some (.pass, s'')
    | some (o, s') => some (o, s')

/-- Leaving a `switch`: a `break` inside ends it. -/
def leaveSwitch : Option (Out × S) → Option (Out × S)
  | some (.brk, s) => some (.pass, s)
  | r => r

/-- Leaving the body of a `try`: an exception goes to the handler. -/
def caught (handler : S → Option (Out × S)) : Option (Out × S) → Option (Out × S)
  | some (.thr, s) => handler s
  | r => r

/-- However a `try` ends, `finally` runs; when it passes, the end stays what it was. -/
def afterwards (fin : S → Option (Out × S)) : Option (Out × S) → Option (Out × S)
  | none => none
  | some (o, s) =>
    match fin s with
    | some (.pass, s') => some (o, s')
    | r => r

/-- The case a value goes to: the one that names it, otherwise the `default` one. -/
def pickCase (v : BitVec 32) (cases : Cases A) : Option Nat :=
  let rec index (l : Option (BitVec 32)) : Cases A → Option Nat
    | .nil => none
    | .cons labels _ rest => if l ∈ labels then some 0 else (index l rest).map (· + 1)
  (index (some v) cases).or (index none cases)

mutual

/-- The run of a statement. -/
def Stmt.run (I : Interp A S) (n : Nat) : Stmt A → S → Option (Out × S)
  | .expr e, s => simple I .pass e s
  | .typeDef, s => some (.pass, s)
  | .decl inits, s => simple I .pass inits.flatten s
  | .brk, s => some (.brk, s)
  | .cont, s => some (.cont, s)
  | .thr e, s => simple I .thr (e.getD []) s
  | .goto_ l, s => some (.goto_ l, s)
  | .ret e, s => simple I .ret (e.getD []) s
  | .block body, s => body.run I n s
  | .doWhile c body, s => roundsDo true (I.test c) (body.run I n) n s
  | .loopUntil c body, s =>
    match c with
    | none => roundsDo true (I.test none) (body.run I n) n s
    | some e => roundsDo false (I.test (some e)) (body.run I n) n s
  | .while_ c body, s => rounds (I.test c) (body.run I n) .ok n s
  | .for_ init c inc body, s =>
    match I.eval init s with
    | .error s' => some (.thr, s')
    | .ok s' => rounds (I.test c) (body.run I n) (I.evalOpt inc) n s'
  | .if_ c yes no, s =>
    match I.test c s with
    | .error s' => some (.thr, s')
    | .ok (true, s') => yes.run I n s'
    | .ok (false, s') => no.run I n s'
  | .switch e cases, s =>
    match I.eval e s with
    | .error s' => some (.thr, s')
    | .ok s' =>
      match pickCase (I.popInt s').1 cases with
      | none => some (.pass, (I.popInt s').2)
      | some k => leaveSwitch (cases.run I n k (I.popInt s').2)
  | .try_ body catches fin, s =>
    afterwards (fin.run I n) (caught (catches.run I n) (body.run I n s))
  | .empty, s => some (.pass, s)
where
  /-- An expression and then the given end, unless it raises an exception. -/
  simple (I : Interp A S) (o : Out) (e : List A) (s : S) : Option (Out × S) :=
    match I.eval e s with
    | .ok s' => some (o, s')
    | .error s' => some (.thr, s')

/-- Statements one after the other, until one does not pass. -/
def Stmts.run (I : Interp A S) (n : Nat) : Stmts A → S → Option (Out × S)
  | .nil, s => some (.pass, s)
  | .cons t rest, s =>
    match t.run I n s with
    | some (.pass, s') => rest.run I n s'
    | r => r

/-- The cases from a position on, each falling through into the next. -/
def Cases.run (I : Interp A S) (n : Nat) : Cases A → Nat → S → Option (Out × S)
  | .nil, _, s => some (.pass, s)
  | .cons _ _ rest, k + 1, s => rest.run I n k s
  | .cons _ body rest, 0, s =>
    match body.run I n s with
    | some (.pass, s') => rest.run I n 0 s'
    | r => r

/-- The first clause that takes the pending exception; none: it goes on. -/
def Catches.run (I : Interp A S) (n : Nat) : Catches A → S → Option (Out × S)
  | .nil, s => some (.thr, s)
  | .cons type body rest, s =>
    if I.accepts type s then body.run I n s else rest.run I n s

end

end Verif.Stmt

namespace Verif.Stmt

variable {A S : Type}

/-! ## What the exit analysis should say -/

/-- Some action may raise an exception on its own. -/
def Interp.Raises (I : Interp A S) : Prop := ∃ a s s', I.act a s = .error s'

/-- `et` allows for passing through: it says so, or it says nothing at all (`none` is what the
analysis gives for statements without effect). -/
def mayPass (et : ET) : Bool := et.has ET.pass || et == ET.none

/-- An exit type allows for the way a run ended.  Exceptions that expressions raise on their own are
not the subject of the analysis. -/
def Admits (I : Interp A S) (et : ET) : Out → Prop
  | .pass => mayPass et = true
  | .brk => et.has ET.brk = true
  | .cont => et.has ET.cont = true
  | .ret => et.has ET.ret = true
  | .thr => et.has ET.thr = true ∨ I.Raises
  | .goto_ _ => et.has ET.goto_ = true

/-- At most one `default`. -/
def Cases.defaults : Cases A → Nat
  | .nil => 0
  | .cons labels _ rest => labels.count none + rest.defaults

/-- `a` only lists what `b` lists, passing through aside. -/
def inside (a b : ET) : Bool := (a &&& ~~~ET.pass &&& ~~~b) == 0#16

/-- A loop without an end of its own: if its body can `break`, the result says that the loop can be
passed. -/
def tidyEndless (body r : ET) : Bool := !body.has ET.brk || mayPass r

/-- A loop that tests last: if its body can end a round, the result says that the loop can be
passed. -/
def tidyLast (body r : ET) : Bool :=
  !(body.has ET.brk || body.has ET.cont || mayPass body) || mayPass r

mutual

/-- The statements for which the analysis is right.  Everything is allowed except the shapes the
analysis gets wrong (each is refuted in `Verif.Props.Stmt`):
* a loop that can end after its test or by `break`, while the analysis of its body lists other ways
  out but not passing through (`while (c) { return; }`);
* `loop { return; } until (true)`;
* a `switch` whose last case can fall out, or whose chosen case can `break`, where the result does
  not list passing through;
* a `try` whose catch clauses or `finally` have ways out that its body has not. -/
def tidy (F : Folder A) : Stmt A → Bool
  | .block body => tidys F body
  | .doWhile c body =>
    tidy F body &&
      (if F.cond c = some true ∨ c = none then tidyEndless (exitType F body) (exitType F (.doWhile c body))
       else tidyLast (exitType F body) (exitType F (.doWhile c body)))
  | .loopUntil c body =>
    tidy F body &&
      (if F.cond c = some false ∨ c = none then
        tidyEndless (exitType F body) (exitType F (.loopUntil c body))
       else tidyLast (exitType F body) (exitType F (.loopUntil c body)) &&
        inside ((exitType F body).remove (ET.brk ||| ET.cont)) (exitType F (.loopUntil c body)))
  | .while_ c body =>
    decide (F.cond c = some false) || tidy F body &&
      (if F.cond c = some true ∨ c = none then tidyEndless (exitType F body) (exitType F (.while_ c body))
       else mayPass (exitType F (.while_ c body)))
  | .for_ init c inc body =>
    decide (F.cond c = some false) || tidy F body &&
      (if F.cond c = some true ∨ c = none then
        tidyEndless (exitType F body) (exitType F (.for_ init c inc body))
       else mayPass (exitType F (.for_ init c inc body)))
  | .if_ c yes no =>
    if F.cond c = some true then tidy F yes
    else if F.cond c = some false then tidy F no
    else tidy F yes && tidy F no
  | .switch e cases =>
    decide (cases.defaults ≤ 1) &&
      match F.int e with
      | some v =>
        match findCase v cases 0 none with
        | none => true
        | some k => tidyKnown F (exitType F (.switch e cases)) cases k false
      | none => tidyCases F (exitType F (.switch e cases)) cases false
  | .try_ body catches fin =>
    tidy F fin &&
      ((exitType F fin != ET.none && !(exitType F fin).has ET.pass) ||
       (tidy F body && inside (exitType F fin) (exitType F (.try_ body catches fin)) &&
        tidyCatches F (exitType F (.try_ body catches fin)) catches))
  | _ => true

/-- All statements of a list. -/
def tidys (F : Folder A) : Stmts A → Bool
  | .nil => true
  | .cons s rest => tidy F s && tidys F rest

/-- The cases that a known value runs through; `r` is the result for the `switch`. -/
def tidyKnown (F : Folder A) (r : ET) : Cases A → Nat → Bool → Bool
  | .nil, _, passing => !passing || mayPass r
  | .cons _ _ rest, k + 1, passing => tidyKnown F r rest k passing
  | .cons _ body rest, 0, _ =>
    tidys F body && (!(caseType F body ET.none).has ET.brk || mayPass r) &&
      ((caseType F body ET.none).hasOnly caseUntil ||
        tidyKnown F r rest 0 (mayPass (caseType F body ET.none)))

/-- All cases; `r` is the result for the `switch`. -/
def tidyCases (F : Folder A) (r : ET) : Cases A → Bool → Bool
  | .nil, passing => !passing || mayPass r
  | .cons _ body rest, _ =>
    tidys F body && tidyCases F r rest (mayPass (caseType F body ET.none))

/-- The catch clauses add nothing to the result `r`. -/
def tidyCatches (F : Folder A) (r : ET) : Catches A → Bool
  | .nil => true
  | .cons _ body rest =>
    tidy F body && inside (exitType F body) r && (!mayPass (exitType F body) || mayPass r) &&
      tidyCatches F r rest

end

end Verif.Stmt
