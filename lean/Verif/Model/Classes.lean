import Verif.Model.Place
import Verif.Model.Codegen
import Verif.Model.Dispatch

/-!
# Programs of classes

The parts of the compiler and of the machine put together for programs with objects: the statements of
`Verif.Model.Codegen` (`modules/compile/statements.cpp`, `modules/core/core.cpp:1767-1815`), whose expressions are the
ones of `Verif.Model.Place` (`modules/compile/expression.cpp`), in methods that call each other through the virtual
tables of `Verif.Model.Dispatch` (`modules/rt/rt.cpp:838-899`, `modules/exec/commands.cpp:4313-4370`).

Simplifications.  Those of the three parts.  All classes are in one assembly, and a class comes with the list of all its
base classes.  A local variable starts with a given value (the code leaves there what was on the stack).  The fields of a
new object have the values of its class.  A program that runs into undefined behaviour, ends with an exception or does
not end has no result (`none`); so has one whose calls are nested too deeply.
-/

namespace Verif.Classes

open Verif.Place

/-- What a statement does with an expression: `expression_statement_t` and `defination_statement_item_t`, or the
condition of `if` and of loops, `return_statement_t` and the expression of `switch` —
`modules/compile/__statements.h:61-496`. -/
inductive Task where
  | run (st : Place.Stmt)
  | value (e : Exp)

/-- A method that is not static. -/
structure Method where
  returns : Bool
  arity : Nat
  locals : List Val
  body : Verif.Stmt.Stmts Task

/-- A class: its base classes (the nearest first), the row of its first method, its methods as the loader sees them, and
what the fields of a new object hold. -/
structure Cls where
  bases : List Nat
  first : Nat
  methods : List Dispatch.Method
  fields : List Val

/-- A program; classes and methods are known by their rows. -/
structure Program where
  classes : List Cls
  methods : List Method

/-! ## Classes and calls -/

/-- A class as the loader of `Verif.Model.Dispatch` has it. -/
def Program.loaded (P : Program) (i : Nat) : Option Dispatch.Class :=
  (P.classes[i]?).map fun c => ⟨0, c.first, c.methods⟩

/-- A class and its base classes. -/
def Program.lineage (P : Program) (i : Nat) : List Nat :=
  match P.classes[i]? with
  | some c => i :: c.bases
  | none => []

/-- The same, loaded. -/
def Program.chain (P : Program) (i : Nat) : List Dispatch.Class := (P.lineage i).filterMap P.loaded

/-- The class a method belongs to, its number there and how it is declared — `mt_type_t::methods`,
`modules/rt/rt.cpp:3139-3160`. -/
def Program.decl (P : Program) (m : Nat) : Option (Nat × Nat × Dispatch.Method) :=
  match P.classes.findIdx? (fun c => decide (c.first ≤ m ∧ m < c.first + c.methods.length)) with
  | none => none
  | some k =>
    match P.classes[k]? with
    | none => none
    | some c => (c.methods[m - c.first]?).map fun d => (k, m - c.first, d)

/-- Is a call of the method virtual? — `call_type_of_method`, `modules/core/xil.cpp:1158-1186`, without `sealed`. -/
def Program.virt (P : Program) (m : Nat) : Bool :=
  match P.decl m with
  | some (_, _, d) => d.virt || d.over
  | none => false

/-- The classes in front of a class. -/
def below (c : Nat) : List Nat → Option (List Nat)
  | [] => none
  | k :: rest => if k = c then some [] else (below c rest).map (k :: ·)

/-- The method a virtual call runs — `modules/exec/commands.cpp:4313-4370`: the entry of the table of the object's class
at the offset of the method.  An object of another class than the method's, or below it, is undefined behaviour. -/
def Program.vmTarget (P : Program) (h : Heap) (m : Nat) (o : Val) : Option Nat :=
  match classOf h o, P.decl m with
  | some k, some (c, i, _) =>
    match below c (P.lineage k), Dispatch.offsetIn 0 (P.chain c) i with
    | some _, some off => (Dispatch.virtualCall (P.chain k) off).map (·.row)
    | _, _ => none
  | _, _ => none

/-- What methods do. -/
abbrev Calls := Nat → Val → List Val → Heap → Option (Val × Heap)

/-- The program as its expressions see it, when `call` is what methods do and `target` is the method a virtual call
runs.  `new`: `modules/exec/commands.cpp`, `__new_command_t`. -/
def Program.world (P : Program) (target : Heap → Nat → Val → Option Nat) (call : Calls) : World where
  returns m := match P.methods[m]? with
    | some M => M.returns
    | none => false
  arity m := match P.methods[m]? with
    | some M => M.arity
    | none => 0
  virt := P.virt
  run m o args h := if P.virt m then (target h m o).bind (fun t => call t o args h) else call m o args h
  direct m := call m
  create c h := (.ref h.length, h ++ [.object c (match P.classes[c]? with
    | some k => k.fields
    | none => [])])
  direct_eq m hv := by funext o args h; rw [hv]; rfl

/-! ## Compiling -/

/-- The program as the compiler sees it: it does not look at what methods do. -/
def Program.sig (P : Program) : World := P.world (fun _ _ _ => none) (fun _ _ _ _ => none)

/-- The instructions of a task — `expression_xilx_t::write`, `local_assign_xilx_t::write`, `return_xilx_t::write`,
`modules/compile/xilx.cpp:425-535`. -/
def Task.compile (W : World) : Task → Option (List Ins)
  | .run st => st.compile W
  | .value e => e.compile W false false

section Lower

variable {A B : Type} (f : A → Option (List B))

/-- The instructions of several tasks. -/
def lowerE : List A → Option (List B)
  | [] => some []
  | a :: as => do
    let c ← f a
    let cs ← lowerE as
    some (c ++ cs)

/-- An expression that may be missing. -/
def lowerO : Option (List A) → Option (Option (List B))
  | none => some none
  | some e => (lowerE f e).map some

/-- The initial values of a definition. -/
def lowerL : List (List A) → Option (List (List B))
  | [] => some []
  | e :: es => do
    let c ← lowerE f e
    let cs ← lowerL es
    some (c :: cs)

mutual

/-- A statement with the instructions of its expressions — `append_expression`, `modules/compile/statements.cpp:96-107`,
which every `compile` member calls for its expressions. -/
def lower : Verif.Stmt.Stmt A → Option (Verif.Stmt.Stmt B)
  | .expr e => do some (.expr (← lowerE f e))
  | .typeDef => some .typeDef
  | .decl inits => do some (.decl (← lowerL f inits))
  | .brk => some .brk
  | .cont => some .cont
  | .thr e => do some (.thr (← lowerO f e))
  | .goto_ l => some (.goto_ l)
  | .ret e => do some (.ret (← lowerO f e))
  | .block body => do some (.block (← lowers body))
  | .doWhile c body => do
    let c ← lowerO f c
    let body ← lower body
    some (.doWhile c body)
  | .loopUntil c body => do
    let c ← lowerO f c
    let body ← lower body
    some (.loopUntil c body)
  | .while_ c body => do
    let c ← lowerO f c
    let body ← lower body
    some (.while_ c body)
  | .for_ init c inc body => do
    let init ← lowerE f init
    let c ← lowerO f c
    let inc ← lowerO f inc
    let body ← lower body
    some (.for_ init c inc body)
  | .if_ c yes no => do
    let c ← lowerO f c
    let yes ← lower yes
    let no ← lower no
    some (.if_ c yes no)
  | .switch e cases => do
    let e ← lowerE f e
    let cases ← lowerCases cases
    some (.switch e cases)
  | .try_ body catches fin => do
    let body ← lower body
    let catches ← lowerCatches catches
    let fin ← lower fin
    some (.try_ body catches fin)
  | .empty => some .empty

/-- Several statements. -/
def lowers : Verif.Stmt.Stmts A → Option (Verif.Stmt.Stmts B)
  | .nil => some .nil
  | .cons s rest => do
    let s ← lower s
    let rest ← lowers rest
    some (.cons s rest)

/-- The cases of a `switch`. -/
def lowerCases : Verif.Stmt.Cases A → Option (Verif.Stmt.Cases B)
  | .nil => some .nil
  | .cons labels body rest => do
    let body ← lowers body
    let rest ← lowerCases rest
    some (.cons labels body rest)

/-- The clauses of a `try`. -/
def lowerCatches : Verif.Stmt.Catches A → Option (Verif.Stmt.Catches B)
  | .nil => some .nil
  | .cons type body rest => do
    let body ← lower body
    let rest ← lowerCatches rest
    some (.cons type body rest)

end

end Lower

/-- `execute_expression` of a constant condition — `include/modules/core.h:6739-6745`. -/
def folder : Verif.Stmt.Folder Ins where
  bool
    | [.push (.int n)] => some (n != 0)
    | _ => none
  int
    | [.push (.int n)] => some n
    | _ => none

/-- The statements of a method with the instructions of their expressions, and with a `return` at the end where one is
missing — `modules/compile/ast.cpp:2152-2182`.  `none`: the method is rejected. -/
def Program.lowered (P : Program) (M : Method) : Option (Verif.Stmt.Stmts Ins) :=
  (lowers (Task.compile P.sig) M.body).bind (Verif.Stmt.postAnalysis folder (!M.returns))

/-- `method_t::compile` — `modules/core/core.cpp:1767-1815`. -/
def Program.compile (o : Verif.Stmt.Opts) (P : Program) (M : Method) : Option (List (Verif.Stmt.Cmd Ins)) :=
  (P.lowered M).bind fun body => (Verif.Stmt.compileMethod o folder body).toOption

/-! ## Running -/

/-- An exception: what is known of the method that raised it is not modelled. -/
def dead : Cfg := ([], ⟨[], [], []⟩)

/-- A condition on the stack. -/
def popBool : Cfg → Bool × Cfg
  | (.int n :: k, s) => (n != 0, (k, s))
  | (_ :: k, s) => (false, (k, s))
  | c => (false, c)

/-- A number on the stack. -/
def popInt : Cfg → BitVec 32 × Cfg
  | (.int n :: k, s) => (n, (k, s))
  | (_ :: k, s) => (0, (k, s))
  | c => (0, c)

/-- The result of a comparison. -/
def pushBool (b : Bool) (c : Cfg) : Cfg := (.ofBool b :: c.1, c.2)

/-- The machine, inside a method. -/
def machine (W : World) (this : Val) : Verif.Stmt.Machine Ins Cfg where
  act i c := match step W this i c with
    | some c' => .ok c'
    | none => .error dead
  popBool := popBool
  popInt := popInt
  pushBool := pushBool

/-- The start of a call: the arguments and the local variables. -/
def frame (M : Method) (args : List Val) (h : Heap) : Cfg := ([], ⟨args ++ M.locals, h, []⟩)

/-- The end of a call: the value on the stack, if there is a result. -/
def result (M : Method) (c : Cfg) : Option (Val × Heap) :=
  if M.returns then c.1.head?.map fun v => (v, c.2.heap) else some (.null, c.2.heap)

open Classical in
/-- The thing with a property, if there is one (there is never more than one where this is used). -/
noncomputable def theOne {α : Type} (p : α → Prop) : Option α :=
  if h : ∃ a, p a then some h.choose else none

/-- What a method does, when calls may be nested as deeply as given: its commands are executed until one returns. -/
noncomputable def Program.exec (o : Verif.Stmt.Opts) (P : Program) : Nat → Calls
  | 0 => fun _ _ _ _ => none
  | d + 1 => fun m this args h =>
    match P.methods[m]? with
    | none => none
    | some M =>
      if args.length = M.arity then
        match P.compile o M with
        | none => none
        | some cmds =>
          (theOne fun c => ∃ n, Verif.Stmt.steps (machine (P.world P.vmTarget (P.exec o d)) this) cmds n
            (.at_ 0 (frame M args h)) = .returned c).bind (result M)
      else none

end Verif.Classes
