import Verif.Model.Stmt
import Verif.Model.Bits

/-!
# From statements to commands

Model of the `compile` members of `modules/compile/statements.cpp`, of the writing of what they
produce (`modules/compile/xilx.cpp:440-600`), of the placing of labels and jumps
(`modules/core/core.cpp`: `xil_pool_t::commit`, `jmp_manager_t::commit`, `switch_manager_t::commit`,
`method_t::compile`) and of the jump commands (`modules/exec/commands.cpp:6100-6330`).

Simplifications.  An expression is a list of opaque actions, each one instruction; the jumps inside
`&&`, `||` and `?:` are not seen.  `try` is not translated here (`fail`), so no `leave` jumps occur.
An exception of the compiler is recorded as the pseudo-instruction `fail` (or an unresolved point)
and reported by `commit`; in the code it is thrown at once.  The tables of a method are inlined into
their switch instructions (the limit of 256 tables of a method is `Verif.Bits.Jmp.setTbl`).
-/

namespace Verif.Stmt

open Verif.Bits

variable {A S : Type}

/-- The two options that change the translation: `compile_optimize_code_t::remove_unreached_codes`
and `convert_switch_to_if_statement` (`statements.cpp:167-170, 1146`). -/
structure Opts where
  removeUnreached : Bool
  switchToIf : Bool

/-- `xil_jmp_model_t` without `switch_` and `leave` — `modules/core/xil.cpp:352-366`. -/
inductive JmpModel where
  | always | ifTrue | ifFalse
  deriving DecidableEq, Repr

/-- `statement_exit_point_type_t`. -/
inductive Point where
  | brk | cont
  deriving DecidableEq, Repr

/-- What is written to the pool: instructions, labels (`smp_xil_t` with `xil_smp_t::label`) and jumps
to labels. -/
inductive X (A : Type) where
  | act (a : A)
  /-- `expression == constant`, the comparison that `__compile_as_if` makes. -/
  | eqInt (k : BitVec 32)
  /-- The value of an expression is not used (`append_expression(…, false)`). -/
  | drop
  | label (l : Nat)
  | jmp (m : JmpModel) (l : Nat)
  /-- `point_jmp_xilx_t` whose region is not known yet. -/
  | point (p : Point)
  | switch (rows : List (BitVec 32 × Nat)) (dflt : Nat)
  | ret
  | thr
  /-- `__Failed(…)`. -/
  | fail

/-- `point_jmp_xilx_t::write` (`xilx.cpp:556-563`) with `__x_statement_region_t::get_point`
(`statements.cpp:237-257`) for the jumps written inside a region that has the points `b` and `c`
(`none`: not supported by the region, the parent is asked). -/
def X.resolve (b c : Option Nat) : X A → X A
  | .point .brk => match b with
    | some l => .jmp .always l
    | none => .point .brk
  | .point .cont => match c with
    | some l => .jmp .always l
    | none => .point .cont
  | x => x

/-- The instructions of a region. -/
def resolve (b c : Option Nat) (xs : List (X A)) : List (X A) := xs.map (X.resolve b c)

/-- An expression: `append_expression` — `statements.cpp:96-107`. -/
def acts (e : List A) : List (X A) := e.map .act

/-- The value of a condition as the `compile` members see it:
`__remove_unreached_codes(ctx) ? execute_expression(condition) : nan`. -/
def Opts.cond (o : Opts) (F : Folder A) (c : Option (List A)) : Option Bool :=
  if o.removeUnreached then F.cond c else none

/-- `append_expression(condition)` and the jump on it; nothing for a missing condition. -/
def condJmp (c : Option (List A)) (m : JmpModel) (l : Nat) : List (X A) :=
  match c with
  | none => []
  | some e => acts e ++ [.jmp m l]

/-- The test at the head of `while` and `for` — `statements.cpp:836-840, 927-931`. -/
def headTest (o : Opts) (F : Folder A) (c : Option (List A)) (lb : Nat) : List (X A) :=
  if o.cond F c = some true ∨ c = none then [] else condJmp c .ifFalse lb

/-- The test at the end of `do … while` — `statements.cpp:691-706`. -/
def doTail (o : Opts) (F : Folder A) (c : Option (List A)) (lc : Nat) : List (X A) :=
  if o.cond F c = some true ∨ c = none then [.jmp .always lc]
  else if o.cond F c = some false then []
  else condJmp c .ifTrue lc

/-- The test at the end of `loop … until` — `statements.cpp:759-774`. -/
def untilTail (o : Opts) (F : Folder A) (c : Option (List A)) (lc : Nat) : List (X A) :=
  if o.cond F c = some false ∨ c = none then [.jmp .always lc]
  else if o.cond F c = some true then []
  else condJmp c .ifFalse lc

/-- `switch_statement_t::__get_rows` — `statements.cpp:1275-1289`. -/
def rowCount : Cases A → Nat
  | .nil => 0
  | .cons labels _ rest => (labels.filter Option.isSome).length + rowCount rest

/-- One constant of the case at position `k` in that loop — `statements.cpp:1322-1330`. -/
def lastOf (k : Nat) (r : Option (Nat × BitVec 32)) : Option (BitVec 32) → Option (Nat × BitVec 32)
  | some v => some (k, v)
  | none => r

/-- The constant case that `__compile_as_if` finds (the last) — `statements.cpp:1318-1331`. -/
def lastConst : Cases A → Nat → Option (Nat × BitVec 32) → Option (Nat × BitVec 32)
  | .nil, _, r => r
  | .cons labels _ rest, k, r =>
    lastConst rest (k + 1) (labels.foldl (lastOf k) r)

/-- The default case that `__compile_as_if` finds (the last) — `statements.cpp:1318-1331`. -/
def lastDefault : Cases A → Nat → Option Nat → Option Nat
  | .nil, _, r => r
  | .cons labels _ rest, k, r => lastDefault rest (k + 1) (if labels.contains none then some k else r)

/-- The statements of the case at a position are a null pointer. -/
def caseNull : Cases A → Nat → Bool
  | .cons _ .nil _, 0 => true
  | .cons _ _ rest, k + 1 => caseNull rest k
  | _, _ => false

/-- One row put at its place among sorted ones. -/
def insertRow (r : BitVec 32 × Nat) : List (BitVec 32 × Nat) → List (BitVec 32 × Nat)
  | [] => [r]
  | r' :: rows => if r.1.sle r'.1 then r :: r' :: rows else r' :: insertRow r rows

/-- `std::sort` by the value of the case (`statements.cpp:1217-1219`).  The values are different from each
other, so every way of sorting gives the same rows. -/
def sortRows (rows : List (BitVec 32 × Nat)) : List (BitVec 32 × Nat) := rows.foldr insertRow []

/-- The rows of the table: `switch_table_t::count` has 16 bits (`include/modules/core.h:3189-3199`),
so only `row_count % 65536` rows are sorted and written — `statements.cpp:1215-1217`. -/
def table (rows : List (BitVec 32 × Nat)) : List (BitVec 32 × Nat) :=
  sortRows (rows.take (rows.length % 65536))

/-- The case labels with the labels of their places, in the order of the source. -/
def rowsOf (labels : List (Option (BitVec 32))) (l : Nat) : List (BitVec 32 × Nat) :=
  labels.filterMap (fun v => v.map (·, l))

/-- What the loop over the cases in `__compile_as_switch` leaves behind: the code, the rows, the
labels of the `default`s and the last label given out. -/
structure CaseCode (A : Type) where
  code : List (X A)
  rows : List (BitVec 32 × Nat)
  dflts : List Nat
  next : Nat

mutual

/-- The `compile` members — `statements.cpp`: expression 419-425, typedef 447-450, definition
517-534, break 559-565, continue 580-586, throw 601-614, goto 631-634 with
`global_label_jmp_xilx_t::write` (`xilx.cpp:577-580`: nothing is written), return 651-666 with
`return_xilx_t::write` (`xilx.cpp:445-466`), block 327-350, do-while 684-710, loop-until 752-778,
while 823-848, for 893-941, if 1028-1059, switch 1136-1166, try 1563-1660 (not modelled), empty
1704-1707.  The number is the last label given out (`next_local_label`,
`include/modules/core.h:8508-8511`), before and after. -/
def compile (o : Opts) (F : Folder A) : Stmt A → Nat → List (X A) × Nat
  | .expr e, n => (acts e, n)
  | .typeDef, n => ([], n)
  | .decl inits, n => (acts inits.flatten, n)
  | .brk, n => ([.point .brk], n)
  | .cont, n => ([.point .cont], n)
  | .thr e, n => (acts (e.getD []) ++ [.thr], n)
  | .goto_ _, n => ([], n)
  | .ret e, n => (acts (e.getD []) ++ [.ret], n)
  | .block body, n => compileAll o F o.removeUnreached body n
  | .doWhile c body, n =>
    let lc := n + 1
    let b := compile o F body (n + 1)
    let lb := b.2 + 1
    (.label lc :: resolve (some lb) (some lc) b.1 ++ doTail o F c lc ++ [.label lb], lb)
  | .loopUntil c body, n =>
    let lc := n + 1
    let b := compile o F body (n + 1)
    let lb := b.2 + 1
    (.label lc :: resolve (some lb) (some lc) b.1 ++ untilTail o F c lc ++ [.label lb], lb)
  | .while_ c body, n =>
    if o.cond F c = some false then ([], n)
    else
      let lc := n + 1
      let b := compile o F body (n + 1)
      let lb := b.2 + 1
      (.label lc :: headTest o F c lb ++ resolve (some lb) (some lc) b.1 ++ [.jmp .always lc, .label lb], lb)
  | .for_ init c inc body, n =>
    if o.cond F c = some false then (acts init, n)
    else
      let lcond := n + 1
      let lc := n + 2
      let b := compile o F body (n + 2)
      let lb := b.2 + 1
      (acts init ++ (if inc.isSome then [.jmp .always lcond] else []) ++
        .label lc :: acts (inc.getD []) ++ .label lcond :: headTest o F c lb ++
        resolve (some lb) (some lc) b.1 ++ [.jmp .always lc, .label lb], lb)
  | .if_ c yes no, n =>
    if o.cond F c = some true then compile o F yes n
    else if o.cond F c = some false then compile o F no n
    else
      let le := n + 1
      let lend := n + 2
      let y := compile o F yes (n + 2)
      let z := compile o F no y.2
      (condJmp c .ifFalse le ++ y.1 ++ .jmp .always lend :: .label le :: z.1 ++ [.label lend], z.2)
  | .switch e cases, n =>
    if o.switchToIf ∧ rowCount cases = 0 then
      -- `__compile_as_statement`, 1292-1309
      if caseNull cases 0 ∨ cases matches .nil then (acts e ++ [.drop], n)
      else
        let b := compileNth o F cases 0 n
        (acts e ++ .drop :: resolve (some (b.2 + 1)) none b.1 ++ [.label (b.2 + 1)], b.2 + 1)
    else if o.switchToIf ∧ rowCount cases = 1 then
      -- `__compile_as_if`, 1312-1374
      match lastConst cases 0 none with
      | none => ([.fail], n)
      | some (i, k) =>
        let d := lastDefault cases 0 none
        let r : List (X A) × Nat :=
          if d = some i ∨ (caseNull cases i ∧ (d = none ∨ d.any (caseNull cases))) then
            let b := compileNth o F cases i n
            (acts e ++ .drop :: b.1, b.2)
          else
            let v := if o.removeUnreached then (F.int e).map (· == k) else none
            match v with
            | some true => compileNth o F cases i n
            | some false => d.elim ([], n) (fun j => compileNth o F cases j n)
            | none =>
              let y := compileNth o F cases i (n + 1)
              let z := d.elim ([], y.2) (fun j => compileNth o F cases j y.2)
              (acts e ++ .eqInt k :: .jmp .ifFalse (n + 1) :: y.1 ++ .label (n + 1) :: z.1, z.2)
        (resolve (some (r.2 + 1)) none r.1 ++ [.label (r.2 + 1)], r.2 + 1)
    else
      -- `__compile_as_switch`, 1169-1223
      let c := compileCases o F cases n
      let lb := c.next + 1
      if c.dflts.length ≤ 1 ∧ (c.rows.map (·.1)).Nodup then
        match c.dflts with
        | [] =>
          (acts e ++ .switch (table c.rows) (lb + 1) :: resolve (some lb) none c.code ++
            [.label lb, .label (lb + 1)], lb + 1)
        | d :: _ =>
          (acts e ++ .switch (table c.rows) d :: resolve (some lb) none c.code ++ [.label lb], lb)
      else ([.fail], n)
  | .try_ _ _ _, n => ([.fail], n)
  | .empty, n => ([], n)

/-- `statement_group_t::compile` (`statements.cpp:327-350`, with `cut`) and `compile_statements`
(128-137, without): one statement after the other. -/
def compileAll (o : Opts) (F : Folder A) (cut : Bool) : Stmts A → Nat → List (X A) × Nat
  | .nil, n => ([], n)
  | .cons s rest, n =>
    let x := compile o F s n
    if cut ∧ unreached (exitType F s) then x
    else
      let y := compileAll o F cut rest x.2
      (x.1 ++ y.1, y.2)

/-- `compile_statements` of the case at a position. -/
def compileNth (o : Opts) (F : Folder A) : Cases A → Nat → Nat → List (X A) × Nat
  | .nil, _, n => ([], n)
  | .cons _ body _, 0, n => compileAll o F false body n
  | .cons _ _ rest, k + 1, n => compileNth o F rest k n

/-- The loop over the cases in `__compile_as_switch` — `statements.cpp:1179-1204`. -/
def compileCases (o : Opts) (F : Folder A) : Cases A → Nat → CaseCode A
  | .nil, n => ⟨[], [], [], n⟩
  | .cons labels body rest, n =>
    let x := compileAll o F false body (n + 1)
    let y := compileCases o F rest x.2
    ⟨.label (n + 1) :: x.1 ++ y.code, rowsOf labels (n + 1) ++ y.rows,
      (labels.filter (·.isNone)).map (fun _ => n + 1) ++ y.dflts, y.next⟩

end

/-! ## Placing -/

/-- `xil_smp_t::label` — the instructions that `xil_pool_t::commit` drops. -/
def X.isLabel : X A → Bool
  | .label _ => true
  | _ => false

/-- The number of instructions that stay — `index` in `xil_pool_t::commit`, `core.cpp:8440-8471`. -/
def size (xs : List (X A)) : Nat := xs.countP (fun x => !x.isLabel)

/-- `jmp_manager_t::label_xil` with `xil_pool_t::index_of` (`core.cpp:8474-8520`): the index of the
instruction behind the label, where `i` is the index of the first one given. -/
def labelIdx : List (X A) → Nat → Nat → Option Nat
  | [], _, _ => none
  | .label l' :: xs, i, l => (labelIdx xs i l).or (if l' = l then some i else none)
  | _ :: xs, i, l => labelIdx xs (i + 1) l

/-- Why a method cannot be compiled. -/
inductive CompileErr where
  | labelNotFound | overflow | failed | noPoint
  deriving DecidableEq, Repr

/-- The commands made from the instructions — `modules/exec/parser.cpp:209-298`, one each. -/
inductive Cmd (A : Type) where
  | act (a : A)
  | eqInt (k : BitVec 32)
  | drop
  | jmp (m : JmpModel) (step : Int)
  | switch (rows : List (BitVec 32 × Int)) (dflt : Int)
  | ret
  | thr

/-- `index2 - index1`: `uint32_t` arithmetic read as `int32_t` — `core.cpp:8536-8540`. -/
def distance (i t : Nat) : BitVec 32 := BitVec.ofNat 32 t - BitVec.ofNat 32 i

/-- `jmp_xil_t::set_step`, and `step` when the method is loaded. -/
def stored (v : BitVec 32) : Except CompileErr Int :=
  match ((⟨0#4, 0#4, 0#8, 0#8, 0#8⟩ : Jmp).setStep v).bind Jmp.step with
  | some w => .ok w.toInt
  | none => .error .overflow

/-- The index of a label, or `label_not_found`. -/
def found (find : Nat → Option Nat) (l : Nat) : Except CompileErr Nat :=
  match find l with
  | some t => .ok t
  | none => .error .labelNotFound

/-- The steps of the rows of a table — `switch_manager_t::commit`, `core.cpp:1611-1625`. -/
def placeRows (find : Nat → Option Nat) (i : Nat) :
    List (BitVec 32 × Nat) → Except CompileErr (List (BitVec 32 × Int))
  | [] => .ok []
  | (v, l) :: rows =>
    match found find l with
    | .error e => .error e
    | .ok t =>
      match placeRows find i rows with
      | .error e => .error e
      | .ok rs => .ok ((v, (distance i t).toInt) :: rs)

/-- One instruction at the index `i`: `jmp_manager_t::commit` (`core.cpp:8526-8542`),
`switch_manager_t::commit` (1611-1625). -/
def place (find : Nat → Option Nat) (i : Nat) : X A → Except CompileErr (Cmd A)
  | .act a => .ok (.act a)
  | .eqInt k => .ok (.eqInt k)
  | .drop => .ok .drop
  | .jmp m l =>
    match found find l with
    | .error e => .error e
    | .ok t =>
      match stored (distance i t) with
      | .error e => .error e
      | .ok d => .ok (.jmp m d)
  | .switch rows dflt =>
    match placeRows find i rows with
    | .error e => .error e
    | .ok rs =>
      match found find dflt with
      | .error e => .error e
      | .ok t => .ok (.switch rs (distance i t).toInt)
  | .ret => .ok .ret
  | .thr => .ok .thr
  | .point _ => .error .noPoint
  | .fail => .error .failed
  | .label _ => .error .failed

/-- The loop of `xil_pool_t::commit` (`core.cpp:8440-8471`): labels go, everything else stays. -/
def placeAll (find : Nat → Option Nat) : List (X A) → Nat → Except CompileErr (List (Cmd A))
  | [], _ => .ok []
  | x :: xs, i =>
    if x.isLabel then placeAll find xs i
    else
      match place find i x with
      | .error e => .error e
      | .ok c =>
        match placeAll find xs (i + 1) with
        | .error e => .error e
        | .ok cs => .ok (c :: cs)

/-- `ctx.commit()` at the end of `method_t::compile` (`core.cpp:1767-1815`) and the making of the
commands when the method is first called. -/
def commit (xs : List (X A)) : Except CompileErr (List (Cmd A)) := placeAll (labelIdx xs 0) xs 0

/-- `method_t::compile` — `core.cpp:1767-1815`: all statements of the body. -/
def compileMethod (o : Opts) (F : Folder A) (body : Stmts A) : Except CompileErr (List (Cmd A)) :=
  commit (compileAll o F false body 0).1

/-! ## Executing

The opaque actions and the evaluation stack are given by functions with the types of those of
`Verif.Stmt.Interp`. -/

/-- `__switch_jmp_command_t::__binary_search` — `commands.cpp:6317-6332`. -/
def search {α : Type} (rows : List (BitVec 32 × α)) (v : BitVec 32) : Option α :=
  match h : rows[rows.length / 2]? with
  | none => none
  | some r =>
    have : rows.length / 2 < rows.length := (List.getElem?_eq_some_iff.mp h).1
    if v.slt r.1 then search (rows.take (rows.length / 2)) v
    else if r.1.slt v then search (rows.drop (rows.length / 2 + 1)) v
    else some r.2
termination_by rows.length
decreasing_by all_goals (simp [List.length_take, List.length_drop]; omega)

/-- The state of a method that is being executed: before a command, finished by returning or by
throwing, or outside the commands. -/
inductive Conf (S : Type) where
  | at_ (pc : Nat) (s : S)
  | returned (s : S)
  | thrown (s : S)
  | lost

/-- `ctx.current += step - 1`, after `ctx.current` has been moved behind the command —
`commands.cpp:6178-6181, 6300-6303, 6350`. -/
def jumpTo (pc : Nat) (step : Int) (s : S) : Conf S :=
  let t := (pc : Int) + 1 + (step - 1)
  if t < 0 then .lost else .at_ t.toNat s

/-- What the opaque parts of commands do. -/
structure Machine (A S : Type) where
  act : A → S → Except S S
  popBool : S → Bool × S
  popInt : S → BitVec 32 × S
  pushBool : Bool → S → S

/-- One command: jumps `commands.cpp:6100-6190`, switch 6285-6333, return and throw. -/
def exec (M : Machine A S) (pc : Nat) (s : S) : Cmd A → Conf S
  | .act a =>
    match M.act a s with
    | .ok s' => .at_ (pc + 1) s'
    | .error s' => .thrown s'
  | .eqInt k => .at_ (pc + 1) (M.pushBool ((M.popInt s).1 == k) (M.popInt s).2)
  | .drop => .at_ (pc + 1) (M.popInt s).2
  | .jmp .always step => jumpTo pc step s
  | .jmp .ifTrue step =>
    if (M.popBool s).1 then jumpTo pc step (M.popBool s).2 else .at_ (pc + 1) (M.popBool s).2
  | .jmp .ifFalse step =>
    if (M.popBool s).1 then .at_ (pc + 1) (M.popBool s).2 else jumpTo pc step (M.popBool s).2
  | .switch rows dflt =>
    jumpTo pc ((search rows (M.popInt s).1).getD dflt) (M.popInt s).2
  | .ret => .returned s
  | .thr => .thrown s

/-- The next state; behind the last command there is none. -/
def next (M : Machine A S) (cmds : List (Cmd A)) : Conf S → Conf S
  | .at_ pc s =>
    match cmds[pc]? with
    | some c => exec M pc s c
    | none => .lost
  | c => c

/-- So many commands. -/
def steps (M : Machine A S) (cmds : List (Cmd A)) : Nat → Conf S → Conf S
  | 0, c => c
  | n + 1, c => steps M cmds n (next M cmds c)

end Verif.Stmt
