/-!
# Statements and the analysis of how they can be left

Model of `modules/compile/__statements.h` (the statement classes, `unreached`, `exit_type_of`),
`modules/compile/statements.cpp` (the `exit_type` members) and
`modules/compile/ast.cpp:2152-2182` (the end of a method body).

Expressions are lists of opaque actions `A`; what the constant folder makes of them is the
parameter `Folder`.  Names, types and variables do not occur.  `foreach` is not modelled: its
`compile` and `exit_type` are `X_UNEXPECTED()` (`statements.cpp:1002-1014`).
-/

namespace Verif.Stmt

/-! ## Exit types -/

/-- `statement_exit_type_t` with `enum_t` around it — `include/modules/core.h:1766-1790`,
`include/common.h:2475-2623`. -/
abbrev ET := BitVec 16

namespace ET

/-- `none` — `include/modules/core.h:1769`. -/
def none : ET := 0#16
/-- `pass = 1 << 1` — 1772. -/
def pass : ET := 2#16
/-- `return_ = 1 << 2` — 1775. -/
def ret : ET := 4#16
/-- `break_ = 1 << 3` — 1778. -/
def brk : ET := 8#16
/-- `continue_ = 1 << 4` — 1781. -/
def cont : ET := 16#16
/-- `throw_ = 1 << 5` — 1784. -/
def thr : ET := 32#16
/-- `goto_ = 1 << 6` — 1787. -/
def goto_ : ET := 64#16
/-- `dead_cycle = 1 << 7` — 1790. -/
def dead : ET := 128#16

/-- `enum_t::has` — `include/common.h:2577-2581`. -/
def has (a f : ET) : Bool := a &&& f != 0#16

/-- `enum_t::has_only` — `include/common.h:2584-2597`. -/
def hasOnly (a f : ET) : Bool := a != 0#16 && (a &&& ~~~f) == 0#16

/-- `enum_t::remove` — `include/common.h:2600-2603`, `bit_remove_flag` 1530-1533. -/
def remove (a f : ET) : ET := a &&& ~~~f

end ET

/-! ## Syntax -/

mutual

/-- The statement classes — `modules/compile/__statements.h:61-580`.  A null pointer to a statement
is `empty`: `compile_statement` (`statements.cpp:121-125`), `__exit_type` (139-145) and
`__is_empty_statement` (112-118) treat both alike.  A null pointer to an expression is `none`. -/
inductive Stmt (A : Type) where
  /-- `expression_statement_t`, 61-83. -/
  | expr (e : List A)
  /-- `type_def_statement_t`, 88-108. -/
  | typeDef
  /-- `defination_statement_t`, 136-170: the initialisers of the items that have one. -/
  | decl (inits : List (List A))
  /-- `break_statement_t`, 175-186. -/
  | brk
  /-- `continue_statement_t`, 191-202. -/
  | cont
  /-- `throw_statement_t`, 207-224. -/
  | thr (e : Option (List A))
  /-- `goto_statement_t`, 229-246. -/
  | goto_ (name : Nat)
  /-- `return_statement_t`, 251-268. -/
  | ret (e : Option (List A))
  /-- `statement_group_t`: a block. -/
  | block (body : Stmts A)
  /-- `do_while_statement_t`, 273-293. -/
  | doWhile (c : Option (List A)) (body : Stmt A)
  /-- `loop_until_statement_t`, 298-317. -/
  | loopUntil (c : Option (List A)) (body : Stmt A)
  /-- `while_statement_t`, 322-341. -/
  | while_ (c : Option (List A)) (body : Stmt A)
  /-- `for_statement_t`, 346-374; `init` is the definition or the expression that starts it. -/
  | for_ (init : List A) (c inc : Option (List A)) (body : Stmt A)
  /-- `if_statement_t`, 407-428. -/
  | if_ (c : Option (List A)) (yes no : Stmt A)
  /-- `switch_statement_t`, 451-496. -/
  | switch (e : List A) (cases : Cases A)
  /-- `try_statement_t`, 523-547. -/
  | try_ (body : Stmt A) (catches : Catches A) (fin : Stmt A)
  /-- `empty_statement_t`, 552-572. -/
  | empty

/-- A list of statements (`statements_t`); a null pointer is `nil`. -/
inductive Stmts (A : Type) where
  | nil
  | cons (s : Stmt A) (rest : Stmts A)

/-- `case_t`, `__statements.h:433-446`: the constants (`none` is `default`), already read as 32-bit
integers (`switch_statement_t::__read_const_int`, `statements.cpp:1226-1272`), and the statements. -/
inductive Cases (A : Type) where
  | nil
  | cons (labels : List (Option (BitVec 32))) (body : Stmts A) (rest : Cases A)

/-- `catch_t`, `__statements.h:501-516`: the caught type, a number; `0` is `System.Exception`. -/
inductive Catches (A : Type) where
  | nil
  | cons (type : Nat) (body : Stmt A) (rest : Catches A)

end

/-- What `execute_expression` (`include/modules/core.h:6739-6745`) computes at compile time; `none`
is `cvalue_t::nan`.  The folder itself is `Verif.Model.Fold`. -/
structure Folder (A : Type) where
  bool : List A → Option Bool
  int : List A → Option (BitVec 32)

variable {A : Type}

/-- `execute_expression(condition)` of a condition that may be missing (`nan` then). -/
def Folder.cond (F : Folder A) (c : Option (List A)) : Option Bool := c.bind F.bool

/-! ## The analysis -/

/-- `unreached` — `__statements.h:637-649`. -/
def unreached (et : ET) : Bool :=
  et.hasOnly (ET.ret ||| ET.thr ||| ET.dead ||| ET.brk ||| ET.cont)

/-- `__FreeExitFlags` — `statements.cpp:19-21`. -/
def freeExitFlags : ET := ET.brk ||| ET.ret ||| ET.goto_ ||| ET.thr

/-- The branch "condition always true" of the loops — e.g. `statements.cpp:862-868`. -/
def endless (etBody : ET) : ET :=
  if !etBody.has freeExitFlags then ET.dead
  else etBody.remove (ET.brk ||| ET.cont ||| ET.pass)

/-- The flags that end a case — `statements.cpp:1408-1410` and `1450-1452`. -/
def caseUntil : ET := ET.ret ||| ET.thr ||| ET.dead ||| ET.brk

/-- `case_t::contains_default` — `statements.cpp:1100-1109`. -/
def containsDefault (labels : List (Option (BitVec 32))) : Bool := labels.contains none

/-- `switch_statement_t::__find_case` — `statements.cpp:1377-1393`: the position of the case with
the value, or of the last `default` in front of the end. -/
def findCase (v : BitVec 32) : Cases A → Nat → Option Nat → Option Nat
  | .nil, _, dflt => dflt
  | .cons labels _ rest, k, dflt =>
    if labels.contains (some v) then some k
    else findCase v rest (k + 1) (if labels.contains none then some k else dflt)

mutual

/-- `exit_type` of the statement classes — `statements.cpp`: expression 428-431, typedef 453-456,
definition 537-543, break 568-571, continue 589-592, throw 617-620, goto 637-640, return 669-672,
block 353-356, do-while 713-730, loop-until 781-802, while 851-872, for 944-965, if 1062-1082,
switch 1432-1489, try 1663-1681, empty 1710-1713. -/
def exitType (F : Folder A) : Stmt A → ET
  | .expr _ => ET.pass
  | .typeDef => ET.none
  | .decl inits => if inits.isEmpty then ET.none else ET.pass
  | .brk => ET.brk
  | .cont => ET.cont
  | .thr _ => ET.thr
  | .goto_ _ => ET.goto_
  | .ret _ => ET.ret
  | .block body => exitTypes F body ET.none
  | .doWhile c body =>
    if F.cond c = some true ∨ c = none then endless (exitType F body)
    else (exitType F body).remove (ET.brk ||| ET.cont)
  | .loopUntil c body =>
    if F.cond c = some false ∨ c = none then endless (exitType F body)
    else if F.cond c = some true then ET.none
    else (exitType F body).remove (ET.brk ||| ET.cont)
  | .while_ c body =>
    if F.cond c = some false then ET.none
    else if F.cond c = some true ∨ c = none then endless (exitType F body)
    else (exitType F body).remove (ET.brk ||| ET.cont)
  | .for_ _ c _ body =>
    if F.cond c = some false then ET.none
    else if F.cond c = some true ∨ c = none then endless (exitType F body)
    else (exitType F body).remove (ET.brk ||| ET.cont)
  | .if_ c yes no =>
    if F.cond c = some true then exitType F yes
    else if F.cond c = some false then exitType F no
    else
      let et := exitType F yes ||| exitType F no
      if (exitType F yes = 0#16 ∨ exitType F no = 0#16) ∧ et ≠ 0#16 then et ||| ET.pass else et
  | .switch e cases =>
    match F.int e with
    | some v =>
      match findCase v cases 0 none with
      | none => ET.none
      | some k => (knownCases F cases k ET.none).remove ET.brk
    | none => (unknownCases F cases false ET.none).remove ET.brk
  | .try_ body catches fin =>
    let etFin := exitType F fin
    if etFin ≠ ET.none ∧ etFin.has ET.pass = false then etFin
    else
      let et := exitType F body
      if et.has ET.thr = false then et else catchTypes catches et
  | .empty => ET.none

/-- `exit_type_of` — `__statements.h:652-677`; the last argument is the variable `type`. -/
def exitTypes (F : Folder A) : Stmts A → ET → ET
  | .nil, type => type
  | .cons s rest, type =>
    let et := exitType F s
    if unreached et then (type ||| et).remove ET.pass else exitTypes F rest (type ||| et)

/-- `switch_statement_t::__exit_type_of` — `statements.cpp:1396-1429`. -/
def caseType (F : Folder A) : Stmts A → ET → ET
  | .nil, type => type
  | .cons s rest, type =>
    let et := exitType F s
    if et.hasOnly caseUntil then (type ||| et).remove ET.pass else caseType F rest (type ||| et)

/-- The loop over the cases from the chosen one when the value is known —
`statements.cpp:1437-1468`; the number is how many cases are skipped first. -/
def knownCases (F : Folder A) : Cases A → Nat → ET → ET
  | .nil, _, type => type
  | .cons _ _ rest, k + 1, type => knownCases F rest k type
  | .cons _ body rest, 0, type =>
    let et := caseType F body ET.none
    if et.hasOnly caseUntil then
      if et.has ET.brk then (type ||| et) ||| ET.pass else (type ||| et).remove ET.pass
    else knownCases F rest 0 (type ||| et)

/-- The loop over the cases when the value is not known — `statements.cpp:1470-1483`; the flag is
`contains_default`. -/
def unknownCases (F : Folder A) : Cases A → Bool → ET → ET
  | .nil, dflt, type => if dflt then type else type ||| ET.pass
  | .cons labels body rest, dflt, type =>
    let et := caseType F body ET.none
    unknownCases F rest (dflt || containsDefault labels)
      (if et.has ET.brk then (type ||| et) ||| ET.pass else type ||| et)

/-- The loop over the catches — `statements.cpp:1673-1678`. -/
def catchTypes : Catches A → ET → ET
  | .nil, et => et
  | .cons type _ rest, et => catchTypes rest (if type = 0 then et.remove ET.thr else et)

end

/-- `exit_type_of(ctx, &this->statements)` as `method_body_ast_node_t::__walk_post_analysis` and
`statement_group_t::exit_type` call it. -/
def exitTypeOf (F : Folder A) (body : Stmts A) : ET := exitTypes F body ET.none

/-- The statements of a block for which `statement_group_t::compile` produces code when unreached
code is removed — `statements.cpp:339-349`: up to the first one that is never passed. -/
def kept (F : Folder A) : Stmts A → Stmts A
  | .nil => .nil
  | .cons s rest => if unreached (exitType F s) then .cons s .nil else .cons s (kept F rest)

/-- The statements with one more at the end. -/
def Stmts.snoc : Stmts A → Stmt A → Stmts A
  | .nil, s => .cons s .nil
  | .cons t rest, s => .cons t (rest.snoc s)

/-- `method_body_ast_node_t::__walk_post_analysis` — `modules/compile/ast.cpp:2152-2182`: a body
that can be passed through gets a `return`, or an error when the method has a result
(`none`: `method_no_return` is logged). -/
def postAnalysis (F : Folder A) (isVoid : Bool) (body : Stmts A) : Option (Stmts A) :=
  let et := exitTypeOf F body
  if et.has ET.pass ∨ et = ET.none then
    if isVoid then some (body.snoc (.ret none)) else none
  else some body

end Verif.Stmt
