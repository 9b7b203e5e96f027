/-!
# Protected blocks and exceptions

Model of the blocks that `try` statements are compiled to — `modules/compile/statements.cpp:1518-1660`,
`modules/core/core.cpp:8207-8265` — of the blocks that the virtual machine builds from them
(`modules/exec/parser.cpp:238-294`), of their search (`include/modules/exec.h:535-615`), and of the commands
that raise an exception, leave a block, or end a `finally` block (`modules/exec/commands.cpp:5770-6060`,
`6185-6262`) with the stack of exceptions and the queue of blocks (`exec.h:400-530`, `703-850`).

Simplifications.  A command is its index in the method.  Types are numbers.  The machine is modelled within
one call of a method: when no block is left there, the outcome is that the call is left.  The nodes of the
block queue are taken as fresh values (each is used only before it is given out again); the nodes of the
exception stack are numbers that are given out again.
-/

namespace Verif.Block

/-- `method_xil_block_type_t` — `include/modules/core.h:3249-3257`. -/
inductive BType where
  | catch_ | finally_
  deriving DecidableEq, Repr

/-- `exec_method_block_t` — `exec.h:535-554`; `rel` is the type of the exceptions that a `catch` takes. -/
structure Blk where
  type : BType
  start : Nat
  end_ : Nat
  entry : Nat
  rel : Nat
  deriving DecidableEq, Repr

/-- `include(command)` — `exec.h:556-560`. -/
def Blk.has (b : Blk) (p : Nat) : Bool := decide (b.start ≤ p) && decide (p < b.end_)

/-- `include(block)` — `exec.h:568-571`. -/
def Blk.includes (b a : Blk) : Bool := decide (b.start ≤ a.start) && decide (a.end_ ≤ b.end_)

/-! ## Search -/

/-- A block with the blocks behind it in the table: `parent` is the first one of those that includes it —
`parser.cpp:280-293`.  The blocks from the parent onwards. -/
def parent (b : Blk) : List Blk → List Blk
  | [] => []
  | c :: rest => if c.includes b then c :: rest else parent b rest

/-- The chain of parents; `fuel` is the number of blocks. -/
def chain : Nat → List Blk → List Blk
  | 0, _ => []
  | _ + 1, [] => []
  | fuel + 1, b :: rest => b :: chain fuel (parent b rest)

/-- The first loop of `find_block` — `exec.h:600-609`: the first block that matches, and those behind it. -/
def firstBlock (match_ : Blk → Bool) (p : Nat) : List Blk → List Blk
  | [] => []
  | b :: rest => if match_ b && b.has p then b :: rest else firstBlock match_ p rest

/-- `find_block` — `exec.h:590-617`: the blocks given to the function, when it always wants more.  `none`:
no block was found, and the parent of the block behind the last one is read. -/
def findBlock (match_ : Blk → Bool) (p : Nat) (blocks : List Blk) : Option (List Blk) :=
  match firstBlock match_ p blocks with
  | [] => none
  | b :: rest => some (b :: (chain rest.length (parent b rest)).filter match_)

/-- `exec_method_t::find_block` — `exec.h:893-900`: a method without blocks has no manager. -/
def methodFind (match_ : Blk → Bool) (p : Nat) (blocks : List Blk) : Option (List Blk) :=
  if blocks = [] then some [] else findBlock match_ p blocks

/-! ## What is run -/

/-- `__is_base_type` — `commands.cpp:5749-5760`: `types` is the type with its base, the base of that and so on;
`base` is `none` for a `catch` without a type. -/
def isBaseType : List Nat → Option Nat → Bool
  | [], base => base.isNone
  | t :: rest, base => if some t ≠ base then isBaseType rest base else true

/-- The function of `__process_exception` — `commands.cpp:5853-5877` — over the blocks found: the `finally`
blocks that are put in the queue, and the `catch` block.  `is_ t` says whether the exception is of type `t`. -/
def unwind (is_ : Nat → Bool) : List Blk → List Blk × Option Blk
  | [] => ([], none)
  | b :: rest =>
    match b.type with
    | .catch_ => if is_ b.rel then ([], some b) else unwind is_ rest
    | .finally_ => let r := unwind is_ rest; (b :: r.1, r.2)

/-- The blocks for an exception raised at `p`. -/
def handlers (is_ : Nat → Bool) (p : Nat) (blocks : List Blk) : Option (List Blk × Option Blk) :=
  (methodFind (fun _ => true) p blocks).map (unwind is_)

/-- The function of `__process_finally` — `commands.cpp:5900-5912`: the `finally` blocks until one contains
the command that is jumped to. -/
def leaving (p target : Nat) (blocks : List Blk) : Option (List Blk) :=
  (methodFind (fun b => decide (b.type = .finally_)) p blocks).map (·.takeWhile (fun b => !b.has target))

/-- `__process_finally_for_return` — `commands.cpp:5928-5935`. -/
def returning (p : Nat) (blocks : List Blk) : Option (List Blk) :=
  methodFind (fun b => decide (b.type = .finally_)) p blocks

/-! ## Compilation of `try` -/

mutual
/-- A statement, as far as its place is concerned: `n` commands; one after the other; `try` with whether
its end is reached (then a jump is written). -/
inductive Stmt where
  | code (n : Nat)
  | seq (a b : Stmt)
  | try_ (body : Stmt) (passes : Bool) (catches : Catches) (fin : Fin)
/-- The `catch` clauses, each with the type of exceptions. -/
inductive Catches where
  | nil
  | cons (type : Nat) (body : Stmt) (passes : Bool) (rest : Catches)
/-- The `finally` clause. -/
inductive Fin where
  | none
  | some (body : Stmt) (passes : Bool)
end

mutual
/-- `try_statement_t::compile` — `statements.cpp:1561-1660` — and `__block_statement_region_t::write`
(`statements.cpp:1534-1545`): where the statement ends, and the blocks in the order in which they are
appended.  The labels are at the index of the command behind them. -/
def emit : Stmt → Nat → Nat × List Blk
  | .code n, pos => (pos + n, [])
  | .seq a b, pos =>
    let x := emit a pos
    let y := emit b x.1
    (y.1, x.2 ++ y.2)
  | .try_ body passes catches fin, pos =>
    let x := emit body pos
    let y := emitCatches pos x.1 catches (x.1 + passes.toNat)
    let z := emitFin pos y.1 fin
    (z.1, x.2 ++ (y.2 ++ z.2))
/-- The `catch` clauses — `statements.cpp:1610-1634`: each begins with the command that takes the
exception from the stack. -/
def emitCatches (start end_ : Nat) : Catches → Nat → Nat × List Blk
  | .nil, pos => (pos, [])
  | .cons type body passes rest, pos =>
    let x := emit body (pos + 1)
    let y := emitCatches start end_ rest (x.1 + passes.toNat)
    (y.1, ⟨.catch_, start, end_, pos, type⟩ :: (x.2 ++ y.2))
/-- The `finally` clause — `statements.cpp:1639-1657`. -/
def emitFin (start : Nat) : Nat → Fin → Nat × List Blk
  | pos, .none => (pos, [])
  | pos, .some body passes =>
    let x := emit body pos
    (x.1 + passes.toNat, ⟨.finally_, start, pos, pos, 0⟩ :: x.2)
end

/-! ## The machine -/

/-- `exception_stack_t` — `exec.h:501-529` — over `__resource_manager_base_t` (`exec.h:440-469`): the nodes
on the stack, the nodes that were released, what the nodes have, and how many were made. -/
structure Exceptions where
  stack : List Nat
  free : List Nat
  mem : List Nat
  deriving DecidableEq, Repr

/-- `push`, with `__acquire_node`. -/
def Exceptions.push (x : Exceptions) (e : Nat) : Exceptions :=
  match x.free with
  | n :: free => ⟨n :: x.stack, free, x.mem.set n e⟩
  | [] => ⟨x.mem.length :: x.stack, [], x.mem ++ [e]⟩

/-- `pop`. -/
def Exceptions.pop (x : Exceptions) : Exceptions :=
  match x.stack with
  | [] => x
  | n :: rest => ⟨rest, x.free ++ [n], x.mem⟩

/-- `block_node_finally_action_t`, with its command — `exec.h:626-690`. -/
inductive Action where
  | default_ | jump (target : Nat) | ret
  deriving DecidableEq, Repr

/-- `block_node_t`: the block, the node of the exception for a `catch`. -/
structure QNode where
  block : Blk
  exc : Option Nat
  action : Action
  deriving DecidableEq, Repr

/-- The state within a call. -/
structure St where
  excs : Exceptions
  queue : List QNode
  executing : List QNode
  deriving DecidableEq, Repr

/-- What happens next: the command at an index runs, with an exception on the stack for a `catch`; the method
returns; the call is left with the exception; the command behind runs. -/
inductive Next where
  | enter (command : Nat) (exc : Option Nat)
  | goto_ (command : Nat)
  | ret
  | leaveCall
  | following
  deriving DecidableEq, Repr

/-- `__process_block_nodes` — `commands.cpp:5802-5827`; `none`: the queue is empty. -/
def process (s : St) : Option (St × Next) :=
  match s.queue with
  | [] => none
  | n :: rest =>
    match n.exc with
    | some x => some ({ s with queue := rest }, .enter n.block.entry s.excs.mem[x]?)
    | none => some ({ s with queue := rest, executing := n :: s.executing }, .enter n.block.entry none)

/-- `end_group` — `exec.h:725-744`: the nodes in front of the old queue that are for blocks within the last
one go. -/
def dropWithin (last : Blk) : List QNode → List QNode
  | [] => []
  | n :: rest => if last.includes n.block then dropWithin last rest else n :: rest

/-- The nodes of a group, `begin_group` to `end_group`, and whether the old queue became shorter. -/
def enqueue (s : St) (group : List QNode) : St × Bool :=
  match group.getLast? with
  | none => (s, false)
  | some last =>
    let old := dropWithin last.block s.queue
    ({ s with queue := group ++ old }, old.length != s.queue.length)

/-- The command `throw` — `commands.cpp:5961-5966`, `__process_exception` — 5840-5898.  `none`: a read past
the blocks. -/
def throw_ (blocks : List Blk) (is_ : Nat → Nat → Bool) (s : St) (p e : Nat) : Option (St × Next) :=
  let s := { s with excs := s.excs.push e }
  match handlers (is_ e) p blocks with
  | none => none
  | some (fins, handler) =>
    let fs := fins.map (fun b => (⟨b, none, .default_⟩ : QNode))
    let group : List QNode := match handler with
      | none => fs
      | some c => fs ++ [⟨c, s.excs.stack.head?, .default_⟩]
    let s := match handler with
      | none => s
      | some _ => { s with excs := s.excs.pop }
    let r := enqueue s group
    let s := if r.2 then { r.1 with executing := r.1.executing.drop 1 } else r.1
    if group = [] then some (s, .leaveCall) else process s

/-- The last node of a group gets what is to be done after it — `exec.h:671-686`. -/
def setLast (a : Action) : List QNode → List QNode
  | [] => []
  | [n] => [{ n with action := a }]
  | n :: rest => n :: setLast a rest

/-- `leave` — `commands.cpp:6196-6200`, `__process_finally`: 5900-5925. -/
def leave (blocks : List Blk) (s : St) (p target : Nat) : Option (St × Next) :=
  match leaving p target blocks with
  | none => none
  | some fins =>
    let group := setLast (.jump target) (fins.map (fun b => (⟨b, none, .default_⟩ : QNode)))
    if group = [] then some (s, .following) else process (enqueue s group).1

/-- `leave.ret` — `commands.cpp:6252-6256`, `__process_finally_for_return`: 5928-5952. -/
def leaveRet (blocks : List Blk) (s : St) (p : Nat) : Option (St × Next) :=
  match returning p blocks with
  | none => none
  | some fins =>
    let group := setLast .ret (fins.map (fun b => (⟨b, none, .default_⟩ : QNode)))
    if group = [] then some (s, .ret) else process (enqueue s group).1

/-- The command that ends a `finally` block — `commands.cpp:5999-6056`; `none`: there is none to end. -/
def endFinally (s : St) : Option (St × Next) :=
  match s.executing with
  | [] => none
  | n :: rest =>
    let s := { s with executing := rest }
    match n.action with
    | .jump t => some (s, .goto_ t)
    | .ret => some (s, .ret)
    | .default_ =>
      match process s with
      | some r => some r
      | none => some (s, .leaveCall)

/-! ## `return` in a protected block -/

/-- The commands of `return e;`. -/
inductive RCmd where
  | leaveRet
  | push (value : Nat)
  | ret
  deriving DecidableEq, Repr

/-- `return_statement_t::compile` — `statements.cpp:649-663` — with `leave_ret_xilx_t::write` and
`return_xilx_t::write` (`xilx.cpp:476-520`); `value` is what the expression gives. -/
def returnCode (inProtected : Bool) (value : Nat) : List RCmd :=
  (if inProtected then [.leaveRet] else []) ++ [.push value, .ret]

/-- What the method returns: the value on the top of the stack when the command `ret` is executed;
`leave.ret` executes it after the `finally` blocks. -/
def runReturn : List RCmd → List Nat → Option Nat
  | [], _ => none
  | .leaveRet :: _, stack => stack.head?
  | .push v :: rest, stack => runReturn rest (v :: stack)
  | .ret :: _, stack => stack.head?

end Verif.Block
