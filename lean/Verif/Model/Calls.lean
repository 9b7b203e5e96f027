/-!
# The call stack of the virtual machine

Models the execution stack and the calling stub (`include/modules/exec.h:140-300,924-1030`), the places of parameters
(`modules/rt/layout.cpp:742-808`, `modules/exec/parser.cpp:160-206`), the commands that read and write local variables,
parameters and `ref`/`out` parameters (`modules/exec/commands.cpp:724-900,2816-2906,3451-3474`), the cache of commands
(`309-343`), the commands of calls and returns (`4036-4430,5525-5660`), and delegates (`4486-4780`,
`core_lib/System/System.cs:179-201`).  The methods are turned into commands when they are first entered
(`modules/exec/exec.cpp:106-117`).

Simplifications.  Every variable, parameter and result takes one unit of the stack, so conversions between types and structs
as parameters are left out.  A unit holds a value with its kind instead of 64 bits: using one as something else than it is (an
address as a number, a number as an address) is a fault.  An object is its number and its class, and the override that a class has
for a method is a parameter (C71 proves which one it is).  Calls do not run static constructors (`__pre_static_call` does not).
A null reference, and every other exception, is a fault.  The stack has no end.
-/

namespace Verif.Calls

/-- What can be called: a method of the program, or one of the methods of `System.Delegate<TReturn, TArgs ...>`: its constructor,
and `Invoke` with so many arguments and with or without a result (`core_lib/System/System.cs:184-200`). -/
inductive MRef where
  | meth (m : Nat)
  | delegateCtor
  | delegateInvoke (n : Nat) (result : Bool)
deriving DecidableEq, Repr

/-- The types of the operands of a command that have commands of their own, `xil_type_t` (`modules/core/__xil.h`). -/
inductive XT where
  | int64 | object | string | ptr
deriving DecidableEq, Repr

/-- Operators, as far as this file needs some. -/
inductive Op where
  | add | sub | mul | less
deriving DecidableEq, Repr

/-- The instructions of a method.  Parameters are numbered from 0; in a method that is not static, 0 is `this`
(`modules/compile/xilx.cpp:182-184`). -/
inductive Instr where
  | const (n : BitVec 64)
  | null
  | new (cls : Nat)
  | method (m : Nat)
  | local (i : Nat)
  | arg (t : XT) (i : Nat)
  | content (t : XT) (i : Nat)
  | localAddr (i : Nat)
  | argAddr (i : Nat)
  | popLocal (i : Nat)
  | popArg (t : XT) (i : Nat)
  | popArgAddr (t : XT) (i : Nat)
  | pickArg (t : XT) (i : Nat)
  | pickArgAddr (t : XT) (i : Nat)
  | popEmpty
  | bin (o : Op)
  | jump (step : Int)
  | jumpFalse (step : Int)
  | call (m : MRef)
  | callVirtual (m : Nat)
  | ret
  | show
  | halt
  | delegateInit
  | delegateInvoke
deriving DecidableEq, Repr

/-- A method: how many parameters it has without `this`, how many units of local variables, and whether it has a result. -/
structure Meth where
  static : Bool
  params : Nat
  locals : Nat
  result : Bool
  body : List Instr
deriving DecidableEq, Repr

/-- A program.  The method 0 is what the machine is started with (`execute_commands`, `modules/exec/commands.cpp:7770-7790`): it has
no parameters, and ends with `halt`. -/
structure Program where
  methods : List Meth
  override : Nat → Nat → Nat

/-- The declaration of what is called.  The constructor and `Invoke` of a delegate consist of one command, behind which `return`
stands. -/
def Program.info (P : Program) : MRef → Option Meth
  | .meth m => P.methods[m]?
  | .delegateCtor => some ⟨false, 2, 0, false, [.delegateInit, .ret]⟩
  | .delegateInvoke n r => some ⟨false, n, 0, r, [.delegateInvoke, .ret]⟩

/-- The units of the parameters, with `this` in front of them (`modules/exec/parser.cpp:172-192`). -/
def Meth.units (M : Meth) : Nat := if M.static then M.params else M.params + 1

/-- `params_layout_t::offset_of` (`modules/rt/layout.cpp:796-808`): how far a parameter is below the calling stub. -/
def Meth.offsetOf (M : Meth) (i : Nat) : Option Nat :=
  if i < M.units then some (M.units - i) else if i = M.units then some 0 else none

/-- `__stack_stub_size` (`modules/exec/commands.cpp:129`): the stub has three units. -/
def stub : Nat := 3

/-- Commands: instructions with the offsets they work with. -/
inductive Cmd where
  | const (n : BitVec 64)
  | null
  | new (cls : Nat)
  | method (m : Nat)
  | pushLocal (off : Nat)
  | pushArg (off : Nat)
  | pushContent (off : Nat)
  | pushLocalAddr (off : Nat)
  | pushArgAddr (off : Nat)
  | popLocal (off : Nat)
  | popArg (off : Nat)
  | popArgAddr (off : Nat)
  | pickArg (off : Nat)
  | popEmpty
  | bin (o : Op)
  | jump (step : Int)
  | jumpFalse (step : Int)
  | call (m : MRef)
  | callVirtual (m : Nat) (thisOff : Nat)
  | ret (locals params result : Nat)
  | show
  | halt
  | delegateInit (inst meth this : Nat)
  | delegateInvoke (this : Nat)
deriving DecidableEq, Repr

/-- What a command is cached under: the value of the command and the arguments of `get_command`
(`modules/exec/commands.cpp:309-343`).  A command value names the kind of the command and the types of the operands. -/
inductive Key where
  | const (n : BitVec 64)
  | null
  | new (cls : Nat)
  | method (m : Nat)
  | pushLocal (off : Nat)
  | pushArgument (t : XT) (off : Nat)
  | pushArgumentContent (t : XT) (off : Nat)
  | pushLocalAddr (off : Nat)
  | pushArgumentAddr (off : Nat)
  | popLocal (off : Nat)
  | popArgument (t : XT) (off : Nat)
  | pickArgument (t : XT) (off : Nat)
  | popEmpty
  | bin (o : Op)
  | jump (step : Int)
  | jumpFalse (step : Int)
  | call (m : MRef)
  | callVirtual (m : Nat) (thisOff : Nat)
  | ret (locals params result : Nat)
  | show
  | halt
  | delegateInit (this : Nat)
  | delegateInvoke (this : Nat)
deriving DecidableEq, Repr

/-- `new_command` (`modules/exec/commands.cpp`): the key and the command of an instruction.  An assignment to a `ref` parameter is
asked for with the command value of an assignment to an ordinary one (`3234-3240`: `__StCmd(pop, argument, ..)` in both cases).
There is no command for the value of such an assignment (`__new_pick_command`, `3690-3705`, knows no `argument_addr`).  The offsets of
the delegate commands are read off the constructor they are in (`4734-4741`; the code computes them at the first constructor,
and all constructors have the same parameters).  The commands of a call are cached by the method; the offset of `this` of a virtual
call is that of the method (`4457-4480`). -/
def build (P : Program) (M : Meth) : Instr → Option (Key × Cmd)
  | .const n => some (.const n, .const n)
  | .null => some (.null, .null)
  | .new c => some (.new c, .new c)
  | .method m => some (.method m, .method m)
  | .local i => some (.pushLocal i, .pushLocal i)
  | .arg t i => (M.offsetOf i).map fun o => (.pushArgument t o, .pushArg (o + stub))
  | .content t i => (M.offsetOf i).map fun o => (.pushArgumentContent t o, .pushContent (o + stub))
  | .localAddr i => some (.pushLocalAddr i, .pushLocalAddr i)
  | .argAddr i => (M.offsetOf i).map fun o => (.pushArgumentAddr o, .pushArgAddr (o + stub))
  | .popLocal i => some (.popLocal i, .popLocal i)
  | .popArg t i => (M.offsetOf i).map fun o => (.popArgument t o, .popArg (o + stub))
  | .popArgAddr t i => (M.offsetOf i).map fun o => (.popArgument t o, .popArgAddr (o + stub))
  | .pickArg t i => (M.offsetOf i).map fun o => (.pickArgument t o, .pickArg (o + stub))
  | .pickArgAddr _ _ => none
  | .popEmpty => some (.popEmpty, .popEmpty)
  | .bin o => some (.bin o, .bin o)
  | .jump s => some (.jump (s - 1), .jump (s - 1))
  | .jumpFalse s => some (.jumpFalse (s - 1), .jumpFalse (s - 1))
  | .call m => some (.call m, .call m)
  | .callVirtual m => (P.methods[m]?).bind fun N => (N.offsetOf 0).map fun o => (.callVirtual m o, .callVirtual m o)
  | .ret =>
    some (.ret M.locals M.units (if M.result then 1 else 0), .ret M.locals M.units (if M.result then 1 else 0))
  | .show => some (.show, .show)
  | .halt => some (.halt, .halt)
  | .delegateInit =>
    match M.offsetOf 0, M.offsetOf 1, M.offsetOf 2 with
    | some o, some o1, some o2 => some (.delegateInit o, .delegateInit (o1 + stub) (o2 + stub) (o + stub))
    | _, _, _ => none
  | .delegateInvoke => (M.offsetOf 0).map fun o => (.delegateInvoke o, .delegateInvoke (o + stub))

/-- The map of a command manager. -/
abbrev Cache := List (Key × Cmd)

/-- `get_command` (`modules/exec/commands.cpp:322-337`): the command made first for a key is the command of all that ask for it. -/
def getCommand (cache : Cache) (k : Key) (c : Cmd) : Cmd × Cache :=
  match cache.lookup k with
  | some c' => (c', cache)
  | none => (c, (k, c) :: cache)

/-- The commands of a body (`modules/exec/parser.cpp:206-230`). -/
def parseBody (P : Program) (M : Meth) : List Instr → Cache → Option (List Cmd × Cache)
  | [], cache => some ([], cache)
  | i :: is, cache => do
    let (k, c) ← build P M i
    let (c', cache) := getCommand cache k c
    let (cs, cache) ← parseBody P M is cache
    some (c' :: cs, cache)

/-- What a unit of the stack holds. -/
inductive Unit64 where
  | int (n : BitVec 64)
  | null
  | obj (id cls : Nat)
  | meth (m : Nat)
  /-- The address of a unit of the stack. -/
  | addr (a : Nat)
  /-- A code address, `command_t **`. -/
  | code (m : MRef) (pc : Nat)
  /-- A method that is executed, `exec_method_t *`. -/
  | exec (m : MRef)
deriving DecidableEq, Repr

/-- What is shown to the outside. -/
inductive Item where
  | int (n : BitVec 64)
  | null
  | obj (id : Nat)
deriving DecidableEq, Repr

/-- The machine. -/
structure St where
  mem : Nat → Unit64
  top : Nat
  lp : Nat
  cur : MRef × Nat
  parsed : List (MRef × List Cmd) := []
  cache : Cache := []
  fresh : Nat := 0
  out : List Item := []
  halted : Bool := false

/-- A write to the stack. -/
def upd (mem : Nat → Unit64) (a : Nat) (v : Unit64) : Nat → Unit64 := fun x => if x = a then v else mem x

/-- `stack.push`. -/
def St.push (s : St) (v : Unit64) : St := { s with mem := upd s.mem s.top v, top := s.top + 1 }

/-- `get_commands` (`modules/exec/exec.cpp:106-117`). -/
def St.load (P : Program) (s : St) (m : MRef) : Option (List Cmd × St) :=
  match s.parsed.lookup m with
  | some cs => some (cs, s)
  | none => do
    let M ← P.info m
    let (cs, cache) ← parseBody P M M.body s.cache
    some (cs, { s with parsed := (m, cs) :: s.parsed, cache := cache })

/-- `push_calling` (`include/modules/exec.h:963-970`). -/
def St.enter (P : Program) (s : St) (m : MRef) : Option St := do
  let M ← P.info m
  let (_, s') ← s.load P m
  some { s' with
    mem := upd (upd (upd s.mem s.top (.addr s.lp)) (s.top + 1) (.code s.cur.1 s.cur.2)) (s.top + 2) (.exec m)
    top := s.top + 3 + M.locals
    lp := s.top + 3
    cur := (m, 0) }

/-- Operators. -/
def Op.eval : Op → BitVec 64 → BitVec 64 → BitVec 64
  | .add, x, y => x + y
  | .sub, x, y => x - y
  | .mul, x, y => x * y
  | .less, x, y => if x.slt y then 1 else 0

/-- What is shown of a unit. -/
def Unit64.item : Unit64 → Option Item
  | .int n => some (.int n)
  | .null => some .null
  | .obj i _ => some (.obj i)
  | _ => none

/-- A command.  `ctx.current` stands behind the command when it is executed. -/
def exec (P : Program) (s : St) : Cmd → Option St
  | .const n => some (s.push (.int n))
  | .null => some (s.push .null)
  | .new c => some { s.push (.obj s.fresh c) with fresh := s.fresh + 1 }
  | .method m => some (s.push (.meth m))
  | .pushLocal o => some (s.push (s.mem (s.lp + o)))
  | .pushArg o => if o ≤ s.lp then some (s.push (s.mem (s.lp - o))) else none
  | .pushContent o =>
    if o ≤ s.lp then
      match s.mem (s.lp - o) with
      | .addr a => some (s.push (s.mem a))
      | _ => none
    else none
  | .pushLocalAddr o => some (s.push (.addr (s.lp + o)))
  | .pushArgAddr o => if o ≤ s.lp then some (s.push (.addr (s.lp - o))) else none
  | .popLocal o =>
    if 1 ≤ s.top then some { s with mem := upd s.mem (s.lp + o) (s.mem (s.top - 1)), top := s.top - 1 } else none
  | .popArg o =>
    if 1 ≤ s.top ∧ o ≤ s.lp then some { s with mem := upd s.mem (s.lp - o) (s.mem (s.top - 1)), top := s.top - 1 } else none
  | .popArgAddr o =>
    if 1 ≤ s.top ∧ o ≤ s.lp then
      match s.mem (s.lp - o) with
      | .addr a => some { s with mem := upd s.mem a (s.mem (s.top - 1)), top := s.top - 1 }
      | _ => none
    else none
  | .pickArg o =>
    if 1 ≤ s.top ∧ o ≤ s.lp then some { s with mem := upd s.mem (s.lp - o) (s.mem (s.top - 1)) } else none
  | .popEmpty => if 1 ≤ s.top then some { s with top := s.top - 1 } else none
  | .bin o =>
    if 2 ≤ s.top then
      match s.mem (s.top - 2), s.mem (s.top - 1) with
      | .int x, .int y => some { s with mem := upd s.mem (s.top - 2) (.int (o.eval x y)), top := s.top - 1 }
      | _, _ => none
    else none
  | .jump d => some { s with cur := (s.cur.1, ((s.cur.2 : Int) + d).toNat) }
  | .jumpFalse d =>
    if 1 ≤ s.top then
      match s.mem (s.top - 1) with
      | .int x => some { s with top := s.top - 1, cur := (s.cur.1, if x = 0 then ((s.cur.2 : Int) + d).toNat else s.cur.2) }
      | _ => none
    else none
  | .call m => s.enter P m
  | .callVirtual m o =>
    if o ≤ s.top then
      match s.mem (s.top - o) with
      | .obj _ c => s.enter P (.meth (P.override c m))
      | _ => none
    else none
  | .ret l p r =>
    -- `__ret_command_t` (`modules/exec/commands.cpp:5554-5562`): what is removed is counted from the top
    if 3 ≤ s.lp ∧ p + stub + l + r ≤ s.top then
      match s.mem (s.lp - 3), s.mem (s.lp - 2) with
      | .addr lp, .code m pc =>
        some { s with
          mem := if r = 0 then s.mem else upd s.mem (s.top - (p + stub + l) - 1) (s.mem (s.top - 1))
          top := s.top - (p + stub + l), lp := lp, cur := (m, pc) }
      | _, _ => none
    else none
  | .show =>
    if 1 ≤ s.top then (s.mem (s.top - 1)).item.map fun i => { s with top := s.top - 1, out := s.out ++ [i] } else none
  | .halt => some { s with halted := true }
  | .delegateInit oi om ot =>
    -- `__delegate_call_command_t<delegate_init>` (`4563-4568`): the fields are the instance and, behind it, the method
    if oi ≤ s.lp ∧ om ≤ s.lp ∧ ot ≤ s.lp then
      match s.mem (s.lp - ot) with
      | .addr a => some { s with mem := upd (upd s.mem a (s.mem (s.lp - oi))) (a + 1) (s.mem (s.lp - om)) }
      | _ => none
    else none
  | .delegateInvoke ot =>
    -- `__delegate_call_command_t<delegate_invoke>` (`4651-4667`) and `switch_to` (`include/modules/exec.h:998-1008`)
    if ot ≤ s.lp ∧ 1 ≤ s.lp then
      match s.mem (s.lp - ot) with
      | .addr a =>
        match s.mem (a + 1), s.mem (s.lp - 1) with
        | .meth m, .exec old => do
          let M ← P.info (.meth m)
          let O ← P.info old
          let (_, s') ← s.load P (.meth m)
          some { s' with
            mem := upd (upd s.mem (s.lp - ot) (s.mem a)) (s.lp - 1) (.exec (.meth m))
            top := s.top + M.locals - O.locals
            cur := (.meth m, 0) }
        | _, _ => none
      | _ => none
    else none

/-- One command is fetched, `ctx.current` moves on, and it is executed. -/
def step (P : Program) (s : St) : Option St := do
  if s.halted then some s
  else
    let cs ← s.parsed.lookup s.cur.1
    let c ← cs[s.cur.2]?
    exec P { s with cur := (s.cur.1, s.cur.2 + 1) } c

/-- So many commands. -/
def run (P : Program) : Nat → St → Option St
  | 0, s => some s
  | n + 1, s => (step P s).bind (run P n)

/-- The start (`execute_commands`, `modules/exec/commands.cpp:7770-7790`): the stub of the outermost call is put on the empty stack. -/
def start (P : Program) (garbage : Nat → Unit64) : Option St := do
  let s : St := { mem := garbage, top := 0, lp := 0, cur := (.meth 0, 0) }
  s.enter P (.meth 0)

end Verif.Calls
