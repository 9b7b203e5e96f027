/-!
# Structs: how the compiler passes them round and how the commands move them

`modules/compile/expression.cpp` and `modules/exec/commands.cpp`.  A struct that a program declares is not put on the stack as a
value: what compiles an expression of such a type expects the address of the place that is to receive the struct on top of
the stack, and leaves code behind which that address is gone and the struct stands in its place.

Simplified: every field takes one unit of the stack (a `long`), so an offset is a number of units; fields of struct type take
as many units as that struct.  `int` fields and their packing are the business of the layout (`Verif.Model.Layout`).  Jumps
are structured here (`if` has two branches); how jumps are laid out is modelled in `Verif.Model.Asm` and `Verif.Model.Stmt`.
-/

namespace Verif.Structs

/-- What one unit of memory may hold, `rt_stack_unit_t` (`include/modules/rt.h`): a number or an address.  Simplified: a number is
never taken for an address. -/
abbrev Word := BitVec 64

/-! ## The source -/

/-- Where a path begins: a local variable, a parameter (both by their first unit) or `this`. -/
inductive Root
  | loc (i : Nat)
  | par (i : Nat)
  | self
deriving DecidableEq, Repr

/-- `v`, `v.f`, `v.f.g` …, a place that holds a struct: the offsets of the fields in turn. -/
structure Place where
  root : Root
  offs : List Nat
deriving DecidableEq, Repr

/-- A variable that holds a number. -/
inductive Var
  | loc (i : Nat)
  | par (i : Nat)
deriving DecidableEq, Repr

inductive Bin
  | add
  | sub
  | mul
  | less
deriving DecidableEq, Repr

def Bin.eval : Bin → Word → Word → Word
  | .add, a, b => a + b
  | .sub, a, b => a - b
  | .mul, a, b => a * b
  | .less, a, b => if a.toInt < b.toInt then 1 else 0

mutual
/-- An expression whose value is a number. -/
inductive Exp
  | const (v : Word)
  /-- `x` -/
  | var (x : Var)
  /-- `p.f` -/
  | fld (p : Place) (k : Nat)
  | bin (o : Bin) (a b : Exp)
  /-- `F(args)` -/
  | call (m : Nat) (args : Args)
  /-- `p.M(args)`, where `p` is a struct of `n` units -/
  | callOn (p : Place) (n : Nat) (m : Nat) (args : Args)
  /-- `s.f`, where `s` is a call or a `new` that gives a struct of `n` units.  `t` is the local variable the compiler makes up for
  it (`define_temp_local`). -/
  | temp (t n : Nat) (s : SExp) (k : Nat)
/-- An expression whose value is a struct. -/
inductive SExp
  /-- `p`, a struct of `n` units -/
  | place (p : Place) (n : Nat)
  /-- `F(args)`, which gives a struct of `n` units -/
  | call (n : Nat) (m : Nat) (args : Args)
  /-- `p.M(args)`, which gives a struct of `n` units, on a struct of `k` units -/
  | callOn (n : Nat) (p : Place) (k : Nat) (m : Nat) (args : Args)
  /-- `new S(args)` with a constructor that has parameters; `S` has `n` units -/
  | new (n : Nat) (m : Nat) (args : Args)
  /-- `new S()` -/
  | newDefault (n : Nat)
  /-- `this`, a struct of `n` units -/
  | this (n : Nat)
/-- What is passed to a method. -/
inductive Args
  | nil
  | int (e : Exp) (rest : Args)
  | str (n : Nat) (s : SExp) (rest : Args)
end

/-- Statements, each with those behind it. -/
inductive Stmt
  | done
  /-- `x = e;` -/
  | setVar (x : Var) (e : Exp) (k : Stmt)
  /-- `p.f = e;` -/
  | setFld (p : Place) (f : Nat) (e : Exp) (k : Stmt)
  /-- `p = s;` where `p` has `n` units -/
  | setStr (p : Place) (n : Nat) (s : SExp) (k : Stmt)
  /-- `F(args);` of a method that gives nothing -/
  | call (m : Nat) (args : Args) (k : Stmt)
  /-- `p.M(args);` of a method that gives nothing -/
  | callOn (p : Place) (n : Nat) (m : Nat) (args : Args) (k : Stmt)
  /-- `if (e) a else b` -/
  | ite (e : Exp) (a b : Stmt) (k : Stmt)
  /-- `return;` -/
  | ret
  /-- `return e;` -/
  | retInt (e : Exp)
  /-- `return s;` -/
  | retStr (s : SExp)

/-- What a method gives. -/
inductive Ret
  | void
  | int
  | str (n : Nat)
deriving DecidableEq, Repr

/-- A method of the program. -/
structure Method where
  /-- the units of the struct it is a method of; `none` when it is static -/
  self : Option Nat
  /-- the units of its parameters, without `this` -/
  params : Nat
  /-- the units of the local variables it declares -/
  vars : Nat
  /-- the units of all its local variables, with those the compiler makes up -/
  locals : Nat
  ret : Ret
  body : Stmt

/-! ## The commands -/

inductive Op
  /-- `push constant` -/
  | const (v : Word)
  | getLoc (i : Nat)
  | setLoc (i : Nat)
  | getArg (i : Nat)
  | setArg (i : Nat)
  | locAddr (i : Nat)
  | argAddr (i : Nat)
  /-- `push this`, argument 0 as an address -/
  | this
  /-- `push calling bottom`, the unit below the arguments -/
  | bottom
  | fldAddr (k : Nat)
  | getFld (k : Nat)
  | setFld (k : Nat)
  | dup
  /-- `pop empty` -/
  | drop
  /-- `new stack_alloc` -/
  | alloc (n : Nat)
  /-- `copy … reverse` -/
  | copy (n : Nat)
  | bin (o : Bin)
  | call (m : Nat)
deriving DecidableEq, Repr

inductive Code
  | done
  | ops (os : List Op) (k : Code)
  | ite (a b k : Code)
  | ret

/-- Whether a method is called on an object, then argument 0 is `this` (`params_layout_t`, `modules/rt/layout.cpp:718-740`). -/
def Method.off (M : Method) : Nat := if M.self.isSome then 1 else 0

/-- The units all arguments take, `params_layout.unit_size()`. -/
def Method.units (M : Method) : Nat := M.off + M.params

/-! ## The compiler -/

/-- The address of the root of a path: `__compile_local_variable`, `__compile_param_variable` and the `this` expression
(`modules/compile/expression.cpp:1672-1677,1713-1715,3419-3422`).  The index of a parameter counts `this`
(`__param_index`, `108-116`). -/
def compileRoot (M : Method) : Root → Op
  | .loc i => .locAddr i
  | .par i => .argAddr (M.off + i)
  | .self => .this

/-- The address of a path: `__compile_member_point` compiles both sides in turn (`modules/compile/expression.cpp:885-899`), a field of
struct type is `push field_addr` (`__compile_field_variable`, `1743-1746`). -/
def compilePlace (M : Method) (p : Place) : List Op :=
  compileRoot M p.root :: p.offs.map .fldAddr

mutual
/-- An expression that gives a number.  `copy` is what `__need_object_copy` finds out about the names within
(`modules/compile/expression.cpp:2363-2393`): it goes up through all the expressions around a name, and the answer is no as soon
as one of them is the left side of a `.`. -/
def compileE (M : Method) (copy : Bool) : Exp → List Op
  | .const v => [.const v]
  | .var (.loc i) => [.getLoc i]
  | .var (.par i) => [.getArg (M.off + i)]
  -- `__compile_field_variable` (`1749-1752`)
  | .fld p k => compilePlace M p ++ [.getFld k]
  | .bin o a b => compileE M copy a ++ compileE M copy b ++ [.bin o]
  -- `__compile_method` (`2720-2745`)
  | .call m args => compileA M copy args ++ [.call m]
  | .callOn p _ m args => compilePlace M p ++ compileA M copy args ++ [.call m]
  -- `__pre_call_method` (`1767-1778`), `__compile_new_struct_object` (`3166-3173`)
  | .temp t _ s k => [.locAddr t, .dup] ++ compileS M false s ++ [.getFld k]
/-- An expression that gives a struct: behind the address of where it goes. -/
def compileS (M : Method) (copy : Bool) : SExp → List Op
  -- the name expression (`2405-2430`)
  | .place p n => compilePlace M p ++ (if copy then [.copy n] else [])
  | .call _ m args => compileA M copy args ++ [.call m]
  | .callOn _ p _ m args => compilePlace M p ++ compileA M copy args ++ [.call m]
  -- `__compile_new_struct_object` (`3159-3207`): the address itself is the `this` of the constructor
  | .new _ m args => compileA M copy args ++ [.call m]
  -- without parameters no constructor is called, and clearing is commented out (`3176-3180,3198-3205`)
  | .newDefault _ => [.drop]
  -- `this_expression_t` (`3413-3447`): the address is pushed and nothing is copied
  | .this _ => [.this]
/-- `__compile_arguments`, `__compile_argument` (`1053-1126`). -/
def compileA (M : Method) (copy : Bool) : Args → List Op
  | .nil => []
  | .int e rest => compileE M copy e ++ compileA M copy rest
  | .str n s rest => .alloc n :: (compileS M copy s ++ compileA M copy rest)
end

/-- Statements.  An assignment to a field has the value first, then the object (`__compile_assign`, `__compile_assign_to`,
`modules/compile/expression.cpp:1292-1335,1222-1227`); an assignment of a struct has the address of its target first
(`1317-1319`); `return` of a struct has the address the caller left below the arguments first (`__do_custom_struct_return`,
`353-361`, `return_xilx_t::write`, `modules/compile/xilx.cpp:476-497`). -/
def compileStmt (M : Method) : Stmt → Code
  | .done => .done
  | .setVar (.loc i) e k => .ops (compileE M true e ++ [.setLoc i]) (compileStmt M k)
  | .setVar (.par i) e k => .ops (compileE M true e ++ [.setArg (M.off + i)]) (compileStmt M k)
  | .setFld p f e k => .ops (compileE M true e ++ compilePlace M p ++ [.setFld f]) (compileStmt M k)
  | .setStr p _ s k => .ops (compilePlace M p ++ compileS M true s) (compileStmt M k)
  | .call m args k => .ops (compileA M true args ++ [.call m]) (compileStmt M k)
  | .callOn p _ m args k => .ops (compilePlace M p ++ compileA M true args ++ [.call m]) (compileStmt M k)
  | .ite e a b k => .ops (compileE M true e) (.ite (compileStmt M a) (compileStmt M b) (compileStmt M k))
  | .ret => .ret
  | .retInt e => .ops (compileE M true e) .ret
  | .retStr s => .ops (.bottom :: compileS M true s) .ret

/-! ## The machine -/

inductive V
  | num (v : Word)
  | ptr (a : Nat)
deriving DecidableEq, Repr

/-- The stack of the machine (`rt_stack_t`): memory by units, the first free unit and the first local variable (`lp`). -/
structure St where
  mem : Nat → V
  top : Nat
  lp : Nat

def upd (mem : Nat → V) (a : Nat) (v : V) : Nat → V := fun x => if x = a then v else mem x

def St.push (σ : St) (v : V) : St := { σ with mem := upd σ.mem σ.top v, top := σ.top + 1 }

/-- What is on top. -/
def St.peek (σ : St) : V := σ.mem (σ.top - 1)

def St.drop (σ : St) : St := { σ with top := σ.top - 1 }

/-- Where argument unit `i` is: `offset_of` counts down from the stub of three units (`__stack_stub_size`) that a call puts
below the local variables; argument 0 is the lowest. -/
def argAt (M : Method) (lp i : Nat) : Nat := lp - 3 - M.units + i

/-- `al::quick_copy` (`include/algorithm.h:389-530`), by units.  Simplified: as if all units were read before any is
written. -/
def blit (mem : Nat → V) (d s n : Nat) : Nat → V := fun a => if d ≤ a ∧ a < d + n then mem (s + (a - d)) else mem a

/-- One command; `none` when it takes a number for an address or the other way round.  `call` runs the method. -/
def step (M : Method) (call : Nat → St → Option St) : Op → St → Option St
  | .const v, σ => some (σ.push (.num v))
  | .getLoc i, σ => some (σ.push (σ.mem (σ.lp + i)))
  | .setLoc i, σ => some { σ.drop with mem := upd σ.mem (σ.lp + i) σ.peek }
  | .getArg i, σ => some (σ.push (σ.mem (argAt M σ.lp i)))
  | .setArg i, σ => some { σ.drop with mem := upd σ.mem (argAt M σ.lp i) σ.peek }
  | .locAddr i, σ => some (σ.push (.ptr (σ.lp + i)))
  | .argAddr i, σ => some (σ.push (.ptr (argAt M σ.lp i)))
  | .this, σ => some (σ.push (σ.mem (argAt M σ.lp 0)))
  -- `__offset_of_argument` (`modules/exec/commands.cpp:1957-1963`): one more than all arguments
  | .bottom, σ => some (σ.push (σ.mem (argAt M σ.lp 0 - 1)))
  -- `modules/exec/commands.cpp:1030-1085`
  | .fldAddr k, σ => match σ.peek with
    | .ptr a => some (σ.drop.push (.ptr (a + k)))
    | _ => none
  | .getFld k, σ => match σ.peek with
    | .ptr a => some (σ.drop.push (σ.mem (a + k)))
    | _ => none
  | .setFld k, σ => match σ.peek with
    | .ptr a => some { σ.drop.drop with mem := upd σ.mem (a + k) σ.drop.peek }
    | _ => none
  | .dup, σ => some (σ.push σ.peek)
  | .drop, σ => some σ.drop
  -- `modules/exec/commands.cpp:6479-6487`
  | .alloc n, σ => some (({ σ with top := σ.top + n } : St).push (.ptr σ.top))
  -- `modules/exec/commands.cpp:6640-6650`: the source is on top
  | .copy n, σ => match σ.peek, σ.drop.peek with
    | .ptr s, .ptr d => some { σ.drop.drop with mem := blit σ.mem d s n }
    | _, _ => none
  | .bin o, σ => match σ.drop.peek, σ.peek with
    | .num a, .num b => some (σ.drop.drop.push (.num (o.eval a b)))
    | _, _ => none
  | .call m, σ => call m σ

def steps (M : Method) (call : Nat → St → Option St) : List Op → St → Option St
  | [], σ => some σ
  | o :: os, σ => match step M call o σ with
    | some σ' => steps M call os σ'
    | none => none

/-- The code of a method; `true` when it came to a `ret`. -/
def exec (M : Method) (call : Nat → St → Option St) : Code → St → Option (St × Bool)
  | .done, σ => some (σ, false)
  | .ret, σ => some (σ, true)
  | .ops os k, σ => match steps M call os σ with
    | some σ' => exec M call k σ'
    | none => none
  | .ite a b k, σ => match σ.peek with
    | .num v => match (if v = 0 then exec M call b σ.drop else exec M call a σ.drop) with
      | some (σ', false) => exec M call k σ'
      | some (σ', true) => some (σ', true)
      | none => none
    | .ptr _ => none

/-- The start of a call (`push_calling`, `modules/exec/commands.cpp:4036-4100`): the stub keeps the caller's `lp`, the
local variables are reserved and not cleared.  Simplified: of the three units of the stub only `lp` matters here. -/
def enter (M : Method) (σ : St) : St :=
  { mem := upd (upd (upd σ.mem σ.top (.ptr σ.lp)) (σ.top + 1) (.ptr 0)) (σ.top + 2) (.ptr 0)
    top := σ.top + 3 + M.locals
    lp := σ.top + 3 }

/-- `ret` (`modules/exec/commands.cpp:5554-5562,5594-5602`): what is removed is counted from the top; a number is copied
to where the first argument was, behind a struct the address of where it went is removed as well. -/
def leave (M : Method) (σ : St) : Option St :=
  match σ.mem (σ.lp - 3) with
  | .num _ => none
  | .ptr l =>
    let total := M.units + 3 + M.locals
    let p := σ.top - total
    match M.ret with
    | .void => some { σ with top := p, lp := l }
    | .int => some { mem := upd σ.mem (p - 1) (σ.mem (p + total - 1)), top := p, lp := l }
    | .str _ => some { σ with top := p - 1, lp := l }

/-- A call of method `m`; `n` bounds how deep calls go. -/
def run (P : List Method) : Nat → Nat → St → Option St
  | 0, _, _ => none
  | n + 1, m, σ => match P[m]? with
    | none => none
    | some M => match exec M (run P n) (compileStmt M M.body) (enter M σ) with
      | some (σ', true) => leave M σ'
      | _ => none

/-- What method 0 gives when the program starts, on a stack with the free units from `top` on. -/
def result (P : List Method) (n : Nat) (mem : Nat → V) (top : Nat) : Option V :=
  match run P n 0 ⟨mem, top, 0⟩ with
  | some σ => some σ.peek
  | none => none

end Verif.Structs
