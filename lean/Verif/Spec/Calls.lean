import Verif.Model.Calls

/-!
# What calls, `ref` parameters and delegates mean

A machine in which every call that is under way has parameters, local variables and operands of its own, and in which the
address of a variable is the name of the variable: the number of the call, counted from the outermost, and the number of the
variable.  It has no stack of units, no offsets and no cache of commands.
-/

namespace Verif.Calls.Spec

open Verif.Calls

/-- A variable of a call. -/
inductive Place where
  | loc (i : Nat)
  | arg (i : Nat)
deriving DecidableEq, Repr

/-- Values. -/
inductive Val where
  | int (n : BitVec 64)
  | null
  | obj (id cls : Nat)
  | meth (m : Nat)
  /-- The variable `k` of the call number `d`. -/
  | var (d : Nat) (k : Place)
deriving DecidableEq, Repr

/-- Values that may be stored and returned: all but the addresses of variables. -/
def Val.plain : Val → Bool
  | .var _ _ => false
  | _ => true

/-- A call under way; a local variable has no value until it is given one. -/
structure Frame where
  m : Nat
  pc : Nat
  args : List Val
  locals : List (Option Val)
  /-- The operands, the last one first. -/
  stack : List Val
deriving DecidableEq, Repr

/-- The calls under way, the innermost first. -/
structure St where
  frames : List Frame
  fresh : Nat := 0
  out : List Item := []
  halted : Bool := false
deriving DecidableEq, Repr

/-- The value of a variable. -/
def load : List Frame → Nat → Place → Option Val
  | [], _, _ => none
  | f :: r, d, k =>
    if d = r.length then
      match k with
      | .loc i => (f.locals[i]?).join
      | .arg i => f.args[i]?
    else load r d k

/-- Giving a value to a variable. -/
def store : List Frame → Nat → Place → Val → Option (List Frame)
  | [], _, _, _ => none
  | f :: r, d, k, v =>
    if d = r.length then
      match k with
      | .loc i => if i < f.locals.length then some ({ f with locals := f.locals.set i (some v) } :: r) else none
      | .arg i => if i < f.args.length then some ({ f with args := f.args.set i v } :: r) else none
    else (store r d k v).map (f :: ·)

/-- What is shown of a value. -/
def Val.item : Val → Option Item
  | .int n => some (.int n)
  | .null => some .null
  | .obj i _ => some (.obj i)
  | _ => none

/-- A call of a method with its arguments, `this` first. -/
def enter (P : Program) (m : Nat) (args : List Val) (fs : List Frame) : Option (List Frame) :=
  match P.methods[m]? with
  | some M => if args.length = M.units then some (⟨m, 0, args, List.replicate M.locals none, []⟩ :: fs) else none
  | none => none

/-- The method that a call of the method `m` on an object runs. -/
def dispatch (P : Program) (m : Nat) : Val → Nat
  | .obj _ c => P.override c m
  | _ => m

/-- Writes to the innermost call. -/
def St.top (s : St) (f : Frame) (r : List Frame) : Option St := some { s with frames := f :: r }

/-- One instruction of the innermost call `f`, whose `pc` is already behind it. -/
def exec (P : Program) (s : St) (f : Frame) (r : List Frame) : Instr → Option St
  | .const n => s.top { f with stack := .int n :: f.stack } r
  | .null => s.top { f with stack := .null :: f.stack } r
  | .new c => some { s with frames := { f with stack := .obj s.fresh c :: f.stack } :: r, fresh := s.fresh + 1 }
  | .method m => s.top { f with stack := .meth m :: f.stack } r
  | .local i => ((f.locals[i]?).join).bind fun v => s.top { f with stack := v :: f.stack } r
  | .arg _ i => (f.args[i]?).bind fun v => s.top { f with stack := v :: f.stack } r
  | .content _ i =>
    match f.args[i]? with
    | some (.var d k) => (load (f :: r) d k).bind fun v => s.top { f with stack := v :: f.stack } r
    | _ => none
  | .localAddr i =>
    if i < f.locals.length then s.top { f with stack := .var r.length (.loc i) :: f.stack } r else none
  | .argAddr i => if i < f.args.length then s.top { f with stack := .var r.length (.arg i) :: f.stack } r else none
  | .popLocal i =>
    match f.stack with
    | v :: st =>
      if v.plain ∧ i < f.locals.length then s.top { f with locals := f.locals.set i (some v), stack := st } r else none
    | _ => none
  | .popArg _ i =>
    match f.stack with
    | v :: st => if v.plain ∧ i < f.args.length then s.top { f with args := f.args.set i v, stack := st } r else none
    | _ => none
  | .popArgAddr _ i =>
    match f.stack, f.args[i]? with
    | v :: st, some (.var d k) =>
      if v.plain then (store ({ f with stack := st } :: r) d k v).map fun fs => { s with frames := fs } else none
    | _, _ => none
  | .pickArg _ i =>
    match f.stack with
    | v :: _ => if v.plain ∧ i < f.args.length then s.top { f with args := f.args.set i v } r else none
    | _ => none
  | .pickArgAddr _ i =>
    match f.stack, f.args[i]? with
    | v :: _, some (.var d k) => if v.plain then (store (f :: r) d k v).map fun fs => { s with frames := fs } else none
    | _, _ => none
  | .popEmpty =>
    match f.stack with
    | _ :: st => s.top { f with stack := st } r
    | _ => none
  | .bin o =>
    match f.stack with
    | .int y :: .int x :: st => s.top { f with stack := .int (o.eval x y) :: st } r
    | _ => none
  | .jump d => s.top { f with pc := ((f.pc : Int) + (d - 1)).toNat } r
  | .jumpFalse d =>
    match f.stack with
    | .int x :: st => s.top { f with stack := st, pc := if x = 0 then ((f.pc : Int) + (d - 1)).toNat else f.pc } r
    | _ => none
  | .call (.meth m) =>
    match P.methods[m]? with
    | some M =>
      if M.units ≤ f.stack.length then
        (enter P m (f.stack.take M.units).reverse ({ f with stack := f.stack.drop M.units } :: r)).map
          fun fs => { s with frames := fs }
      else none
    | none => none
  | .callVirtual m =>
    match P.methods[m]? with
    | some M =>
      if M.units ≤ f.stack.length then
        match (f.stack.take M.units).reverse with
        | .obj i c :: args =>
          (enter P (P.override c m) (.obj i c :: args) ({ f with stack := f.stack.drop M.units } :: r)).map
            fun fs => { s with frames := fs }
        | _ => none
      else none
    | none => none
  | .call .delegateCtor =>
    -- a delegate variable is made of an instance and, behind it, a method
    match f.stack with
    | .meth m :: v :: .var d (.loc i) :: st =>
      if v.plain then
        (store ({ f with stack := st } :: r) d (.loc i) v).bind fun fs =>
          (store fs d (.loc (i + 1)) (.meth m)).map fun fs => { s with frames := fs }
      else none
    | _ => none
  | .call (.delegateInvoke n _) =>
    -- the method of the delegate is called on the instance of the delegate, or without one when it is static
    if n < f.stack.length then
      match f.stack[n]? with
      | some (.var d (.loc i)) =>
        match load (f :: r) d (.loc i), load (f :: r) d (.loc (i + 1)) with
        | some v, some (.meth m) =>
          match P.methods[m]? with
          | some M =>
            let args := (f.stack.take n).reverse
            (enter P (dispatch P m v) (if M.static then args else v :: args) ({ f with stack := f.stack.drop (n + 1) } :: r)).map
              fun fs => { s with frames := fs }
          | none => none
        | _, _ => none
      | _ => none
    else none
  | .ret =>
    match P.methods[f.m]?, r with
    | some M, g :: r' =>
      match M.result, f.stack with
      | true, [v] => if v.plain then s.top { g with stack := v :: g.stack } r' else none
      | false, [] => s.top g r'
      | _, _ => none
    | _, _ => none
  | .show =>
    match f.stack with
    | v :: st => v.item.map fun i => { s with frames := { f with stack := st } :: r, out := s.out ++ [i] }
    | _ => none
  | .halt => some { s with frames := f :: r, halted := true }
  | .delegateInit => none
  | .delegateInvoke => none

/-- One instruction. -/
def step (P : Program) (s : St) : Option St :=
  if s.halted then some s
  else
    match s.frames with
    | f :: r =>
      match P.methods[f.m]? with
      | some M => (M.body[f.pc]?).bind (exec P s { f with pc := f.pc + 1 } r)
      | none => none
    | [] => none

/-- So many instructions. -/
def run (P : Program) : Nat → St → Option St
  | 0, s => some s
  | n + 1, s => (step P s).bind (run P n)

/-- The start: the method 0 is called without arguments. -/
def start (P : Program) : Option St := (enter P 0 [] []).map fun fs => { frames := fs }

/-- A program that gets so far: after some number of instructions it has shown `out` and is, or is not, at its end. -/
def Shows (P : Program) (out : List Item) (halted : Bool) : Prop :=
  ∃ n s, (start P).bind (run P n) = some s ∧ s.out = out ∧ s.halted = halted

end Verif.Calls.Spec
