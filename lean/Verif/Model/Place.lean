/-!
# Compiling the reading and the assignment of fields, properties and elements

Models the part of `modules/compile/expression.cpp` that turns expressions over
fields, properties, array elements, indexers, calls and `new` into stack code,
and the commands of `modules/exec/commands.cpp` that execute that code.

Simplifications, for the whole file:
* values are 32-bit integers, references and `null`; only the class-typed
  ("reference") branches are modelled, not the copying of custom structs;
* what a method does is not modelled here: the world gives, for each method, an
  arbitrary function of the receiver, the arguments and the heap, and another one
  for calls that are not dispatched.  `Verif.Model.Classes` puts programs in its
  place;
* a plain field or property name means a member of `this`; `f` and `this.f`
  both push the receiver with `push_this_ref` (expression.cpp:327-333,
  1948-1955), so the model writes both as a member of `Exp.this`.  For methods
  `f()` and `this.f()` differ in what is emitted after the call and are two
  constructors;
* constants are not folded (the folding is the subject of other properties);
* undefined behaviour (a null or non-reference receiver, a pop from an empty
  operand stack) and a raised exception are the outcome `none`.
-/

namespace Verif.Place

/-- A value on the operand stack. -/
inductive Val where
  | int (n : BitVec 32)
  | ref (a : Nat)
  | null
  deriving DecidableEq, Repr

/-- What a reference refers to: the class and the fields of an object or the elements of a
one-dimensional array (`rt_ref_t`, modules/exec/mm). -/
inductive Obj where
  | object (cls : Nat) (fields : List Val)
  | array (elements : List Val)
  deriving DecidableEq, Repr

/-- The heap, by address. -/
abbrev Heap := List Obj

/-- What a running method can change: its variables, the heap and the static
fields (parameters and local variables are one list). -/
structure State where
  locals : List Val
  heap : Heap
  statics : List Val
  deriving DecidableEq, Repr

/-- The methods and classes of the program.  `returns m` is false for a `void`
method; `arity m` does not count the receiver.  `run` is what a call of the method
does, which may depend on the class of the receiver when `virt m`; `direct` is what
the method itself does. -/
structure World where
  returns : Nat → Bool
  arity : Nat → Nat
  virt : Nat → Bool
  run : Nat → Val → List Val → Heap → Option (Val × Heap)
  direct : Nat → Val → List Val → Heap → Option (Val × Heap)
  create : Nat → Heap → Val × Heap
  direct_eq : ∀ m, virt m = false → direct m = run m

/-- Operators: the ones of compound assignments and `++`/`--`, and two that compare. -/
inductive Op where
  | add | sub | mul | lt | eq
  deriving DecidableEq, Repr

/-- A truth value. -/
def Val.ofBool (b : Bool) : Val := .int (if b then 1 else 0)

/-- `x_al_xil_t` and `x_cmp_xil_t` on two `int32` (commands.cpp, the binary commands);
`==` also on references. -/
def Op.apply : Op → Val → Val → Option Val
  | .add, .int a, .int b => some (.int (a + b))
  | .sub, .int a, .int b => some (.int (a - b))
  | .mul, .int a, .int b => some (.int (a * b))
  | .lt, .int a, .int b => some (.ofBool (a.slt b))
  | .eq, a, b => some (.ofBool (decide (a = b)))
  | _, _, _ => none

/-- commands.cpp:1034-1056: `push field` reads the field at an offset of the
popped reference. -/
def readField (h : Heap) : Val → Nat → Option Val
  | .ref a, f => match h[a]? with
    | some (.object _ fs) => fs[f]?
    | _ => none
  | _, _ => none

/-- commands.cpp:2911-2930: `pop field` writes the field. -/
def writeField (h : Heap) : Val → Nat → Val → Option Heap
  | .ref a, f, v => match h[a]? with
    | some (.object c fs) =>
      if f < fs.length then some (h.set a (.object c (fs.set f v))) else none
    | _ => none
  | _, _, _ => none

/-- commands.cpp:1256-1270: `push array element`; an index out of range raises.
The index is an `int32_t` (include/modules/jc.h:63) compared as it is, so a
negative one is below the length; reading there is undefined, also `none`. -/
def readElem (h : Heap) : Val → Val → Option Val
  | .ref a, .int i => match h[a]? with
    | some (.array es) => if 0 ≤ i.toInt then es[i.toInt.toNat]? else none
    | _ => none
  | _, _ => none

/-- commands.cpp:2960-2985: `pop array element`. -/
def writeElem (h : Heap) : Val → Val → Val → Option Heap
  | .ref a, .int i, v => match h[a]? with
    | some (.array es) =>
      if 0 ≤ i.toInt ∧ i.toInt.toNat < es.length then
        some (h.set a (.array (es.set i.toInt.toNat v)))
      else none
    | _ => none
  | _, _, _ => none

/-- The class of an object: the type in front of its fields (`__RtTypeOf`,
modules/exec/commands.cpp:4316-4320). -/
def classOf (h : Heap) : Val → Option Nat
  | .ref a => match h[a]? with
    | some (.object c _) => some c
    | _ => none
  | _ => none

/-- Writing a variable of the method. -/
def State.setLocal (s : State) (i : Nat) (v : Val) : Option State :=
  if i < s.locals.length then some { s with locals := s.locals.set i v } else none

mutual
/-- Expressions (`expression_t` and its derived classes). -/
inductive Exp where
  | const (v : Val)
  | this
  | get (p : Place)
  | bin (op : Op) (a b : Exp)
  | assign (p : Place) (e : Exp)
  | opAssign (op : Op) (p : Place) (e : Exp)
  /-- `++p`, `p++`, `--p`, `p--`: `post` for the form with the operator on the
  right; the operator is `add` or `sub`. -/
  | inc (post : Bool) (op : Op) (p : Place)
  /-- `o.m(args)`. -/
  | call (o : Exp) (m : Nat) (args : Args)
  /-- `m(args)`, on `this`. -/
  | bare (m : Nat) (args : Args)
  /-- `base.m(args)`. -/
  | baseCall (m : Nat) (args : Args)
  /-- `new c(args)` with constructor `m`. -/
  | new (c m : Nat) (args : Args)
/-- What can stand on the left of an assignment. -/
inductive Place where
  | var (i : Nat)
  | field (o : Exp) (f : Nat)
  | elem (a i : Exp)
  /-- A property with getter `g` and setter `s`. -/
  | prop (o : Exp) (g s : Nat)
  /-- An indexer `o[args]`. -/
  | indexer (o : Exp) (args : Args) (g s : Nat)
  /-- A static field named through its class, `T.f`. -/
  | static (f : Nat)
/-- The arguments of a call. -/
inductive Args where
  | nil
  | cons (e : Exp) (rest : Args)
end

/-- The number of arguments. -/
def Args.length : Args → Nat
  | .nil => 0
  | .cons _ r => r.length + 1

/-- The statements an expression can be (`expression_statement_t`). -/
inductive Stmt where
  | assign (p : Place) (e : Exp)
  | opAssign (op : Op) (p : Place) (e : Exp)
  | inc (post : Bool) (op : Op) (p : Place)
  | call (o : Exp) (m : Nat) (args : Args)
  | bare (m : Nat) (args : Args)
  | baseCall (m : Nat) (args : Args)
  | new (c m : Nat) (args : Args)

/-- The instructions (`modules/core/xil`, the derived classes in
modules/compile/xilx.cpp). -/
inductive Ins where
  | push (v : Val)
  | pushThis
  | pushLocal (i : Nat)
  | popLocal (i : Nat)
  | pickLocal (i : Nat)
  | pushField (f : Nat)
  | popField (f : Nat)
  | pickField (f : Nat)
  | pushElem
  | popElem
  | popEmpty
  | dup
  | op (o : Op)
  | new (c : Nat)
  | call (m : Nat)
  /-- `x_method_call_xil_t` with `xil_call_type_t::instance`. -/
  | callDirect (m : Nat)
  deriving DecidableEq, Repr

/-! ## The compiler -/

/-- expression.cpp:2354-2360, `is_real_variable`: the kinds of places whose value
the compiler pushes before it assigns. -/
def Place.real : Place → Bool
  | .var _ => true
  | .field _ _ => true
  | .elem _ _ => true
  | .static _ => true
  | .prop _ _ _ => false
  | .indexer _ _ _ _ => false

/-- expression.cpp:1811-1829, `__try_pop_empty_for_method`: the result of a call
is dropped when no expression around it, other than member points, assigns,
calls or creates (`drop`). -/
def popFor (W : World) (drop : Bool) (m : Nat) : List Ins :=
  if drop && W.returns m then [.popEmpty] else []

mutual
/-- Compiles an expression.  `drop` says that every expression around this one is
a member point or an operator up to the statement (`__is_whole_effective` of the
parent is false, 1799-1808); `env` says that the caller gives the type it
expects, which the receiver of a call gets (2729) and which switches the
dropping off (2782-2785) for a plain call, but is not handed on by a member
point (886-898).

1150-1190 and 1193-1290 for the assignments, 2019-2030 for properties, 3008-3053
for elements and indexers, 2705-2800 for calls (2746-2749: on `base`, not
dispatched), 3118-3157 for `new`. -/
def Exp.compile (W : World) (drop env : Bool) : Exp → Option (List Ins)
  | .const v => some [.push v]
  | .this => some [.pushThis]
  | .get p => p.read W drop
  | .bin op a b => do
    let ca ← a.compile W drop false
    let cb ← b.compile W drop false
    some (ca ++ cb ++ [.op op])
  | .assign p e => do
    let pre ← p.pre W
    let ce := e.compile W false false
    if p.real then do
      let c ← ce
      let t ← p.to W true ce
      some (pre ++ c ++ t)
    else do
      let t ← p.to W true ce
      some (pre ++ t)
  | .opAssign op p e => do
    let pre ← p.pre W
    let r ← p.read W false
    let c ← e.compile W false false
    let t ← p.to W true (e.compile W false false)
    some (pre ++ r ++ c ++ [.op op] ++ t)
  | .inc post op p => do
    let pre ← p.pre W
    let r ← p.read W false
    if post then do
      let t ← p.to W false none
      some (pre ++ r ++ r ++ [.push (.int 1), .op op] ++ t)
    else do
      let t ← p.to W true none
      some (pre ++ r ++ [.push (.int 1), .op op] ++ t)
  | .call o m args => do
    let co ← o.compile W drop true
    let ca ← args.compile W
    some (co ++ ca ++ [.call m] ++ popFor W drop m)
  | .bare m args => do
    let ca ← args.compile W
    some ([.pushThis] ++ ca ++ [.call m] ++ popFor W (drop && !env) m)
  | .baseCall m args => do
    let ca ← args.compile W
    some ([.pushThis] ++ ca ++ [.callDirect m] ++ popFor W drop m)
  | .new c m args => do
    let ca ← args.compile W
    some ([.new c, .dup] ++ ca ++ [.call m])

/-- Compiles a place that is read: 1736-1760 and 1997-2008 (field; a static field
named through its class pushes no receiver, since `__push_this_with_check` skips
the right side of a member point and the class pushes nothing), 2010-2017 with
1831-1870 (property), 3008-3040 (element: the index, then the array), 3043-3050
(indexer). -/
def Place.read (W : World) (drop : Bool) : Place → Option (List Ins)
  | .var i => some [.pushLocal i]
  | .field o f => do
    let co ← o.compile W drop false
    some (co ++ [.pushField f])
  | .elem a i => do
    let ci ← i.compile W false false
    let ca ← a.compile W false false
    some (ci ++ ca ++ [.pushElem])
  | .prop o g _ => do
    let co ← o.compile W drop false
    some (co ++ [.call g] ++ popFor W drop g)
  | .indexer o args g _ => do
    let co ← o.compile W false false
    let ca ← args.compile W
    some (co ++ ca ++ [.call g] ++ popFor W drop g)
  | .static f => some [.pushField f]

/-- 1150-1190, `__pre_compile_assign_to`: what is pushed before the value. -/
def Place.pre (W : World) : Place → Option (List Ins)
  | .prop o _ _ => o.compile W false false
  | .indexer o args _ _ => do
    let co ← o.compile W false false
    let ca ← args.compile W
    some (co ++ ca)
  | _ => some []

/-- 1193-1290, `__compile_assign_to`: the code after the value.  `pick`: the value
of the assignment is used.  `value` is the code of the right side, which the
compiler pushes here for a property; it is `none` where the code passes no
expression (`++` and `--`, 1603 and 1614), which is an assertion failure.  The
setter of an indexer gets no value here, and its call is not dispatched (1283). -/
def Place.to (W : World) (pick : Bool) (value : Option (List Ins)) :
    Place → Option (List Ins)
  | .var i => some [if pick then .pickLocal i else .popLocal i]
  | .field o f => do
    let co ← o.compile W false false
    some (co ++ [if pick then .pickField f else .popField f])
  | .elem a i => do
    let ci ← i.compile W false false
    let ca ← a.compile W false false
    some (ci ++ ca ++ [.popElem])
  | .prop _ _ s => do
    let c ← value
    some (c ++ [.call s])
  | .indexer _ _ _ s => some [.callDirect s]
  | .static f => some [if pick then .pickField f else .popField f]

/-- `__compile_arguments`: the arguments from left to right. -/
def Args.compile (W : World) : Args → Option (List Ins)
  | .nil => some []
  | .cons e r => do
    let ce ← e.compile W false false
    let cr ← r.compile W
    some (ce ++ cr)
end

/-- An expression that is a statement: no parent, so an assignment does not keep
its value (1207-1208), `x++` does not push the old value (1591), the result of a
call is dropped, and `new` is followed by a pop (3152-3156). -/
def Stmt.compile (W : World) : Stmt → Option (List Ins)
  | .assign p e => do
    let pre ← p.pre W
    let ce := e.compile W false false
    if p.real then do
      let c ← ce
      let t ← p.to W false ce
      some (pre ++ c ++ t)
    else do
      let t ← p.to W false ce
      some (pre ++ t)
  | .opAssign op p e => do
    let pre ← p.pre W
    let r ← p.read W false
    let c ← e.compile W false false
    let t ← p.to W false (e.compile W false false)
    some (pre ++ r ++ c ++ [.op op] ++ t)
  | .inc _ op p => do
    let pre ← p.pre W
    let r ← p.read W false
    let t ← p.to W false none
    some (pre ++ r ++ [.push (.int 1), .op op] ++ t)
  | .call o m args => (Exp.call o m args).compile W true false
  | .bare m args => (Exp.bare m args).compile W true false
  | .baseCall m args => (Exp.baseCall m args).compile W true false
  | .new c m args => do
    let code ← (Exp.new c m args).compile W true false
    some (code ++ [.popEmpty])

/-! ## The machine -/

/-- The operand stack (top first) and the state. -/
abbrev Cfg := List Val × State

/-- Calls a method: pops the arguments (the last is on top) and the receiver,
and pushes the result unless the method is `void`. -/
def callStep (W : World) (run : Val → List Val → Heap → Option (Val × Heap)) (m : Nat) (stk : List Val) (s : State) : Option Cfg :=
  match stk.drop (W.arity m) with
  | o :: rest =>
    match run o (stk.take (W.arity m)).reverse s.heap with
    | some (v, h) => some (if W.returns m then v :: rest else rest, { s with heap := h })
    | none => none
  | [] => none

/-- One instruction: commands.cpp:1034-1056, 1256-1270, 2911-2930, 2960-2985,
3484-3503 (`pick field` pops the reference and leaves the value). -/
def step (W : World) (this : Val) : Ins → Cfg → Option Cfg
  | .push v, (k, s) => some (v :: k, s)
  | .pushThis, (k, s) => some (this :: k, s)
  | .pushLocal i, (k, s) => (s.locals[i]?).map fun v => (v :: k, s)
  | .popLocal i, (v :: k, s) => (s.setLocal i v).map fun s' => (k, s')
  | .pickLocal i, (v :: k, s) => (s.setLocal i v).map fun s' => (v :: k, s')
  | .pushField f, (o :: k, s) => (readField s.heap o f).map fun v => (v :: k, s)
  | .popField f, (o :: v :: k, s) =>
    (writeField s.heap o f v).map fun h => (k, { s with heap := h })
  | .pickField f, (o :: v :: k, s) =>
    (writeField s.heap o f v).map fun h => (v :: k, { s with heap := h })
  | .pushElem, (a :: i :: k, s) => (readElem s.heap a i).map fun v => (v :: k, s)
  | .popElem, (a :: i :: v :: k, s) =>
    (writeElem s.heap a i v).map fun h => (k, { s with heap := h })
  | .popEmpty, (_ :: k, s) => some (k, s)
  | .dup, (v :: k, s) => some (v :: v :: k, s)
  | .op o, (b :: a :: k, s) => (o.apply a b).map fun v => (v :: k, s)
  | .new c, (k, s) =>
    some ((W.create c s.heap).1 :: k, { s with heap := (W.create c s.heap).2 })
  | .call m, (k, s) => callStep W (W.run m) m k s
  | .callDirect m, (k, s) => callStep W (W.direct m) m k s
  | _, _ => none

/-- Straight-line execution. -/
def exec (W : World) (this : Val) : List Ins → Cfg → Option Cfg
  | [], c => some c
  | i :: is, c => (step W this i c).bind (exec W this is)

end Verif.Place
