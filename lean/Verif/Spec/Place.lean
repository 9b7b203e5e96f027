import Verif.Model.Place

/-!
# What assignments and member reads mean

The meaning C# gives to the syntax: the parts of the left side are evaluated
once, from left to right, and before the right side; the place they name is
then read and written; the value of an assignment is the value assigned, that of
`p++` the value before.  Nothing here mentions instructions or a stack.
-/

namespace Verif.Place

/-- A place whose parts have been evaluated. -/
inductive Loc where
  | var (i : Nat)
  | field (o : Val) (f : Nat)
  | elem (a i : Val)
  | prop (o : Val) (g s : Nat)
  | indexer (o : Val) (args : List Val) (g s : Nat)
  | static (f : Nat)

/-- Calling a method on values. -/
def invoke (W : World) (m : Nat) (o : Val) (args : List Val) (s : State) :
    Option (Val × State) :=
  (W.run m o args s.heap).map fun (v, h) => (v, { s with heap := h })

/-- Calling a method on values, whatever the class of the receiver. -/
def invokeDirect (W : World) (m : Nat) (o : Val) (args : List Val) (s : State) :
    Option (Val × State) :=
  (W.direct m o args s.heap).map fun (v, h) => (v, { s with heap := h })

/-- Reading an evaluated place. -/
def Loc.load (W : World) : Loc → State → Option (Val × State)
  | .var i, s => (s.locals[i]?).map fun v => (v, s)
  | .field o f, s => (readField s.heap o f).map fun v => (v, s)
  | .elem a i, s => (readElem s.heap a i).map fun v => (v, s)
  | .prop o g _, s => invoke W g o [] s
  | .indexer o args g _, s => invoke W g o args s
  | .static f, s => (s.statics[f]?).map fun v => (v, s)

/-- Writing an evaluated place. -/
def Loc.store (W : World) : Loc → Val → State → Option State
  | .var i, v, s => s.setLocal i v
  | .field o f, v, s => (writeField s.heap o f v).map fun h => { s with heap := h }
  | .elem a i, v, s => (writeElem s.heap a i v).map fun h => { s with heap := h }
  | .prop o _ st, v, s => (invoke W st o [v] s).map (·.2)
  | .indexer o args _ st, v, s => (invoke W st o (args ++ [v]) s).map (·.2)
  | .static f, v, s =>
    if f < s.statics.length then some { s with statics := s.statics.set f v } else none

mutual
/-- The value of an expression. -/
def Exp.eval (W : World) (this : Val) : Exp → State → Option (Val × State)
  | .const v, s => some (v, s)
  | .this, s => some (this, s)
  | .get p, s => do
    let (l, s1) ← p.locate W this s
    l.load W s1
  | .bin op a b, s => do
    let (x, s1) ← a.eval W this s
    let (y, s2) ← b.eval W this s1
    let r ← op.apply x y
    some (r, s2)
  | .assign p e, s => do
    let (l, s1) ← p.locate W this s
    let (v, s2) ← e.eval W this s1
    let s3 ← l.store W v s2
    some (v, s3)
  | .opAssign op p e, s => do
    let (l, s1) ← p.locate W this s
    let (x, s2) ← l.load W s1
    let (y, s3) ← e.eval W this s2
    let r ← op.apply x y
    let s4 ← l.store W r s3
    some (r, s4)
  | .inc post op p, s => do
    let (l, s1) ← p.locate W this s
    let (x, s2) ← l.load W s1
    let r ← op.apply x (.int 1)
    let s3 ← l.store W r s2
    some (if post then x else r, s3)
  | .call o m args, s => do
    let (v, s1) ← o.eval W this s
    let (vs, s2) ← args.eval W this s1
    invoke W m v vs s2
  | .bare m args, s => do
    let (vs, s1) ← args.eval W this s
    invoke W m this vs s1
  | .baseCall m args, s => do
    let (vs, s1) ← args.eval W this s
    invokeDirect W m this vs s1
  | .new c m args, s => do
    let (vs, s1) ← args.eval W this { s with heap := (W.create c s.heap).2 }
    let (_, s2) ← invoke W m (W.create c s.heap).1 vs s1
    some ((W.create c s.heap).1, s2)
/-- The place an expression names. -/
def Place.locate (W : World) (this : Val) : Place → State → Option (Loc × State)
  | .var i, s => some (.var i, s)
  | .field o f, s => do
    let (v, s1) ← o.eval W this s
    some (.field v f, s1)
  | .elem a i, s => do
    let (x, s1) ← a.eval W this s
    let (y, s2) ← i.eval W this s1
    some (.elem x y, s2)
  | .prop o g st, s => do
    let (v, s1) ← o.eval W this s
    some (.prop v g st, s1)
  | .indexer o args g st, s => do
    let (v, s1) ← o.eval W this s
    let (vs, s2) ← args.eval W this s1
    some (.indexer v vs g st, s2)
  | .static f, s => some (.static f, s)
/-- The values of the arguments, from left to right. -/
def Args.eval (W : World) (this : Val) : Args → State → Option (List Val × State)
  | .nil, s => some ([], s)
  | .cons e r, s => do
    let (v, s1) ← e.eval W this s
    let (vs, s2) ← r.eval W this s1
    some (v :: vs, s2)
end

/-- The expression a statement evaluates for its effect. -/
def Stmt.exp : Stmt → Exp
  | .assign p e => .assign p e
  | .opAssign op p e => .opAssign op p e
  | .inc post op p => .inc post op p
  | .call o m args => .call o m args
  | .bare m args => .bare m args
  | .baseCall m args => .baseCall m args
  | .new c m args => .new c m args

/-- What a statement does. -/
def Stmt.run (W : World) (this : Val) (st : Stmt) (s : State) : Option State :=
  (st.exp.eval W this s).map (·.2)

/-- The compiled code of a statement does what the statement says, for every
operand stack, and leaves that stack alone; where the statement fails, so does
the code. -/
def Correct (W : World) (this : Val) (st : Stmt) : Prop :=
  ∃ c, st.compile W = some c ∧
    ∀ k s, exec W this c (k, s) = (st.run W this s).map fun s' => (k, s')

/-- The compiled code of an expression whose value is used pushes that value. -/
def CorrectValue (W : World) (this : Val) (e : Exp) : Prop :=
  ∃ c, e.compile W false false = some c ∧
    ∀ k s, exec W this c (k, s) = (e.eval W this s).map fun r => (r.1 :: k, r.2)

/-! ## The programs for which the compiled code is right -/

mutual
/-- No call, no assignment, no `new`. -/
def Exp.pure : Exp → Bool
  | .const _ => true
  | .this => true
  | .get p => p.pure
  | .bin _ a b => a.pure && b.pure
  | _ => false
/-- Reading the place calls and assigns nothing. -/
def Place.pure : Place → Bool
  | .var _ => true
  | .field o _ => o.pure
  | .elem a i => a.pure && i.pure
  | .static _ => true
  | _ => false
end

/-- All arguments are pure. -/
def Args.pure : Args → Bool
  | .nil => true
  | .cons e r => e.pure && r.pure

mutual
/-- The variables an expression assigns. -/
def Exp.writes : Exp → List Nat
  | .const _ => []
  | .this => []
  | .get p => p.partWrites
  | .bin _ a b => a.writes ++ b.writes
  | .assign p e => p.target ++ p.partWrites ++ e.writes
  | .opAssign _ p e => p.target ++ p.partWrites ++ e.writes
  | .inc _ _ p => p.target ++ p.partWrites
  | .call o _ args => o.writes ++ args.writes
  | .bare _ args => args.writes
  | .baseCall _ args => args.writes
  | .new _ _ args => args.writes
/-- The variables the parts of a place assign. -/
def Place.partWrites : Place → List Nat
  | .var _ => []
  | .field o _ => o.writes
  | .elem a i => a.writes ++ i.writes
  | .prop o _ _ => o.writes
  | .indexer o args _ _ => o.writes ++ args.writes
  | .static _ => []
/-- The variables arguments assign. -/
def Args.writes : Args → List Nat
  | .nil => []
  | .cons e r => e.writes ++ r.writes
/-- The variable a place is. -/
def Place.target : Place → List Nat
  | .var i => [i]
  | _ => []
end

/-- A constant, `this`, or a variable outside the list. -/
def Exp.simple (ws : List Nat) : Exp → Bool
  | .const _ => true
  | .this => true
  | .get (.var i) => !ws.contains i
  | _ => false

/-- `o` can be evaluated before or after `e`, once or twice: it is a constant,
`this` or a variable `e` does not assign, or neither has effects. -/
def calm (o e : Exp) : Bool := o.simple e.writes || (o.pure && e.pure)

/-- The result of no call is dropped inside a receiver: no explicit call and no
property or indexer on the way down to the first value. -/
def Exp.kept (env : Bool) : Exp → Bool
  | .const _ => true
  | .this => true
  | .get (.var _) => true
  | .get (.field o _) => o.kept false
  | .get (.elem _ _) => true
  | .get (.static _) => true
  | .get (.prop _ _ _) => false
  | .get (.indexer _ _ _ _) => false
  | .bin _ a b => a.kept false && b.kept false
  | .call _ _ _ => false
  | .bare _ _ => env
  | .baseCall _ _ => false
  | _ => true

mutual
/-- Where its value is used, the expression compiles to the right code. -/
def Exp.ok (W : World) : Exp → Bool
  | .const _ => true
  | .this => true
  | .get p => p.readOk W
  | .bin _ a b => a.ok W && b.ok W
  | .assign p e => e.ok W && p.keepOk W e
  | .opAssign _ p e => e.ok W && p.keepOk W e
  | .inc post _ p => p.incOk W post
  | .call o m args => o.ok W && args.ok W && W.returns m && args.length == W.arity m
  | .bare m args => args.ok W && W.returns m && args.length == W.arity m
  | .baseCall m args => args.ok W && W.returns m && args.length == W.arity m
  | .new _ m args => args.ok W && !W.returns m && args.length == W.arity m
/-- Reading: the array of an element access can be evaluated after the index, and
the calls are well formed. -/
def Place.readOk (W : World) : Place → Bool
  | .var _ => true
  | .field o _ => o.ok W
  | .elem a i => a.ok W && i.ok W && calm a i
  | .prop o g _ => o.ok W && W.returns g && W.arity g == 0
  | .indexer o args g _ => o.ok W && args.ok W && W.returns g && args.length == W.arity g
  | .static _ => false
/-- Assigning `e` where the value of the assignment is used: variables, and
fields whose object can be evaluated after `e`. -/
def Place.keepOk (W : World) : Place → Exp → Bool
  | .var _, _ => true
  | .field o _, e => o.ok W && calm o e
  | _, _ => false
/-- `++` and `--` where the value is used. -/
def Place.incOk (W : World) : Place → Bool → Bool
  | .var _, _ => true
  | .field o _, _ => o.ok W && o.pure
  | .elem a i, post => post && a.ok W && i.ok W && a.pure && i.pure
  | _, _ => false
/-- Arguments. -/
def Args.ok (W : World) : Args → Bool
  | .nil => true
  | .cons e r => e.ok W && r.ok W
end

/-- The statements that compile to the right code. -/
def Stmt.ok (W : World) : Stmt → Bool
  | .assign (.var _) e => e.ok W
  | .assign (.field o _) e => e.ok W && o.ok W && calm o e
  | .assign (.elem a i) e =>
    e.ok W && a.ok W && i.ok W && calm a i && calm a e && calm i e
  | .assign (.prop o _ st) e => e.ok W && o.ok W && !W.returns st && W.arity st == 1
  | .opAssign _ (.var _) e => e.ok W
  | .opAssign _ (.field o _) e => e.ok W && o.ok W && calm o e
  | .opAssign _ (.elem a i) e =>
    e.ok W && a.ok W && i.ok W && calm a e && calm i e
  | .opAssign _ (.indexer o args g st) e =>
    e.ok W && o.ok W && args.ok W && o.pure && args.pure && W.returns g &&
      args.length == W.arity g && !W.returns st && args.length + 1 == W.arity st && !W.virt st
  | .inc _ _ (.var _) => true
  | .inc _ _ (.field o _) => o.ok W && o.pure
  | .inc _ _ (.elem a i) => a.ok W && i.ok W && a.pure && i.pure
  | .inc _ _ (.indexer o args g st) =>
    o.ok W && args.ok W && o.pure && args.pure && W.returns g &&
      args.length == W.arity g && !W.returns st && args.length + 1 == W.arity st && !W.virt st
  | .call o m args => o.ok W && args.ok W && o.kept true && args.length == W.arity m
  | .bare m args => args.ok W && args.length == W.arity m
  | .baseCall m args => args.ok W && args.length == W.arity m
  | .new _ m args => args.ok W && !W.returns m && args.length == W.arity m
  | _ => false

end Verif.Place
