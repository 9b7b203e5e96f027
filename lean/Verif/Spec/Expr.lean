import Verif.Model.Expr

/-!
What a program means, independently of how it is compiled: operands are evaluated from left to right, `&&` and `||` evaluate
their second operand only when it decides, an assigned, passed or returned value is converted to the type of its
destination.  `none` is a program without a meaning: it reads a variable that has no value, or an operator has undefined
behaviour.  What an operator computes (`cppBinary`, `cppUnary`, the result types) is the subject of C12 to C16.
-/

namespace Verif.Expr.Spec

open Verif.Fold

/-- The values of the variables of a call. -/
structure Env where
  loc : Nat → Option Int
  par : Nat → Option Int

/-- The value of a variable. -/
def Env.get (ρ : Env) : Var → Option Int
  | .loc i => ρ.loc i
  | .par i => ρ.par i

/-- A variable gets a value. -/
def Env.set (ρ : Env) (x : Var) (v : Int) : Env :=
  match x with
  | .loc i => { ρ with loc := fun j => if j = i then some v else ρ.loc j }
  | .par i => { ρ with par := fun j => if j = i then some v else ρ.par j }

/-- A binary operator. -/
def operate (op : Op) (a b : Const) : Option Const := do
  let r ← resultOf op a.ty b.ty
  let x ← cppBinary op a.ty b.ty a.v b.v
  some ⟨r, conv r x⟩

/-- A unary operator. -/
def operate1 (op : UOp) (a : Const) : Option Const := do
  let r ← uresultOf op a.ty
  let x ← cppUnary op a.ty a.v
  some ⟨r, conv r x⟩

mutual

/-- The value of an expression and the variables after it; `call` gives the results of calls. -/
def eval (p : Prog) (call : Nat → List Int → Option Int) (m : Method) : Exp → Env → Option (Const × Env)
  | .const c, ρ => some (c, ρ)
  | .var x, ρ => do
    let t ← m.tyOf x
    let v ← ρ.get x
    some (⟨t, v⟩, ρ)
  | .bin .and a b, ρ => do
    let (x, ρ1) ← eval p call m a ρ
    if x.v = 0 then some (x, ρ1) else eval p call m b ρ1
  | .bin .or a b, ρ => do
    let (x, ρ1) ← eval p call m a ρ
    if x.v = 0 then eval p call m b ρ1 else some (x, ρ1)
  | .bin o a b, ρ => do
    let (x, ρ1) ← eval p call m a ρ
    let (y, ρ2) ← eval p call m b ρ1
    let z ← operate o.op x y
    some (z, ρ2)
  | .un o a, ρ => do
    let (x, ρ1) ← eval p call m a ρ
    let z ← operate1 o.op x
    some (z, ρ1)
  | .assign x e, ρ => do
    let t ← m.tyOf x
    let (y, ρ1) ← eval p call m e ρ
    some (⟨t, conv t y.v⟩, ρ1.set x (conv t y.v))
  | .opAssign o x e, ρ => do
    let t ← m.tyOf x
    let v ← ρ.get x
    let (y, ρ1) ← eval p call m e ρ
    let z ← operate (.arith o) ⟨t, v⟩ y
    some (⟨t, conv t z.v⟩, ρ1.set x (conv t z.v))
  | .inc post dec x, ρ => do
    let t ← m.tyOf x
    let v ← ρ.get x
    let z ← operate (.arith (if dec then .sub else .add)) ⟨t, v⟩ ⟨.int32, 1⟩
    some (⟨t, if post then v else conv t z.v⟩, ρ.set x (conv t z.v))
  | .cond c a b, ρ => do
    let (x, ρ1) ← eval p call m c ρ
    if x.v = 0 then eval p call m b ρ1 else eval p call m a ρ1
  | .cast t e, ρ => do
    let (x, ρ1) ← eval p call m e ρ
    some (⟨t, conv t x.v⟩, ρ1)
  | .call f args, ρ =>
    match p[f]? with
    | none => none
    | some m' => do
      let (vs, ρ1) ← evalArgs p call m m'.params args ρ
      let v ← call f vs
      some (⟨m'.ret, v⟩, ρ1)

/-- Arguments, converted to the types of the parameters. -/
def evalArgs (p : Prog) (call : Nat → List Int → Option Int) (m : Method) :
    List VT → Args → Env → Option (List Int × Env)
  | [], .nil, ρ => some ([], ρ)
  | t :: ts, .cons e rest, ρ => do
    let (x, ρ1) ← eval p call m e ρ
    let (vs, ρ2) ← evalArgs p call m ts rest ρ1
    some (conv t x.v :: vs, ρ2)
  | _, _, _ => none

end

/-- The result of a body. -/
def runBody (p : Prog) (call : Nat → List Int → Option Int) (m : Method) : List Stmt → Env → Option Int
  | [], _ => none
  | .init i e :: rest, ρ => do
    let t ← m.tyOf (.loc i)
    let (x, ρ1) ← eval p call m e ρ
    runBody p call m rest (ρ1.set (.loc i) (conv t x.v))
  | .exp e :: rest, ρ => do
    let (_, ρ1) ← eval p call m e ρ
    runBody p call m rest ρ1
  | .ret e :: _, ρ => do
    let (x, _) ← eval p call m e ρ
    some (conv m.ret x.v)

/-- The result of calling a method; calls are nested at most `depth` deep. -/
def run (p : Prog) : (depth : Nat) → Nat → List Int → Option Int
  | 0, _, _ => none
  | depth + 1, f, vs => do
    let m ← p[f]?
    if vs.length = m.params.length then runBody p (run p depth) m m.body ⟨fun _ => none, fun i => vs[i]?⟩ else none

/-! ## The programs the theorems are about -/

/-- Types of values: integers and truth values. -/
def plain (t : VT) : Bool := t.isInt || t == .bool

/-- Both integers, or both truth values. -/
def sameKind (t1 t2 : VT) : Bool := (t1.isInt && t2.isInt) || (t1 == .bool && t2 == .bool)

/-- Expressions whose value the compiler converts to the type the context wants: all but `?:`. -/
def converted : Exp → Bool
  | .cond _ _ _ => false
  | _ => true

/-- An expression may stand where a value of the type is wanted: it is converted, or not narrower.  (Without this the
machine reads bytes that nothing wrote: `widening_refuted`.) -/
def fits (p : Prog) (m : Method) (t : VT) (e : Exp) : Bool :=
  match vty p m e with
  | some te => sameKind t te && (converted e || decide (t.bits ≤ te.bits))
  | none => false

/-- Operators that are defined for all values. -/
def quietOp : BOp → Bool
  | .arith .bitAnd | .arith .bitOr | .arith .bitXor | .cmp _ | .and | .or => true
  | _ => false

/-- Expressions without effects that always have a value: they may be the second operand of `&&` and `||`, which the
machine always evaluates (`and_refuted`). -/
def quiet : Exp → Bool
  | .const _ | .var _ => true
  | .bin o a b => quietOp o && quiet a && quiet b
  | .un o a => o != .minus && quiet a
  | .cast _ e => quiet e
  | _ => false

/-- An operation with a neutral operand may be left out: the other operand has the type of the result.  (Without this:
`neutral_refuted`, `negate_refuted`.) -/
def neutral (lvl : Level) (p : Prog) (m : Method) (o : BOp) (a b : Exp) : Bool :=
  match shortcut lvl o a b with
  | .both => true
  | .left => vty p m a == vty p m (.bin o a b)
  | .right => vty p m b == vty p m (.bin o a b)
  | .negate => vty p m a == vty p m b && (vty p m b == some .int32 || vty p m b == some .int64)

/-- The second operand of `&&` and `||` is quiet. -/
def lazyOk (o : BOp) (b : Exp) : Bool :=
  match o with
  | .and | .or => quiet b
  | _ => true

/-- A variable of a plain type. -/
def plainVar (m : Method) (x : Var) : Bool :=
  match m.tyOf x with
  | some t => plain t
  | none => false

/-- An integer variable. -/
def intVar (m : Method) (x : Var) : Bool :=
  match m.tyOf x with
  | some t => t.isInt
  | none => false

mutual

/-- The expressions the theorems are about. -/
def safe (lvl : Level) (p : Prog) (m : Method) : Exp → Bool
  | .const c => plain c.ty && conv c.ty c.v == c.v
  | .var x => plainVar m x
  | .bin o a b =>
    safe lvl p m a && safe lvl p m b && (vty p m (.bin o a b)).isSome &&
      (match vty p m a, vty p m b with | some t1, some t2 => sameKind t1 t2 | _, _ => false) &&
      lazyOk o b && neutral lvl p m o a b
  | .un o a => safe lvl p m a && (vty p m (.un o a)).isSome
  | .assign x e =>
    safe lvl p m e && plainVar m x && (match m.tyOf x with | some t => fits p m t e | none => false)
  | .opAssign o x e =>
    safe lvl p m e && intVar m x && (match vty p m e with | some t => t.isInt | none => false) &&
      neutral lvl p m (.arith o) (.var x) e
  | .inc _ _ x => intVar m x
  | .cond c a b =>
    safe lvl p m c && safe lvl p m a && safe lvl p m b && vty p m c == some .bool && vty p m a == vty p m b
  | .cast t e => safe lvl p m e && fits p m t e
  | .call f args =>
    match p[f]? with
    | some m' => safeArgs lvl p m m'.params args
    | none => false

/-- The same for arguments. -/
def safeArgs (lvl : Level) (p : Prog) (m : Method) : List VT → Args → Bool
  | [], .nil => true
  | t :: ts, .cons e rest => safe lvl p m e && fits p m t e && safeArgs lvl p m ts rest
  | _, _ => false

end

/-- The same for statements. -/
def safeStmt (lvl : Level) (p : Prog) (m : Method) : Stmt → Bool
  | .init i e => safe lvl p m e && (match m.tyOf (.loc i) with | some t => fits p m t e | none => false)
  | .exp e => safe lvl p m e
  | .ret e => safe lvl p m e && fits p m m.ret e

/-- The method is supported: plain types, and places of the locals that are inside of the frame and do not overlap. -/
structure Supported (lvl : Level) (p : Prog) (m : Method) : Prop where
  params : ∀ t ∈ m.params, plain t = true
  locals : ∀ (i : Nat) t off, m.locals[i]? = some (t, off) → plain t = true ∧ off + bytes t ≤ 8 * m.units
  apart : ∀ (i j : Nat) t off t' off', m.locals[i]? = some (t, off) → m.locals[j]? = some (t', off') → i ≠ j →
    off + bytes t ≤ off' ∨ off' + bytes t' ≤ off
  ret : plain m.ret = true
  body : ∀ s ∈ m.body, safeStmt lvl p m s = true

end Verif.Expr.Spec
