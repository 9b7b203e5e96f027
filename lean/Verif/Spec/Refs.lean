import Verif.Model.Refs

/-!
What expressions over references mean, independently of how they are compiled.  Operands are evaluated from left to right;
`a ?? b` is `a` unless that is `null`; `x ??= e` assigns only if `x` is `null`, and its value is that of `x`; `is` and `as`
never raise; a cast raises if the object is not of the type; a value that stands where a reference is wanted becomes a new
object that holds it.  `none` is an expression without a meaning (a reference to no object, a value of another type than the
variable it is in).
-/

namespace Verif.Refs.Spec

open Verif.Fold Verif.Refs

/-- How the evaluation of an expression ends: with a value, or with an exception. -/
inductive Res where
  | ok (v : Val) (vars : List Val) (h : Heap)
  | thrown (e : Exn) (vars : List Val) (h : Heap)
deriving DecidableEq, Repr

/-- Goes on with the value. -/
def andThen (r : Option Res) (f : Val → List Val → Heap → Option Res) : Option Res :=
  match r with
  | none => none
  | some (.thrown e vs h) => some (.thrown e vs h)
  | some (.ok v vs h) => f v vs h

/-- A value of type `t` where type `w` is wanted: values become objects where references are wanted, numbers are
converted. -/
def coerce (w t : Ty) (v : Val) (vs : List Val) (h : Heap) : Option Res :=
  if w.isRef then
    if t.isRef then some (.ok v vs h)
    else
      match v with
      | .num t' x => if t.xil = .num t' then some (.ok (.ref (.obj h.length)) vs (h ++ [⟨t, x⟩])) else none
      | _ => none
  else if t.xil = w.xil then some (.ok v vs h)
  else
    match v, w.xil with
    | .num _ x, .num t' => some (.ok (.num t' (conv t' x)) vs h)
    | _, _ => none

/-- Whether the object behind the reference may be cast to the type. -/
def instance? (w : World) (h : Heap) (r : Ref) (t : Ty) : Option Bool := (tyOf h r).map fun t' => w.test t' t

/-- A call. -/
def called (c : Called) (vs : List Val) : Option Res :=
  match c with
  | .ret v h => some (.ok v vs h)
  | .thrown e h => some (.thrown e vs h)

/-- A variable gets a value. -/
def setVar (x : Nat) (v : Val) (vs : List Val) (h : Heap) : Option Res :=
  if x < vs.length then some (.ok v (vs.set x v) h) else none

/-- The value of an expression, and what it does to the parameters and the heap. -/
def eval (w : World) (Γ : List Ty) : E → List Val → Heap → Option Res
  | .null, vs, h => some (.ok (.ref .null) vs h)
  | .str s, vs, h => some (.ok (.ref (.lit s)) vs h)
  | .num t v, vs, h => some (.ok (.num t v) vs h)
  | .var x, vs, h =>
    match vs[x]? with
    | some v => some (.ok v vs h)
    | none => none
  | .call k, vs, h => called (w.call k [] h) vs
  | .call1 k a, vs, h =>
    match (w.sig k).1, ty w Γ a with
    | some p, some t =>
      andThen (eval w Γ a vs h) fun v vs h => andThen (coerce p t v vs h) fun v vs h => called (w.call k [v] h) vs
    | _, _ => none
  | .add a b, vs, h =>
    andThen (eval w Γ a vs h) fun v vs h => andThen (eval w Γ b vs h) fun v' vs h =>
      match v, v' with
      | .num .int32 x, .num .int32 y => some (.ok (.num .int32 (conv .int32 (x + y))) vs h)
      | _, _ => none
  | .coal a b, vs, h =>
    andThen (eval w Γ a vs h) fun v vs h =>
      match v with
      | .ref .null => eval w Γ b vs h
      | .ref r => some (.ok (.ref r) vs h)
      | .num _ _ => none
  | .coalAssign x e, vs, h =>
    match vs[x]? with
    | some (.ref .null) => andThen (eval w Γ e vs h) fun v vs h => setVar x v vs h
    | some (.ref r) => some (.ok (.ref r) vs h)
    | _ => none
  | .assign x e, vs, h =>
    match Γ[x]?, ty w Γ e with
    | some p, some t =>
      andThen (eval w Γ e vs h) fun v vs h => andThen (coerce p t v vs h) fun v vs h => setVar x v vs h
    | _, _ => none
  | .is a t, vs, h =>
    andThen (eval w Γ a vs h) fun v vs h =>
      match v with
      | .ref .null => some (.ok (.num .bool 0) vs h)
      | .ref r => (instance? w h r t).map fun b => .ok (.num .bool (if b then 1 else 0)) vs h
      | .num _ _ => none
  | .as a t, vs, h =>
    andThen (eval w Γ a vs h) fun v vs h =>
      match v with
      | .ref .null => some (.ok (.ref .null) vs h)
      | .ref r => (instance? w h r t).map fun b => .ok (.ref (if b then r else .null)) vs h
      | .num _ _ => none
  | .cast t a, vs, h =>
    match ty w Γ a with
    | none => none
    | some t' =>
      andThen (eval w Γ a vs h) fun v vs h =>
        if t.isRef then
          andThen (coerce t t' v vs h) fun v vs h =>
            match v with
            | .ref .null => some (.ok v vs h)
            | .ref r => (instance? w h r t).map fun b => if b then .ok v vs h else .thrown .invalidCast vs h
            | .num _ _ => none
        else if !t'.isRef then coerce t t' v vs h
        else
          match v, t.xil with
          | .ref .null, _ => some (.thrown .nullReference vs h)
          | .ref (.lit _), _ => some (.thrown .invalidCast vs h)
          | .ref (.obj n), .num x =>
            h[n]?.map fun o => if o.ty = t then .ok (.num x o.v) vs h else .thrown .invalidCast vs h
          | _, _ => none

/-- The value of an expression where a type is wanted. -/
def evalAs (w : World) (Γ : List Ty) (want : Want) (e : E) (vs : List Val) (h : Heap) : Option Res :=
  match want, ty w Γ e with
  | none, _ => eval w Γ e vs h
  | some p, some t => andThen (eval w Γ e vs h) fun v vs h => coerce p t v vs h
  | some _, none => none

/-- A statement: an expression whose value is not used. -/
def St.exp : St → E
  | .assign x e => .assign x e
  | .coalAssign x e => .coalAssign x e
  | .call k => .call k
  | .call1 k a => .call1 k a

/-- The result of a body. -/
def run (w : World) (Γ : List Ty) (r : Ty) : List St → E → List Val → Heap → Option Res
  | [], e, vs, h => evalAs w Γ (some r) e vs h
  | s :: rest, e, vs, h => andThen (eval w Γ (St.exp s) vs h) fun _ vs h => run w Γ r rest e vs h

/-! ## The expressions the theorems are about -/

/-- A value of type `t` may stand where the type is wanted: references for references; values, but not enums
(`enum_refuted`), for references; numbers of the same type (the conversions between numbers are the subject of C77). -/
def fits (want : Want) (t : Ty) : Bool :=
  match want with
  | none => true
  | some w => if w.isRef then t.isRef || t.isValue else !t.isRef && t.xil == w.xil

/-- The result of a call may stand there: it is read in the same way (`call_box_refuted`, `call_string_refuted`). -/
def fitsCall (want : Want) (t : Ty) : Bool :=
  match want with
  | none => true
  | some w => t.xil == w.xil

/-- From level 1 on no operand is a string constant (`fold_refuted`, `assign_string_refuted`). -/
def noString (lvl : Nat) (e : E) : Bool :=
  lvl == 0 || (match execute e with | some (.str _) => false | _ => true)

/-- References. -/
def isRef? (t : Option Ty) : Bool :=
  match t with
  | some t => t.isRef
  | none => false

/-- The expressions the theorems are about. -/
def ok (lvl : Nat) (w : World) (Γ : List Ty) : Want → E → Bool
  | want, .null => fits want .null
  | want, .str _ => fits want .str
  | want, .num t v => fits want (.val t) && conv t v == v
  | want, .var x => match Γ[x]? with | some t => fits want t | none => false
  | want, .call k => fitsCall want (w.sig k).2
  | want, .call1 k a =>
    fitsCall want (w.sig k).2 && (match (w.sig k).1 with | some p => ok lvl w Γ (some p) a | none => false)
  | want, .add a b => ok lvl w Γ none a && ok lvl w Γ none b && (ty w Γ (.add a b)).isSome && fits want (.val .int32) &&
    noString lvl (.add a b)
  | want, .coal a b =>
    ok lvl w Γ none a && ok lvl w Γ none b && noString lvl (.coal a b) &&
      (match ty w Γ (.coal a b) with | some t => fits want t | none => false)
  | _, .coalAssign _ _ => false
  | want, .assign x e =>
    noString lvl (.assign x e) && (match Γ[x]? with | some t => ok lvl w Γ (some t) e && fits want t | none => false)
  | want, .is a t =>
    ok lvl w Γ none a && isRef? (ty w Γ a) && (ty w Γ (.is a t)).isSome && noString lvl (.is a t) && fits want (.val .bool)
  | want, .as a t => ok lvl w Γ none a && isRef? (ty w Γ a) && t.isRef && noString lvl (.as a t) && fits want t
  | want, .cast t a =>
    fits want t && (t != .str || w.test .str .str) &&
      (match ty w Γ a with
       | none => false
       | some t' =>
         if t.isRef then ok lvl w Γ none a && (t'.isRef || (t'.isValue && w.test t' t))
         else if t'.isRef then ok lvl w Γ none a
         else ok lvl w Γ (some t) a)

/-- The statements the theorems are about: `x ??= e` may be one. -/
def okSt (lvl : Nat) (w : World) (Γ : List Ty) : St → Bool
  | .coalAssign x e => ok lvl w Γ none e && noString lvl (.coalAssign x e)
  | s => ok lvl w Γ none (St.exp s)

end Verif.Refs.Spec
