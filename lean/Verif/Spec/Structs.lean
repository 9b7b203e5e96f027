import Verif.Model.Structs

/-!
# What programs with structs mean

Structs are values: a struct is the list of what its fields hold, and there are no addresses here.  Reading a struct variable
gives that list; assigning, passing and returning hand the list over.  A method of a struct gets the list and gives a list
back, which becomes the value of the variable it was called on.  A constructor starts with nothing in any field.  A variable or
field that holds nothing yet (`none`) must not be read.
-/

namespace Verif.Structs.Spec

open Verif.Structs

abbrev Cell := Option Word

/-- What a method sees: the struct it is a method of, its parameters and its local variables. -/
structure Frame where
  self : List Cell
  pars : List Cell
  locs : List Cell
deriving DecidableEq

/-- All units of what a path begins with, and where in them the path leads. -/
def Frame.get (f : Frame) : Root → List Cell
  | .loc _ => f.locs
  | .par _ => f.pars
  | .self => f.self

def Frame.put (f : Frame) (l : List Cell) : Root → Frame
  | .loc _ => { f with locs := l }
  | .par _ => { f with pars := l }
  | .self => { f with self := l }

def start : Root → Nat
  | .loc i => i
  | .par i => i
  | .self => 0

def index (p : Place) : Nat := start p.root + p.offs.sum

/-- The `n` units at a place. -/
def read (f : Frame) (p : Place) (n : Nat) : Option (List Cell) :=
  let l := f.get p.root
  if index p + n ≤ l.length then some ((l.drop (index p)).take n) else none

/-- The frame in which a place holds `v` and everything else holds what it held. -/
def write (f : Frame) (p : Place) (v : List Cell) : Option Frame :=
  let l := f.get p.root
  if index p + v.length ≤ l.length then
    some (f.put (l.take (index p) ++ (v ++ l.drop (index p + v.length))) p.root)
  else none

def varPlace : Var → Place
  | .loc i => ⟨.loc i, []⟩
  | .par i => ⟨.par i, []⟩

def fldPlace (p : Place) (k : Nat) : Place := ⟨p.root, p.offs ++ [k]⟩

/-- Calls: of a method, for the kind of result the call expects, with the struct it is called on and the arguments; the result
and what the struct has become. -/
abbrev Call := Nat → Ret → Option (List Cell) → List Cell → Option (List Cell × List Cell)

/-- A number at a place. -/
def number (f : Frame) (p : Place) : Option Word :=
  match read f p 1 with
  | some [some v] => some v
  | _ => none

mutual
def evalE (C : Call) (f : Frame) : Exp → Option (Word × Frame)
  | .const v => some (v, f)
  | .var x => (number f (varPlace x)).map (·, f)
  | .fld p k => (number f (fldPlace p k)).map (·, f)
  | .bin o a b => match evalE C f a with
    | none => none
    | some (x, f) => match evalE C f b with
      | none => none
      | some (y, f) => some (o.eval x y, f)
  | .call m args => match evalA C f args with
    | none => none
    | some (vs, f) => match C m .int none vs with
      | some ([some v], _) => some (v, f)
      | _ => none
  | .callOn p n m args => match evalA C f args with
    | none => none
    | some (vs, f) => match read f p n with
      | none => none
      | some s => match C m .int (some s) vs with
        | some ([some v], s') => (write f p s').map (v, ·)
        | _ => none
  | .temp _ n s k => match evalS C f s with
    | none => none
    | some (v, f) => if v.length = n then
        match v[k]? with
        | some (some w) => some (w, f)
        | _ => none
      else none
def evalS (C : Call) (f : Frame) : SExp → Option (List Cell × Frame)
  | .place p n => (read f p n).map (·, f)
  | .call n m args => match evalA C f args with
    | none => none
    | some (vs, f) => match C m (.str n) none vs with
      | some (v, _) => some (v, f)
      | none => none
  | .callOn n p k m args => match evalA C f args with
    | none => none
    | some (vs, f) => match read f p k with
      | none => none
      | some s => match C m (.str n) (some s) vs with
        | some (v, s') => (write f p s').map (v, ·)
        | none => none
  | .new n m args => match evalA C f args with
    | none => none
    | some (vs, f) => match C m .void (some (List.replicate n none)) vs with
      | some (_, s') => some (s', f)
      | none => none
  | .newDefault n => some (List.replicate n (some 0), f)
  | .this n => (read f ⟨.self, []⟩ n).map (·, f)
def evalA (C : Call) (f : Frame) : Args → Option (List Cell × Frame)
  | .nil => some ([], f)
  | .int e rest => match evalE C f e with
    | none => none
    | some (v, f) => match evalA C f rest with
      | none => none
      | some (vs, f) => some (some v :: vs, f)
  | .str n s rest => match evalS C f s with
    | none => none
    | some (v, f) => if v.length = n then
        match evalA C f rest with
        | none => none
        | some (vs, f) => some (v ++ vs, f)
      else none
end

/-- Statements; the second part is what a `return` gave, for the kind of method `r`. -/
def exec (C : Call) (r : Ret) (f : Frame) : Stmt → Option (Frame × Option (List Cell))
  | .done => some (f, none)
  | .setVar x e k => match evalE C f e with
    | none => none
    | some (v, f) => match write f (varPlace x) [some v] with
      | none => none
      | some f => exec C r f k
  | .setFld p i e k => match evalE C f e with
    | none => none
    | some (v, f) => match write f (fldPlace p i) [some v] with
      | none => none
      | some f => exec C r f k
  | .setStr p n s k => match evalS C f s with
    | none => none
    | some (v, f) => if v.length = n then
        match write f p v with
        | none => none
        | some f => exec C r f k
      else none
  | .call m args k => match evalA C f args with
    | none => none
    | some (vs, f) => match C m .void none vs with
      | none => none
      | some _ => exec C r f k
  | .callOn p n m args k => match evalA C f args with
    | none => none
    | some (vs, f) => match read f p n with
      | none => none
      | some s => match C m .void (some s) vs with
        | none => none
        | some (_, s') => match write f p s' with
          | none => none
          | some f => exec C r f k
  | .ite e a b k => match evalE C f e with
    | none => none
    | some (v, f) => match (if v = 0 then exec C r f b else exec C r f a) with
      | none => none
      | some (f, some x) => some (f, some x)
      | some (f, none) => exec C r f k
  | .ret => if r = .void then some (f, some []) else none
  | .retInt e => if r = .int then
      match evalE C f e with
      | none => none
      | some (v, f) => some (f, some [some v])
    else none
  | .retStr s => match r with
    | .str n => match evalS C f s with
      | none => none
      | some (v, f) => if v.length = n then some (f, some v) else none
    | _ => none

/-- A call of method `m`; `n` bounds how deep calls go. -/
def call (P : List Method) : Nat → Call
  | 0, _, _, _, _ => none
  | n + 1, m, r, self, args => match P[m]? with
    | none => none
    | some M =>
      if M.ret = r ∧ M.self = self.map (·.length) ∧ M.params = args.length then
        match exec (call P n) M.ret ⟨self.getD [], args, List.replicate M.vars none⟩ M.body with
        | some (f, some v) => some (v, f.self)
        | _ => none
      else none

/-- What method 0, which is static and has no parameters, gives. -/
def result (P : List Method) (n : Nat) : Option Word :=
  match call P n 0 .int none [] with
  | some ([some v], _) => some v
  | _ => none

end Verif.Structs.Spec
