import Verif.Model.Try

/-!
# What methods with `try` statements mean

Statements are run on the variables; how they end: normally, with `break` or `continue`, or with an exception.
-/

namespace Verif.Try

variable {A S : Type}

/-- How a statement ends. -/
inductive Res (S : Type) where
  | normal (s : S)
  | brk (s : S)
  | cont (s : S)
  | thrown (x : Nat) (s : S)

/-- The variables then. -/
def Res.state : Res S → S
  | .normal s => s
  | .brk s => s
  | .cont s => s
  | .thrown _ s => s

/-- The same end with other variables. -/
def Res.with : Res S → S → Res S
  | .normal _, s => .normal s
  | .brk _, s => .brk s
  | .cont _, s => .cont s
  | .thrown x _, s => .thrown x s

/-- The first `catch` clause for the exception: its variable and its statement. -/
def Catches.find (is_ : Nat → Bool) : Catches A → Option (Nat × Stmt A)
  | .nil => none
  | .cons type x body rest => if is_ type then some (x, body) else rest.find is_

mutual
/-- `Runs cur s v r`: the statement, begun with the variables `v`, ends like `r`.  `cur` is the exception that
is being handled. -/
inductive Runs (M : Machine A S) (is_ : Nat → Nat → Bool) : Option Nat → Stmt A → S → Res S → Prop where
  | skip {cur s} : Runs M is_ cur .skip s (.normal s)
  | act {cur a s s'} : M.act a s = .ok s' → Runs M is_ cur (.act a) s (.normal s')
  | actErr {cur a s x s'} : M.act a s = .error (x, s') → Runs M is_ cur (.act a) s (.thrown x s')
  | seq {cur a b s s' r} : Runs M is_ cur a s (.normal s') → Runs M is_ cur b s' r →
      Runs M is_ cur (.seq a b) s r
  | seqLeft {cur a b s r} : Runs M is_ cur a s r → (∀ s', r ≠ .normal s') → Runs M is_ cur (.seq a b) s r
  | ifTrue {cur c yes no s s' r} : M.act c s = .ok s' → (M.popBool s').1 = true →
      Runs M is_ cur yes (M.popBool s').2 r → Runs M is_ cur (.if_ c yes no) s r
  | ifFalse {cur c yes no s s' r} : M.act c s = .ok s' → (M.popBool s').1 = false →
      Runs M is_ cur no (M.popBool s').2 r → Runs M is_ cur (.if_ c yes no) s r
  | ifErr {cur c yes no s x s'} : M.act c s = .error (x, s') → Runs M is_ cur (.if_ c yes no) s (.thrown x s')
  | whileEnd {cur c body s s'} : M.act c s = .ok s' → (M.popBool s').1 = false →
      Runs M is_ cur (.while_ c body) s (.normal (M.popBool s').2)
  | whileGo {cur c body s s' r r'} : M.act c s = .ok s' → (M.popBool s').1 = true →
      Runs M is_ cur body (M.popBool s').2 r → (r = .normal r.state ∨ r = .cont r.state) →
      Runs M is_ cur (.while_ c body) r.state r' → Runs M is_ cur (.while_ c body) s r'
  | whileBrk {cur c body s s' s''} : M.act c s = .ok s' → (M.popBool s').1 = true →
      Runs M is_ cur body (M.popBool s').2 (.brk s'') → Runs M is_ cur (.while_ c body) s (.normal s'')
  | whileLeft {cur c body s s' x s''} : M.act c s = .ok s' → (M.popBool s').1 = true →
      Runs M is_ cur body (M.popBool s').2 (.thrown x s'') → Runs M is_ cur (.while_ c body) s (.thrown x s'')
  | whileErr {cur c body s x s'} : M.act c s = .error (x, s') →
      Runs M is_ cur (.while_ c body) s (.thrown x s')
  | brk {cur s} : Runs M is_ cur .brk s (.brk s)
  | cont {cur s} : Runs M is_ cur .cont s (.cont s)
  | thr {cur a s s'} : M.act a s = .ok s' →
      Runs M is_ cur (.thr a) s (.thrown (M.popExc s').1 (M.popExc s').2)
  | thrErr {cur a s x s'} : M.act a s = .error (x, s') → Runs M is_ cur (.thr a) s (.thrown x s')
  | rethrow {x s} : Runs M is_ (some x) .rethrow s (.thrown x s)
  | plain {cur body catches s r} : Guarded M is_ cur body catches s r →
      Runs M is_ cur (.try_ body catches .none) s r
  /-- The `finally` clause runs however the rest ended, and then it ends like that. -/
  | fin {cur body catches f s r s'} : Guarded M is_ cur body catches s r →
      Runs M is_ cur f r.state (.normal s') → Runs M is_ cur (.try_ body catches (.some f)) s (r.with s')
  /-- Or it ends like the `finally` clause. -/
  | finLeft {cur body catches f s r r'} : Guarded M is_ cur body catches s r →
      Runs M is_ cur f r.state r' → (∀ s', r' ≠ .normal s') → Runs M is_ cur (.try_ body catches (.some f)) s r'
/-- The statement of a `try` with the `catch` clauses. -/
inductive Guarded (M : Machine A S) (is_ : Nat → Nat → Bool) :
    Option Nat → Stmt A → Catches A → S → Res S → Prop where
  | whole {cur body catches s r} : Runs M is_ cur body s r → (∀ x s', r ≠ .thrown x s') →
      Guarded M is_ cur body catches s r
  /-- An exception that a clause takes: the clause runs, with the exception in its variable. -/
  | caught {cur body catches s x s' v h r} : Runs M is_ cur body s (.thrown x s') →
      catches.find (is_ x) = some (v, h) → Runs M is_ (some x) h (M.store v (M.push x s')) r →
      Guarded M is_ cur body catches s r
  | missed {cur body catches s x s'} : Runs M is_ cur body s (.thrown x s') →
      catches.find (is_ x) = none → Guarded M is_ cur body catches s (.thrown x s')
end

/-! ## What is asked of a method

The rest of this file says for which methods the compiled code is claimed to be right.  That each of these is
needed is shown beside the theorem. -/

/-- An action that raises no exception. -/
def Safe (M : Machine A S) (a : A) : Prop := ∀ s, ∃ s', M.act a s = .ok s'

mutual
/-- No exception is raised in the statement, be it caught there. -/
def Calm (M : Machine A S) : Stmt A → Prop
  | .skip => True
  | .act a => Safe M a
  | .seq a b => Calm M a ∧ Calm M b
  | .if_ c yes no => Safe M c ∧ Calm M yes ∧ Calm M no
  | .while_ c body => Safe M c ∧ Calm M body
  | .brk => True
  | .cont => True
  | .thr _ => False
  | .rethrow => False
  | .try_ body catches fin => Calm M body ∧ CalmCatches M catches ∧ CalmFin M fin
def CalmCatches (M : Machine A S) : Catches A → Prop
  | .nil => True
  | .cons _ _ body rest => Calm M body ∧ CalmCatches M rest
def CalmFin (M : Machine A S) : Fin A → Prop
  | .none => True
  | .some body => Calm M body
end

/-- Where a statement stands: whether it is within the statement or a `catch` clause of a `try` that guards
it; whether within one that has a `finally` clause; whether there is a `try` between it and the loop around it;
whether there is such a loop. -/
structure Place where
  guarded : Bool
  inFin : Bool
  crosses : Bool
  inLoop : Bool

mutual
/-- The methods without the things that are not compiled right:
* an exception raised where nothing guards, in a method that has a `try` elsewhere;
* `break` and `continue` out of a `try` where no `finally` clause is in charge, and out of a `finally` clause;
* `throw` without an expression;
* exceptions in a `finally` clause. -/
def Fits (M : Machine A S) (p : Place) : Stmt A → Prop
  | .skip => True
  | .act a => p.guarded = true ∨ Safe M a
  | .seq a b => Fits M p a ∧ Fits M p b
  | .if_ c yes no => (p.guarded = true ∨ Safe M c) ∧ Fits M p yes ∧ Fits M p no
  | .while_ c body => (p.guarded = true ∨ Safe M c) ∧ Fits M ⟨p.guarded, p.inFin, false, true⟩ body
  | .brk => p.inLoop = true ∧ (p.crosses = true → p.inFin = true)
  | .cont => p.inLoop = true ∧ (p.crosses = true → p.inFin = true)
  | .thr _ => p.guarded = true
  | .rethrow => False
  | .try_ body catches fin =>
    Fits M ⟨p.guarded || fin.any || catches.any, p.inFin || fin.any, p.crosses || fin.any || catches.any, p.inLoop⟩
      body ∧
    FitsCatches M ⟨p.guarded || fin.any, p.inFin || fin.any, p.crosses || fin.any, p.inLoop⟩ catches ∧
    FitsFin M ⟨p.guarded, p.inFin, p.crosses, false⟩ fin
def FitsCatches (M : Machine A S) (p : Place) : Catches A → Prop
  | .nil => True
  | .cons _ _ body rest => Fits M p body ∧ FitsCatches M p rest
def FitsFin (M : Machine A S) (p : Place) : Fin A → Prop
  | .none => True
  | .some body => Calm M body ∧ Fits M p body
end

/-- The analysis of exits is right about the statement: when its end can be reached, it says so. -/
def Told (M : Machine A S) (is_ : Nat → Nat → Bool) (F : Verif.Stmt.Folder A) (s : Stmt A) : Prop :=
  ∀ cur v v', Runs M is_ cur s v (.normal v') → pass F s = true

mutual
/-- It is right about the parts of each `try`. -/
def Honest (M : Machine A S) (is_ : Nat → Nat → Bool) (F : Verif.Stmt.Folder A) : Stmt A → Prop
  | .skip => True
  | .act _ => True
  | .seq a b => Honest M is_ F a ∧ Honest M is_ F b
  | .if_ _ yes no => Honest M is_ F yes ∧ Honest M is_ F no
  | .while_ _ body => Honest M is_ F body
  | .brk => True
  | .cont => True
  | .thr _ => True
  | .rethrow => True
  | .try_ body catches fin =>
    Told M is_ F body ∧ Honest M is_ F body ∧ HonestCatches M is_ F catches ∧ HonestFin M is_ F fin
def HonestCatches (M : Machine A S) (is_ : Nat → Nat → Bool) (F : Verif.Stmt.Folder A) : Catches A → Prop
  | .nil => True
  | .cons _ _ body rest => Told M is_ F body ∧ Honest M is_ F body ∧ HonestCatches M is_ F rest
def HonestFin (M : Machine A S) (is_ : Nat → Nat → Bool) (F : Verif.Stmt.Folder A) : Fin A → Prop
  | .none => True
  | .some body => Told M is_ F body ∧ Honest M is_ F body
end

mutual
/-- A method without `try`. -/
def NoTry : Stmt A → Prop
  | .seq a b => NoTry a ∧ NoTry b
  | .if_ _ yes no => NoTry yes ∧ NoTry no
  | .while_ _ body => NoTry body
  | .try_ _ _ _ => False
  | _ => True
end

end Verif.Try
