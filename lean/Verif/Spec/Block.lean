import Verif.Model.Block

/-!
# What guards a command

The clauses of `try` statements that are in charge of a command, read off the tree of statements, and what an
exception, a jump and a `return` must run.
-/

namespace Verif.Block

/-- A clause, with the command at which it begins; a `catch` with the type of its exceptions, a `finally` with
the command at which its `try` begins. -/
inductive Clause where
  | catch_ (type entry : Nat)
  | finally_ (start entry : Nat)
  deriving DecidableEq, Repr

mutual
/-- The number of commands of a statement. -/
def size : Stmt → Nat
  | .code n => n
  | .seq a b => size a + size b
  | .try_ body passes catches fin => size body + passes.toNat + sizeCatches catches + sizeFin fin
def sizeCatches : Catches → Nat
  | .nil => 0
  | .cons _ body passes rest => 1 + size body + passes.toNat + sizeCatches rest
def sizeFin : Fin → Nat
  | .none => 0
  | .some body passes => size body + passes.toNat
end

/-- The `catch` clauses of a `try`, in the order written; the first begins at `pos`. -/
def catchClauses : Catches → Nat → List Clause
  | .nil, _ => []
  | .cons type body passes rest, pos =>
    .catch_ type pos :: catchClauses rest (pos + 1 + size body + passes.toNat)

/-- The `finally` clause, which begins at `pos`, of a `try` that begins at `start`. -/
def finClause (start : Nat) : Fin → Nat → List Clause
  | .none, _ => []
  | .some _ _, pos => [.finally_ start pos]

mutual
/-- The clauses in charge of the command `p`, innermost first, of a statement that begins at `pos`: the body of
a `try` is guarded by its `catch` clauses and then its `finally` clause; a `catch` clause is guarded by
the `finally` clause only; a `finally` clause by neither. -/
def guards : Stmt → Nat → Nat → List Clause
  | .code _, _, _ => []
  | .seq a b, pos, p => if p < pos + size a then guards a pos p else guards b (pos + size a) p
  | .try_ body passes catches fin, pos, p =>
    let c := pos + size body + passes.toNat
    let f := c + sizeCatches catches
    if p < pos + size body then
      guards body pos p ++ (catchClauses catches c ++ finClause pos fin f)
    else if p < f then
      guardsCatches catches c p ++ finClause pos fin f
    else guardsFin fin f p
def guardsCatches : Catches → Nat → Nat → List Clause
  | .nil, _, _ => []
  | .cons _ body passes rest, pos, p =>
    if p < pos + 1 then []
    else if p < pos + 1 + size body then guards body (pos + 1) p
    else guardsCatches rest (pos + 1 + size body + passes.toNat) p
def guardsFin : Fin → Nat → Nat → List Clause
  | .none, _, _ => []
  | .some body _, pos, p => guards body pos p
end

/-- Whether a clause catches an exception. -/
def Clause.catches (is_ : Nat → Bool) : Clause → Bool
  | .catch_ t _ => is_ t
  | .finally_ _ _ => false

/-- Where a `finally` clause begins. -/
def Clause.finally? : Clause → Option Nat
  | .catch_ _ _ => none
  | .finally_ _ n => some n

/-- Where the clause begins. -/
def Clause.entry : Clause → Nat
  | .catch_ _ n => n
  | .finally_ _ n => n

/-- The handler: the innermost clause that catches the exception. -/
def handler (is_ : Nat → Bool) (gs : List Clause) : Option Nat :=
  (gs.find? (·.catches is_)).map Clause.entry

/-- The `finally` clauses passed on the way to the handler, innermost first. -/
def passed (is_ : Nat → Bool) (gs : List Clause) : List Nat :=
  (gs.takeWhile (fun g => !g.catches is_)).filterMap Clause.finally?

/-- All `finally` clauses, innermost first. -/
def allFinally (gs : List Clause) : List Nat := gs.filterMap Clause.finally?

/-- The `finally` clauses in charge of one command (`gs`) and not of another (`ts`), innermost first. -/
def left (gs ts : List Clause) : List Nat := allFinally (gs.filter (fun g => !ts.contains g))

/-! ## Running `finally` clauses -/

/-- What the commands of `finally` clauses may do before they end: anything that leaves the blocks that
wait, the blocks in execution and the exceptions held as they were. -/
def Quiet (body : Nat → St → St) : Prop :=
  ∀ c s, (body c s).queue = s.queue ∧ (body c s).executing = s.executing ∧ (body c s).excs.mem = s.excs.mem

/-- `finally` clauses are entered and ended until something else comes next: the clauses entered, the state
and what comes next.  `body` is what the commands of the clauses do. -/
def run (body : Nat → St → St) : Nat → St → Next → Option (List Nat × St × Next)
  | 0, _, _ => none
  | k + 1, s, .enter c none =>
    match endFinally (body c s) with
    | none => none
    | some r => (run body k r.1 r.2).map (fun x => (c :: x.1, x.2))
  | _ + 1, s, n => some ([], s, n)

end Verif.Block
