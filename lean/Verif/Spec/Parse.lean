import Verif.Model.Parse

/-!
What grouping by priority and direction means, independently of the stack machine.
-/

namespace Verif.Parse.Spec

open Verif.Parse

/-- The operators of the language from the tightest to the loosest, one list per level. -/
def levels : List (List Op) := [
  [.memberPoint],
  [.minus, .positive, .leftInc, .leftDec, .rightInc, .rightDec, .logicNot, .bitNot],
  [.mul, .div, .mod],
  [.add, .sub],
  [.shl, .shr],
  [.lt, .le, .gt, .ge],
  [.eq, .ne],
  [.bitAnd],
  [.bitXor],
  [.bitOr],
  [.logicAnd],
  [.logicOr],
  [.as_, .is_, .questionMark, .questionColon],
  [.nullCoalescing],
  [.assign, .addAssign, .subAssign, .mulAssign, .divAssign, .modAssign, .shlAssign, .shrAssign,
   .bitAndAssign, .bitOrAssign, .bitXorAssign, .nullCoalescingAssign, .comma]]

/-- The level of an operator: 0 is the tightest. -/
def level (o : Op) : Nat := levels.findIdx (fun l => l.contains o)

/-- The operators that associate to the right. -/
def rightAssoc (o : Op) : Bool :=
  [Op.assign, .addAssign, .subAssign, .mulAssign, .divAssign, .modAssign, .shlAssign, .shrAssign,
   .bitAndAssign, .bitOrAssign, .bitXorAssign, .nullCoalescingAssign,
   .questionMark, .questionColon].contains o

/-- The operators written before their operand. -/
def isPrefix (o : Op) : Bool :=
  [Op.minus, .positive, .leftInc, .leftDec, .logicNot, .bitNot].contains o

/-- The operators written after their operand. -/
def isPostfix (o : Op) : Bool := [Op.rightInc, .rightDec].contains o

/-- The operators written between two operands (`?` and `:` come in pairs and are separate). -/
def isBinary (o : Op) : Bool :=
  !isPrefix o && !isPostfix o && o != .questionMark && o != .questionColon

/-- Expressions as one would write them down, boxes included. -/
inductive Tree where
  | leaf (n : Nat)
  | box (b : Box) (t : Tree)
  | pre (o : Op) (t : Tree)
  | post (o : Op) (t : Tree)
  | bin (o : Op) (l r : Tree)
  | cond (a b c : Tree)
deriving Repr

/-- The text of an expression. -/
def Tree.text : Tree → List Elem
  | .leaf n => [.leaf n]
  | .box b t => .left b :: t.text ++ [.right b]
  | .pre o t => .op o :: t.text
  | .post o t => t.text ++ [.op o]
  | .bin o l r => l.text ++ .op o :: r.text
  | .cond a b c => a.text ++ .op .questionMark :: (b.text ++ .op .questionColon :: c.text)

/-- The value of a tree: boxes only group, a comma makes a list out of its operands and goes on
with the list if its left operand already is one. -/
def Tree.value : Tree → Exp
  | .leaf n => .leaf n
  | .box _ t => t.value
  | .pre o t => .unary o t.value
  | .post o t => .unary o t.value
  | .bin o l r =>
    if o = .comma then
      match l.value with
      | .list es => .list (es ++ [r.value])
      | v => .list [v, r.value]
    else .binary o l.value r.value
  | .cond a b c => .cond a.value b.value c.value

/-- Between `q` on the left and `o` on the right, the operand in the middle goes to `q`: it is
tighter, or equally tight and associates to the left. -/
def goesLeft (q o : Op) : Prop := level q < level o ∨ (level q = level o ∧ rightAssoc q = false)

/-- The operators at the left edge of a tree that would take an operand standing before it. -/
def Tree.leftEdge : Tree → List Op
  | .leaf _ | .box _ _ | .pre _ _ => []
  | .post o t => o :: t.leftEdge
  | .bin o l _ => o :: l.leftEdge
  | .cond a _ _ => .questionMark :: a.leftEdge

/-- The operators at the right edge of a tree that would take an operand standing after it, and
the postfix operator the tree ends with. -/
def Tree.rightEdge : Tree → List Op
  | .leaf _ | .box _ _ => []
  | .post o _ => [o]
  | .pre o t => o :: t.rightEdge
  | .bin o _ r => o :: r.rightEdge
  | .cond _ _ c => .questionColon :: c.rightEdge

/-- The prefix operator a tree starts with. -/
def Tree.leading : Tree → Option Op
  | .leaf _ | .box _ _ => none
  | .pre o _ => some o
  | .post _ t => t.leading
  | .bin _ l _ => l.leading
  | .cond a _ _ => a.leading

/-- What may stand to the left of operator `o`: every operator that reaches the right edge has
the right to its operand; a prefix operator has to be strictly tighter than `o`. -/
def okLeft (t : Tree) (o : Op) : Prop :=
  ∀ q ∈ t.rightEdge, goesLeft q o ∧ (isPrefix q = true → level q < level o)

/-- What may stand to the right of operator `o`: no operator at the left edge loses its operand
to `o`, and a prefix operator at the start is not looser than `o`. -/
def okRight (o : Op) (t : Tree) : Prop :=
  (∀ q ∈ t.leftEdge, ¬ goesLeft o q) ∧ (∀ q, t.leading = some q → level q ≤ level o)

/-- The tree groups its text by priority and direction. -/
def Tree.Grouped : Tree → Prop
  | .leaf _ => True
  | .box _ t => t.Grouped
  | .pre o t => isPrefix o = true ∧ t.Grouped ∧ okRight o t
  | .post o t => isPostfix o = true ∧ t.Grouped ∧ okLeft t o
  | .bin o l r => isBinary o = true ∧ l.Grouped ∧ r.Grouped ∧ okLeft l o ∧ okRight o r
  | .cond a b c => a.Grouped ∧ b.Grouped ∧ c.Grouped ∧ okLeft a .questionMark ∧
      okRight .questionMark b ∧ okLeft b .questionColon ∧ okRight .questionColon c ∧
      (∀ q ∈ b.leftEdge, level q < level .questionMark)

/-- Reading an expression from left to right. -/
def reading : Exp → List Elem
  | .leaf n => [.leaf n]
  | .unary o a => if isPrefix o then .op o :: reading a else reading a ++ [.op o]
  | .binary o a b => reading a ++ .op o :: reading b
  | .cond a b c => reading a ++ .op .questionMark :: (reading b ++ .op .questionColon :: reading c)
  | .list es => readingList es
where
  /-- The members of a list with a comma between any two of them. -/
  readingList : List Exp → List Elem
  | [] => []
  | [e] => reading e
  | e :: e' :: es => reading e ++ .op .comma :: readingList (e' :: es)

/-- A sequence without its boxes. -/
def unboxed (xs : List Elem) : List Elem :=
  xs.filter fun x => match x with
    | .left _ | .right _ | .invisible => false
    | _ => true

mutual
/-- A leaf or a sequence in a box. -/
inductive IsAtom : List Elem → Prop where
  | leaf (n : Nat) : IsAtom [.leaf n]
  | box (b : Box) (xs : List Elem) : IsSeq xs → IsAtom (.left b :: xs ++ [.right b])

/-- Atoms with dots between them. -/
inductive IsPrimary : List Elem → Prop where
  | one (xs : List Elem) : IsAtom xs → IsPrimary xs
  | dot (xs ys : List Elem) : IsPrimary xs → IsAtom ys → IsPrimary (xs ++ .op .memberPoint :: ys)

/-- An operand with its own operators: prefix operators before it or postfix operators after it,
but not both. -/
inductive IsUnit : List Elem → Prop where
  | pre (ps : List Op) (xs : List Elem) : (∀ p ∈ ps, isPrefix p = true) → IsPrimary xs →
      IsUnit (ps.map .op ++ xs)
  | post (xs : List Elem) (ps : List Op) : IsPrimary xs → (∀ p ∈ ps, isPostfix p = true) →
      IsUnit (xs ++ ps.map .op)

/-- Units with binary operators between them. -/
inductive IsSeq : List Elem → Prop where
  | one (xs : List Elem) : IsUnit xs → IsSeq xs
  | more (xs : List Elem) (o : Op) (ys : List Elem) : IsSeq xs → isBinary o = true →
      o ≠ .memberPoint → IsUnit ys → IsSeq (xs ++ .op o :: ys)
end

/-- Boxes are closed in the order they were opened; the list holds what is waited for, innermost
first, ending with `none` for the end of the sequence. -/
def closes : List Elem → List (Option Box) → Prop
  | [], st => st = [none]
  | .left b :: xs, st => closes xs (some b :: st)
  | .right b :: xs, st => ∃ st', st = some b :: st' ∧ closes xs st'
  | _ :: xs, st => closes xs st

end Verif.Parse.Spec
