/-!
# Operator expressions

The operator-precedence stack machine of `modules/compile/analyze_stack.cpp` together with the
operator tables of `modules/core/core.cpp` and `modules/lang_cs/utils.cpp`.
-/

namespace Verif.Parse

/-- `operator_t` restricted to what the C# front end pushes on the operator stack
(`modules/core/core.cpp:340-410`, `modules/lang_cs/utils.cpp:60-175`).  The last three are the
language's own operators, the others are the system operators. -/
inductive Op where
  | memberPoint
  | minus | positive | leftInc | leftDec | rightInc | rightDec | logicNot | bitNot
  | div | mul | mod
  | add | sub
  | shl | shr
  | gt | ge | lt | le
  | eq | ne
  | bitAnd | bitXor | bitOr
  | logicAnd | logicOr
  | as_ | is_
  | nullCoalescing
  | assign | addAssign | subAssign | mulAssign | divAssign | modAssign | shlAssign | shrAssign
  | bitAndAssign | bitOrAssign | bitXorAssign | nullCoalescingAssign
  | questionMark | questionColon | comma
deriving DecidableEq, Repr

/-- The priority of an operator before the shift by eight bits: smaller binds tighter
(`modules/core/core.cpp:340-410` `__BeginPriority`; `modules/lang_cs/utils.cpp:140-175` for the
last three).  `__Pri(v)` is `v << 8`; the shift is order preserving and left out. -/
def Op.pri : Op → Nat
  | .memberPoint => 1
  | .minus | .positive | .leftInc | .leftDec | .rightInc | .rightDec | .logicNot | .bitNot => 2
  | .div | .mul | .mod => 3
  | .add | .sub => 4
  | .shl | .shr => 5
  | .gt | .ge | .lt | .le => 6
  | .eq | .ne => 7
  | .bitAnd => 8
  | .bitXor => 9
  | .bitOr => 10
  | .logicAnd => 11
  | .logicOr => 12
  | .as_ | .is_ => 13
  | .nullCoalescing => 14
  | .assign | .addAssign | .subAssign | .mulAssign | .divAssign | .modAssign | .shlAssign
  | .shrAssign | .bitAndAssign | .bitOrAssign | .bitXorAssign | .nullCoalescingAssign => 15
  | .questionMark | .questionColon => 13
  | .comma => 15

/-- How many operands an operator has (`modules/core/core.cpp:412-448`,
`modules/lang_cs/utils.cpp:140-175`). -/
def Op.arity : Op → Nat
  | .minus | .positive | .bitNot | .logicNot | .leftInc | .leftDec | .rightInc | .rightDec => 1
  | _ => 2

/-- How many operands stand to the left of the operator (`modules/core/core.cpp:450-462`). -/
def Op.adhere : Op → Nat
  | .leftInc | .leftDec | .minus | .positive | .bitNot | .logicNot => 0
  | _ => 1

/-- `direct == right_to_left` (`modules/core/core.cpp:464-477`,
`modules/lang_cs/utils.cpp:140-175`). -/
def Op.rtl : Op → Bool
  | .assign | .addAssign | .subAssign | .mulAssign | .divAssign | .modAssign | .shlAssign
  | .shrAssign | .bitAndAssign | .bitOrAssign | .bitXorAssign | .nullCoalescingAssign => true
  | .questionMark | .questionColon => true
  | _ => false

/-- `parent_op`; `none` is `operator_t::__default__` (`include/modules/core.h:845-861`,
`modules/lang_cs/utils.cpp:140-175`). -/
def Op.parent : Op → Option Op
  | .questionColon => some .questionMark
  | _ => none

/-- `__lowest_priority` is 65535 = `0xFFFF`; divided by 256 it is above every priority of the
table (`modules/compile/__analyze_stack.h:400-410`). -/
def lowestPri : Nat := 256

/-- The trees the parser builds (`modules/lang_cs/services.cpp:74-112`,
`modules/compile/analyze_stack.cpp:130-167`).  A `leaf` stands for a name, a constant, `this`,
`base` or a sub-expression recognised by the grammar. -/
inductive Exp where
  | leaf (n : Nat)
  | unary (o : Op) (a : Exp)
  | binary (o : Op) (a b : Exp)
  | cond (a b c : Exp)
  | list (es : List Exp)
deriving Repr

/-- Failures: `format` is `format_error`, `assertion` is the failed `_A(...)` of
`modules/lang_cs/services.cpp:91` (in a build without assertions the cast that follows it is
undefined behaviour), `fuel` never happens (`combine_no_fuel`, `flush_no_fuel`). -/
inductive Err where
  | format | assertion | fuel
deriving DecidableEq, Repr

/-- One `analyze_stack_t`: operator stack, expression stack (tops first) and
`__right_placeholder` (`modules/compile/__analyze_stack.h:397-536`). -/
structure Frame where
  ops : List Op := []
  exps : List Exp := []
  rp : Int := 0
deriving Repr

/-- What comes back from a step of the machine. -/
abbrev Res (α : Type) := Except Err α

/-- `__get_right_placeholder` (`modules/compile/analyze_stack.cpp:388-397`). -/
def rplace (o : Op) : Int := (o.arity : Int) - (o.adhere : Int)

/-- `build_expression` for an operator with one operand
(`modules/compile/analyze_stack.cpp:130-167`). -/
def build1 (o : Op) (a : Exp) : Exp := .unary o a

/-- `build_expression` for an operator with two operands
(`modules/lang_cs/services.cpp:74-112`): `?` takes its right operand apart, whatever binary
expression it is, and a comma extends a list. -/
def build2 (o : Op) (a b : Exp) : Res Exp :=
  match o with
  | .questionMark =>
    match b with
    | .binary _ x y => .ok (.cond a x y)
    | _ => .error .assertion
  | .comma =>
    match a with
    | .list es => .ok (.list (es ++ [b]))
    | _ => .ok (.list [a, b])
  | _ => .ok (.binary o a b)

/-- The end of `__combine_expression`: the placeholder count is taken over from the operator
that is now on top (`modules/compile/analyze_stack.cpp:371-385`). -/
def settle (f : Frame) : Frame :=
  match f.ops with
  | [] => f
  | t :: _ => { f with rp := rplace t }

/-- `__push_expression` (`modules/compile/analyze_stack.cpp:424-434`). -/
def pushExp (f : Frame) (e : Exp) : Res Frame :=
  if f.ops ≠ [] ∧ f.rp ≤ 0 then .error .format
  else .ok { f with rp := f.rp - 1, exps := e :: f.exps }

/-- `__pop_expression` (`modules/compile/analyze_stack.cpp:437-443`). -/
def popExp (f : Frame) : Res (Exp × Frame) :=
  match f.exps with
  | [] => .error .format
  | e :: es => .ok (e, { f with exps := es })

/-- `__combine_expression` with two operands (`modules/compile/analyze_stack.cpp:371-385`). -/
def finish2 (o : Op) (a b : Exp) (f : Frame) : Res (Exp × Frame) :=
  match build2 o a b with
  | .error x => .error x
  | .ok e => .ok (e, settle f)

/-- `__combine_expression` once the operands are there: `right` is the one to the right of the
operator, if it takes one. -/
def finish (o : Op) (left : Exp) (right : Option Exp) (f : Frame) : Res (Exp × Frame) :=
  match right with
  | none => .ok (build1 o left, settle f)
  | some r => finish2 o left r f

/-- The part of `__combine_expressions` that finds the left operand
(`modules/compile/analyze_stack.cpp:326-368`); `comb` and `loop` are the recursive calls. -/
def combineLeftWith (comb : Op → Frame → Res (Exp × Frame))
    (loop : Op → Option Exp → Frame → Res (Exp × Frame)) (o : Op) (right : Option Exp)
    (f : Frame) : Res (Exp × Frame) :=
  match f.ops with
  | [] =>
    match popExp f with
    | .error x => .error x
    | .ok (l, f) => finish o l right f
  | t :: ops =>
    if o.parent = some t then
      match popExp f with
      | .error x => .error x
      | .ok (l, f) =>
        match finish o l right f with
        | .error x => .error x
        | .ok (e, f) =>
          match pushExp f e with
          | .error x => .error x
          | .ok f => comb t { f with ops := ops }
    else if o.parent ≠ none then loop o right f
    else if ¬ o.pri < t.pri ∧ t.rtl = false then
      match comb t { f with ops := ops } with
      | .error x => .error x
      | .ok (l, f) => finish o l right f
    else
      match popExp f with
      | .error x => .error x
      | .ok (l, f) => finish o l right f

mutual
/-- `__combine_expressions(property, token)` (`modules/compile/analyze_stack.cpp:311-368`): the
operator has been popped already.  The recursion of the C++ code goes through the operator
stack; the first argument bounds it. -/
def combine : Nat → Op → Frame → Res (Exp × Frame)
  | 0, _, _ => .error .fuel
  | n + 1, o, f =>
    if o.adhere < o.arity then
      match popExp f with
      | .error x => .error x
      | .ok (r, f) =>
        if o.adhere = 0 then .ok (build1 o r, settle f)
        else combineLeftWith (combine n) (parentLoop n) o (some r) f
    else combineLeftWith (combine n) (parentLoop n) o none f

/-- The `for` loop that looks for the parent operator
(`modules/compile/analyze_stack.cpp:342-356`). -/
def parentLoop : Nat → Op → Option Exp → Frame → Res (Exp × Frame)
  | 0, _, _, _ => .error .fuel
  | n + 1, o, right, f =>
    match f.ops with
    | [] => .error .format
    | t :: ops =>
      match combine n t { f with ops := ops } with
      | .error x => .error x
      | .ok (l, f) =>
        match f.ops with
        | [] => .error .format
        | t' :: _ =>
          if o.parent = some t' then finish o l right f
          else
            match pushExp f l with
            | .error x => .error x
            | .ok f => parentLoop n o right f
end

/-- `__combine_expressions(until)` (`modules/compile/analyze_stack.cpp:282-295`); the first
argument bounds the number of rounds. -/
def flushN : Nat → Nat → Frame → Res Frame
  | n, untilPri, f =>
    match f.ops with
    | [] => .ok f
    | t :: ops =>
      if t.pri < untilPri then
        match n with
        | 0 => .error .fuel
        | n + 1 =>
          match combine (2 * ops.length + 1) t { f with ops := ops } with
          | .error x => .error x
          | .ok (e, f) =>
            match pushExp f e with
            | .error x => .error x
            | .ok f => flushN n untilPri f
      else .ok f

/-- `__combine_expressions(until)`: every round pops an operator. -/
def flush (untilPri : Nat) (f : Frame) : Res Frame := flushN f.ops.length untilPri f

/-- `__push_operator` (`modules/compile/analyze_stack.cpp:261-279`). -/
def pushOp (f : Frame) (o : Op) : Res Frame :=
  if o.arity < o.adhere then .error .format
  else if f.exps.length < o.adhere then .error .format
  else if 0 < f.rp ∧ 0 < o.adhere then .error .format
  else
    match flush o.pri f with
    | .error x => .error x
    | .ok f => .ok { f with ops := o :: f.ops, rp := rplace o }

/-- `__combine_all` (`modules/compile/analyze_stack.cpp:446-450`): whatever is left below the
result on the expression stack is dropped. -/
def combineAll (f : Frame) : Res Exp :=
  match flush lowestPri f with
  | .error x => .error x
  | .ok f =>
    match popExp f with
    | .error x => .error x
    | .ok (e, _) => .ok e

/-- The two kinds of expression boxes, `( )` and `[ ]` (`modules/lang_cs/utils.cpp:140-175`). -/
inductive Box where
  | round | square
deriving DecidableEq, Repr

/-- What the analyzer reads (`modules/compile/__analyze_stack.h`: `__stack_element_t`): names and
expressions are leaves, tokens are operators, boxes or invisible (comments).  The element type
`operator_` without a token is not modelled: combining it dereferences a null token. -/
inductive Elem where
  | leaf (n : Nat)
  | op (o : Op)
  | left (b : Box)
  | right (b : Box)
  | invisible
deriving DecidableEq, Repr

/-- `analyze_stack_t::analyze` (`modules/compile/analyze_stack.cpp:165-233`, `400-421`).  The
recursion of `__push_expression_box` is made explicit: `outer` holds the suspended stacks with
the closing box each of them waits for. -/
def run : List Elem → Frame → Option Box → List (Frame × Option Box) → Res Exp
  | [], f, stop, _ =>
    match stop with
    | none => combineAll f
    | some _ => .error .format
  | x :: xs, f, stop, outer =>
    match x with
    | .leaf n =>
      match pushExp f (.leaf n) with
      | .error x => .error x
      | .ok f => run xs f stop outer
    | .op o =>
      match pushOp f o with
      | .error x => .error x
      | .ok f => run xs f stop outer
    | .left b => run xs {} (some b) ((f, stop) :: outer)
    | .right b =>
      if stop = some b then
        match combineAll f with
        | .error x => .error x
        | .ok e =>
          match outer with
          | [] => .error .format
          | (f', stop') :: outer' =>
            match pushExp f' e with
            | .error x => .error x
            | .ok f' => run xs f' stop' outer'
      else .error .format
    | .invisible => run xs f stop outer

/-- `parse_expression` on a non-empty sequence (`modules/compile/__analyze_stack.h:572-586`; on
the empty sequence the code answers a null pointer, here it is a format error). -/
def parse (xs : List Elem) : Res Exp := run xs {} none []

end Verif.Parse
