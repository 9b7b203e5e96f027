/-
  The analyzer, which reads a program along the graphs of the rules: modules/compile/analyze_tree.cpp
  and modules/compile/__analyze_tree.h, `analyze_context_t`.

  The tree of stacks (`lr_tree_t`) is a list of stacks here.  What is not modelled: elements of
  other languages, comments (`__is_invisible`), the weights of nodes and the other criteria by which
  one of several readings is taken (any order is allowed instead), and the repair of programs with
  errors.
-/
import Verif.Model.Gram

namespace Verif.Anl

open Verif.Gram

inductive Err where
  | format
  | assertion
  | endless
deriving DecidableEq, Repr

/-- The graphs of the rules and the rule of a whole program.  `expandable` and `dead` are flags of
    references (modules/compile/__analyze_tree.h:430-432, set in
    modules/compile/analyze_tree.cpp:1981-2007), given by the rule and the node. -/
structure Sys where
  graph : Nat → Option Graph
  root : Nat
  expandable : Nat → Nat → Bool
  dead : Nat → Nat → Bool

/-- A place in a rule: after a node, or before the first node (that is the node of the rule itself,
    which is on the stack at the beginning). -/
structure Pos where
  rule : Nat
  node : Option Nat
deriving DecidableEq, Repr

/-- `subnodes` of a rule. -/
def Sys.first (S : Sys) (r : Nat) : List Nat :=
  match S.graph r with
  | none => []
  | some g => g.start

/-- modules/compile/analyze_tree.cpp:2432-2443, the nodes that can follow: `subnodes` of a rule,
    `nodes` of other nodes. -/
def Sys.next (S : Sys) (p : Pos) : List Nat :=
  match S.graph p.rule with
  | none => []
  | some g =>
    match p.node with
    | none => g.start
    | some u => g.next u

def Sys.label (S : Sys) (r u : Nat) : Label :=
  match S.graph r with
  | none => .group
  | some g => g.label u

def isStop : Label → Bool
  | .stop _ => true
  | _ => false

/-- modules/compile/__analyze_tree.h:290-293, `get_end_unit`: whether the rule can end here.  For
    the node of a rule these are the nodes after the rule, of which there are none. -/
def Sys.ends (S : Sys) (p : Pos) : Bool :=
  match p.node with
  | none => false
  | some _ => (S.next p).any fun u => isStop (S.label p.rule u)

/-! ## Left cycles -/

/-- `subnodes` of a rule that are references, with the rule they refer to. -/
def firstRefs (Γ : Nat → Option Graph) (r : Nat) : List (Nat × Nat) :=
  match Γ r with
  | none => []
  | some g => g.start.filterMap fun u =>
    match g.label u with
    | .ref q => some (u, q)
    | _ => none

/-- The loops of `__exists_left_cycle` and `__is_dead_cycle` over the first nodes of a rule. -/
def anyRef (f : Nat → Nat → List Nat → Bool × List Nat) : List (Nat × Nat) → List Nat →
    Bool × List Nat
  | [], seen => (false, seen)
  | (u, q) :: us, seen =>
    match f u q seen with
    | (true, seen) => (true, seen)
    | (false, seen) => anyRef f us seen

/-- modules/compile/analyze_tree.cpp:2010-2041 and 2043-2073, `__exists_left_cycle` and
    `__is_dead_cycle`: a way from the first nodes of `q` to a reference to the rule `b` for which
    `final` holds; the first argument bounds the depth, `u` is a node of the rule `r`. -/
def cycle (Γ : Nat → Option Graph) (final : Nat → Nat → Bool) (b : Nat) :
    Nat → Nat → Nat → Nat → List Nat → Bool × List Nat
  | 0, _, _, _, seen => (false, seen)
  | n + 1, r, u, q, seen =>
    match Γ q with
    | none => (false, seen)
    | some _ =>
      if b = q then (final r u, seen)
      else if q ∈ seen then (false, seen)
      else anyRef (cycle Γ final b n q) (firstRefs Γ q) (q :: seen)

/-- modules/compile/analyze_tree.cpp:486-495, `__is_final_node`; `index` are the numbers of the
    nodes. -/
def isFinal (Γ : Nat → Option Graph) (index : Nat → Nat → Nat) (r u : Nat) : Bool :=
  match Γ r with
  | none => true
  | some g => (g.next u).all fun v => ¬ index r u < index r v || isStop (g.label v)

def refOf (Γ : Nat → Option Graph) (r u : Nat) : Option Nat :=
  match Γ r with
  | none => none
  | some g =>
    match g.label u with
    | .ref q => some q
    | _ => none

def isFirst (Γ : Nat → Option Graph) (r u : Nat) : Bool :=
  match Γ r with
  | none => false
  | some g => u ∈ g.start

/-- modules/compile/analyze_tree.cpp:1983-2008, `__execute_left_cycle_process`, and 713-723.
    `index` and `number` are the numbers of nodes and rules in the order in which they are made
    (modules/compile/__analyze_tree.h:823-827); a node that is made by merging has a number greater
    than all that were read. -/
def Sys.make (Γ : Nat → Option Graph) (root : Nat) (index : Nat → Nat → Nat) (number : Nat → Nat)
    (n : Nat) : Sys where
  graph := Γ
  root := root
  expandable r u :=
    match refOf Γ r u with
    | none => false
    | some q =>
      (Γ q).isSome && (!isFirst Γ r u || !(cycle Γ (fun _ _ => true) r n r u q []).1 ||
        (index r u > number q && r ≠ q))
  dead r u :=
    match refOf Γ r u with
    | none => false
    | some q => isFirst Γ r u && (cycle Γ (fun _ _ => true) r n r u q []).1 &&
        (cycle Γ (isFinal Γ index) r n r u q []).1

/-! ## The nodes that can be reached -/

/-- Nodes with their rules: the references that are entered, and the node that is reached. -/
abbrev Path := List (Nat × Nat)

def collect (f : Nat → Option (List Path)) : List Nat → Option (List Path)
  | [] => some []
  | u :: us =>
    match f u with
    | none => none
    | some a =>
      match collect f us with
      | none => none
      | some b => some (a ++ b)

/-- modules/compile/analyze_tree.cpp:2380-2419, `__append_subnodes` and
    `__append_branch_subnodes`; the first argument bounds the depth. -/
def expand (S : Sys) : Nat → Nat → List Nat → Option (List Path)
  | 0, _, _ => none
  | n + 1, r, us =>
    collect (fun u =>
      match S.label r u with
      | .ref q =>
        if S.expandable r u then
          match expand S n q (S.first q) with
          | none => none
          | some ps => some ([(r, u)] :: ps.map ((r, u) :: ·))
        else some [[(r, u)]]
      | _ => some [[(r, u)]]) us

/-- The node that is reached. -/
def target (π : Path) : Nat × Nat := π.getLastD (0, 0)

/-- modules/compile/analyze_tree.cpp:2513-2537, `append_stack` with 227-244, `__stack_equals`: one of
    those with the same number of steps to the same node. -/
def distinct : List Path → List Path → List Path
  | _, [] => []
  | old, π :: ps =>
    if old.any (fun ρ => ρ.length = π.length && target ρ = target π) then distinct old ps
    else π :: distinct (π :: old) ps

/-- modules/compile/analyze_tree.cpp:2465-2501 and 2156-2177, 2288-2319: the ways from a place to
    nodes with a key.  Those without a step into a rule come first; apart from this the order, which
    is one of addresses, is not modelled. -/
def units (S : Sys) (n : Nat) (p : Pos) (key : Label) : Option (List Path) :=
  match expand S n p.rule (S.next p) with
  | none => none
  | some ps =>
    let ps := distinct [] (ps.filter fun π => S.label (target π).1 (target π).2 = key)
    some (ps.filter (fun π => π.length ≤ 1) ++ ps.filter (fun π => ¬ π.length ≤ 1))

/-! ## Stacks -/

/-- What is done when there is one reading left (modules/compile/__analyze_tree.h,
    `__stack_node_action_t`): `matched r i j` reports that the tokens from `i` on and before `j` are
    an instance of the rule, `chose i k` sets the value of a token that can be several ones. -/
inductive Action where
  | matched (rule first last : Nat)
  | chose (index key : Nat)
deriving DecidableEq, Repr

/-- modules/compile/__analyze_tree.h:575-611, `__stack_node_value_t`: the place and `child_tag`, the
    token at which the node above begins. -/
structure Entry where
  pos : Pos
  child : Option Nat
deriving DecidableEq, Repr

/-- A leaf of the tree with the nodes above it in the tree, and its actions, the last one first. -/
structure Leaf where
  stack : List Entry
  actions : List Action
deriving DecidableEq, Repr

/-- A token: its possible values, and whether they are several (`unknown_token_value`). -/
structure Token where
  keys : List Nat
  several : Bool

/-- modules/compile/analyze_tree.cpp:3190-3256: the stack after a way was taken; `tag` is the token,
    if it is one. -/
def grown (tag : Option Nat) (e : Entry) (rest : List Entry) (π : Path) : List Entry :=
  if π.length ≤ 1 then { e with pos := ⟨(target π).1, some (target π).2⟩ } :: rest
  else ⟨⟨(target π).1, some (target π).2⟩, none⟩ :: { e with child := tag.or e.child } :: rest

/-- modules/compile/analyze_tree.cpp:3290-3307, 3324-3328, `record_stack_unit` and
    `check_stack_unit`: a way that was taken before the state `apply` is not taken again. -/
def tryUnit (apply : Nat) (mk : Nat → Path → Leaf) (s : List Path × List Leaf) (u : Nat × Path) :
    List Path × List Leaf :=
  if u.2 ∈ s.1.take apply then s
  else (if u.2 ∈ s.1 then s.1 else s.1 ++ [u.2], s.2 ++ [mk u.1 u.2])

/-- The ways from a place to the values of a token. -/
def unitsAll (S : Sys) (n : Nat) (p : Pos) : List Nat → Option (List (Nat × Path))
  | [] => some []
  | k :: ks =>
    match units S n p (.tok k) with
    | none => none
    | some us =>
      match unitsAll S n p ks with
      | none => none
      | some vs => some (us.map (k, ·) ++ vs)

/-- modules/compile/analyze_tree.cpp:3865-3875, `append_new_stack_node`, with 3190-3256. -/
def makeLeaf (t : Token) (i : Nat) (e : Entry) (rest : List Entry) (acts : List Action) (k : Nat)
    (π : Path) : Leaf :=
  ⟨grown (some i) e rest π, if t.several then .chose i k :: acts else acts⟩

/-- modules/compile/analyze_tree.cpp:3126-3261, `__stack_grow` and `__do_stack_grow`: the token `t`,
    which has the number `i`, after `e`. -/
def grow (S : Sys) (n : Nat) (t : Token) (i apply : Nat) (e : Entry) (rest : List Entry)
    (acts : List Action) (seen : List Path) : Except Err (List Path × List Leaf) :=
  match unitsAll S n e.pos t.keys with
  | none => .error .endless
  | some us =>
    .ok ((us.filter (fun u => ¬ u.2.length ≤ 1) ++ us.filter (fun u => u.2.length ≤ 1)).foldl
      (tryUnit apply (makeLeaf t i e rest acts)) (seen, []))

/-- modules/compile/analyze_tree.cpp:3033-3117, the loop of `__check_end_node` over the references;
    `again` is `__check_end_node`. -/
def refLoop (S : Sys) (n : Nat) (t : Token) (i apply : Nat)
    (again : Nat → List Action → List Entry → List Path → Except Err (List Leaf))
    (p : Entry) (rest : List Entry) (r : Nat) (acts : List Action) :
    List Path → List Path → Except Err (List Leaf)
  | [], _ => .ok []
  | π :: πs, seen =>
    let under := if π.length ≤ 1 then rest else p :: rest
    let q : Entry := ⟨⟨(target π).1, some (target π).2⟩, none⟩
    let acts' := .matched r (p.child.getD 0) i :: acts
    match grow S n t i apply q under acts' seen with
    | .error x => .error x
    | .ok (seen, out1) =>
      match (if S.ends q.pos ∧ ¬ S.dead (target π).1 (target π).2 then
          again q.pos.rule acts' under seen else .ok []) with
      | .error x => .error x
      | .ok out2 =>
        match refLoop S n t i apply again p rest r acts πs seen with
        | .error x => .error x
        | .ok out3 => .ok (out1 ++ out2 ++ out3)

/-- modules/compile/analyze_tree.cpp:3007-3117, `__check_end_node`: an instance of the rule `r` ends
    before the token; `stack` is what it stands on. -/
def checkEnd (S : Sys) (n : Nat) (t : Token) (i : Nat) :
    Nat → Nat → List Action → List Entry → List Path → Except Err (List Leaf)
  | 0, _, _, _, _ => .error .endless
  | m + 1, r, acts, stack, seen =>
    if r = S.root then .ok []
    else
      match stack with
      | [] => .error .assertion
      | p :: rest =>
        match units S n p.pos (.ref r) with
        | none => .error .endless
        | some [] => .error .assertion
        | some (π :: πs) =>
          refLoop S n t i seen.length (checkEnd S n t i m) p rest r acts (π :: πs) seen

/-- modules/compile/analyze_tree.cpp:3228-3244: if there is no step into a rule, the node itself is
    changed for the first way, and has the action of this one from then on. -/
def overwritten (t : Token) (i : Nat) (acts : List Action) (us : List (Nat × Path)) :
    List Action :=
  if us.any (fun u => ¬ u.2.length ≤ 1) then acts
  else
    match us with
    | [] => acts
    | u :: _ => if t.several then .chose i u.1 :: acts else acts

/-- modules/compile/analyze_tree.cpp:2943-2968, `__stack_push`. -/
def push (S : Sys) (n : Nat) (t : Token) (i : Nat) (l : Leaf) : Except Err (List Leaf) :=
  match l.stack with
  | [] => .error .assertion
  | e :: rest =>
    match unitsAll S n e.pos t.keys with
    | none => .error .endless
    | some us =>
      match grow S n t i 0 e rest l.actions [] with
      | .error x => .error x
      | .ok (seen, out1) =>
        if S.ends e.pos then
          match checkEnd S n t i n e.pos.rule (overwritten t i l.actions us) rest seen with
          | .error x => .error x
          | .ok out2 => .ok (out1 ++ out2)
        else .ok out1

def pushAll (S : Sys) (n : Nat) (t : Token) (i : Nat) : List Leaf → Except Err (List Leaf)
  | [] => .ok []
  | l :: ls =>
    match push S n t i l with
    | .error x => .error x
    | .ok a =>
      match pushAll S n t i ls with
      | .error x => .error x
      | .ok b => .ok (a ++ b)

/-! ## Several readings -/

/-- How readings compare: `same` is that of modules/compile/analyze_tree.cpp:157-167,
    `merge_identity`, and `less` that of 3445-3530, `__leaf_less`.  Both depend on addresses and are
    arbitrary here. -/
structure Order where
  same : Leaf → Leaf → Bool
  less : Leaf → Leaf → Bool

/-- Put a leaf to the others; of two that are the same one is kept. -/
def insertLeaf (O : Order) (l : Leaf) : List Leaf → List Leaf
  | [] => [l]
  | m :: ms =>
    if O.same l m then (if O.less l m then l else m) :: ms
    else m :: insertLeaf O l ms

/-- modules/compile/analyze_tree.cpp:3533-3557, `__merge_leaves`. -/
def mergeLeaves (O : Order) : List Leaf → List Leaf
  | [] => []
  | l :: ls => insertLeaf O l (mergeLeaves O ls)

/-- modules/compile/analyze_tree.cpp:3571-3592, `__pick_final_leaves`: one of them. -/
def pick (O : Order) : List Leaf → Option Leaf
  | [] => none
  | l :: ls =>
    match pick O ls with
    | none => some l
    | some m => some (if O.less l m then l else m)

/-- modules/compile/analyze_tree.cpp:2790-2814, `__reset`, and the actions that were executed, the
    last one last. -/
structure State where
  leaves : List Leaf
  items : List Action

def State.init (S : Sys) : State := ⟨[⟨[⟨⟨S.root, none⟩, none⟩], []⟩], []⟩

/-- modules/compile/analyze_tree.cpp:3643-3687, `__execute_actions`, if there is one leaf only. -/
def execute (s : State) : State :=
  match s.leaves with
  | [l] => ⟨[{ l with actions := [] }], s.items ++ l.actions.reverse⟩
  | _ => s

/-- modules/compile/analyze_tree.cpp:2817-2867, `go` with the token number `i`. -/
def go (S : Sys) (n : Nat) (O : Order) (t : Token) (i : Nat) (s : State) :
    Except Err State :=
  match pushAll S n t i s.leaves with
  | .error x => .error x
  | .ok [] => .error .format
  | .ok (l :: ls) => .ok (execute ⟨mergeLeaves O (l :: ls), s.items⟩)

/-! ## The end of the program -/

/-- For all of a list. -/
def each (f : Path → Except Err (List Leaf)) : List Path → Except Err (List Leaf)
  | [] => .ok []
  | x :: xs =>
    match f x with
    | .error e => .error e
    | .ok a =>
      match each f xs with
      | .error e => .error e
      | .ok b => .ok (a ++ b)

/-- modules/compile/analyze_tree.cpp:3605-3640, `__do_stack_pop`; `i` is the number of tokens. -/
def popLeaf (S : Sys) (n i : Nat) : Nat → Leaf → Except Err (List Leaf)
  | 0, _ => .error .endless
  | m + 1, l =>
    match l.stack with
    | [] => .error .assertion
    | e :: rest =>
      if ¬ S.ends e.pos then .ok []
      else
        match rest with
        | [] => .ok [l]
        | p :: rest =>
          match units S n p.pos (.ref e.pos.rule) with
          | none => .error .endless
          | some [] => .error .assertion
          | some (π :: πs) =>
            each (fun π => popLeaf S n i m
              ⟨grown none p rest π, .matched e.pos.rule (p.child.getD 0) i :: l.actions⟩)
              ((π :: πs).filter (fun π => ¬ π.length ≤ 1) ++ (π :: πs).filter (fun π => π.length ≤ 1))

def popAll (S : Sys) (n i : Nat) : List Leaf → Except Err (List Leaf)
  | [] => .ok []
  | l :: ls =>
    match popLeaf S n i n l with
    | .error x => .error x
    | .ok a =>
      match popAll S n i ls with
      | .error x => .error x
      | .ok b => .ok (a ++ b)

/-- What is known after the end: the reports, and whether there was a reading of the whole program.
    If there was none, this is no error (modules/compile/analyze_tree.cpp:2903-2912). -/
structure Outcome where
  items : List Action
  complete : Bool

/-- modules/compile/analyze_tree.cpp:2868-2912, `go` with the end; the report of the whole program,
    which is always made, is left out. -/
def finish (S : Sys) (n i : Nat) (O : Order) (s : State) : Except Err Outcome :=
  match popAll S n i s.leaves with
  | .error x => .error x
  | .ok ls =>
    match pick O ls with
    | none => .ok ⟨s.items, false⟩
    | some l => .ok ⟨s.items ++ l.actions.reverse, true⟩

/-- modules/compile/analyze_tree.cpp:4243-4256, `__analyze`: the tokens from number `i` on. -/
def run (S : Sys) (n : Nat) (O : Order) : Nat → List Token → State →
    Except Err Outcome
  | i, [], s => finish S n i O s
  | i, t :: ts, s =>
    match go S n O t i s with
    | .error x => .error x
    | .ok s => run S n O (i + 1) ts s

/-- modules/compile/analyze_tree.cpp:4054-4060: a program, without repair. -/
def analyze (S : Sys) (n : Nat) (O : Order) (ts : List Token) :
    Except Err Outcome :=
  run S n O 0 ts (.init S)

end Verif.Anl
