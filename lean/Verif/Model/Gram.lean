/-
  The grammar of a language and the graphs that the compiler makes of its rules:
  modules/compile/analyze_tree.cpp and modules/compile/__analyze_tree.h.

  Rules, tokens and nodes are numbers.  Names, flags, weights and the text of the rules are not
  modelled.
-/

namespace Verif.Gram

/-- modules/compile/__analyze_tree.h, `analyze_node_repeat_type_t`: once, `*`, `+`, `?`. -/
inductive Rep where
  | once
  | star
  | plus
  | question
deriving DecidableEq, Repr

mutual

/-- An element of a rule: a token, a reference to a rule, or a group in parentheses
    (modules/compile/__analyze_tree.h, `analyze_token_node_t`, `analyze_branch_ref_node_t`,
    `analyze_branch_node_t`).  A group with a name is a rule of its own
    (modules/compile/analyze_tree.cpp:916-929). -/
inductive Item where
  | tok (t : Nat) (rep : Rep)
  | ref (r : Nat) (rep : Rep)
  | group (alts : Alts) (rep : Rep)

/-- Elements in a row. -/
inductive Seq where
  | nil
  | cons (i : Item) (s : Seq)

/-- What stands between the `|`. -/
inductive Alts where
  | nil
  | cons (s : Seq) (a : Alts)

end

/-- The rules of a grammar. -/
abbrev Grammar := Nat → Option Alts

/-! ## Repetition -/

/-- modules/compile/analyze_tree.cpp:497-526, `__combine_repeat_type`. -/
def combine (type1 type2 : Rep) : Rep :=
  match type2, type1 with
  | .once, _ => type1
  | _, .once => type2
  | .plus, .question => .star
  | _, .question => type2
  | _, .star => .star
  | .question, .plus => .star
  | .star, .plus => .star
  | _, .plus => type2

/-- modules/compile/analyze_tree.cpp:528-597, `__substract_repeat_type`. -/
def substract (type1 type2 : Rep) : Rep :=
  match type2, type1 with
  | .once, _ => type1
  | _, .once => .once
  | .star, .star => .once
  | .plus, .star => .question
  | .question, .star => .plus
  | .star, .plus => .once
  | .plus, .plus => .once
  | .question, .plus => .plus
  | .star, .question => .once
  | .plus, .question => .question
  | .question, .question => .once

/-- `*` or `?`. -/
def Rep.opt : Rep → Bool
  | .star => true
  | .question => true
  | _ => false

/-- `*` or `+`. -/
def Rep.loops : Rep → Bool
  | .star => true
  | .plus => true
  | _ => false

/-- There is nothing between the `|`. -/
def Alts.blank : Alts → Bool
  | .nil => true
  | .cons .nil a => a.blank
  | .cons (.cons _ _) _ => false

/-- modules/compile/analyze_tree.cpp:466-495 and 599-616, `__get_standalone_child`: whether the
    group has one element only.  Nothing between two `|` makes no node
    (modules/compile/analyze_tree.cpp:897-907, `append_end`). -/
def Alts.single : Alts → Bool
  | .nil => false
  | .cons .nil a => a.single
  | .cons (.cons _ .nil) a => a.blank
  | .cons (.cons _ (.cons _ _)) _ => false

mutual

/-- modules/compile/analyze_tree.cpp:1905-1931, `__revise_repeat_type`: the repetition of a
    group with one element goes to the element.  `outer` is what comes from the group around.
    Elements after a token or a reference are not looked at. -/
def revItem (outer : Rep) : Item → Item
  | .tok t r => .tok t (combine outer r)
  | .ref x r => .ref x (combine outer r)
  | .group a r =>
    if a.single then .group (revAlts (combine outer r) a) .once
    else .group (revAlts .once a) (combine outer r)

def revSeq (outer : Rep) : Seq → Seq
  | .nil => .nil
  | .cons (.group a r) s => .cons (revItem outer (.group a r)) (revSeq .once s)
  | .cons i s => .cons (revItem outer i) s

def revAlts (outer : Rep) : Alts → Alts
  | .nil => .nil
  | .cons s a => .cons (revSeq outer s) (revAlts outer a)

end

mutual

/-- modules/compile/analyze_tree.cpp:1933-1948, the loop of `__revise_repeat` over groups with
    one element: the repetition of the innermost. -/
def repItem : Item → Rep
  | .tok _ r => r
  | .ref _ r => r
  | .group a r => (repAlts a).getD r

def repSeq : Seq → Option Rep
  | .cons i .nil => some (repItem i)
  | _ => none

def repAlts : Alts → Option Rep
  | .nil => none
  | .cons .nil a => repAlts a
  | .cons s a => if a.blank then repSeq s else none

end

/-- modules/compile/analyze_tree.cpp:1933-1948, `__revise_repeat`: the repetition of a rule,
    after its elements were changed. -/
def ruleRep (a : Alts) : Rep := (repAlts a).getD .once

/-- The rule after modules/compile/analyze_tree.cpp:727-731. -/
def revise (a : Alts) : Alts := revAlts .once a

/-! ## Rules that match nothing -/

mutual

/-- modules/compile/analyze_tree.cpp:1507-1524, `__is_illusory`, where `null` is the answer for
    rules. -/
def nullItem (null : Nat → Bool) : Item → Bool
  | .tok _ r => r.opt
  | .ref x r => r.opt || null x
  | .group a r => r.opt || nullAlts null a

/-- modules/compile/analyze_tree.cpp:1552-1581, `__do_is_illusory` along the elements. -/
def nullSeq (null : Nat → Bool) : Seq → Bool
  | .nil => true
  | .cons i s => nullItem null i && nullSeq null s

/-- modules/compile/analyze_tree.cpp:1552-1568; nothing between two `|` makes no node. -/
def nullAlts (null : Nat → Bool) : Alts → Bool
  | .nil => false
  | .cons .nil a => nullAlts null a
  | .cons s a => nullSeq null s || nullAlts null a

end

/-- `illusory_nodes` (modules/compile/analyze_tree.cpp:637): the answers given so far, with those
    being worked on.  The answers for groups, which are kept in it too, are not modelled. -/
abbrev Cache := List (Nat × Bool)

mutual

/-- The same, with the answers kept; `ask` asks for a rule. -/
def askItem (ask : Nat → Cache → Bool × Cache) : Item → Cache → Bool × Cache
  | .tok _ r, c => (r.opt, c)
  | .ref x r, c => if r.opt then (true, c) else ask x c
  | .group a r, c => if r.opt then (true, c) else askAlts ask a c

def askSeq (ask : Nat → Cache → Bool × Cache) : Seq → Cache → Bool × Cache
  | .nil, c => (true, c)
  | .cons i s, c =>
    match askItem ask i c with
    | (true, c) => askSeq ask s c
    | (false, c) => (false, c)

def askAlts (ask : Nat → Cache → Bool × Cache) : Alts → Cache → Bool × Cache
  | .nil, c => (false, c)
  | .cons .nil a, c => askAlts ask a c
  | .cons s a, c =>
    match askSeq ask s c with
    | (true, c) => (true, c)
    | (false, c) => askAlts ask a c

end

/-- modules/compile/analyze_tree.cpp:1526-1550, `__do_is_illusory` of a reference and of a rule.
    While the answer for a rule is looked for it is no, so that a rule is not looked at again
    inside itself.  The graphs of rules that are finished already are not distinguished from the
    rules. -/
def askRule (G : Grammar) : Nat → Nat → Cache → Bool × Cache
  | 0, _, c => (false, c)
  | n + 1, x, c =>
    match G x with
    | none => (false, c)
    | some a =>
      match c.lookup x with
      | some b => (b, c)
      | none =>
        match askAlts (askRule G n) a ((x, false) :: c) with
        | (b, c) => (b, (x, b) :: c)

/-! ## Nodes -/

/-- What a node is; `stop` is the end of an alternative of the group or rule with this number
    (modules/compile/__analyze_tree.h, `analyze_end_node_t`). -/
inductive Label where
  | tok (t : Nat)
  | ref (r : Nat)
  | group
  | stop (own : Nat)
deriving DecidableEq, Repr

/-- modules/compile/__analyze_tree.h, `analyze_node_t` and its classes.  `skip` and `loop` are
    what modules/compile/analyze_tree.cpp:1409-1430 and 1355-1359 ask of a node; `inner` is
    whether there is a group or rule around it (`branch`). -/
structure Node where
  label : Label
  skip : Bool := false
  loop : Bool := false
  inner : Bool := true
  nodes : List Nat := []
  subnodes : List Nat := []
deriving DecidableEq, Repr

/-- What is known of the rules when the graph of one of them is made: their repetition and
    whether they match nothing. -/
structure Env where
  rep : Nat → Rep
  null : Nat → Bool

mutual

/-- The number of nodes. -/
def sizeItem : Item → Nat
  | .tok _ _ => 1
  | .ref _ _ => 1
  | .group a _ => 1 + sizeAlts a

/-- Elements in a row, and the end. -/
def sizeSeq : Seq → Nat
  | .nil => 1
  | .cons i s => sizeItem i + sizeSeq s

def sizeAlts : Alts → Nat
  | .nil => 0
  | .cons .nil a => sizeAlts a
  | .cons (.cons i s) a => sizeSeq (.cons i s) + sizeAlts a

end

/-- The first nodes of the alternatives, which begin at `at_`. -/
def firsts (at_ : Nat) : Alts → List Nat
  | .nil => []
  | .cons .nil a => firsts at_ a
  | .cons (.cons i s) a => at_ :: firsts (at_ + sizeSeq (.cons i s)) a

mutual

/-- modules/compile/analyze_tree.cpp:864-1038, `__read_branch`: the nodes of an element,
    from number `at_` on, of elements of the group `own` in a row, and of the alternatives. -/
def layItem (e : Env) (at_ : Nat) : Item → List Node
  | .tok t r => [{ label := .tok t, skip := r.opt, loop := r.loops, nodes := [at_ + 1] }]
  | .ref x r =>
    [{ label := .ref x
       skip := (substract r (e.rep x)).opt || (r.opt || e.null x)
       loop := (substract r (e.rep x)).loops
       nodes := [at_ + 1] }]
  | .group a r =>
    { label := .group
      skip := r.opt || nullAlts e.null a
      loop := r.loops
      nodes := [at_ + (1 + sizeAlts a)]
      subnodes := firsts (at_ + 1) a } :: layAlts e at_ (at_ + 1) a

def laySeq (e : Env) (own at_ : Nat) : Seq → List Node
  | .nil => [{ label := .stop own }]
  | .cons i s => layItem e at_ i ++ laySeq e own (at_ + sizeItem i) s

def layAlts (e : Env) (own at_ : Nat) : Alts → List Node
  | .nil => []
  | .cons .nil a => layAlts e own at_ a
  | .cons (.cons i s) a =>
    laySeq e own at_ (.cons i s) ++ layAlts e own (at_ + sizeSeq (.cons i s)) a

end

/-- The nodes of a rule; the rule has the number 0. -/
def layRule (e : Env) (a : Alts) : List Node :=
  { label := .group, inner := false, subnodes := firsts 1 a } :: layAlts e 0 1 a

/-! ## The graph of a rule -/

inductive Err where
  | assertion
  | endless
deriving DecidableEq, Repr

/-- modules/compile/analyze_tree.cpp:1296-1298: the nodes that can follow every node, the queue
    and the nodes that were in it. -/
structure St where
  nodes : Nat → List Nat
  queue : List Nat
  seen : List Nat

/-- The node with a number. -/
def nodeAt (T : List Node) (u : Nat) : Node := T.getD u { label := .stop 0 }

/-- modules/compile/analyze_tree.cpp:262-278, `append`, with 1487-1492, `__join_node`: the set is
    a list without repetition here, in the order of insertion.  A set has one end at most. -/
def add (T : List Node) (pre u : Nat) (st : St) : Except Err St :=
  if u ∈ st.nodes pre then .ok st
  else
    match (nodeAt T u).label with
    | .stop _ =>
      if (st.nodes pre).any (fun v => match (nodeAt T v).label with
          | .stop _ => true
          | _ => false) then .error .assertion
      else .ok { st with nodes := fun x => if x = pre then st.nodes pre ++ [u] else st.nodes x }
    | _ => .ok { st with nodes := fun x => if x = pre then st.nodes pre ++ [u] else st.nodes x }

/-- modules/compile/analyze_tree.cpp:1362-1370, `__push`. -/
def push (u : Nat) (st : St) : St :=
  if u ∈ st.seen then st else { st with seen := u :: st.seen, queue := st.queue ++ [u] }

/-- modules/compile/analyze_tree.cpp:1450-1485, `__join_subnodes`: all of `subs` but `self`, the
    node whose following nodes they are. -/
def joinAll (join : Nat → St → Except Err St) (self : Option Nat) : List Nat → St → Except Err St
  | [], st => .ok st
  | u :: us, st =>
    if self = some u then joinAll join self us st
    else
      match join u st with
      | .error x => .error x
      | .ok st => joinAll join self us st

/-- modules/compile/analyze_tree.cpp:1375-1409, the first part of `__join`; `go` is `__join` to
    `pre`. -/
def joinEnter (T : List Node) (go : Nat → St → Except Err St) (pre u : Nat) (st : St) :
    Except Err St :=
  match (nodeAt T u).label with
  | .group => joinAll go none (nodeAt T u).subnodes st
  | .tok _ | .ref _ =>
    match add T pre u st with
    | .error x => .error x
    | .ok st => .ok (push u st)
  | .stop own =>
    if (nodeAt T own).inner then
      match joinAll go (some own) (st.nodes own) st with
      | .error x => .error x
      | .ok st =>
        if (nodeAt T own).loop then joinAll go none (nodeAt T own).subnodes st
        else .ok st
    else add T pre u st

/-- modules/compile/analyze_tree.cpp:1372-1431, `__join`: what can come first in `u` can follow
    `pre`.  The fuel is the depth of the recursion. -/
def join (T : List Node) : Nat → Nat → Nat → St → Except Err St
  | 0, _, _, _ => .error .endless
  | n + 1, pre, u, st =>
    match joinEnter T (join T n pre) pre u st with
    | .error x => .error x
    | .ok st =>
      if pre ≠ u ∧ (nodeAt T u).skip then joinAll (join T n pre) (some u) (st.nodes u) st
      else .ok st

/-- modules/compile/analyze_tree.cpp:1344-1360, `__exchange` of a node. -/
def exchangeNode (T : List Node) (n : Nat) (x : Nat) (st : St) : Except Err St :=
  match joinAll (join T n x) none (st.nodes x)
      { st with nodes := fun y => if y = x then [] else st.nodes y } with
  | .error e => .error e
  | .ok st => if (nodeAt T x).loop then join T n x x st else .ok st

/-- modules/compile/analyze_tree.cpp:1314-1320, the loop over the queue; `m` bounds its length. -/
def drain (T : List Node) (n : Nat) : Nat → St → Except Err St
  | 0, st => if st.queue = [] then .ok st else .error .endless
  | m + 1, st =>
    match st.queue with
    | [] => .ok st
    | x :: q =>
      match exchangeNode T n x { st with queue := q } with
      | .error e => .error e
      | .ok st => drain T n m st

/-- A graph: what can come first, and what can follow every node. -/
structure Graph where
  label : Nat → Label
  start : List Nat
  next : Nat → List Nat
  nodes : List Nat

/-- modules/compile/analyze_tree.cpp:1306-1324, `__exchange_branch`. -/
def exchange (T : List Node) (n : Nat) : Except Err Graph :=
  match joinAll (join T n 0) none (nodeAt T 0).subnodes
      ⟨fun y => (nodeAt T y).nodes, [], []⟩ with
  | .error e => .error e
  | .ok st =>
    match drain T n T.length st with
    | .error e => .error e
    | .ok st => .ok ⟨fun u => (nodeAt T u).label, st.nodes 0, st.nodes, st.seen.reverse⟩

/-! ## Merging -/

/-- modules/compile/analyze_tree.cpp:1651-1670, `__build_relation`: the nodes that `n` can
    follow.  That `n` can come first is not counted. -/
def Graph.froms (g : Graph) (n : Nat) : List Nat := g.nodes.filter fun x => n ∈ g.next x

/-- modules/compile/analyze_tree.cpp:1680-1697: the nodes of the same kind and value that can
    follow the same nodes. -/
def Graph.peers (g : Graph) (n : Nat) : List Nat :=
  if g.froms n = [] then [n]
  else g.nodes.filter fun m => g.label m = g.label n ∧ g.froms m = g.froms n

/-- modules/compile/analyze_tree.cpp:1706-1757, `__merge`: the new node for `n`.  It has the number
    of the first of those that it stands for. -/
def Graph.rename (g : Graph) (n : Nat) : Nat := (g.peers n).headD n

/-- The list without repetitions. -/
def dedup : List Nat → List Nat
  | [] => []
  | x :: xs => if x ∈ dedup xs then dedup xs else x :: dedup xs

/-- modules/compile/analyze_tree.cpp:1621-1629 and 1698-1703, 1772-1796, `__do_merge_branch`: one
    round, if there is something to merge. -/
def Graph.round (g : Graph) : Option Graph :=
  if g.nodes.all fun n => g.rename n = n then none
  else some {
    label := g.label
    start := dedup (g.start.map g.rename)
    next := fun n => dedup (((g.nodes.filter fun m => g.rename m = n).flatMap g.next).map g.rename)
    nodes := g.nodes.filter fun n => g.rename n = n }

/-- modules/compile/analyze_tree.cpp:1612-1619, `__merge_branch`; every round leaves fewer nodes. -/
def Graph.merge : Nat → Graph → Graph
  | 0, g => g
  | n + 1, g =>
    match g.round with
    | none => g
    | some g' => Graph.merge n g'

/-- modules/compile/analyze_tree.cpp:1273-1283, `exchange`: the graph of a rule. -/
def build (e : Env) (n : Nat) (a : Alts) : Except Err Graph :=
  match exchange (layRule e (revise a)) n with
  | .error x => .error x
  | .ok g => .ok (g.merge g.nodes.length)

/-- What is known of the rules of a grammar (modules/compile/analyze_tree.cpp:727-731 and
    1507-1550).  Every question is asked with an empty table here. -/
def envOf (G : Grammar) (n : Nat) : Env where
  rep r :=
    match G r with
    | none => .once
    | some a => ruleRep (revise a)
  null r := (askRule G n r []).1

/-- modules/compile/analyze_tree.cpp:1273-1283: the graphs of all rules. -/
def graphsOf (G : Grammar) (n : Nat) : Nat → Option Graph := fun r =>
  match G r with
  | none => none
  | some a =>
    match build (envOf G n) n a with
    | .error _ => none
    | .ok g => some g

end Verif.Gram
