/-!
# Members behind a dot

Model of the lookup of a member by its name (`modules/core/core.cpp:3689-3731`, `4958-5062`,
`include/modules/core.h:4080-4175`), of the walk over expressions that binds the names in them
(`modules/compile/ast_utils.cpp:880-1710`) and of the check that static members are used without and other members with
an object (`modules/compile/expression.cpp:227-242`, `1919-1946`).

Simplifications.  Which method a call takes is a function `pick` of the type, the name and the types of the arguments
(`Verif.Model.Overload`); whether a member may be used is a predicate `access` (`Verif.Model.Access`); what plain names
stand for are two functions, `scope` and `typeNames` (`Verif.Model.Scope`, `Verif.Model.Names`).  After the first error the walk stops
here (the code goes on, to report more).  Type arguments behind a name, indexers, operators and `new` are left out, and so
is the type that the context expects of a method used as a value: its value has the type of the delegate.  An indexer
has at least one parameter, so that it is not found by a name.
-/

namespace Verif.Member

/-- `member_type_t` — `include/modules/core.h`. -/
inductive Kind where
  | field | property | event | typeDef | type | method
  deriving DecidableEq, Repr

/-- `member_t`.  `type` is the type of its value, `gcount` the number of its type parameters. -/
structure Member where
  id : Nat
  kind : Kind
  name : Nat
  type : Nat
  isStatic : Bool
  /-- For a field: it is declared `const`. -/
  isConst : Bool := false
  gcount : Nat := 0
  deriving DecidableEq, Repr

/-- A method that was picked for a call. -/
structure Meth where
  id : Nat
  result : Nat
  isStatic : Bool
  deriving DecidableEq, Repr

/-- The types of a program, known by numbers. -/
structure World where
  members : Nat → List Member
  base : Nat → Option Nat
  iface : Nat → Bool
  supers : Nat → List Nat
  pick : Nat → Nat → List Nat → Option Meth
  access : Nat → Member → Bool
  accessMeth : Nat → Meth → Bool
  /-- More than the longest way up. -/
  height : Nat

/-! ## Lookup -/

/-- The outcome of a lookup; `conflict` is an exception that nobody catches: `method_compare_error_t`. -/
inductive Found where
  | nothing
  | one (m : Member)
  | conflict
  deriving DecidableEq, Repr

/-- `__member_vector_t::get` — `include/modules/core.h:4099-4106`: the last one with the name. -/
def lastNamed (k : Kind) (n : Nat) (ms : List Member) : Option Member :=
  (ms.filter fun m => m.kind == k && m.name == n).getLast?

/-- `__member_vector_t<type_t *>::get` with no type arguments — `include/modules/core.h:4158-4168`: the first one. -/
def nestedNamed (n : Nat) (ms : List Member) : Option Member :=
  (ms.filter fun m => m.kind == .type && m.name == n && m.gcount == 0).head?

/-- `get_method` when only the name counts — `modules/core/core.cpp:3359-3392`. -/
def oneMethod : List Member → Found
  | [] => .nothing
  | [m] => .one m
  | _ => .conflict

/-- `__method_analyzer_t` without a list of arguments — `modules/core/core.cpp:3337-3357`: methods with type parameters
are looked at only when there are no others. -/
def methodNamed (n : Nat) (ms : List Member) : Found :=
  match ms.filter fun m => m.kind == .method && m.name == n && m.gcount == 0 with
  | [] => oneMethod (ms.filter fun m => m.kind == .method && m.name == n && m.gcount != 0)
  | l => oneMethod l

/-- `__general_type_like_base_t::get_member` for all kinds of members — `modules/core/core.cpp:3689-3731`. -/
def own (W : World) (t n : Nat) : Found :=
  match lastNamed .field n (W.members t) with
  | some m => .one m
  | none =>
    match lastNamed .property n (W.members t) with
    | some m => .one m
    | none =>
      match lastNamed .event n (W.members t) with
      | some m => .one m
      | none =>
        match lastNamed .typeDef n (W.members t) with
        | some m => .one m
        | none =>
          match nestedNamed n (W.members t) with
          | some m => .one m
          | none => methodNamed n (W.members t)

/-- `__get_member_for_non_interface` — `modules/core/core.cpp:5008-5018`.  The first argument bounds the number of
steps. -/
def inBases (W : World) (n : Nat) : Nat → List Nat → Option Nat → Found
  | 0, _, _ => .nothing
  | _ + 1, _, none => .nothing
  | k + 1, walked, some t =>
    if t ∈ walked then .nothing
    else match own W t n with
      | .nothing => inBases W n k (t :: walked) (W.base t)
      | r => r

/-- The loop over the interfaces above — `modules/core/core.cpp:5030-5033`. -/
def eachSuper (visit : Nat → List Nat → Found × List Nat) : List Nat → List Nat → Found × List Nat
  | [], walked => (.nothing, walked)
  | s :: ss, walked =>
    match visit s walked with
    | (.nothing, walked) => eachSuper visit ss walked
    | r => r

/-- `__get_member_for_interface` — `modules/core/core.cpp:5021-5036`. -/
def inInterface (W : World) (n : Nat) : Nat → Nat → List Nat → Found × List Nat
  | 0, _, walked => (.nothing, walked)
  | k + 1, t, walked =>
    if t ∈ walked then (.nothing, walked)
    else match own W t n with
      | .nothing => eachSuper (inInterface W n k) (W.supers t) (t :: walked)
      | r => (r, t :: walked)

/-- `type_t::get_member` — `modules/core/core.cpp:4989-5005`, `5057-5061`. -/
def getMember (W : World) (t n : Nat) : Found :=
  if W.iface t then (inInterface W n W.height t []).1
  else match own W t n with
    | .nothing => inBases W n W.height [t] (W.base t)
    | r => r

/-! ## Expressions -/

mutual

/-- Expressions: values of a known type, plain names, `this`, `base`, `e.n`, `e.n(args)` and `n(args)`. -/
inductive Exp where
  | lit (t : Nat)
  | name (x : Nat)
  | this
  | base
  | dot (e : Exp) (n : Nat)
  | call (e : Exp) (n : Nat) (args : Exps)
  | bare (n : Nat) (args : Exps)

/-- Arguments. -/
inductive Exps where
  | nil
  | cons (e : Exp) (rest : Exps)

end

/-- `is_static_const` — `include/modules/core.h:1635-1640`, used at `modules/compile/expression.cpp:2009`. -/
def Member.folded (m : Member) : Bool := m.kind == .field && m.isStatic && m.isConst

/-- What a plain name stands for in the region: a local variable or parameter with its type, or a member. -/
inductive Entity where
  | value (id t : Nat)
  | member (m : Member)

mutual

/-- Expressions whose names are bound. -/
inductive Node where
  | lit (t : Nat)
  | var (id t : Nat)
  | typ (t : Nat)
  | this (t : Nat)
  | base (t : Nat)
  | mem (recv : Option Node) (m : Member)
  /-- A name for a type behind a dot. -/
  | alias (recv : Node) (m : Member)
  | call (recv : Option Node) (m : Meth) (args : Nodes)
  /-- A call of the delegate in a variable. -/
  | apply (recv : Option Node) (v : Entity) (args : Nodes)

/-- Arguments. -/
inductive Nodes where
  | nil
  | cons (e : Node) (rest : Nodes)

end

/-- Where an expression stands: the type and the method around it, and what plain names mean there.  `ret` gives the
result type of a delegate type. -/
structure Env where
  W : World
  cur : Nat
  inStatic : Bool
  scope : Nat → Option Entity
  typeNames : Nat → Option Nat
  ret : Nat → Nat

/-- `get_type` — `modules/core/core.cpp:7234-7252`, `7601-7621`, `8026-8029`, `8094-8104`. -/
def Node.type (ret : Nat → Nat) : Node → Nat
  | .lit t => t
  | .var _ t => t
  | .typ t => t
  | .this t => t
  | .base t => t
  | .mem _ m => m.type
  | .call _ m _ => m.result
  | .alias _ m => m.type
  | .apply _ (.value _ t) _ => ret t
  | .apply _ (.member m) _ => ret m.type

/-- The types of arguments — `__fill_atypes`, `modules/compile/ast_utils.cpp:92-102`. -/
def Nodes.types (ret : Nat → Nat) : Nodes → List Nat
  | .nil => []
  | .cons e rest => e.type ret :: rest.types ret

/-- Why a walk ends early. -/
inductive Err where
  /-- An error is reported. -/
  | reported
  /-- The compiler crashes, or ends with an exception that nobody catches. -/
  | crash
  deriving DecidableEq, Repr

/-- `name_exp->set(…)` for the member that was found, after the check of its access —
`modules/compile/ast_utils.cpp:1379-1447`, `1451-1492`.  For a nested type `name_unit_exp`, a null pointer, is read. -/
def bindMember (E : Env) (recv : Node) : Found → Except Err Node
  | .nothing => .error .reported
  | .conflict => .error .crash
  | .one m =>
    match m.kind with
    | .type => .error .crash
    | .typeDef => if E.W.access E.cur m then .ok (.alias recv m) else .error .reported
    | _ => if E.W.access E.cur m then .ok (.mem (some recv) m) else .error .reported

/-- `__walk_method` and the check of access of `modules/compile/ast.cpp:4639` —
`modules/compile/ast_utils.cpp:1603-1690`. -/
def bindCall (E : Env) (recv : Option Node) (t n : Nat) (args : Nodes) : Except Err Node :=
  match E.W.pick t n (args.types E.ret) with
  | none => .error .reported
  | some m => if E.W.accessMeth E.cur m then .ok (.call recv m args) else .error .reported

/-- A variable of the region that has the name of a call and is not a method — `modules/compile/ast_utils.cpp:1536-1547`. -/
def hijacker (E : Env) (n : Nat) : Option Entity :=
  match E.scope n with
  | some (.value id t) => some (.value id t)
  | some (.member m) => if m.kind = .method then none else some (.member m)
  | none => none

mutual

/-- `__walk` — `modules/compile/ast_utils.cpp:922-978`, with `__walk_name` (1002-1052), `__walk_member` (1147-1156,
1252-1282) and `__walk_function` (1528-1590). -/
def walk (E : Env) : Exp → Except Err Node
  | .lit t => .ok (.lit t)
  | .name x =>
    match E.scope x with
    | some (.value id t) => .ok (.var id t)
    | some (.member m) => .ok (.mem none m)
    | none =>
      match E.typeNames x with
      | some t => .ok (.typ t)
      | none => .error .reported
  | .this => .ok (.this E.cur)
  | .base =>
    match E.W.base E.cur with
    | some b => .ok (.base b)
    | none => .error .reported
  | .dot e n =>
    match walk E e with
    | .error x => .error x
    | .ok e' => bindMember E e' (getMember E.W (e'.type E.ret) n)
  | .call e n args =>
    match walk E e with
    | .error x => .error x
    | .ok e' =>
      match walks E args with
      | .error x => .error x
      | .ok args' =>
        match hijacker E n with
        | some v => .ok (.apply (some e') v args')
        | none => bindCall E (some e') (e'.type E.ret) n args'
  | .bare n args =>
    match walks E args with
    | .error x => .error x
    | .ok args' =>
      match hijacker E n with
      | some v => .ok (.apply none v args')
      | none => bindCall E none E.cur n args'

/-- `__walk_arguments` — `modules/compile/ast_utils.cpp:1593-1600`. -/
def walks (E : Env) : Exps → Except Err Nodes
  | .nil => .ok .nil
  | .cons e rest =>
    match walk E e with
    | .error x => .error x
    | .ok e' =>
      match walks E rest with
      | .error x => .error x
      | .ok rest' => .ok (.cons e' rest')

end

/-- `__is_instance` — `modules/compile/expression.cpp:226-242`: names of types are no objects, everything else is, also a
name for a type behind a dot. -/
def Node.isInstance : Node → Bool
  | .typ _ => false
  | _ => true

/-- `has_instance` of `__check_static_member` — `modules/compile/expression.cpp:1929-1932`.  `left` says that the
expression is the left side of a dot: then the parent is a member expression, whose left side is the name itself, a
variable. -/
def hasInstance (E : Env) (left : Bool) : Option Node → Bool
  | some r => r.isInstance
  | none => left || !E.inStatic

/-- The checks of `__compile_variable` for a member — `modules/compile/expression.cpp:1919-1972`, `1991-2042`.  For a
property the left side of the parent is compiled to push the object: if the name itself is that, this never ends. -/
def checkMember (E : Env) (left : Bool) (recv : Option Node) (m : Member) : Option Err :=
  match m.kind with
  | .field =>
    if m.folded then none
    else if hasInstance E left recv == !m.isStatic then none else some .reported
  | .property =>
    if hasInstance E left recv == !m.isStatic then
      match recv with
      | none => if left then some .crash else none
      | some _ => none
    else some .reported
  | .event => some .crash
  | _ => none

/-- The first error. -/
def first : Option Err → Option Err → Option Err
  | some x, _ => some x
  | none, y => y

mutual

/-- What goes wrong when the code is made — `compile` of the expressions, `modules/compile/expression.cpp:885-898`,
`2406-2436`, `2706-2844`.  Calls are not checked.  For a delegate that is called behind a dot the left side of the dot
is not compiled unless it is a property. -/
def check (E : Env) (left : Bool) : Node → Option Err
  | .mem recv m => first (checkO E recv) (checkMember E left recv m)
  | .alias r _ => check E true r
  | .call recv _ args => first (checkO E recv) (checkA E args)
  | .apply recv (.member m) args =>
    first (checkMember E left recv m)
      (first (if m.kind = .property then checkO E recv else none) (checkA E args))
  | .apply _ (.value _ _) args => checkA E args
  | _ => none

/-- The left side of a dot. -/
def checkO (E : Env) : Option Node → Option Err
  | none => none
  | some r => check E true r

/-- Arguments. -/
def checkA (E : Env) : Nodes → Option Err
  | .nil => none
  | .cons e rest => first (check E false e) (checkA E rest)

end

/-- An expression is accepted: its names are bound and its code is made. -/
def accept (E : Env) (e : Exp) : Except Err Node :=
  match walk E e with
  | .error x => .error x
  | .ok r =>
    match check E false r with
    | some x => .error x
    | none => .ok r

end Verif.Member
