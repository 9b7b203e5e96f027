import Verif.Model.Arr

/-!
# Arrays with initialisers

Model of `new T[lengths] { elements }`, from the tree that is parsed to the commands that run: the check of
an initialiser (`modules/core/core.cpp:7757-7858`), the lengths that are left out
(`modules/compile/ast.cpp:4782-4862`), the code (`modules/compile/expression.cpp:3256-3317`) and the commands
(`modules/exec/commands.cpp:6440-6457`, `6865-6945`).  The memory of the array and its header are those of
`Verif.Arr` (`modules/mm/mm.cpp:136-191`).

Simplifications.  A length or an element is a constant or an action: an expression that is not looked into, whose
code leaves one value, or ends with an exception (then the creation ends too, and the array is lost).  An
action does not touch the array that is being created, as nothing refers to it yet.  Values are bits in a
unit of 8 bytes; a value that is narrower leaves the upper bits of the unit as they were.  The type of the
elements is its size: 1, 2, 4 or 8 bytes; another size has no command.  Only expressions in which a constant
is compiled as it is are considered, so that no conversion is added: the code asks for none
(`expression.cpp:3302`, "TODO: check init expression type").
-/

namespace Verif.Init

/-- An expression: a constant of so many bytes, or an action. -/
inductive Expr (A : Type) where
  | lit (size : Nat) (bits : BitVec 64)
  | act (a : A)
  deriving DecidableEq, Repr

mutual

/-- `array_initialize_element_t` — `include/modules/core.h`: an expression, or an initialiser. -/
inductive Elem (A : Type) where
  | expr (e : Expr A)
  | init (i : Inits A)

/-- `array_initializer_t`.  The grammar (`modules/lang_cs/text.src`, `$array_initializer`) demands one element. -/
inductive Inits (A : Type) where
  | one (e : Elem A)
  | more (e : Elem A) (rest : Inits A)

end

/-- `size` of an initialiser. -/
def Inits.size {A : Type} : Inits A → Nat
  | .one _ => 1
  | .more _ r => r.size + 1

/-- The first element. -/
def Inits.head {A : Type} : Inits A → Elem A
  | .one e => e
  | .more e _ => e

/-- `element.type` — whether it is an initialiser. -/
def Elem.isInit {A : Type} : Elem A → Bool
  | .expr _ => false
  | .init _ => true

mutual

/-- `each_element` — `core.cpp:7770-7792`: from left to right, into an initialiser. -/
def Inits.each {A : Type} : Inits A → List (Expr A)
  | .one e => e.each
  | .more e r => e.each ++ r.each

/-- One turn of `each_element`. -/
def Elem.each {A : Type} : Elem A → List (Expr A)
  | .expr e => [e]
  | .init i => i.each

end

/-- `max_array_dimension` — `include/modules/jc.h:66`. -/
def maxDimension : Nat := 32

/-- The result of the check: the errors of `array_initialize_check_error_code_t`, or an access outside of the
table of dimensions. -/
inductive Bad where
  | unaligned
  | mixture
  | overflow
  | outside
  deriving DecidableEq, Repr

/-- `__array_dimension_t` — `core.cpp:7797-7801`; `none` is unknown. -/
structure Dim where
  length : Option Nat
  type : Option Bool
  deriving DecidableEq, Repr

/-- The first part of `__check` — `core.cpp:7811-7831`: the entry of this depth is read, or filled in. -/
def enter (dims : List Dim) (depth : Nat) (size : Nat) (first : Bool) : Except Bad (List Dim × Bool) :=
  match dims[depth]? with
  | none => .error .outside
  | some d =>
    if d.length ≠ none ∧ d.length ≠ some size then .error .unaligned
    else if d.type ≠ none ∧ d.type ≠ some first then .error .mixture
    else if first = true ∧ depth + 1 > maxDimension then .error .overflow
    else .ok (dims.set depth ⟨some size, some first⟩, first)

mutual

/-- `__check` — `core.cpp:7804-7847`; the size of an initialiser is never 0. -/
def Elem.check {A : Type} (type : Bool) (depth : Nat) : Elem A → List Dim → Except Bad (List Dim)
  | .expr _, dims => if type = false then .ok dims else .error .mixture
  | .init i, dims =>
    if type = true then
      match enter dims (depth + 1) i.size i.head.isInit with
      | .error e => .error e
      | .ok (dims, t) => i.checkAll t (depth + 1) dims
    else .error .mixture

/-- The loop over the elements — `core.cpp:7834-7846`. -/
def Inits.checkAll {A : Type} (type : Bool) (depth : Nat) : Inits A → List Dim → Except Bad (List Dim)
  | .one e, dims => e.check type depth dims
  | .more e r, dims =>
    match e.check type depth dims with
    | .error x => .error x
    | .ok dims => r.checkAll type depth dims

end

/-- `array_initializer_t::check` — `core.cpp:7850-7858`. -/
def Inits.check {A : Type} (i : Inits A) : Except Bad Unit :=
  match enter (List.replicate maxDimension ⟨none, none⟩) 0 i.size i.head.isInit with
  | .error e => .error e
  | .ok (dims, t) =>
    match i.checkAll t 0 dims with
    | .error e => .error e
    | .ok _ => .ok ()

/-- `__get_length` — `ast.cpp:4842-4862`: along the first elements. -/
def getLength {A : Type} : Nat → Inits A → Option Nat
  | 0, i => some i.size
  | d + 1, i =>
    match i.head with
    | .expr _ => none
    | .init j => getLength d j

/-- One pass of the loop of `__walk_default` over the lengths — `ast.cpp:4794-4806`; `none` is a length that
is left out.  Without a length there is an error (`expected_array_length`). -/
def fill {A : Type} (i : Option (Inits A)) : Nat → List (Option (Expr A)) → Option (List (Expr A))
  | _, [] => some []
  | d, some e :: ls => (fill i (d + 1) ls).map (e :: ·)
  | d, none :: ls =>
    match i.bind (getLength d) with
    | none => none
    | some n => (fill i (d + 1) ls).map (.lit 4 (BitVec.ofNat 64 n) :: ·)

/-- `new_array_expression_t`, with the size of an element. -/
structure New (A : Type) where
  size : Nat
  lengths : List (Option (Expr A))
  init : Option (Inits A)

/-- What the compiler accepts: the tree after the pass that fills in the lengths (`ast.cpp:4782-4812`), with a
checked initialiser (`array_initializer_ast_node_t::on_walk`). -/
structure Accepted (A : Type) where
  size : Nat
  lengths : List (Expr A)
  init : Option (Inits A)

/-- The passes over a creation. -/
def New.accept {A : Type} (n : New A) : Option (Accepted A) :=
  match fill n.init 0 n.lengths with
  | none => none
  | some ls =>
    match n.init with
    | none => some ⟨n.size, ls, none⟩
    | some i =>
      match i.check with
      | .error _ => none
      | .ok () => some ⟨n.size, ls, some i⟩

/-- The commands. -/
inductive Cmd (A : Type) where
  | push (size : Nat) (bits : BitVec 64)
  | act (a : A)
  | pop
  | newArray (size dimension : Nat)
  | begin_
  | element (size : Nat)
  | end_
  deriving DecidableEq, Repr

/-- The code of a length or an element.  A constant is compiled if its parent — the creation — is effective
(`expression.cpp:2588`, `614-626`), as it always is without optimisation; the result of a call is popped unless the
creation is used (`expression.cpp:1799-1829`). -/
def Expr.code {A : Type} (optimize used : Bool) : Expr A → List (Cmd A)
  | .lit w v => if used || !optimize then [.push w v] else []
  | .act a => if used then [.act a] else [.act a, .pop]

/-- `compile` — `expression.cpp:3256-3317`; `used` is `this_effective`: the value is an argument, assigned or
returned. -/
def Accepted.code {A : Type} (optimize used : Bool) (n : Accepted A) : List (Cmd A) :=
  n.lengths.flatMap (Expr.code optimize used)
    ++ (if used then [.newArray n.size n.lengths.length] else [])
    ++ match n.init with
      | none => []
      | some i =>
        (if used then [.begin_] else [])
          ++ i.each.flatMap (fun e => e.code optimize used ++ if used then [.element n.size] else [])
          ++ (if used then [.end_] else [])

/-- A unit on the stack: a value, the reference to the new array, or a pointer to one of its elements. -/
inductive Cell where
  | val (bits : BitVec 64)
  | ref
  | ptr (index : Nat)
  deriving DecidableEq, Repr

/-- What the actions do: the value that is left — all 64 bits of its unit — and the state, or an exception. -/
structure Machine (A S X : Type) where
  act : A → S → Except (X × S) (BitVec 64 × S)
  /-- What was in the unit at this depth of the stack. -/
  junk : Nat → BitVec 64

/-- The low bytes of a unit. -/
def low (size : Nat) (v : BitVec 64) : BitVec 64 := v &&& BitVec.ofNat 64 (2 ^ (8 * size) - 1)

/-- A value of so many bytes is written to a unit: the rest stays. -/
def store (size : Nat) (v old : BitVec 64) : BitVec 64 :=
  low size v ||| (old &&& ~~~ BitVec.ofNat 64 (2 ^ (8 * size) - 1))

/-- The new array: its header, and as many elements as its memory has room for. -/
structure Obj where
  arr : Arr.Arr
  slots : List (BitVec 64)
  deriving DecidableEq, Repr

/-- The state of the machine. -/
structure St (S : Type) where
  state : S
  stack : List Cell
  arr : Option Obj
  deriving DecidableEq, Repr

/-- What a command leads to: `wild` is an access outside of memory or a command that is not implemented. -/
inductive Out (S X : Type) where
  | ok (st : St S)
  | raised (x : X) (s : S)
  | wild
  deriving DecidableEq, Repr

/-- The lengths are popped, the last one first, as `int32_t` — `commands.cpp:6446-6450`. -/
def popLengths : Nat → List Cell → Option (List Int × List Cell)
  | 0, st => some ([], st)
  | n + 1, .val v :: st =>
    match popLengths n st with
    | none => none
    | some (ls, rest) => some (ls ++ [(v.setWidth 32).toInt], rest)
  | _ + 1, _ => none

/-- A command. -/
def step {A S X : Type} (M : Machine A S X) (c : Cmd A) (st : St S) : Out S X :=
  match c with
  | .push w v => .ok { st with stack := .val (store w v (M.junk st.stack.length)) :: st.stack }
  | .act a =>
    match M.act a st.state with
    | .ok (v, s) => .ok { st with state := s, stack := .val v :: st.stack }
    | .error (x, s) => .raised x s
  | .pop =>
    match st.stack with
    | _ :: r => .ok { st with stack := r }
    | [] => .wild
  -- `commands.cpp:6440-6457`
  | .newArray size dimension =>
    match popLengths dimension st.stack with
    | none => .wild
    | some (ls, rest) =>
      match Arr.newArray size ls with
      | none => .wild
      | some a => .ok { st with stack := .ref :: rest, arr := some ⟨a, List.replicate (a.bytes / size) 0⟩ }
  -- `commands.cpp:6869-6887`
  | .begin_ =>
    match st.stack with
    | .ref :: r => .ok { st with stack := .ptr 0 :: .ref :: r }
    | _ => .wild
  -- `commands.cpp:6891-6909`, 6913-6931 for other sizes
  | .element size =>
    if size = 1 ∨ size = 2 ∨ size = 4 ∨ size = 8 then
      match st.stack, st.arr with
      | .val v :: .ptr k :: r, some o =>
        if k < o.slots.length then
          .ok { st with stack := .ptr (k + 1) :: r, arr := some { o with slots := o.slots.set k (low size v) } }
        else .wild
      | _, _ => .wild
    else .wild
  -- `commands.cpp:6935-6950`
  | .end_ =>
    match st.stack with
    | .ptr _ :: r => .ok { st with stack := r }
    | _ => .wild

/-- Commands, one after the other. -/
def run {A S X : Type} (M : Machine A S X) : List (Cmd A) → St S → Out S X
  | [], st => .ok st
  | c :: cs, st =>
    match step M c st with
    | .ok st => run M cs st
    | o => o

end Verif.Init
