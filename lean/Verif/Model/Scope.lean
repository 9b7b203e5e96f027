/-!
# What a plain name means

Model of the layers and the regions that the compiler opens while it visits a program
(`modules/core/core.cpp:6507-6537`, `6605-6745`), of the definitions in them (`core.cpp:6099-6299`,
`modules/compile/ast_utils.cpp:1810-1940`), of the visits of statements and members in the first step
(`modules/compile/ast.cpp`, cited at each case) and of the analysis of names in a later step
(`ast.cpp:2260-2281`, `ast_utils.cpp:1002-1050`).

Names are looked up when the whole program has been visited once: a visit of an expression in the first step only asks for a
visit in the step `analysis` (`ast.cpp:2265-2266`), in the layer that is current then (`include/modules/core.h:6029-6032`),
and that step comes after the first has ended for everything (property C102).

Simplifications.  A name is a number, and so is what identifies a declaration.  Of an expression only its plain names count,
one `exp` for each.  Statements that open no region (`if`, `while`, `do`, `switch`, `try`, `return`, expressions) are the
sequence of their parts.  Types of variables are left out: what a name that belongs to a method means among its overloads
is property C78.  The base of a class is kept only to show that it plays no part.  Regions are rows of a table and `previous`
is the number of a row.
-/

namespace Verif.Scope

/-- `variable_type_t`, as far as regions hold it. -/
inductive Kind where
  | local_ | param | field | property | method
  deriving DecidableEq, Repr

/-- `variable_t`: its kind, and the declaration it stands for. -/
structure Variable where
  kind : Kind
  id : Nat
  deriving DecidableEq, Repr

/-- `allow_duplicate` — `include/modules/core.h:5226-5227`, `5257-5270`: only of methods (`core.h:5600`). -/
def Kind.allowDuplicate (k : Kind) : Bool := k == .method

/-- Statements. -/
inductive Stmt where
  | skip
  | seq (a b : Stmt)
  /-- A plain name in an expression. -/
  | exp (id name : Nat)
  /-- `T name = init;`, with the plain names in `init`, each an `exp`. -/
  | define (id name : Nat) (init : List (Nat × Nat))
  /-- `{ … }` -/
  | block (body : Stmt)
  /-- `for (…; …; …) …`, with a definition in its head or without. -/
  | for_ (definition : Bool) (body : Stmt)
  /-- `catch (T name) …` -/
  | catch_ (id name : Nat) (body : Stmt)
  deriving DecidableEq, Repr

/-- Members of types and of documents. -/
inductive Member where
  | none
  | seq (a b : Member)
  /-- `T name = init;` -/
  | field (id name : Nat) (init : List (Nat × Nat))
  | property (id name : Nat) (accessors : Member)
  /-- A method; `normal` is false for constructors and destructors. -/
  | method (normal : Bool) (id name : Nat) (params : List (Nat × Nat)) (body : Stmt)
  | type (base : Option Nat) (members : Member)
  deriving DecidableEq, Repr

/-- `variable_region_t`: the row of the region before it, `__mask`, and `__variables` in the order of insertion (elements with
equal keys keep it, and `find` returns the first in libstdc++). -/
structure Region where
  previous : Option Nat
  mask : List Kind
  variables : List (Nat × Variable)
  deriving DecidableEq, Repr

/-- What is delayed to the step `analysis`. -/
inductive Item where
  /-- A name, and the region of the layer. -/
  | use (id name : Nat) (region : Option Nat)
  /-- A definition statement and `var_item->variable`. -/
  | defined (var : Option Variable)
  deriving DecidableEq, Repr

/-- The state of the first step: all regions, the current one, the delayed visits, and the reported duplicates. -/
structure State where
  regions : List Region
  current : Option Nat
  delayed : List Item
  log : List Nat
  deriving DecidableEq, Repr

/-- Before the walk — `core.cpp:6651-6661`: the empty layer has no region. -/
def State.start : State := ⟨[], none, [], []⟩

/-- Pushes a layer with a new region — `core.cpp:6512-6522`, `6103-6106`, `6672-6685`, `6720-6724`. -/
def State.push (s : State) (mask : List Kind) : State :=
  { s with regions := s.regions ++ [⟨s.current, mask, []⟩], current := some s.regions.length }

/-- Pops it — `core.cpp:6739-6744`; the layers before are those that were current. -/
def State.pop (s : State) (current : Option Nat) : State := { s with current := current }

/-- `__check_duplicate` — `core.cpp:6206-6219`: whether the definition throws. -/
def duplicate (r : Region) (name : Nat) (kind : Kind) : Bool :=
  match r.variables.lookup name with
  | none => false
  | some v => !kind.allowDuplicate || v.kind != kind

/-- `define_…` of `variable_defination_t` and of the region — `ast_utils.cpp:1810-1940`, `core.cpp:6122-6203`, `6276-6299`:
the variable, or null.  A kind that the region does not hold, and no region at all, are `none`: the first ends in
`X_UNEXPECTED` (`ast_utils.cpp:1931-1932`), and neither occurs in a program. -/
def State.define (s : State) (name : Nat) (v : Variable) : Option (State × Option Variable) :=
  match s.current with
  | none => none
  | some i =>
    match s.regions[i]? with
    | none => none
    | some r =>
      if !r.mask.contains v.kind then none
      else if duplicate r name v.kind then some ({ s with log := s.log ++ [v.id] }, none)
      else some ({ s with regions := s.regions.set i { r with variables := r.variables ++ [(name, v)] } }, some v)

/-- Delays a visit — `include/modules/core.h:6029-6032`. -/
def State.delay (s : State) (x : Item) : State := { s with delayed := s.delayed ++ [x] }

/-- The visit of a list of names: `expression_ast_node_t::on_walk`, `ast.cpp:2264-2267`, for each. -/
def State.names : List (Nat × Nat) → State → State
  | [], s => s
  | x :: xs, s => State.names xs (s.delay (.use x.1 x.2 s.current))

/-- The regions of blocks, `for` and `catch` — `core.cpp:6720-6724`. -/
def blockMask : List Kind := [.local_]
/-- The regions of methods — `core.cpp:6617-6620`. -/
def methodMask : List Kind := [.param, .local_]
/-- The regions of types — `core.cpp:6610-6614`. -/
def typeMask : List Kind := [.field, .property, .method]

/-- The visit of a statement in the first step.
* a sequence: `ast_node_t::on_walk`, `core.cpp:6840-6854`;
* a name: `expression_ast_node_t::on_walk`, `ast.cpp:2264-2267`;
* a definition: `defination_st_ast_node_t::on_walk` and `__walk_default`, `ast.cpp:3933-3941`, `3958-3982`, the parts first;
* a block: `ast.cpp:4523-4533`; `for`: `4284-4301`; `catch`: `4472-4490`. -/
def Stmt.walk : Stmt → State → Option State
  | .skip, s => some s
  | .seq a b, s => (a.walk s).bind b.walk
  | .exp id name, s => some (s.delay (.use id name s.current))
  | .define id name init, s =>
    ((State.names init s).define name ⟨.local_, id⟩).map fun r => r.1.delay (.defined r.2)
  | .block body, s => (body.walk (s.push blockMask)).map (·.pop s.current)
  | .for_ d body, s => if d then (body.walk (s.push blockMask)).map (·.pop s.current) else body.walk s
  | .catch_ id name body, s =>
    ((s.push blockMask).define name ⟨.local_, id⟩).bind fun r => (body.walk r.1).map (·.pop s.current)

/-- `define_param` for each parameter — `ast.cpp:5171-5178`. -/
def defineParams : List (Nat × Nat) → State → Option State
  | [], s => some s
  | p :: ps, s => (s.define p.2 ⟨.param, p.1⟩).bind fun r => defineParams ps r.1

/-- The visit of a member in the first step.
* a field: `ast.cpp:4995-5012`, the initial value first; the layer of a field has no region of its own (`core.cpp:6633-6635`);
* a property: `5360-5372`, the property first; the layer has no region (`6623-6625`);
* a method: `5093-5112`: the body, then the parameters (`__walk_default`), in the region of the method; then the method itself
  in the region around it;
* a type: `2641-2648`, `2710`. -/
def Member.walk : Member → State → Option State
  | .none, s => some s
  | .seq a b, s => (a.walk s).bind b.walk
  | .field id name init, s => ((State.names init s).define name ⟨.field, id⟩).map (·.1)
  | .property id name accessors, s => (s.define name ⟨.property, id⟩).bind fun r => accessors.walk r.1
  | .method normal id name params body, s =>
    ((body.walk (s.push methodMask)).bind (defineParams params)).bind fun s1 =>
      if normal then ((s1.pop s.current).define name ⟨.method, id⟩).map (·.1) else some (s1.pop s.current)
  | .type _ members, s => (members.walk (s.push typeMask)).map (·.pop s.current)

/-- `variable_region_t::get` — `core.cpp:6258-6267`, with as many steps as there are regions. -/
def get (regions : List Region) (name : Nat) : Nat → Option Nat → Option Variable
  | 0, _ => none
  | _, none => none
  | n + 1, some i =>
    match regions[i]? with
    | none => none
    | some r =>
      match r.variables.lookup name with
      | some v => some v
      | none => get regions name n r.previous

/-- The step `analysis`: what each name is bound to (`ast.cpp:2269-2281`, `ast_utils.cpp:1002-1050`; `none` when no variable is
found).  A definition statement reads the type of `var_item->variable` (`ast.cpp:3990-3993`): the null pointer that a duplicate
definition leaves behind is `none` for the whole step. -/
def analysis (regions : List Region) : List Item → Option (List (Nat × Option Variable))
  | [] => some []
  | .use id name region :: xs => (analysis regions xs).map ((id, get regions name regions.length region) :: ·)
  | .defined none :: _ => none
  | .defined (some _) :: xs => analysis regions xs

/-- A program: its types, each with its base.  Documents and namespaces open no region (`core.cpp:6558-6620`). -/
abbrev Program := List (Option Nat × Member)

/-- The first step: all types, one after another. -/
def walkTypes : Program → State → Option State
  | [], s => some s
  | t :: ts, s => ((Member.type t.1 t.2).walk s).bind (walkTypes ts)

/-- The walk of a program: the reported duplicates, and what its names are bound to, or `none` if the compiler dies. -/
def compile (p : Program) : Option (List Nat × Option (List (Nat × Option Variable))) :=
  (walkTypes p State.start).map fun s => (s.log, analysis s.regions s.delayed)

end Verif.Scope
