/-!
# Model: types are made ready before their objects are created

The virtual machine finds the size of a type when a command that needs it is made (`modules/exec/commands.cpp:982-1030`, `2229`,
`6566-6575`, `6810-6821`, `modules/rt/rt.cpp:326-344`, `470-527`), and builds the virtual table of a type before an object of it is
created (`pre_new`, `modules/rt/rt.cpp:533-553`, `1068-1162`, `1271-1291`, `1792-1803`, `modules/exec/commands.cpp:1586`, `1620`,
`3856-3884`, `6445`).  A virtual call and a cast use the table of the object's type (`commands.cpp:4312-4345`, `5352-5370`).

A type is its place in the list of all types of the program that runs.  What is in a virtual table is the subject of `Verif.Dispatch`; here
a table is known by the type it was built for.  The numbers that sizes are belong to `Verif.Fields`; here a size is known or not.  The
recursion ends after as many steps as there are types: with more, the C++ code would not end.
-/

namespace Verif.Ready

/-- `ttype_t` — `include/modules/core.h`. -/
inductive Form | class_ | interface | struct_ | enum_
  deriving DecidableEq, Repr

/-- What the code asks of a class, an interface, a struct or an enum — `rt_general_type_t`, or `rt_generic_type_t` when `generic`.
`plain` structs are the numbers, characters and so on (`vtype != mobject_`, `rt.cpp:441-456`).  `base` is `get_base_type`
(`rt.cpp:626-646`, `1449-1470`), `fields` the types of the fields, `functions` the number of virtual functions, `interfaces` those it has
with its bases; `complete`: each method of them is found, so that `__build_vtbl` does not throw (`rt.cpp:1022-1027`). -/
structure Info where
  generic : Bool := false
  form : Form := .class_
  plain : Bool := false
  base : Option Nat := none
  fields : List Nat := []
  functions : Nat := 0
  interfaces : List Nat := []
  complete : Bool := true
  deriving DecidableEq, Repr

/-- `rt_type_t`: a type with a name, or an array. -/
inductive Ty | named (i : Info) | array (element : Nat)
  deriving DecidableEq, Repr

abbrev Prog := List Ty

/-- The types that have a size (`__size != unknown_msize`), the virtual table of each (the word before the type, `rt.h:2025-2040`), the table that
is kept for types without functions (`simple_vtbl`, `rt.cpp:1072`) and the type of each object created. -/
structure St where
  sized : Nat → Bool := fun _ => false
  table : Nat → Option Nat := fun _ => none
  simple : Option Nat := none
  objects : List Nat := []

/-- `rt.cpp:340`: the size of `t` is stored. -/
def setSized (s : St) (t : Nat) : St := { s with sized := fun u => if u = t then true else s.sized u }

/-- `set_vtable` — `rt.h:2034-2040`. -/
def setTable (s : St) (t o : Nat) : St := { s with table := fun u => if u = t then some o else s.table u }

/-- The second step is not reached when the first throws. -/
def andThen (r : Bool × St) (f : St → Bool × St) : Bool × St := if r.1 then f r.2 else r

/-- `get_variable_size` — `rt.cpp:508-527`, `1858-1863`: a reference has a size of its own. -/
def varSize (p : Prog) (get : Nat → St → Bool × St) (f : Nat) (s : St) : Bool × St :=
  match p[f]? with
  | none => (false, s)
  | some (.array _) => (true, s)
  | some (.named i) =>
    match i.form with
    | .class_ | .interface => (true, s)
    | .struct_ | .enum_ => get f s

/-- A base type, when there is one. -/
def onBase (b : Option Nat) (f : Nat → St → Bool × St) (s : St) : Bool × St :=
  match b with
  | none => (true, s)
  | some b => f b s

/-- The layout of the fields — `rt.cpp:759-777`, `1679-1725`, `__layout.h:501-510`: the size of each is asked for. -/
def eachField (f : Nat → St → Bool × St) : List Nat → St → Bool × St
  | [], s => (true, s)
  | x :: xs, s => andThen (f x s) (eachField f xs)

/-- `get_size` — `rt.cpp:336-344` — with `on_caculate_size` — `rt.cpp:470-505`, `1866-1871`. -/
def getSize (p : Prog) : Nat → Nat → St → Bool × St
  | 0, _, s => (false, s)
  | n + 1, t, s =>
    if s.sized t then (true, s)
    else match p[t]? with
      | none => (false, s)
      | some (.array _) => (true, setSized s t)
      | some (.named i) =>
        if i.form = .interface then (false, s)
        else if i.form = .enum_ ∨ i.form = .struct_ ∧ i.plain = true then (true, setSized s t)
        else
          andThen (onBase i.base (getSize p n) s) fun s1 =>
          andThen (eachField (varSize p (getSize p n)) i.fields s1) fun s2 => (true, setSized s2 t)

/-- The base types that `__build_vtbl` lists — `rt.cpp:1086-1096`. -/
def bases (p : Prog) : Nat → Nat → List Nat
  | 0, _ => []
  | n + 1, t =>
    match p[t]? with
    | some (.named i) =>
      match i.base with
      | none => []
      | some b => b :: bases p n b
    | _ => []

/-- `__IsSimpleVtbl` — `rt.cpp:1099`. -/
def isSimple (p : Prog) (t : Nat) (i : Info) : Bool :=
  i.functions == 0 && i.interfaces.isEmpty && (bases p p.length t).length == 1

/-- `__build_vtbl` — `rt.cpp:1068-1162`: a table for a simple type is used again when one is kept, and one is kept only when one is kept. -/
def build (p : Prog) (t : Nat) (i : Info) (s : St) : Bool × St :=
  if i.complete then
    match s.simple with
    | some o =>
      if isSimple p t i then (true, setTable s t o)
      else (true, setTable s t t)
    | none => (true, setTable s t t)
  else (false, s)

/-- `pre_new` — `rt.cpp:533-553` for a type that is not generic, `1271-1291` for a generic one, `1792-1803` for an array.
There are no static constructors to run (`rt.cpp:556-559`, `1294-1297`). -/
def preNew (p : Prog) : Nat → Nat → St → Bool × St
  | 0, _, s => (false, s)
  | n + 1, t, s =>
    match p[t]? with
    | none => (false, s)
    | some (.array e) => preNew p n e s
    | some (.named i) =>
      if i.generic then
        if s.sized t then (true, s)
        else
          andThen (onBase i.base (preNew p n) s) fun s1 =>
          andThen (getSize p p.length t s1) fun s2 => build p t i s2
      else
        if s.sized t && (s.table t).isSome then (true, s)
        else
          andThen (onBase i.base (preNew p n) s) fun s1 =>
          andThen (getSize p p.length t s1) fun s2 =>
          if (s.table t).isNone then build p t i s2 else (true, s2)

/-- What a running program does with types.  `field`: a command that reads or writes a field of an object, copies or unboxes a value is made.
`hold`: a variable of the type is laid out.  `new`: an object or an array is created, or an exception is raised.  `box`: a value is made an
object. -/
inductive Op | field (t : Nat) | hold (t : Nat) | new (t : Nat) | box (t : Nat)
  deriving DecidableEq, Repr

/-- `__new_object`, `__raise_exception`, the array command — `commands.cpp:3868-3884`, `6443-6457`. -/
def create (p : Prog) (t : Nat) (s : St) : Bool × St :=
  andThen (preNew p p.length t s) fun s1 => (true, { s1 with objects := s1.objects ++ [t] })

/-- One operation; `false`: an exception.  The size of a type that is boxed is found when the command is made (`commands.cpp:2229`), before
it is executed (`commands.cpp:1582-1591`, `1616-1625`). -/
def step (p : Prog) (s : St) : Op → Bool × St
  | .field t => getSize p p.length t s
  | .hold t => varSize p (getSize p p.length) t s
  | .new t => create p t s
  | .box t => andThen (getSize p p.length t s) (create p t)

/-- A history: after an exception the program may go on. -/
def run (p : Prog) : St → List Op → St
  | s, [] => s
  | s, o :: os => run p (step p s o).2 os

/-- `__get_virtual_exec_method` — `commands.cpp:4312-4345`: the table that is used for a virtual call on an object; `none`: a null pointer
is followed. -/
def virtualCall (s : St) (k : Nat) : Option Nat := (s.objects[k]?).bind s.table

/-- `is_base_type`, `try_search_vtable_interface` — `include/modules/rt.h:227-262` — in the table of type `o`. -/
def inTable (p : Prog) (o to : Nat) (interface : Bool) : Bool :=
  match p[o]? with
  | some (.named i) => if interface then i.interfaces.contains to else (bases p p.length o).contains to
  | _ => false

/-- `__cast_test` — `commands.cpp:5355-5370`; `none`: a null pointer is followed. -/
def castTest (p : Prog) (s : St) (source to : Nat) (interface : Bool) : Option Bool :=
  if interface = false ∧ source = to then some true
  else (s.table source).map fun o => inTable p o to interface

end Verif.Ready
