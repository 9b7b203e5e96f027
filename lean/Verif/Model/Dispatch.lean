/-!
# Method calls: kinds of calls, virtual tables, interfaces, type tests

Model of `call_type_of_method` — `modules/core/xil.cpp:1158-1186` — of the checks of `override` and
`sealed` (`modules/compile/ast.cpp:818-877`), of virtual tables (`modules/rt/rt.cpp:838-899`), offsets of
virtual methods (`rt.cpp:345-387`, `3139-3189`), of interface tables (`rt.cpp:896-1066`), their search
(`include/modules/rt.h:205-296`) and of casts and type tests (`modules/exec/commands.cpp:5355-5445`).

Simplifications.  A prototype (name, generic parameters, parameter types, return type) is a number;
`compare_to` is equality of these numbers.  A class is in a list with its base classes after it.  Generic
types are not modelled.  `rt_vtable_function_t` has 11 bits for the assembly and 20 for the method; the
model has numbers without bound.  Interface types form a tree: an interface comes with the interfaces it
derives from.  A reference to a method of one assembly that is looked up in another one is an outcome of
its own (`none` of `offsetIn`).
-/

namespace Verif.Dispatch

/-! ## Kinds of calls -/

/-- `xil_call_type_t`. -/
inductive CallType where
  | virtual_ | instance_ | static_ | internal
  deriving DecidableEq, Repr

/-- The decorations of a method and its host type. -/
structure Decl where
  ext : Bool
  static_ : Bool
  virt : Bool
  over : Bool
  abstract_ : Bool
  sealed_ : Bool
  hostInterface : Bool
  hostSealed : Bool
  deriving DecidableEq, Repr

/-- `call_type_of_method` — `modules/core/xil.cpp:1158-1186`. -/
def callType (m : Decl) (runtime : Bool) : CallType :=
  if m.ext then .internal
  else if m.static_ then .static_
  else if m.hostInterface then .virtual_
  else if m.virt || m.over || m.abstract_ then
    if runtime && (m.sealed_ || m.hostSealed) then .instance_ else .virtual_
  else .instance_

/-- The call that is written — `modules/compile/expression.cpp:2745-2752`: a call on `base` is not
virtual. -/
def writtenCall (m : Decl) (onBase : Bool) : CallType :=
  if onBase && decide (callType m true = .virtual_) then .instance_ else callType m true

/-- Are the modifiers of an `override` member accepted, given the member with the same prototype that is
inherited? — `modules/compile/ast.cpp:831-849`; and `sealed` only on `override`, `ast.cpp:872-876`. -/
def acceptModifiers (m : Decl) (inherited : Option Decl) : Bool :=
  (if m.over then
    !m.virt &&
    match inherited with
    | none => false
    | some b => (b.virt || b.over || b.abstract_) && !b.sealed_
  else true) && (!m.sealed_ || m.over)

/-! ## Classes -/

/-- A method of a loaded class: `virt` is `__is_virtual` — `rt.cpp:89-92` — and `over` is the `override`
modifier; `owner` is the interface of an explicit implementation. -/
structure Method where
  proto : Nat
  virt : Bool
  over : Bool
  owner : Option Nat
  deriving DecidableEq, Repr

/-- A class: its assembly, the row of its first method in the assembly's table, and its methods, in the
order of the table. -/
structure Class where
  assembly : Nat
  first : Nat
  methods : List Method
  deriving DecidableEq, Repr

/-- An entry of a virtual table: the method, with its prototype. -/
structure Entry where
  proto : Nat
  assembly : Nat
  row : Nat
  deriving DecidableEq, Repr

/-- The method number `i` of a class, as an entry. -/
def Class.entry (c : Class) (i : Nat) (m : Method) : Entry := ⟨m.proto, c.assembly, c.first + i⟩

/-- The loop that puts an overriding method in the first place with its prototype — `rt.cpp:865-878`. -/
def replaceFirst (e : Entry) : List Entry → Option (List Entry)
  | [] => none
  | x :: rest => if x.proto = e.proto then some (e :: rest) else (replaceFirst e rest).map (x :: ·)

/-- The callback for each method in `__build_vfunctions` — `rt.cpp:853-896`; `none` is the exception. -/
def addMethods (c : Class) : Nat → List Method → List Entry → Option (List Entry)
  | _, [], v => some v
  | i, m :: ms, v =>
    if m.virt then addMethods c (i + 1) ms (v ++ [c.entry i m])
    else if m.over then
      match replaceFirst (c.entry i m) v with
      | none => none
      | some v' => addMethods c (i + 1) ms v'
    else some v

/-- `__build_vfunctions` — `rt.cpp:838-897`. -/
def vtable : List Class → Option (List Entry)
  | [] => some []
  | c :: bases =>
    match vtable bases with
    | none => none
    | some v => addMethods c 0 c.methods v

/-- `on_caculate_virtual_count` — `rt.cpp:371-386`: counting stops at the first method that is not
virtual. -/
def ownVirtuals (c : Class) : Nat := (c.methods.takeWhile (·.virt)).length

/-- `get_virtual_count` — `rt.cpp:346-361`. -/
def virtualCount : List Class → Nat
  | [] => 0
  | c :: bases => ownVirtuals c + virtualCount bases

/-- The search of the overridden method in the base classes, and the offset of it — `rt.cpp:3171-3185`.
`cur` is the assembly whose code is compiled, in which references are looked up. -/
def searchOffset (cur : Nat) (p : Nat) : List Class → Option Nat
  | [] => none
  | c :: bases =>
    match c.methods.findIdx? (fun m => decide (m.proto = p)) with
    | none => searchOffset cur p bases
    | some j =>
      if c.assembly ≠ cur then none
      else match c.methods[j]? with
        | none => none
        | some m =>
          if m.virt then some (j + virtualCount bases)
          else if m.over then searchOffset cur p bases
          else none

/-- `get_virtual_method_offset` of method `i` of the first class of the list — `rt.cpp:3139-3189`. -/
def offsetIn (cur : Nat) : List Class → Nat → Option Nat
  | [], _ => none
  | c :: bases, i =>
    match c.methods[i]? with
    | none => none
    | some m =>
      if m.virt then some (i + virtualCount bases)
      else if m.over then (if c.assembly ≠ cur then none else searchOffset cur m.proto bases)
      else none

/-- A virtual call — `modules/exec/commands.cpp:4313-4363`: the entry at the offset of the table of the
object's class. -/
def virtualCall (receiver : List Class) (offset : Nat) : Option Entry :=
  (vtable receiver).bind (·[offset]?)

/-! ## Interfaces -/

/-- What is kept for a method of an interface: the entry and the flags of the method. -/
structure IEntry where
  entry : Entry
  virt : Bool
  owner : Option Nat
  deriving DecidableEq, Repr

/-- The callback of `__build_interface` — `rt.cpp:911-930`: the last method with the prototype, or the
first one that implements the interface explicitly. -/
def searchImpl (c : Class) (iface p : Nat) : Nat → List Method → Option IEntry → Option IEntry
  | _, [], acc => acc
  | i, m :: ms, acc =>
    if m.proto ≠ p then searchImpl c iface p (i + 1) ms acc
    else match m.owner with
      | none => searchImpl c iface p (i + 1) ms (some ⟨c.entry i m, m.virt, none⟩)
      | some o => if o ≠ iface then searchImpl c iface p (i + 1) ms acc else some ⟨c.entry i m, m.virt, some o⟩

/-- `__build_interface` — `rt.cpp:900-956`; `prev` is what the table has at the index. -/
def buildInterface (iface p : Nat) (prev : Option IEntry) : List Class → Option IEntry
  | [] => prev
  | c :: bases =>
    match searchImpl c iface p 0 c.methods none with
    | some e => some e
    | none => buildInterface iface p prev bases

/-- The loop from the class of the object up to the class with the interface, with
`__build_interface_override` — `rt.cpp:960-994`, `1030-1041`. -/
def overrideLoop (p : Nat) (e : IEntry) : List Class → IEntry
  | [] => e
  | d :: ds =>
    match d.methods.findIdx? (fun m => decide (m.owner = none ∧ m.proto = p)) with
    | none => e
    | some j =>
      match d.methods[j]? with
      | none => e
      | some m => if m.over then ⟨d.entry j m, m.virt, none⟩ else overrideLoop p e ds

/-- A method of an interface, for an object of a class with the classes `ds` below the class that has
the interface — `rt.cpp:1013-1043`. -/
def interfaceEntry (iface p : Nat) (ds : List Class) (chain : List Class) (prev : Option IEntry) : Option IEntry :=
  match buildInterface iface p prev chain with
  | none => none
  | some e => if e.virt && e.owner.isNone then some (overrideLoop p e ds) else some e

/-! ## Type tests -/

/-- An interface with the interfaces it derives from. -/
inductive Iface where
  | mk (id : Nat) (supers : List Iface)

/-- The number of an interface. -/
def Iface.id : Iface → Nat
  | .mk i _ => i

mutual
/-- The interfaces that `__build_interfaces` enters in the map — `rt.cpp:997-1008`. -/
def Iface.all : Iface → List Nat
  | .mk i supers => Iface.alls supers ++ [i]
/-- For several. -/
def Iface.alls : List Iface → List Nat
  | [] => []
  | i :: is => i.all ++ Iface.alls is
end

/-- What a type test looks at: the number of a class, and its interfaces. -/
structure Cls where
  id : Nat
  ifaces : List Iface

/-- The interfaces of a class with its base classes — `rt.cpp:1048-1066`. -/
def interfacesOf : List Cls → List Nat
  | [] => []
  | c :: bases => interfacesOf bases ++ Iface.alls c.ifaces

/-- A virtual table for type tests: the interfaces, in the order of the table, and the one that was used
last (an index). -/
structure ITable where
  types : List Nat
  recently : Nat
  deriving DecidableEq, Repr

/-- `try_search_vtable_interface` — `rt.h:262-296`: the index and the table, with the interface kept as
the one used last.  The first comparison reads through `recently`, and the loop reads the first interface
before it looks at their number: without interfaces that is a read past the end, the outcome `none`. -/
def trySearch (t : ITable) (i : Nat) : Option (Option Nat × ITable) :=
  match t.types[t.recently]? with
  | none => none
  | some r =>
    if r = i then some (some t.recently, t)
    else if t.types = [] then none
    else match t.types.findIdx? (fun x => decide (x = i)) with
      | some j => some (some j, { t with recently := j })
      | none => some (none, t)

/-- The target of a type test. -/
inductive Target where
  | cls (id : Nat)
  | iface (id : Nat)
  deriving DecidableEq, Repr

/-- `__cast_test` — `commands.cpp:5355-5371`, with `is_base_type` (`rt.h:245-258`) over the base types
that `__build_vtbl` lists (`rt.cpp:1085-1096`). -/
def castTest (chain : List Cls) (t : ITable) : Target → Option (Bool × ITable)
  | .iface i => (trySearch t i).map (fun r => (r.1.isSome, r.2))
  | .cls i =>
    match chain with
    | [] => some (false, t)
    | c :: bases => some (decide (c.id = i) || decide (i ∈ bases.map (·.id)), t)

/-- What a cast leaves. -/
inductive CastResult where
  | value (ref : Option Nat) | bool (b : Bool) | invalidCast
  deriving DecidableEq, Repr

/-- The three casts — `commands.cpp:5392-5440`, of a reference (`none`: null) to an object of a class for
which the test gives `test`. -/
def castDefault (obj : Option Nat) (test : Bool) : CastResult :=
  match obj with
  | none => .value none
  | some o => if !test then .invalidCast else .value (some o)

/-- `is`. -/
def castIs (obj : Option Nat) (test : Bool) : CastResult :=
  match obj with
  | none => .bool false
  | some _ => .bool test

/-- `as`. -/
def castAs (obj : Option Nat) (test : Bool) : CastResult :=
  match obj with
  | none => .value none
  | some o => if !test then .value none else .value (some o)

end Verif.Dispatch
