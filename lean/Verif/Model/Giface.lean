import Verif.Model.Gvirt

/-!
# Model: classes that implement generic interfaces

The part of `__build_interfaces` (`modules/rt/rt.cpp:900-1066`) that finds, for a method of an interface with type arguments, the method of the
object's class that implements it.  Types, prototypes and their comparison are those of `Verif.Gvirt`; `Verif.Dispatch` has the same functions
for classes and interfaces without type parameters.

Simplified: as in `Verif.Gvirt`; no method implements an interface explicitly, and an interface is implemented by one class of the hierarchy.
-/

namespace Verif.Giface

open Verif.Gvirt

/-- A class, with what its type parameters stand for. -/
abbrev Link := Class × List Ty

/-- `generic_param_manager_t gp_mgr1(env, interface_type, gp_mgr)` — `rt.cpp:1012`, `layout.cpp:46-56`, `265-294`: the type parameters of the
interface, and after them those of the class of the object (`none`: that class has none, `rt.cpp:1069-1070`). -/
def manager (iface : Link) (object : Link) : Env := fun n =>
  match (iface.1.typeParams.zip iface.2).lookup n with
  | some t => some t
  | none =>
    match managerOf object.1 object.2 with
    | none => none
    | some e => e n

/-- The callback of `__build_interface` — `rt.cpp:914-934`: the last method that compares equal, with the manager of the interface. -/
def searchImpl (e : Env) (p : Prototype) (c : Class) : Nat → List Method → Option Entry → Res (Option Entry)
  | _, [], acc => .ok acc
  | i, m :: ms, acc =>
    match compareTo (some e) m p with
    | none => .crash
    | some false => searchImpl e p c (i + 1) ms acc
    | some true => searchImpl e p c (i + 1) ms (some (c.entry i m))

/-- `__build_interface` — `rt.cpp:896-954` — for a class with its base classes: first in the base classes. -/
def buildInterface (e : Env) (p : Prototype) : List Link → Res (Option Entry)
  | [] => .ok none
  | (c, _) :: bases =>
    match buildInterface e p bases with
    | .crash => .crash
    | .notFound => .notFound
    | .ok prev =>
      match searchImpl e p c 0 c.methods none with
      | .ok (some x) => .ok (some x)
      | .ok none => .ok prev
      | .notFound => .notFound
      | .crash => .crash

/-- `__build_interface_override` — `rt.cpp:958-992` — for the methods of one class, compared without a manager: nothing, the method, or that it
is hidden. -/
def searchOverride (p : Prototype) (c : Class) : Nat → List Method → Res (Option (Option Entry))
  | _, [] => .ok none
  | i, m :: ms =>
    match compareTo none m p with
    | none => .crash
    | some false => searchOverride p c (i + 1) ms
    | some true => .ok (some (if m.over then some (c.entry i m) else none))

/-- The loop from the class of the object to the class that has the interface — `rt.cpp:1032-1043`: it goes on only behind a method that hides. -/
def overrideLoop (p : Prototype) (x : Entry) : List Link → Res Entry
  | [] => .ok x
  | (d, _) :: ds =>
    match searchOverride p d 0 d.methods with
    | .crash => .crash
    | .notFound => .notFound
    | .ok none => .ok x
    | .ok (some (some y)) => .ok y
    | .ok (some none) => overrideLoop p x ds

/-- What a call of method `m` of the interface runs — `rt.cpp:996-1050`; `chain` is the class that has the interface with its base classes, `ds`
the classes below it, the class of the object first.  `notFound`: the exception that a member of the interface is missing. -/
def implementation (iface : Link) (m : Method) (ds : List Link) (chain : List Link) : Res Entry :=
  match ds ++ chain with
  | [] => .notFound
  | object :: _ =>
    let e := manager iface object
    match getPrototype (some e) m with
    | none => .crash
    | some p =>
      match buildInterface e p chain with
      | .crash => .crash
      | .notFound => .notFound
      | .ok none => .notFound
      | .ok (some x) => if x.method.virt then overrideLoop p x ds else .ok x

end Verif.Giface
