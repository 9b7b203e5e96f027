import Verif.Model.Layout

/-!
# The regions of a method and the local variables that are declared in them

Model of `variable_region_t` (`include/modules/core.h:5646-5735`, `modules/core/core.cpp:6099-6300`), of the regions that
the walk over a method opens and closes (`modules/compile/ast.cpp:4280-4300`, `4470-4495`, `4523-4535`) and of the
temporary variables that are defined when code is generated (`core.cpp:7034-7050`).

Simplifications.  A name is a number.  Regions of types are left out: a name that is no local variable and no parameter is
not found.  A declaration that throws is `none`.  `__empty_index` is `none`.
-/

namespace Verif.Regions

open Verif.Layout (Def Storage m16)

/-- What a name stands for: a local variable by its identity, or a parameter. -/
inductive Var where
  | loc (identity : Nat)
  | param (position : Nat)
  deriving DecidableEq, Repr

/-- A region: its variables and `__local_index`. -/
structure Region where
  vars : List (Nat × Var)
  index : Option Nat
  deriving DecidableEq, Repr

/-- A new region — `core.cpp:6103-6122`. -/
def Region.new : Region := ⟨[], none⟩

/-- `__current_local_index` of the first region; the others are those before it — `core.cpp:6237-6249`. -/
def currentIndex : List Region → Nat × List Region
  | [] => (0, [])
  | r :: rs =>
    match r.index with
    | some i => (i, r :: rs)
    | none =>
      let c := currentIndex rs
      (c.1, { r with index := some c.1 } :: c.2)

/-- `get` — `core.cpp:6258-6268`. -/
def get (name : Nat) : List Region → Option Var
  | [] => none
  | r :: rs =>
    match r.vars.lookup name with
    | some v => some v
    | none => get name rs

/-- The walk over a method: the open regions, the inner first, `__local_identity` of the first region of the method, and
what will be written of each local variable. -/
structure Walk where
  regions : List Region
  next : Nat
  defs : List Def

/-- The walk enters a method. -/
def Walk.start : Walk := ⟨[Region.new], 0, []⟩

/-- What the walk does. -/
inductive Op where
  | enter
  | leave
  | param (name position : Nat)
  | declare (name size : Nat) (storage : Storage)
  deriving DecidableEq, Repr

/-- `define_param` — `core.cpp:6157-6162`, `6211-6222`, `6281-6299`. -/
def defineParam (name position : Nat) : List Region → Option (List Region)
  | [] => none
  | r :: rs =>
    match r.vars.lookup name with
    | some _ => none
    | none => some ({ r with vars := (name, .param position) :: r.vars } :: rs)

/-- `define_local` — `core.cpp:6124-6154`, `6225-6234`, `6251-6255`: the regions and the index. -/
def defineLocal (name identity : Nat) : List Region → Option (List Region × Nat)
  | [] => none
  | r :: rs =>
    match r.vars.lookup name with
    | some _ => none
    | none =>
      match currentIndex ({ r with vars := (name, .loc identity) :: r.vars } :: rs) with
      | (i, r' :: rs') => some ({ r' with index := some (m16 (i + 1)) } :: rs', i)
      | (_, []) => none

/-- One step of the walk. -/
def step (w : Walk) : Op → Option Walk
  | .enter => some { w with regions := Region.new :: w.regions }
  | .leave =>
    match w.regions with
    | _ :: r :: rs => some { w with regions := r :: rs }
    | _ => none
  | .param name position => (defineParam name position w.regions).map fun rs => { w with regions := rs }
  | .declare name size storage =>
    (defineLocal name w.next w.regions).map fun r => ⟨r.1, m16 (w.next + 1), w.defs ++ [⟨r.2, size, storage⟩]⟩

/-- A walk. -/
def walk (w : Walk) (ops : List Op) : Option Walk := ops.foldlM step w

/-- `define_temp_local` — `core.cpp:7034-7050`: a new region on those of the statement (`regions`), after the walk; `name`
is the name made from the index. -/
def defineTemp (w : Walk) (regions : List Region) (name size : Nat) (storage : Storage) : Option Walk :=
  (defineLocal name w.next (Region.new :: regions)).map fun r =>
    { w with next := m16 (w.next + 1), defs := w.defs ++ [⟨r.2, size, storage⟩] }

end Verif.Regions
