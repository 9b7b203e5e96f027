/-!
# Access checks and super types

Model of `check_access` — `modules/core/core.cpp:8626-8833` — of the default access of members
(`core.cpp:1380-1398`), and of the super types of a type (`core.cpp:2663-2684`, `2742-2751`).

Simplifications.  A type is where it is declared: in an assembly, or nested in another type (which has
the assembly of that type); two type objects are the same object when they are declared at the same
place under the same name.  An instance of a generic type is the generic type with a number that stands
for its arguments.  Array types are not modelled.  `__super_types` is filled once, when the super types
are known.
-/

namespace Verif.Access

/-- `access_value_t` — `include/modules/core.h:1503-1509`. -/
inductive AV where
  | public_ | protected_ | private_ | internal | protectedOrInternal | protectedAndInternal
  deriving DecidableEq, Repr

/-- A general type with its access value. -/
inductive Ty where
  | top (assembly : Nat) (name : Nat) (av : AV)
  | nested (name : Nat) (av : AV) (host : Ty)
  deriving DecidableEq, Repr

/-- `get_assembly`. -/
def Ty.assembly : Ty → Nat
  | .top a _ _ => a
  | .nested _ _ h => h.assembly

/-- `get_access_value` of a member — `core.cpp:1380-1398`: the declared value, or internal for a type
outside other types, public for a member of an interface, private for others. -/
def accessOf (declared : Option AV) (isTopType hostIsInterface : Bool) : AV :=
  match declared with
  | some av => av
  | none => if isTopType then .internal else if hostIsInterface then .public_ else .private_

/-- A type that may be a super type: a general type, or an instance of a generic one. -/
inductive Typ where
  | general (t : Ty)
  | inst (t : Ty) (args : Nat)
  deriving DecidableEq, Repr

/-- `to_general` — `core.cpp:3254-3270`. -/
def Typ.toGeneral : Typ → Ty
  | .general t => t
  | .inst t _ => t

/-- `__collect_super_types` — `core.cpp:2663-2673`; `fuel` bounds the depth of the recursion. -/
def collect (supers : Typ → List Typ) : Nat → Typ → List Typ → List Typ
  | 0, _, seen => seen
  | fuel + 1, t, seen =>
    (supers t).foldl (fun acc s => if s ∈ acc then acc else collect supers fuel s (s :: acc)) seen

/-- `has_super_type`, `is_super_type` — `core.cpp:2676-2684`, `2742-2751`. -/
def isSuperType (supers : Typ → List Typ) (fuel : Nat) (derived super : Typ) : Bool :=
  decide (super ∈ collect supers fuel derived [])

/-- `__check_member_access` — `core.cpp:8650-8677`; `sup` is `is_super_type`. -/
def checkMember (sup : Ty → Ty → Bool) (frm host : Ty) (av : AV) (cross : Bool) : Bool :=
  if cross then
    if av = .public_ then true
    else if sup frm host && (av = .protected_ || av = .protectedOrInternal) then true
    else false
  else
    if av = .public_ || av = .internal || av = .protectedOrInternal then true
    else if sup frm host && (av = .protected_ || av = .protectedAndInternal) then true
    else false

/-- `__check_type_access` from a type — `core.cpp:8680-8704`. -/
def checkType (sup : Ty → Ty → Bool) (frm : Ty) (cross : Bool) : Ty → Bool
  | .nested _ av host =>
    if host = frm then true
    else if !checkType sup frm cross host then false
    else checkMember sup frm host av cross
  | .top _ _ av => if cross then decide (av = .public_) else true

/-- The first loop of `check_access`: is the type, or one around it, the host — `core.cpp:8750-8760`. -/
def inside (host : Ty) : Ty → Bool
  | .top a n av => decide (Ty.top a n av = host)
  | .nested n av h => if Ty.nested n av h = host then true else inside host h

/-- `check_access(from_type, host_type, av)`: access to a member — `core.cpp:8745-8768`. -/
def checkAccess (sup : Ty → Ty → Bool) (frm host : Ty) (av : AV) : Bool :=
  if inside host frm then true
  else
    let cross := (host.assembly != frm.assembly)
    if !checkType sup frm cross host then false else checkMember sup frm host av cross

/-- `check_access(from_type, to_type)`: access to a type — `core.cpp:8771-8781`. -/
def checkAccessType (sup : Ty → Ty → Bool) (frm to : Ty) : Bool :=
  checkType sup frm (to.assembly != frm.assembly) to

/-- `__check_type_access` from an assembly — `core.cpp:8707-8732`. -/
def checkTypeA (cross : Bool) : Ty → Bool
  | .nested _ av host =>
    if !checkTypeA cross host then false
    else if cross then decide (av = .public_) else decide (av = .public_ ∨ av = .internal)
  | .top _ _ av => if cross then decide (av = .public_) else true

/-- `check_access(from_assembly, to_member)` — `core.cpp:8784-8817`. -/
def checkAccessA (frm : Nat) (host : Ty) (av : AV) : Bool :=
  let cross := (host.assembly != frm)
  if !(if !cross then true else decide (av = .public_)) then false else checkTypeA cross host

end Verif.Access
