import Verif.Model.Access

/-! # The rules of accessibility -/

namespace Verif.Access

/-- A type is another type, or is declared inside it. -/
inductive Within : Ty → Ty → Prop where
  | refl (t : Ty) : Within t t
  | nested {n av h t} : Within h t → Within (.nested n av h) t

/-- One type derives from another: there is a chain of declared super types; an instance of a generic
type counts as the generic type. -/
inductive Derives (supers : Typ → List Typ) : Ty → Ty → Prop where
  | super {t s} : s ∈ supers (.general t) → Derives supers t s.toGeneral
  | trans {t u v} : Derives supers t u → Derives supers u v → Derives supers t v

/-- Is a member with this access value, of this host, open to code in this type?  Each access value
names where from: everywhere; the host and types in it; the assembly; the types that derive from the
host, with the types in them. -/
def Open (derives : Ty → Ty → Prop) (frm host : Ty) (av : AV) : Prop :=
  let private_ := Within frm host
  let internal := frm.assembly = host.assembly
  let protected_ := Within frm host ∨ ∃ d, Within frm d ∧ derives d host
  match av with
  | .public_ => True
  | .private_ => private_
  | .internal => internal
  | .protected_ => protected_
  | .protectedOrInternal => protected_ ∨ internal
  | .protectedAndInternal => Within frm host ∨ (protected_ ∧ internal)

/-- Is the type accessible to code in `frm`?  A type outside other types is, when it is public or of the
same assembly; a nested type is a member of its host. -/
def TypeAccessible (derives : Ty → Ty → Prop) (frm : Ty) : Ty → Prop
  | .top a _ av => av = .public_ ∨ frm.assembly = a
  | .nested _ av host => TypeAccessible derives frm host ∧ Open derives frm host av

/-- Is a member of the host accessible to code in `frm`? -/
def Accessible (derives : Ty → Ty → Prop) (frm host : Ty) (av : AV) : Prop :=
  TypeAccessible derives frm host ∧ Open derives frm host av

/-- The type is not nested. -/
def IsTop : Ty → Prop
  | .top .. => True
  | .nested .. => False

/-- There is a chain of declared super types, of one step or more. -/
inductive Reaches (supers : Typ → List Typ) : Typ → Typ → Prop where
  | super {t s} : s ∈ supers t → Reaches supers t s
  | step {t u v} : u ∈ supers t → Reaches supers u v → Reaches supers t v

end Verif.Access
