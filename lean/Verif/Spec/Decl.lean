import Verif.Model.Decl

/-!
# What the checks of declarations are to find

Stated on the declarations alone.
-/

namespace Verif.Decl.Spec

/-- `Derives p a b`: `b` is a super type of `a`, directly or through other types; an instance of a
generic type counts as its template. -/
inductive Derives (p : Types) : Nat → Nat → Prop where
  | direct {a s : Nat} : s ∈ p.supers a → Derives p a (p.general s)
  | up {a s b : Nat} : s ∈ p.supers a → Derives p (p.general s) b → Derives p a b

/-- Every type a declaration names is one of the program. -/
def Closed (p : Types) : Prop :=
  ∀ a s, s ∈ p.supers a → p.general s < p.count

/-- `DependsOn d a b`: the constraints of `a` name `b`, or name a parameter that depends on `b`. -/
inductive DependsOn (d : Deps) : Nat → Nat → Prop where
  | direct {a b : Nat} : b ∈ depsOf d a → DependsOn d a b
  | through {a c b : Nat} : c ∈ depsOf d a → DependsOn d c b → DependsOn d a b

/-- `Chain d a p b`: from `a` one comes to `b` over the parameters `p`, each named by the constraints of
the one before. -/
inductive Chain (d : Deps) : Nat → List Nat → Nat → Prop where
  | here (a : Nat) : Chain d a [] a
  | step {a c b : Nat} {p : List Nat} : c ∈ depsOf d a → Chain d c p b → Chain d a (c :: p) b

/-- Some parameter depends on itself. -/
def Circular (d : Deps) : Prop := ∃ a, DependsOn d a a

/-! ## Members -/

/-- A type that is no parameter and has none in its parts. -/
def Plain : Ty → Prop
  | .base _ => True
  | .param _ _ => False
  | .inst _ t => Plain t

/-- The type with the type parameters of the declaration `a` replaced by those of `b`, by position. -/
def rename (a b : Nat) : Ty → Ty
  | .base n => .base n
  | .param o i => if o = a then .param b i else .param o i
  | .inst g t => .inst g (rename a b t)

/-- Two methods have the same signature: as many type parameters, and the same types of parameters when
the type parameters of the one are read as those of the other.  `ref` and `out` do not tell methods
apart. -/
def SameSignature (a b : Member) : Prop :=
  a.generics = b.generics ∧
    a.params.map (fun x => rename a.id b.id x.1) = b.params.map (·.1)

/-- Two members of a type cannot stand beside each other: they have the same name, belong to the same
interface or to none, and they are not two methods with different signatures, a constructor and a static
constructor, or two indexed properties with different indexes. -/
def Clash (a b : Member) : Prop :=
  a.name = b.name ∧ a.owner = b.owner ∧
    (a.kind = .method → b.kind = .method → SameSignature a b ∧
      (a.ctor = true → b.ctor = true → a.mods.static_ = b.mods.static_)) ∧
    (a.kind = .property → b.kind = .property → a.params = b.params)

/-- The types of the parameters of a method are plain types or its own type parameters. -/
def OwnParams (m : Member) : Prop :=
  ∀ x ∈ m.params, Plain x.1 ∨ ∃ i, x.1 = .param m.id i

/-! ## Modifiers -/

/-- `Above ds t n c`: `c` is the class `n + 1` steps up from `t`. -/
inductive Above (ds : Decls) (t : Nat) : Nat → Nat → Prop where
  | base {b : Nat} : (ds t).base = some b → Above ds t 0 b
  | up {n c b : Nat} : Above ds t n c → (ds c).base = some b → Above ds t (n + 1) b

/-- `b` is the member `m` of the type `t` would hide: it is found in a class above `t`, and in no class
between. -/
def Hides (ds : Decls) (t : Nat) (m b : Member) : Prop :=
  ∃ n c, Above ds t n c ∧ checkDuplicate (ds c).members m = .some b ∧
    ∀ k c', k < n → Above ds t k c' → checkDuplicate (ds c').members m = .none

/-- The rules for a member of an interface. -/
structure InterfaceRules (m : Member) : Prop where
  noField : m.kind ≠ .field
  noVirtual : m.mods.virtual_ = false
  noStatic : m.mods.static_ = false
  noAbstract : m.mods.abstract_ = false
  noSealed : m.mods.sealed_ = false
  noConst : m.mods.const_ = false
  noReadonly : m.mods.readonly_ = false
  noExtern : m.mods.extern_ = false
  noAccess : m.mods.access = none
  noBody : m.kind = .method ∨ m.kind = .property → m.body = false

/-- The member can be called through the table of virtual members. -/
def VirtualLike (m : Member) : Prop :=
  m.mods.virtual_ = true ∨ m.mods.abstract_ = true ∨ m.mods.override_ = true

/-- The rules for a method, a property or an event of a class, a structure or an enumeration. -/
structure MethodRules (ds : Decls) (t : Decl) (m : Member) (hidden : Option Member) : Prop where
  notPrivate : VirtualLike m → accessOf ds m ≠ .private_
  notStatic : VirtualLike m → m.mods.static_ = false
  overrideAlone : m.mods.override_ = true → m.mods.virtual_ = false ∧ m.mods.new_ = false
  overrides : m.mods.override_ = true → ∃ b, hidden = some b ∧ VirtualLike b ∧
    b.mods.sealed_ = false ∧ b.ty = m.ty
  abstractHome : m.mods.abstract_ = true → t.abstract_ = true
  sealedOverride : m.mods.sealed_ = true → m.mods.override_ = true
  noReadonly : m.mods.readonly_ = false
  noConst : m.mods.const_ = false
  externMethod : m.mods.extern_ = true → m.kind = .method ∧ m.mods.static_ = true ∧ m.body = false

/-- The rules for a field, a nested type or a type definition outside interfaces. -/
structure FieldRules (m : Member) : Prop where
  noVirtual : m.mods.virtual_ = false
  noAbstract : m.mods.abstract_ = false
  noOverride : m.mods.override_ = false
  noExtern : m.mods.extern_ = false
  noSealed : m.mods.sealed_ = false
  typeDef : m.kind = .typeDef →
    m.mods.const_ = false ∧ m.mods.readonly_ = false ∧ m.mods.static_ = false

/-- A member that takes the place of a virtual one, or is declared `new` in its place, is as accessible
as that one. -/
def SameAccess (ds : Decls) (m : Member) (hidden : Option Member) : Prop :=
  ∀ b, hidden = some b → m.kind = b.kind → VirtualLike b →
    m.mods.override_ = true ∨ m.mods.new_ = true →
    accessOf ds b ≠ .private_ → accessOf ds m ≠ .private_ → accessOf ds m = accessOf ds b

/-- The modifiers of a member of the type number `ti` are in order; `hidden` is the member of a class
above that it hides. -/
def ModifiersOk (ds : Decls) (ti : Nat) (m : Member) (hidden : Option Member) : Prop :=
  ((ds ti).kind = .interface_ → InterfaceRules m) ∧
  ((ds ti).kind ≠ .interface_ →
    (m.kind = .method ∨ m.kind = .property ∨ m.kind = .event → MethodRules ds (ds ti) m hidden) ∧
    (m.kind = .field ∨ m.kind = .typeDef ∨ m.kind = .type → FieldRules m)) ∧
  SameAccess ds m hidden

end Verif.Decl.Spec
