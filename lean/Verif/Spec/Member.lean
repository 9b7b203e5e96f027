import Verif.Model.Member

/-!
# What names behind a dot mean

Stated without the lookups of the model: a member belongs to the nearest type that declares the name.
-/

namespace Verif.Member.Spec

open Verif.Member

/-- Type `t` declares `m` under the name `n`, and `m` may be seen.  (Nested types with type parameters are not found by
the name alone.) -/
def Declares (W : World) (see : Member → Prop) (t n : Nat) (m : Member) : Prop :=
  m ∈ W.members t ∧ m.name = n ∧ (m.kind = .type → m.gcount = 0) ∧ see m

/-- `m` is what `n` means in type `t`: `t` declares it, or `t` declares nothing of the name and it is what the name means
in the base class, or, for an interface, in one of the interfaces above. -/
inductive Has (W : World) (see : Member → Prop) : Nat → Nat → Member → Prop
  | own {t n m} : Declares W see t n m → Has W see t n m
  | base {t n m b} : (∀ m', ¬ Declares W see t n m') → W.iface t = false → W.base t = some b →
      Has W see b n m → Has W see t n m
  | super {t n m s} : (∀ m', ¬ Declares W see t n m') → W.iface t = true → s ∈ W.supers t →
      Has W see s n m → Has W see t n m

/-- Everything may be seen. -/
def all : Member → Prop := fun _ => True

/-- The members that code in type `cur` may use. -/
def open_ (W : World) (cur : Nat) : Member → Prop := fun m => W.access cur m = true

/-- The types form no cycles: going up lowers a rank, and no rank reaches the height of the world. -/
structure Tower (W : World) (rank : Nat → Nat) : Prop where
  base : ∀ t b, W.base t = some b → rank b < rank t
  super : ∀ t s, s ∈ W.supers t → rank s < rank t
  below : ∀ t, rank t < W.height
  /-- A class has no interface as its base class, and all that is above an interface is an interface. -/
  classes : ∀ t b, W.iface t = false → W.base t = some b → W.iface b = false
  ifaces : ∀ t s, W.iface t = true → s ∈ W.supers t → W.iface s = true
  /-- No type lists a member twice. -/
  nodup : ∀ t, (W.members t).Nodup

/-- A member of a value and a static member of a type: what a receiver and a member must agree on. -/
def Fits (isType : Bool) (isStatic : Bool) : Prop := isType = isStatic

/-- The type of a bound expression: that of the variable, the member, the result. -/
def typeOf (E : Env) : Node → Nat
  | .lit t | .var _ t | .typ t | .this t | .base t => t
  | .mem _ m | .alias _ m => m.type
  | .call _ m _ => m.result
  | .apply _ (.value _ t) _ => E.ret t
  | .apply _ (.member m) _ => E.ret m.type

/-- The types of arguments, in their order. -/
def typesOf (E : Env) : Nodes → List Nat
  | .nil => []
  | .cons r rs => typeOf E r :: typesOf E rs

/-- In the scope, `n` is nothing or a method. -/
def NoVariable (E : Env) (n : Nat) : Prop :=
  E.scope n = none ∨ ∃ m, E.scope n = some (.member m) ∧ m.kind = .method

/-- Whether a bound expression is a type. -/
def isType : Node → Bool
  | .typ _ => true
  | .alias _ _ => true
  | _ => false

mutual

/-- `Means E e r`: by the rules of the language, `e` is an expression whose names mean what they mean in `r`. -/
inductive Means (E : Env) : Exp → Node → Prop
  | lit (t) : Means E (.lit t) (.lit t)
  | local_ {x id t} : E.scope x = some (.value id t) → Means E (.name x) (.var id t)
  /-- A plain name of a field or property: in a static method it has to be a static one. -/
  | plain {x m} : E.scope x = some (.member m) → m.kind = .field ∨ m.kind = .property →
      (E.inStatic = true → m.isStatic = true) → Means E (.name x) (.mem none m)
  | type {x t} : E.scope x = none → E.typeNames x = some t → Means E (.name x) (.typ t)
  | this : Means E .this (.this E.cur)
  | base {b} : E.W.base E.cur = some b → Means E .base (.base b)
  /-- `e.n` is the one accessible field or property of the nearest type that declares the name; it is static if and only if
  `e` is a type. -/
  | dot {e n r m} : Means E e r → Has E.W (open_ E.W E.cur) (typeOf E r) n m →
      (∀ m', Has E.W (open_ E.W E.cur) (typeOf E r) n m' → m' = m) →
      m.kind = .field ∨ m.kind = .property → Fits (isType r) m.isStatic →
      Means E (.dot e n) (.mem (some r) m)
  /-- `T.n` is the type that an accessible name for a type stands for. -/
  | alias {e n r m} : Means E e r → Has E.W (open_ E.W E.cur) (typeOf E r) n m →
      (∀ m', Has E.W (open_ E.W E.cur) (typeOf E r) n m' → m' = m) →
      m.kind = .typeDef → isType r = true → Means E (.dot e n) (.alias r m)
  /-- `e.n(…)` is a call of the accessible method that is picked in the type of `e`; it is static if and only if `e` is a type. -/
  | call {e n args r as m} : Means E e r → MeansAll E args as →
      E.W.pick (typeOf E r) n (typesOf E as) = some m → E.W.accessMeth E.cur m = true →
      Fits (isType r) m.isStatic → Means E (.call e n args) (.call (some r) m as)
  /-- `n(…)` is a call of the method that is picked in the type around, unless `n` is a variable. -/
  | bare {n args as m} : NoVariable E n → MeansAll E args as →
      E.W.pick E.cur n (typesOf E as) = some m → E.W.accessMeth E.cur m = true →
      (E.inStatic = true → m.isStatic = true) → Means E (.bare n args) (.call none m as)
  /-- `n(…)` is a call of the delegate in `n` when `n` is a variable. -/
  | apply {n args as id t} : E.scope n = some (.value id t) → MeansAll E args as →
      Means E (.bare n args) (.apply none (.value id t) as)
  /-- The same for a field or property. -/
  | applyMember {n args as m} : E.scope n = some (.member m) → m.kind = .field ∨ m.kind = .property →
      (E.inStatic = true → m.isStatic = true) → MeansAll E args as →
      Means E (.bare n args) (.apply none (.member m) as)

/-- The same for arguments. -/
inductive MeansAll (E : Env) : Exps → Nodes → Prop
  | nil : MeansAll E .nil .nil
  | cons {e es r rs} : Means E e r → MeansAll E es rs → MeansAll E (.cons e es) (.cons r rs)

end

/-! ## Where the compiler keeps the rules -/

mutual

/-- No call behind a dot has the name of a variable that is in scope. -/
def Unshadowed (E : Env) : Exp → Prop
  | .dot e _ => Unshadowed E e
  | .call e n args => NoVariable E n ∧ Unshadowed E e ∧ UnshadowedAll E args
  | .bare _ args => UnshadowedAll E args
  | _ => True

/-- The same for arguments. -/
def UnshadowedAll (E : Env) : Exps → Prop
  | .nil => True
  | .cons e es => Unshadowed E e ∧ UnshadowedAll E es

end

/-- Whether a bound expression is a name for a type behind a dot. -/
def isAlias : Node → Bool
  | .alias _ _ => true
  | _ => false

/-- A constant of a class, whose value is known to the compiler. -/
def isConstant (m : Member) : Prop := m.kind = .field ∧ m.isStatic = true ∧ m.isConst = true

mutual

/-- What the compiler does not look at: that calls, and constants, have a receiver that fits; that a plain name on the left of a dot fits
into a static method; that a name for a type is taken from a type; that names for types and values are not methods.
`left` says that the expression is the left side of a dot. -/
def Careful (E : Env) (left : Bool) : Node → Prop
  | .mem none m => (m.kind = .field ∨ m.kind = .property) ∧ (left = true → E.inStatic = true → m.isStatic = true)
  | .mem (some r) m => Careful E true r ∧ (m.kind = .field ∨ m.kind = .property) ∧
      (isConstant m ∨ isAlias r = true → Fits (isType r) m.isStatic)
  | .alias r _ => isType r = true ∧ Careful E true r
  | .call none m args => CarefulAll E args ∧ (E.inStatic = true → m.isStatic = true)
  | .call (some r) m args => Careful E true r ∧ CarefulAll E args ∧ Fits (isType r) m.isStatic
  | .apply _ (.member m) args => CarefulAll E args ∧ (m.kind = .field ∨ m.kind = .property) ∧
      (left = true → E.inStatic = true → m.isStatic = true)
  | .apply _ (.value _ _) args => CarefulAll E args
  | _ => True

/-- The same for arguments. -/
def CarefulAll (E : Env) : Nodes → Prop
  | .nil => True
  | .cons r rs => Careful E false r ∧ CarefulAll E rs

end

/-- A use by its plain name that the compiler can make code for: a static member, unless it is a constant, only in a
static method and not on the left of a dot; a property never on the left of a dot. -/
def PlainUse (E : Env) (left : Bool) (m : Member) : Prop :=
  (m.isStatic = true → isConstant m ∨ (E.inStatic = true ∧ left = false)) ∧ (left = true → m.kind ≠ .property)

mutual

/-- What the compiler rejects, or fails on, without need, does not occur: plain names are used as in `PlainUse`, and
static members are not taken from a name for a type behind a dot. -/
def Humble (E : Env) (left : Bool) : Node → Prop
  | .mem none m => PlainUse E left m
  | .mem (some r) m => Humble E true r ∧ (isAlias r = true → isConstant m)
  | .alias r _ => Humble E true r
  | .call none _ args => HumbleAll E args
  | .call (some r) _ args => Humble E true r ∧ HumbleAll E args
  | .apply _ (.member m) args => HumbleAll E args ∧ PlainUse E left m
  | .apply _ (.value _ _) args => HumbleAll E args
  | _ => True

/-- The same for arguments. -/
def HumbleAll (E : Env) : Nodes → Prop
  | .nil => True
  | .cons r rs => Humble E false r ∧ HumbleAll E rs

end

/-- No member that may not be used stands in front of one that may, or beside it. -/
def Unhidden (W : World) (cur : Nat) : Prop :=
  ∀ t n m, Has W (open_ W cur) t n m → ∀ m', Has W all t n m' ↔ Has W (open_ W cur) t n m'

/-- No two members other than methods compete for a name: the classes have no duplicates and no interface takes over two
members of one name. -/
def Clear (W : World) (cur : Nat) : Prop :=
  ∀ t n m m', Has W (open_ W cur) t n m → Has W (open_ W cur) t n m' → m.kind ≠ .method → m' = m

end Verif.Member.Spec
