import Verif.Model.Overload

/-!
# Which method a call should mean

Types, methods and worlds are those of the model; nothing else of it is used.
-/

namespace Verif.Overload

open Verif.Fold (VT)

/-! ## Conversions -/

/-- One step of a numeric widening. -/
inductive WidenStep : VT → VT → Prop
  | i8 : WidenStep .int8 .int16
  | i16 : WidenStep .int16 .int32
  | i32 : WidenStep .int32 .int64
  | i64 : WidenStep .int64 .float
  | u8 : WidenStep .uint8 .uint16
  | u16 : WidenStep .uint16 .uint32
  | u32 : WidenStep .uint32 .uint64
  | f : WidenStep .float .double

/-- Numeric widening. -/
inductive Widens : VT → VT → Prop
  | one {a b : VT} : WidenStep a b → Widens a b
  | trans {a b c : VT} : WidenStep a b → Widens b c → Widens a c

/-- A type derives from another one, through any number of direct super types. -/
inductive Derives (W : World) : Ty → Ty → Prop
  | one {a b : Ty} : b ∈ W.supers a → Derives W a b
  | trans {a b c : Ty} : b ∈ W.supers a → Derives W b c → Derives W a c

/-- A value of the first type can be used where the second one is expected. -/
inductive Converts (W : World) : Ty → Ty → Prop
  | same {a : Ty} : Converts W a a
  | null {b : Ty} : W.isRef b = true → Converts W .null b
  | widen {c d : Nat} : W.isEnum c = false → W.isEnum d = false → Widens (W.vt c) (W.vt d) →
      Converts W (.base c) (.base d)
  | upcast {a b : Ty} : Derives W a b → Converts W a b

/-! ## Methods -/

/-- The argument fits the parameter: the same passing mode, and the same type; or, by value, a type that
converts to the one of the parameter; or, for `out`, the other way round. -/
def Fits (conv : Ty → Ty → Prop) (p a : Slot) : Prop :=
  p.1 = a.1 ∧ (p.2 = a.2 ∨ (p.1 = .out ∧ conv p.2 a.2) ∨ (p.1 ≠ .ref ∧ p.1 ≠ .out ∧ conv a.2 p.2))

/-- Argument for argument. -/
inductive AllFit (conv : Ty → Ty → Prop) : List Slot → List Slot → Prop
  | nil : AllFit conv [] []
  | cons {p a : Slot} {ps as : List Slot} : Fits conv p a → AllFit conv ps as → AllFit conv (p :: ps) (a :: as)

/-- The call `as` has exactly the parameters of the method. -/
def Exact (m : Method) (as : List Slot) : Prop := m.params = as

/-- The call `as` may mean the method. -/
def Applicable (W : World) (m : Method) (as : List Slot) : Prop := AllFit (Converts W) m.params as

/-- What a call means among the methods of one class. -/
inductive Answer where
  | method (m : Method)
  | ambiguous
  | nothing
  deriving DecidableEq

/-- An answer as an outcome of the lookup. -/
def Answer.res : Answer → Res
  | .method m => .found ⟨m, []⟩
  | .ambiguous => .conflict
  | .nothing => .notFound

/-- The method with exactly these parameters; otherwise the only one that is applicable; more than one is an
error. -/
inductive Chosen (W : World) (as : List Slot) (ms : List Method) : Answer → Prop
  | exact {m : Method} : m ∈ ms → Exact m as → Chosen W as ms (.method m)
  | only {m : Method} : (∀ m' ∈ ms, ¬ Exact m' as) → m ∈ ms → Applicable W m as →
      (∀ m' ∈ ms, Applicable W m' as → m' = m) → Chosen W as ms (.method m)
  | ambiguous {m m' : Method} : (∀ m' ∈ ms, ¬ Exact m' as) → m ∈ ms → m' ∈ ms → m ≠ m' →
      Applicable W m as → Applicable W m' as → Chosen W as ms .ambiguous
  | nothing : (∀ m ∈ ms, ¬ Applicable W m as) → Chosen W as ms .nothing

/-- The methods of a list that have the name, without type parameters. -/
def namedIn (name : Nat) (ms : List Method) : List Method :=
  ms.filter fun m => decide (m.name = name ∧ m.gparams = [])

/-- The methods of the type that have the name, without type parameters. -/
def World.named (W : World) (name : Nat) (t : Ty) : List Method := namedIn name (W.methods t)

/-- The class itself, then its base class, and so on. -/
inductive ChosenUp (W : World) (name : Nat) (as : List Slot) : Option Ty → Answer → Prop
  | top : ChosenUp W name as none .nothing
  | here {t : Ty} {x : Answer} : Chosen W as (W.named name t) x → x ≠ .nothing → ChosenUp W name as (some t) x
  | up {t : Ty} {x : Answer} : Chosen W as (W.named name t) .nothing →
      ChosenUp W name as (W.baseOf t) x → ChosenUp W name as (some t) x

/-- `t` is reached from `s` through direct super types. -/
inductive Reaches (W : World) : Ty → Ty → Prop
  | refl {t : Ty} : Reaches W t t
  | step {a b c : Ty} : b ∈ W.supers a → Reaches W b c → Reaches W a c

/-! ## Type parameters -/

mutual
/-- Replaces the type parameters. -/
def Ty.subst (σ : List (Nat × Ty)) : Ty → Ty
  | .param n => (σ.lookup n).getD (.param n)
  | .gen t args => .gen t (args.subst σ)
  | .arr e d => .arr (e.subst σ) d
  | .null => .null
  | .base c => .base c
/-- Replaces the type parameters. -/
def Tys.subst (σ : List (Nat × Ty)) : Tys → Tys
  | .nil => .nil
  | .cons t ts => .cons (t.subst σ) (ts.subst σ)
end

/-- The parameters of the method with its type parameters replaced. -/
def Method.at (m : Method) (ts : List Ty) : List Slot :=
  m.params.map fun p => (p.1, p.2.subst (m.gparams.zip ts))

mutual
/-- All type parameters in the type are among these. -/
def Ty.over (ns : List Nat) : Ty → Bool
  | .param n => decide (n ∈ ns)
  | .gen _ args => args.over ns
  | .arr e _ => e.over ns
  | .null => true
  | .base _ => true
/-- All type parameters in the types are among these. -/
def Tys.over (ns : List Nat) : Tys → Bool
  | .nil => true
  | .cons t ts => t.over ns && ts.over ns
end

mutual
/-- Below the top, there are only type parameters and generic types. -/
def Ty.onlyParams : Ty → Bool
  | .param _ => true
  | .gen _ args => args.onlyParams
  | _ => false
/-- The same for all of a list. -/
def Tys.onlyParams : Tys → Bool
  | .nil => true
  | .cons t ts => t.onlyParams && ts.onlyParams
end

/-- The type has no type parameters. -/
def Ty.closed (t : Ty) : Bool := t.over []

/-- A parameter whose type arguments can be inferred: without type parameters, a type parameter, or a generic
type with nothing but type parameters and generic types in it. -/
def Inferable (p : Ty) : Prop := p.closed = true ∨ p.onlyParams = true

mutual
/-- No array has a type parameter in its element type. -/
def Ty.arraysClosed : Ty → Bool
  | .arr e _ => e.over []
  | .gen _ args => args.arraysClosed
  | _ => true
/-- The same for a list. -/
def Tys.arraysClosed : Tys → Bool
  | .nil => true
  | .cons t ts => t.arraysClosed && ts.arraysClosed
end

/-- A template is an object type, and no argument has the bare template, or a class derived from it, as its
type. -/
def Instantiated (W : World) (p a : Ty) : Prop :=
  ∀ t ps c, p = .gen t ps → a = .base c → W.vt t = .mobject ∧ c ≠ t ∧ ¬ Derives W (.base c) (.base t)

/-! ## Well-formed programs -/

/-- Classes, interfaces, generic types and arrays: what can be a super type. -/
def World.ObjectType (W : World) : Ty → Prop
  | .base c => W.vt c = .mobject
  | .gen _ _ => True
  | .arr _ _ => True
  | .null => False
  | .param _ => False

/-- The parts of a world agree: the test for super types finds what a type derives from; super types are
object types; except for enums, no two primitive types have the same representation. -/
structure World.Good (W : World) : Prop where
  sup_iff : ∀ a b, W.sup a b = true ↔ Derives W a b
  supers : ∀ a b, b ∈ W.supers a → W.ObjectType b
  distinct : ∀ c d, W.vt c = W.vt d → W.vt c ≠ .mobject → W.isEnum c = false → W.isEnum d = false → c = d

/-- The pairs of types for which a conversion means what it should: `null` only for references, not two
different type parameters, not an enum and another primitive type. -/
def World.Plain (W : World) (a b : Ty) : Prop :=
  b ≠ .null ∧ (a = .null → W.isRef b = true) ∧ (∀ n k, a = .param n → b = .param k → n = k) ∧
  (∀ c d, a = .base c → b = .base d → c ≠ d → W.vt c ≠ .mobject → W.vt d ≠ .mobject →
    W.isEnum c = false ∧ W.isEnum d = false)

/-- All arguments and parameters of a call are such pairs. -/
def World.PlainCall (W : World) (ps as : List Slot) : Prop :=
  ∀ (i : Nat) (p a : Slot), ps[i]? = some p → as[i]? = some a →
    (p.1 = .out → W.Plain p.2 a.2) ∧ (p.1 ≠ .out → W.Plain a.2 p.2)

/-- What holds of the methods of a class that a call may mean: none of them is listed twice, their
parameters have no type parameters, and the call is plain. -/
structure World.Ready (W : World) (as : List Slot) (ms : List Method) : Prop where
  nodup : ms.Nodup
  closed : ∀ m ∈ ms, ∀ p ∈ m.params, p.2.closed = true
  plain : ∀ m ∈ ms, W.PlainCall m.params as

/-- The chain of base classes ends after this many classes. -/
inductive Height (W : World) : Option Ty → Nat → Prop
  | top : Height W none 0
  | step {t : Ty} {k : Nat} : Height W (W.baseOf t) k → Height W (some t) (k + 1)

/-- The class or one of its base classes. -/
inductive Above (W : World) : Option Ty → Ty → Prop
  | here {t : Ty} : Above W (some t) t
  | up {t s : Ty} : Above W (W.baseOf t) s → Above W (some t) s

/-- The types whose methods a call on the type may mean: itself, and for a class its base classes, for an interface
all interfaces above it. -/
def Sees (W : World) (t d : Ty) : Prop := (W.iface t = false ∧ Above W (some t) d) ∨ (W.iface t = true ∧ Reaches W t d)

end Verif.Overload
