import Verif.Model.Dispatch

/-! # Which method a call has to run -/

namespace Verif.Dispatch

/-- The method with this prototype that a class declares, and its number. -/
def declared (c : Class) (p : Nat) : Option (Nat × Method) :=
  (c.methods.zipIdx.find? (fun x => decide (x.1.proto = p))).map (fun x => (x.2, x.1))

/-- The method that a call runs whose target is `e`, on an object of a class with the classes `ds` below
the target's class (the last one first): going down, each `override` takes the place; a method that hides
the target ends this.  The flag says that it was not hidden. -/
def slotImpl (p : Nat) (e : Entry) : List Class → Entry × Bool
  | [] => (e, true)
  | d :: ds =>
    let r := slotImpl p e ds
    if r.2 then
      match declared d p with
      | none => r
      | some (i, m) => if m.over then (d.entry i m, true) else (r.1, false)
    else r

/-- In the method table of the class, the virtual methods come first, then the overriding ones, then the
others. -/
def Ordered (c : Class) : Prop :=
  ∃ vs os rest, c.methods = vs ++ (os ++ rest) ∧ (∀ m ∈ vs, m.virt = true) ∧
    (∀ m ∈ os, m.virt = false ∧ m.over = true) ∧ (∀ m ∈ rest, m.virt = false ∧ m.over = false)

/-- A class with its base classes: no class declares a prototype twice, or one that it inherits, except
to override it; what is overridden is there, and virtual. -/
def Tidy : List Class → Prop
  | [] => True
  | c :: bases => (c.methods.map (·.proto)).Nodup ∧
    (∀ m ∈ c.methods, m.virt = true → m.over = false) ∧
    (∀ m ∈ c.methods, m.over = false → ∀ b ∈ bases, m.proto ∉ b.methods.map (·.proto)) ∧
    (∀ m ∈ c.methods, m.over = true → ∃ b ∈ bases, ∃ m' ∈ b.methods, m'.virt = true ∧ m'.proto = m.proto) ∧
    Tidy bases

/-- The target can be called with a virtual call: it is virtual, or it overrides (and then all classes
are of the assembly of the code that calls). -/
def Callable (cur : Nat) (chain : List Class) (m : Method) : Prop :=
  m.virt = true ∨ (m.over = true ∧ ∀ c ∈ chain, c.assembly = cur)

/-- A class below the target's class, with what the compiler looks at. -/
def Legal : List (Option Decl) → Option Decl → Prop
  | [], _ => True
  | d :: ds, target =>
    -- the member that `d` inherits is the nearest one above it
    let inherited := (ds.find? (·.isSome)).getD target
    (∀ m, d = some m → acceptModifiers m inherited = true) ∧ Legal ds target

/-- Is the target's place taken by an `override` further down? (`ds`: what the classes below declare under
the prototype, the last one first.) -/
def Overridden : List (Option Decl) → Prop
  | [] => False
  | d :: ds =>
    Overridden ds ∨ ((∀ x ∈ ds, x = none) ∧ ∃ m, d = some m ∧ m.over = true)

mutual
/-- An interface is another one, or derives from it. -/
def Iface.Extends : Iface → Nat → Prop
  | .mk i supers, t => t = i ∨ Iface.SomeExtends supers t
/-- One of several does. -/
def Iface.SomeExtends : List Iface → Nat → Prop
  | [], _ => False
  | i :: is, t => i.Extends t ∨ Iface.SomeExtends is t
end

/-- An object of the class (with its base classes) is of the target type. -/
def IsOf (chain : List Cls) : Target → Prop
  | .cls i => ∃ c ∈ chain, c.id = i
  | .iface i => ∃ c ∈ chain, Iface.SomeExtends c.ifaces i

/-- The table that a class has for its type tests, after any use: the interfaces of the class in some
order, and one of them as the one used last. -/
def TableOf (chain : List Cls) (t : ITable) : Prop :=
  (∀ i, i ∈ t.types ↔ i ∈ interfacesOf chain) ∧ (t.types ≠ [] → t.recently < t.types.length)

end Verif.Dispatch
