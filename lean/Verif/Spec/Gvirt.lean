import Verif.Model.Gvirt

/-! # Which method a virtual call has to run, in hierarchies with generic classes -/

namespace Verif.Gvirt

/-- What has to agree for one method to override another: name, number of type parameters, type, kinds and types of the parameters. -/
abbrev Key := Nat × Nat × Ty × List (Nat × Ty)

def Method.key (m : Method) : Key := (m.name, m.typeParams, m.ret, m.params)

/-- A type without type parameters in it. -/
def Ty.Closed : Ty → Prop
  | .param _ => False
  | .cls _ => True
  | .app f a => f.Closed ∧ a.Closed

/-- A method whose types do not mention type parameters, of its class or its own. -/
def Method.Plain (m : Method) : Prop := m.ret.Closed ∧ ∀ p ∈ m.params, p.2.Closed

/-- The method of a class with this prototype, and its number. -/
def declared (c : Class) (k : Key) : Option (Nat × Method) :=
  (c.methods.zipIdx.find? (fun x => decide (x.1.key = k))).map (fun x => (x.2, x.1))

/-- The method with this prototype of the first class that has one, starting at the class of the object and going up. -/
def nearest (k : Key) : List Class → Option Entry
  | [] => none
  | c :: bases =>
    match declared c k with
    | some (i, m) => some ⟨c.id, i, m⟩
    | none => nearest k bases

/-- In the method table of the class, the virtual methods come first, then the overriding ones, then the others. -/
def Ordered (c : Class) : Prop :=
  ∃ vs os rest, c.methods = vs ++ (os ++ rest) ∧ (∀ m ∈ vs, m.virt = true) ∧
    (∀ m ∈ os, m.virt = false ∧ m.over = true) ∧ (∀ m ∈ rest, m.virt = false ∧ m.over = false)

/-- A class with its base classes: no class declares a prototype twice, or one that it inherits, except to override it; what is overridden
is there, and virtual. -/
def Tidy : List Class → Prop
  | [] => True
  | c :: bases => (c.methods.map (·.key)).Nodup ∧
    (∀ m ∈ c.methods, m.virt = true → m.over = false) ∧
    (∀ m ∈ c.methods, m.over = false → ∀ b ∈ bases, m.key ∉ b.methods.map (·.key)) ∧
    (∀ m ∈ c.methods, m.over = true → ∃ b ∈ bases, ∃ m' ∈ b.methods, m'.virt = true ∧ m'.key = m.key) ∧
    Tidy bases

/-- What the types of a method are when the type parameters are replaced: `f` says by what. -/
def Ty.replace (f : Nat → Ty) : Ty → Ty
  | .param n => f n
  | .cls t => .cls t
  | .app t a => .app (t.replace f) (a.replace f)

/-- The prototype of a method of a class with these type arguments. -/
def keyAt (c : Class) (args : List Ty) (m : Method) : Key :=
  let f : Nat → Ty := fun n => ((c.typeParams.zip args).lookup n).getD (.param n)
  (m.name, m.typeParams, m.ret.replace f, m.params.map (fun p => (p.1, p.2.replace f)))

end Verif.Gvirt
