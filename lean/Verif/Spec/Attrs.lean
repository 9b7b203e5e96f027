import Verif.Model.Attrs

/-!
# What attributes should do
-/

namespace Verif.Attrs

/-- The methods marked `[EntryPoint]`, in order, with repetitions. -/
def entries (as : List Attr) : List Nat :=
  as.filterMap fun a => match a.kind, a.owner with
    | .entryPoint, .method m => some m
    | _, _ => none

/-- No modifier that has to do with overriding, and not `const` or `readonly`. -/
def Plain (d : Decor) : Prop :=
  d.isSealed = false ∧ d.isOverride = false ∧ d.isVirtual = false ∧ d.isAbstract = false ∧ d.isNew = false ∧ d.isConst = false ∧
    d.isReadonly = false

/-- `public static void F()`. -/
def Proper (m : Method) : Prop :=
  m.result ≠ some false ∧ m.generics = 0 ∧ m.params = 0 ∧
    ∃ d, m.decor = some d ∧ d.access = .pub ∧ d.isStatic = true ∧ Plain d

/-- `static extern`, and nothing to do with overriding. -/
def ProperExtern (m : Method) : Prop := ∃ d, m.decor = some d ∧ d.isStatic = true ∧ d.isExtern = true ∧ Plain d

/-- Every type that is marked `[Internal]` is one that the compiler knows. -/
def Known (P : Program) (as : List Attr) : Prop := ∀ t, ⟨.internal, .type t⟩ ∈ as → P.identity t ∈ internalNames

end Verif.Attrs
