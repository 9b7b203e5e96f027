import Verif.Model.Vcall

/-!
# What a method has to run with
-/

namespace Verif.Vcall

mutual
/-- The type parameters are replaced. -/
def replace (σ : Nat → Option Ty) : Ty → Option Ty
  | .param n => σ n
  | .inst c args => (replaceAll σ args).map (.inst c)
def replaceAll (σ : Nat → Option Ty) : List Ty → Option (List Ty)
  | [] => some []
  | t :: ts => (replace σ t).bind fun t => (replaceAll σ ts).map (t :: ·)
end

/-- What the type parameters of a class stand for. -/
def meaning (W : World) (c : Nat) (args : List Ty) (n : Nat) : Option Ty :=
  (((W.cls c).params.map (W.name (W.cls c).assembly)).zip args).lookup n

/-- An object of class `c` with arguments `args` is, as an object of class `d`, one with the arguments `as`. -/
inductive Has (W : World) : Nat → List Ty → Nat → List Ty → Prop
  | self {c : Nat} {args : List Ty} : Has W c args c args
  | base {c b d : Nat} {args bargs bargs' as : List Ty} : (W.cls c).base = some (b, bargs) →
      replaceAll (meaning W c args) bargs = some bargs' → Has W b bargs' d as → Has W c args d as

/-- The names of the type parameters of a class. -/
def names (W : World) (c : Nat) : List Nat := (W.cls c).params.map (W.name (W.cls c).assembly)

/-- The names of the type parameters of a method. -/
def methodNames (W : World) (m : Method) : List Nat := m.params.map (W.name (W.cls m.owner).assembly)

/-- The frame is right for method `m`, called with the type arguments `margs`, of a class whose type arguments are `as`: it has the code and the references of
the assembly of the class, the type parameters of the method stand for `margs` and those of the class for `as`. -/
structure Right (W : World) (m : Method) (as margs : List Ty) (f : Frame) : Prop where
  assembly : f.assembly = (W.cls m.owner).assembly
  offset : f.offset = m.body
  method : ∀ n ∈ methodNames W m, f.env n = ((methodNames W m).zip margs).lookup n
  owner : ∀ n ∈ names W m.owner, n ∉ methodNames W m → f.env n = meaning W m.owner as n

end Verif.Vcall
