import Verif.Model.Giface
import Verif.Spec.Gvirt

/-! # Which method implements a method of a generic interface -/

namespace Verif.Giface

open Verif.Gvirt

/-- The type parameters that a type mentions. -/
def mentions : Ty → List Nat
  | .param n => [n]
  | .cls _ => []
  | .app f a => mentions f ++ mentions a

/-- The type parameters that the prototype of a method mentions. -/
def Mentions (m : Method) (n : Nat) : Prop := n ∈ mentions m.ret ∨ ∃ p ∈ m.params, n ∈ mentions p.2

/-- What a type parameter of a class or an interface with type arguments stands for. -/
def meaning (l : Link) (n : Nat) : Option Ty := (l.1.typeParams.zip l.2).lookup n

/-- The method of a class whose prototype, with the type parameters replaced, is this one. -/
def declaredAt (l : Link) (k : Key) : Option Entry :=
  (l.1.methods.zipIdx.find? (fun x => decide (keyAt l.1 l.2 x.1 = k))).map (fun x => ⟨l.1.id, x.2, x.1⟩)

/-- The method that implements a prototype: that of the first class that has one, starting at the class that has the interface and going up. -/
def implements (k : Key) : List Link → Option Entry
  | [] => none
  | l :: bases =>
    match declaredAt l k with
    | some x => some x
    | none => implements k bases

/-- No class has two methods with the same prototype, after its type parameters are replaced. -/
def Distinct (chain : List Link) : Prop := ∀ l ∈ chain, (l.1.methods.map (keyAt l.1 l.2)).Nodup

/-- The type parameters that methods of the classes mention mean the same thing everywhere: if the interface has one with this name, it stands for
the same type; if not, the class of the object has one, and it does. -/
def Unambiguous (iface object : Link) (chain : List Link) : Prop :=
  ∀ l ∈ chain, ∀ m ∈ l.1.methods, ∀ n, Mentions m n → ∃ t, meaning l n = some t ∧
    (meaning iface n = some t ∨ (meaning iface n = none ∧ meaning object n = some t))

end Verif.Giface
