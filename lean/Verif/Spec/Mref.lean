import Verif.Model.Mref
import Verif.Spec.Rt

/-
  The signature of a method and the signature a reference to a method asks for.
-/

namespace Verif.Mref.Spec

open Verif.Asm Verif.Rt Verif.Rt.Spec

/-- What tells methods of a class apart: the name, the number of type parameters, the type of
    the result (none for `void`), and the kinds (`ref`, `out`, …) and types of the parameters. -/
structure Sig where
  name : String
  count : Nat
  ret : Option Ty
  params : List (Nat × Ty)

/-- The elements of two lists belong together, one by one. -/
inductive Pairs {α β : Type} (R : α → β → Prop) : List α → List β → Prop
  | nil : Pairs R [] []
  | cons {x y xs ys} : R x y → Pairs R xs ys → Pairs R (x :: xs) (y :: ys)

/-- The type of a reference in a reference to a method: a type without type parameters, or the
    type parameter of the class with this position, where `vs` are the values. -/
def RefType (S : System) (a : Nat) (vs : List Ty) (r : Ref) (u : Ty) : Prop :=
  (r.isNull = false ∧ r.extra = 5 ∧ vs[r.index]? = some u) ∨
  ∃ n, Asm.getType (S.tables a) r = .ok (some n) ∧ Means S a (fun _ _ => False) n u

/-- The type of a reference in a declaration, where `bind` tells what the type parameters of the
    class stand for. -/
def DeclType (S : System) (b : Nat) (bind : Nat → List Ty → Prop) (r : Ref) (u : Ty) : Prop :=
  ∃ n, Asm.getType (S.tables b) r = .ok (some n) ∧
    (∀ p, n = (.genericParam, p) → ¬ Pack (S.tables b) p) ∧ Means S b bind n u

/-- A type or, for `void`, none. -/
def Result (T : Ref → Ty → Prop) (r : Ref) : Option Ty → Prop
  | none => r.isNull = true
  | some u => T r u

/-- The signature that the reference with row `i` asks for. -/
def RefSig (S : System) (a : Nat) (vs : List Ty) (i : Nat) (s : Sig) : Prop :=
  let t := S.tables a
  let row := rowOf t (.methodRef, i)
  textAt row "name" = s.name ∧ numAt row "generic_param_count" = s.count ∧
  Result (RefType S a vs) (refAt row "type") s.ret ∧
  Pairs (fun g p => g < (t .methodRefParam).length ∧
      numAt (rowOf t (.methodRefParam, g)) "ptype" = p.1 ∧
      RefType S a vs (refAt (rowOf t (.methodRefParam, g)) "type") p.2)
    (rows (refAt row "params")) s.params

/-- The signature of the method with row `i`. -/
def DeclSig (S : System) (b : Nat) (bind : Nat → List Ty → Prop) (i : Nat) (s : Sig) : Prop :=
  let t := S.tables b
  let row := rowOf t (.method, i)
  i < (t .method).length ∧
  textAt row "name" = s.name ∧ (refAt row "generic_params").count = s.count ∧
  Result (DeclType S b bind) (refAt row "type") s.ret ∧
  Pairs (fun g p => g < (t .param).length ∧
      numAt (rowOf t (.param, g)) "param_type" = p.1 ∧
      DeclType S b bind (refAt (rowOf t (.param, g)) "type") p.2)
    (rows (refAt row "params")) s.params

/-- The type parameters `gs` stand for the types `vs`, one by one. -/
def At (gs : List Nat) (vs : List Ty) (p : Nat) (us : List Ty) : Prop :=
  ∃ (j : Nat) (u : Ty), gs[j]? = some p ∧ vs[j]? = some u ∧ us = [u]

/-- A class that is not nested, or an instance of one, with type parameters of different names
    that stand for one type each, and what they stand for; in the class itself they are not
    known. -/
inductive Top (S : System) (b i : Nat) (gs : List Nat) : Ty → List Ty → Prop
  | cls : Params (S.tables b) i gs → Host.hostOfClass (S.tables b) i = none →
      (∀ g ∈ gs, ¬ Pack (S.tables b) g) → (gs.map (nameOf (S.tables b))).Nodup →
      Top S b i gs (.cls b i) ((List.range gs.length).map .hole)
  | inst {args} : Params (S.tables b) i gs → (∀ g ∈ gs, ¬ Pack (S.tables b) g) →
      (gs.map (nameOf (S.tables b))).Nodup → args.length = gs.length →
      Top S b i gs (.inst b i none args) args

/-- The first of the methods with the signature; all have a signature. -/
inductive First (S : System) (b : Nat) (bind : Nat → List Ty → Prop) (s : Sig) :
    List Nat → Nat → Prop
  | here {i is} : DeclSig S b bind i s → First S b bind s (i :: is) i
  | later {i is k s'} : DeclSig S b bind i s' → s' ≠ s → First S b bind s is k →
      First S b bind s (i :: is) k

end Verif.Mref.Spec
