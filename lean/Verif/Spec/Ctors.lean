import Verif.Model.Ctors

/-!
# How an object is constructed

The base class's part is constructed first, with the arguments behind `: base`; then the fields of the class get their initial
values in the order of their declaration; then the body of the constructor runs.
-/

namespace Verif.Ctors.Spec

open Verif.Ctors

/-- `K` is a constructor of the class for `n` arguments: a declared one, or the one without parameters when none is declared. -/
def IsCtor (C : Class) (n : Nat) (K : Ctor) : Prop :=
  (K ∈ C.ctors ∧ K.params = n) ∨ (C.ctors = [] ∧ n = 0 ∧ K = { params := 0 })

/-- The fields get the initial values that are written. -/
def initial (c : Nat) : Nat → List (Option Init) → Obj → Obj
  | _, [], o => o
  | i, some (.const v) :: fs, o => initial c (i + 1) fs (o.set c i v)
  | i, _ :: fs, o => initial c (i + 1) fs o

/-- `o'` is `o` after the part of class `c` has been constructed in it with these arguments. -/
inductive Made (P : Prog) : Nat → List Int → Obj → Obj → Prop
  | root {c : Nat} {C : Class} {K : Ctor} {args : List Int} {o : Obj} (hc : P[c]? = some C) (hk : IsCtor C args.length K)
      (hb : C.base = none) (ha : K.base.getD [] = []) : Made P c args o (K.body args (initial c 0 C.fields o))
  | derived {c b : Nat} {C : Class} {K : Ctor} {args : List Int} {o o' : Obj} (hc : P[c]? = some C)
      (hk : IsCtor C args.length K) (hb : C.base = some b) (hm : Made P b ((K.base.getD []).map fun f => f args o) o o') :
      Made P c args o (K.body args (initial c 0 C.fields o'))

/-- A base class is declared. -/
def BaseOk (P : Prog) : Prop := ∀ (c : Nat) (C : Class) (b : Nat), P[c]? = some C → C.base = some b → b < c

/-- No class has two constructors with the same parameters. -/
def Distinct (P : Prog) : Prop :=
  ∀ (c : Nat) (C : Class), P[c]? = some C → ∀ (i j : Nat) (K K' : Ctor), C.ctors[i]? = some K → C.ctors[j]? = some K' → K.params = K'.params → i = j

/-- All initial values are constant. -/
def Constant (P : Prog) : Prop := ∀ (c : Nat) (C : Class), P[c]? = some C → ∀ f ∈ C.fields, ∀ i, f = some i → ∃ v, i = .const v

/-- Every constructor names arguments for which its base class itself has a constructor. -/
def OwnBase (P : Prog) : Prop :=
  ∀ (c : Nat) (C : Class) (n : Nat) (K : Ctor), P[c]? = some C → IsCtor C n K →
    match C.base with
    | none => K.base.getD [] = []
    | some b => ∃ (B : Class) (K' : Ctor), P[b]? = some B ∧ IsCtor B (K.base.getD []).length K'

/-- `a` is `c` or a base class of it. -/
inductive Above (P : Prog) : Nat → Nat → Prop
  | self (c : Nat) : Above P c c
  | base {c b a : Nat} {C : Class} : P[c]? = some C → C.base = some b → Above P b a → Above P c a

/-- Constructors assign only fields that their class or a base class of it declares. -/
def Local (P : Prog) : Prop :=
  ∀ (c : Nat) (C : Class) (n : Nat) (K : Ctor), P[c]? = some C → IsCtor C n K →
    ∀ a, ¬ Above P c a → ∀ args o i, (K.body args o).flds a i = o.flds a i

/-- No body of a constructor assigns field `i` of class `a`. -/
def Keeps (P : Prog) (a i : Nat) : Prop :=
  ∀ (c : Nat) (C : Class) (n : Nat) (K : Ctor), P[c]? = some C → IsCtor C n K →
    ∀ args o, (K.body args o).flds a i = o.flds a i

end Verif.Ctors.Spec
