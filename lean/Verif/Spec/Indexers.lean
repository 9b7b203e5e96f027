import Verif.Spec.Overload
import Verif.Model.Indexers

/-!
# Which indexer `x[i]` should mean

Types, conversions (`Converts`) and what an argument must be for a parameter (`Fits`, `AllFit`) are those of the
specification of method calls.
-/

namespace Verif.Indexers

open Verif.Overload (Ty Slot World AllFit Converts Above Reaches)

/-- The properties that `x[i]` may mean: indexers that do not implement an interface explicitly. -/
def IsIndexer (p : Property) (ps : List Slot) : Prop := p.item = true ∧ p.owner = none ∧ p.params = some ps

/-- It has exactly these parameters. -/
def Exact (p : Property) (as : List Slot) : Prop := IsIndexer p as

/-- The arguments can be used for its parameters. -/
def Applicable (W : World) (p : Property) (as : List Slot) : Prop :=
  ∃ ps, IsIndexer p ps ∧ AllFit (Converts W) ps as

/-- What `x[i]` means among the properties of one class: the indexer with exactly these parameters; otherwise the only
one that is applicable; more than one is an error. -/
inductive Chosen (W : World) (as : List Slot) (ps : List Property) : Res → Prop
  | exact {p : Property} : p ∈ ps → Exact p as → Chosen W as ps (.found p)
  | only {p : Property} : (∀ q ∈ ps, ¬ Exact q as) → p ∈ ps → Applicable W p as →
      (∀ q ∈ ps, Applicable W q as → q = p) → Chosen W as ps (.found p)
  | ambiguous {p q : Property} : (∀ q ∈ ps, ¬ Exact q as) → p ∈ ps → q ∈ ps → p ≠ q →
      Applicable W p as → Applicable W q as → Chosen W as ps .conflict
  | nothing : (∀ p ∈ ps, ¬ Applicable W p as) → Chosen W as ps .notFound

/-- The class itself, then its base class, and so on. -/
inductive ChosenUp (W : World) (props : Ty → List Property) (as : List Slot) : Option Ty → Res → Prop
  | top : ChosenUp W props as none .notFound
  | here {t : Ty} {x : Res} : Chosen W as (props t) x → x ≠ .notFound → ChosenUp W props as (some t) x
  | up {t : Ty} {x : Res} : Chosen W as (props t) .notFound → ChosenUp W props as (W.baseOf t) x →
      ChosenUp W props as (some t) x

/-- What holds of the properties of a class: none is listed twice, no type parameter is in the parameters of an indexer, and
the arguments are plain for them. -/
structure Ready (W : World) (as : List Slot) (ps : List Property) : Prop where
  nodup : ps.Nodup
  closed : ∀ p ∈ ps, ∀ l, IsIndexer p l → ∀ x ∈ l, x.2.closed = true
  plain : ∀ p ∈ ps, ∀ l, IsIndexer p l → W.PlainCall l as

/-- No two indexers have the same parameters. -/
def Different (ps : List Property) : Prop := ∀ p ∈ ps, ∀ q ∈ ps, ∀ l, IsIndexer p l → IsIndexer q l → p = q

end Verif.Indexers
