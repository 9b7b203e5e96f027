import Verif.Model.Overload

/-!
# Choosing the indexer that `x[i]` means

Model of the walk over an index expression (`modules/compile/ast_utils.cpp:1063-1103`), of the choice among the indexers of one
class (`modules/core/core.cpp:3547-3674`, `3696-3705`) and of the search through the base classes and the base
interfaces (`core.cpp:4958-5062`).  The comparison of arguments with parameters is `Verif.Overload.compareAll`.

Simplifications.  Types are those of `Verif.Model.Overload`; the type of an argument is always known.  What the
walk of the body and of the arguments does is not modelled here (`Verif.Model.Member`).
-/

namespace Verif.Indexers

open Verif.Overload (Ty Slot World compareAll)

/-- `property_t`, what a lookup reads.  `item`: its name is the one of indexers (`include/modules/core.h:39`), which any
property may have.  `owner`: the interface that it implements explicitly.  A plain property has no list of parameters. -/
structure Property where
  id : Nat
  item : Bool
  owner : Option Nat
  params : Option (List Slot)
  deriving DecidableEq

/-- The fields of `__property_index_analyzer_t` — `core.cpp:3600-3603`. -/
structure Acc where
  equaled : Option Property
  matched : List Property

/-- `__analyzer` — `core.cpp:3606-3631`; `none` is the exception `unexpected`. -/
def analyzeOne (W : World) (owner : Option Nat) (as : List Slot) (s : Acc) (p : Property) : Option Acc :=
  if p.owner ≠ owner then some s
  else match p.item, p.params with
    | true, some ps =>
      -- `__compare_arguments`, `core.cpp:3634-3645`
      if ps.length ≠ as.length then some s
      else match (compareAll W false [] ps as).1 with
        | .equals => some { s with equaled := some p }
        | .matched => some { s with matched := s.matched ++ [p] }
        | .notMatch => some s
        | _ => none
    | _, _ => some s

/-- `analyze` — `core.cpp:3559-3567`. -/
def analyze (W : World) (owner : Option Nat) (as : List Slot) : List Property → Acc → Option Acc
  | [], s => some s
  | p :: ps, s =>
    match analyzeOne W owner as s p with
    | some s => analyze W owner as ps s
    | none => none

/-- The outcome of a lookup; `conflict` and `unexpected` are exceptions. -/
inductive Res where
  | found (p : Property)
  | notFound
  | conflict
  | unexpected
  | outOfFuel
  deriving DecidableEq

/-- `get_property` — `core.cpp:3569-3584`. -/
def Acc.result (exact : Bool) (s : Acc) : Res :=
  match s.equaled with
  | some p => .found p
  | none =>
    if exact then .notFound
    else match s.matched with
      | _ :: _ :: _ => .conflict
      | [p] => .found p
      | [] => .notFound

/-- `__analyze_property_index` — `core.cpp:3666-3673` — for the properties of one type. -/
def inType (W : World) (owner : Option Nat) (exact : Bool) (as : List Slot) (ps : List Property) : Res :=
  match analyze W owner as ps ⟨none, []⟩ with
  | some s => s.result exact
  | none => .unexpected

/-! ## Base classes and base interfaces -/

/-- `__get_member_for_non_interface` — `core.cpp:5008-5018`.  `own` is the lookup in one type, `walked` is
`__walked_types`; the first argument bounds the number of steps. -/
def inBases (W : World) (own : Ty → Res) : Nat → List Ty → Option Ty → Res
  | 0, _, _ => .outOfFuel
  | _ + 1, _, none => .notFound
  | n + 1, walked, some t =>
    if t ∈ walked then .notFound
    else match own t with
      | .notFound => inBases W own n (t :: walked) (W.baseOf t)
      | r => r

/-- The loop over the super types — `core.cpp:5030-5033`. -/
def eachSuper (visit : Ty → List Ty → Res × List Ty) : List Ty → List Ty → Res × List Ty
  | [], walked => (.notFound, walked)
  | s :: ss, walked =>
    match visit s walked with
    | (.notFound, walked) => eachSuper visit ss walked
    | r => r

/-- `__get_member_for_interface` — `core.cpp:5021-5036`. -/
def inInterface (W : World) (own : Ty → Res) : Nat → Ty → List Ty → Res × List Ty
  | 0, _, walked => (.outOfFuel, walked)
  | n + 1, t, walked =>
    if t ∈ walked then (.notFound, walked)
    else match own t with
      | .notFound => eachSuper (inInterface W own n) (W.supers t) (t :: walked)
      | r => (r, t :: walked)

/-- `type_t::get_member` with base types — `core.cpp:4989-5005`, `5057-5060`. -/
def getMember (W : World) (own : Ty → Res) (n : Nat) (t : Ty) : Res :=
  if W.iface t then (inInterface W own n t []).1
  else match own t with
    | .notFound => inBases W own n [t] (W.baseOf t)
    | r => r

/-! ## Index expressions -/

/-- What an index expression is bound to; `undetermined` is the error `property_index_undetermind`, the last ones are
exceptions. -/
inductive Bound where
  | element (t : Ty)
  | indexer (p : Property)
  | undetermined
  | conflict
  | unexpected
  | outOfFuel
  deriving DecidableEq

/-- An outcome of the lookup in `__walk_index` — `ast_utils.cpp:1087-1100`. -/
def Res.bound : Res → Bound
  | .found p => .indexer p
  | .notFound => .undetermined
  | .conflict => .conflict
  | .unexpected => .unexpected
  | .outOfFuel => .outOfFuel

/-- `__walk_index` — `ast_utils.cpp:1063-1103`: an expression of type `t` with arguments of these types. -/
def walkIndex (W : World) (props : Ty → List Property) (n : Nat) (t : Ty) (as : List Slot) : Bound :=
  match t with
  | .arr e _ => .element e
  | t => (getMember W (fun d => inType W none false as (props d)) n t).bound

end Verif.Indexers
