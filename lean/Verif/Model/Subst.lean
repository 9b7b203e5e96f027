/-!
# Members of generic types and methods that are used with arguments

Models the replacement of type parameters by arguments: `__type_transform_t` (`modules/core/core.cpp:1911-1979`), the members of a
generic type (`modules/core/core.cpp:4086-4144, 4281-4340, 4361-4460`), generic methods (`generic_method_t::__revise_type`,
`modules/core/core.cpp:2113-2181`), `has_generic_params` (`modules/core/core.cpp:3235-3251`).

Simplifications.  Types are terms; that equal types are one object is assumed, and `host_type = nullptr` is modelled for the type
that is returned.  Fields and methods are modelled; properties and events get their types in the same way.  Names are numbers.
-/

namespace Verif.Subst

/-- `type_t`: `null` is no type (`nullptr`), `nullType` the type of `null`. -/
inductive Ty where
  | null
  | nullType
  | basic (n : Nat)
  | param (name : Nat)
  | array (elem : Ty) (dim : Nat)
  | gen (template : Nat) (args : List Ty) (host : Ty)

/-- `type == nullptr`. -/
def Ty.isNull : Ty → Bool
  | .null => true
  | _ => false

/-- `new_array_type` — `modules/core/core.cpp:5704-5707`. -/
def newArray (elem : Ty) (dim : Nat) : Ty := if elem.isNull then .array .nullType dim else .array elem dim

mutual
/-- `transform_type` and `__transform_generic_type` — `modules/core/core.cpp:1919-1939, 1964-1979`; `f` gives the types of names. -/
def transform (f : Nat → Ty) : Ty → Ty
  | .param n => f n
  | .array e d => newArray (transform f e) d
  | .gen t args _ => .gen t (transformAll f args) .null
  | t => t
/-- The arguments. -/
def transformAll (f : Nat → Ty) : List Ty → List Ty
  | [] => []
  | t :: ts => transform f t :: transformAll f ts
end

/-- `transform_type_name` — `modules/core/core.cpp:1942-1953`. -/
def transformName (f : Nat → Ty) (t : Ty) : Ty :=
  if t.isNull then t else if (transform f t).isNull then t else transform f t

/-- `__search_type` — `modules/core/core.cpp:2113-2128`: the arguments from the parameter of that name on. -/
def search : List Nat → List Ty → Nat → Option (List Ty)
  | [], _, _ => none
  | p :: ps, args, name => if p = name then some args else search ps args.tail name

/-- A type that encloses another: one with arguments, or not. -/
inductive Host where
  | plain
  | generic (params : List Nat) (args : List Ty)

/-- `__find_type` — `modules/core/core.cpp:4281-4307`, with the types that enclose `this`; what was found is the last that was found.
The calls for an enclosing type start with `this` again.  `none` when it needs more than `fuel` calls in one another. -/
def findType (hosts : List Host) (name : Nat) : Nat → List Nat → List Ty → List Ty → Option (List Ty)
  | 0, _, _, _ => none
  | fuel + 1, params, args, found =>
    let found1 := if args.length > 0 then (search params args name).getD found else found
    hosts.foldl (fun r h => match r, h with
      | some found, .generic ps as => findType hosts name fuel ps as found
      | r, _ => r) (some found1)

/-- `__type_at` — `modules/core/core.cpp:4310-4321`. -/
def typeAt (fuel : Nat) (hosts : List Host) (params : List Nat) (args : List Ty) (name : Nat) : Option Ty :=
  (findType hosts name fuel params args []).map fun found => found.headD .null

/-- A parameter of a method: `T ... items`, or one of a type. -/
structure Param where
  name : Nat
  ty : Ty
  extend : Bool := false

structure Method where
  result : Ty
  params : List Param

/-- `__transform_params` — `modules/core/core.cpp:4380-4428`; the new names of packed parameters are their numbers. -/
def transformParams (f : Nat → Ty) (packed : Nat → List Ty) (ps : List Param) : List Param :=
  ps.flatMap fun p =>
    if p.extend then
      match p.ty with
      | .param n => (packed n).zipIdx.map fun (t, i) => ⟨i + 1, t, false⟩
      | _ => []
    else [⟨p.name, transformName f p.ty, false⟩]

/-- `__transform_member(method_t *)` — `modules/core/core.cpp:4431-4460`. -/
def transformMethod (f : Nat → Ty) (packed : Nat → List Ty) (m : Method) : Method :=
  ⟨transformName f m.result, transformParams f packed m.params⟩

mutual
/-- `has_generic_params` — `modules/core/core.cpp:3235-3251`. -/
def hasParams : Ty → Bool
  | .gen _ args _ => anyParams args
  | _ => false
/-- Its loop. -/
def anyParams : List Ty → Bool
  | [] => false
  | .param _ :: _ => true
  | t :: ts => hasParams t || anyParams ts
end

mutual
/-- `generic_method_t::__revise_type` — `modules/core/core.cpp:2145-2181`; `host` gives the types of names in the class of the method. -/
def revise (mps : List Nat) (margs : List Ty) (host : Nat → Ty) : Ty → Ty
  | .param n =>
    let t1 := ((search mps margs n).getD []).headD .null
    if t1.isNull then (if (host n).isNull then .param n else host n) else t1
  | .gen t args h => if hasParams (.gen t args h) then .gen t (reviseAll mps margs host args) h else .gen t args h
  | t => t
/-- The arguments. -/
def reviseAll (mps : List Nat) (margs : List Ty) (host : Nat → Ty) : List Ty → List Ty
  | [] => []
  | t :: ts => revise mps margs host t :: reviseAll mps margs host ts
end

end Verif.Subst
