/-!
# The names under which types are known

Model of `general_type_t::to_identity`, `to_short_name` and `array_type_t::to_identity` —
`modules/core/core.cpp:4655-4734`, `5284-5303` — and of the dictionary of the types of the core library —
`core.cpp:5977-6016` —, in which the compiler finds types such as `System.Array<>` and `System.Tuple<...>`
(`include/modules/core.h:42-60`).

Simplifications.  A text is the list of its characters.  Identifiers of strings (`spool.to_sid`) are the texts
themselves.  A name of several parts (of an assembly or a namespace) is the list of its parts.
-/

namespace Verif.Identity

abbrev Text := List Char

/-- `al::join_str` (`algorithm/__string.h`). -/
def join (separator : Text) : List Text → Text
  | [] => []
  | [s] => s
  | s :: t :: ss => s ++ separator ++ join separator (t :: ss)

/-- A type that another is nested in: its name, and of its type parameters the names and whether they are of the kind
`params`. -/
structure HostType where
  name : Text
  params : List (Text × Bool)
  deriving DecidableEq, Repr

/-- A `general_type_t`.  The hosts are those reached by `host_type`, from the innermost on; of its type parameters
we keep whether they are of the kind `params`. -/
structure General where
  assembly : Option (List Text)
  namespace_ : Option (List Text)
  hosts : List HostType
  name : Text
  params : List Bool
  deriving DecidableEq, Repr

inductive Ty where
  | general (g : General)
  | array (element : Ty) (dimension : Nat)
  deriving DecidableEq, Repr

/-- `generic_param_t::to_identity` — `core.cpp:5210-5216`. -/
def paramName (p : Text × Bool) : Text :=
  if p.2 then ['?'] ++ p.1 ++ ['.', '.', '.'] else ['?'] ++ p.1

/-- `general_type_t::to_short_name` — `core.cpp:4656-4662`; parameters are joined in `include/modules/core.h:1152`. -/
def shortName (h : HostType) : Text :=
  if h.params = [] then h.name else h.name ++ ['<'] ++ join [',', ' '] (h.params.map paramName) ++ ['>']

/-- The loop that fills the stack of hosts — `core.cpp:4679-4683`. -/
def pushAll : List HostType → List HostType → List HostType
  | [], stack => stack
  | h :: hs, stack => pushAll hs (h :: stack)

/-- The loop that empties it — `core.cpp:4685-4689`. -/
def popAll : List HostType → Text
  | [] => []
  | h :: stack => shortName h ++ ['.'] ++ popAll stack

/-- The name of an assembly or a namespace, and a dot — `core.cpp:4668-4672`. -/
def prefixOf : Option (List Text) → Text
  | none => []
  | some parts => join ['.'] parts ++ ['.']

/-- `__to_identity_no_gerneric_args` — `core.cpp:4665-4693`. -/
def noGenericArgs (g : General) : Text :=
  prefixOf g.assembly ++ prefixOf g.namespace_ ++ popAll (pushAll g.hosts []) ++ g.name

/-- The loop over the type parameters — `core.cpp:4720-4728`; `first` is `index == 0`. -/
def paramsLoop : Bool → List Bool → Text
  | _, [] => []
  | first, p :: ps =>
    (if first then [] else [',']) ++ (if p then ['.', '.', '.'] else []) ++ paramsLoop false ps

/-- The rest of `general_type_t::to_identity` — `core.cpp:4715-4731`. -/
def paramsText (ps : List Bool) : Text :=
  if ps = [] then [] else ['<'] ++ paramsLoop true ps ++ ['>']

/-- `to_identity` of general types — `core.cpp:4709-4734` — and of arrays — `core.cpp:5284-5303`. -/
def identity : Ty → Text
  | .general g => noGenericArgs g ++ paramsText g.params
  | .array e d => identity e ++ ['['] ++ List.replicate (d - 1) ',' ++ [']']

/-- The dictionary: the entry that was stored last for a key counts. -/
abbrev Dict := List (Text × General)

/-- The name of the core library — `include/modules/core.h:42`. -/
def coreAssembly : List Text := [['S', 'y', 's', 't', 'e', 'm']]

/-- `append_new_type` — `core.cpp:5993-6007`, `is_core_assembly` — `core.cpp:6010-6016`. -/
def append (dict : Dict) (t : Ty) : Dict :=
  match t with
  | .general g => if g.assembly = some coreAssembly then (identity (.general g), g) :: dict else dict
  | .array _ _ => dict

/-- `__get_specified_type` — `core.cpp:5978-5990`: the type, which is then cached; `none` is the error that the type
is not found. -/
def getSpecified (dict : Dict) (name : Text) (cache : Option General) : Option General :=
  match cache with
  | some g => some g
  | none => dict.lookup name

end Verif.Identity
