/-!
# Names of types at run time

Model of `get_name` of `rt_general_type_t`, `rt_generic_type_t` and `rt_array_type_t` — `modules/rt/rt.cpp:562-597`,
`1410-1448`, `1763-1789` —, the names that types have in the texts of methods and in errors at run time.

Simplifications.  A text is the list of its characters.  The name of a type in the metadata has its namespace in it.
An array type is given by its innermost type of elements and the dimensions of the arrays around it, from the
innermost on.  Templates, elements and arguments that are null (shown as `?`) are left out.
-/

namespace Verif.TypeNames

abbrev Text := List Char

/-- A type at run time, and the dimensions of the arrays around it: a type of the metadata with the names and kinds
(`true` is `params`) of its type parameters, one nested in another, and instances of generic types, with arguments. -/
inductive RTy where
  | plain (name : Text) (params : List (Text × Bool)) (dims : List Nat)
  | nested (host : RTy) (name : Text) (params : List (Text × Bool)) (dims : List Nat)
  | inst (name : Text) (args : List RTy) (dims : List Nat)
  | nestedInst (host : RTy) (name : Text) (args : List RTy) (dims : List Nat)

/-- `rt_array_type_t::get_name` — `rt.cpp:1763-1789`: the loop from 1 to the dimension. -/
def commas : Nat → Text
  | 0 => []
  | n + 1 => [',', ' '] ++ commas n

def arrayName (element : Text) (dimension : Nat) : Text :=
  element ++ ['['] ++ commas (dimension - 1) ++ [']']

def arrays (element : Text) (dims : List Nat) : Text := dims.foldl arrayName element

/-- The loop over type parameters — `rt.cpp:579-591`. -/
def paramsLoop : Bool → List (Text × Bool) → Text
  | _, [] => []
  | first, p :: ps =>
    (if first then [] else [',']) ++ p.1 ++ (if p.2 then ['.', '.', '.'] else []) ++ paramsLoop false ps

/-- `rt_general_type_t::get_name` — `rt.cpp:562-597`; `host` is the name of the type that it is nested in, with the
dot.  Only a generic type writes its own name here. -/
def generalName (host : Text) (name : Text) (params : List (Text × Bool)) : Text :=
  host ++ (if params ≠ [] then name ++ ['<'] ++ paramsLoop true params ++ ['>'] else [])

mutual
/-- `get_name` — the shortcut of `rt.cpp:565-566` is the case of a type without parameters that is not nested. -/
def nameOf : RTy → Text
  | .plain n ps ds => arrays (if ps = [] then n else generalName [] n ps) ds
  | .nested h n ps ds => arrays (generalName (nameOf h ++ ['.']) n ps) ds
  | .inst n as ds => arrays (n ++ ['<'] ++ argsLoop true as ++ ['>']) ds
  | .nestedInst h n as ds => arrays (nameOf h ++ ['.'] ++ n ++ ['<'] ++ argsLoop true as ++ ['>']) ds

/-- The loop over arguments of `rt_generic_type_t::get_name` — `rt.cpp:1432-1444`. -/
def argsLoop : Bool → List RTy → Text
  | _, [] => []
  | first, a :: as => (if first then [] else [',']) ++ nameOf a ++ argsLoop false as
end

end Verif.TypeNames
