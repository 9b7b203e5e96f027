/-!
# Model: what a method runs with when it is called through a virtual table

A place of a virtual table is the number of an assembly and the number of a method in it.  `__get_virtual_exec_method`
(`modules/exec/commands.cpp:4312-4345`) makes of it the method that runs, and `method_parser_t` (`modules/exec/parser.cpp:33-73`,
`100-118`) finds its code and the types its type parameters stand for.  Which place is used is the subject of `Verif.Dispatch`.

Simplified: classes are not inside of other classes, and no type parameter takes several types.
-/

namespace Verif.Vcall

/-- A type: a type parameter, by its name, or a class with arguments. -/
inductive Ty
  | param (name : Nat)
  | inst (cls : Nat) (args : List Ty)
  deriving Repr

/-- A class of an assembly: the rows of its type parameters in the tables of the assembly, and the class it is derived from. -/
structure Class where
  assembly : Nat
  params : List Nat := []
  base : Option (Nat × List Ty) := none
  deriving Repr

/-- A method: the class it is declared in, where its code is among the bytes of the assembly (`mt->body`), its type parameters. -/
structure Method where
  owner : Nat
  body : Nat
  params : List Nat := []
  deriving Repr

/-- The classes, and the name of each type parameter: by assembly and row (`get_generic_param`, `rt.cpp:2993-2996`). -/
structure World where
  cls : Nat → Class
  name : Nat → Nat → Nat

/-- What a method runs with: the assembly its code is read from, where that begins — its references are those of the same assembly —
and what each type parameter stands for (`generic_param_manager_t`). -/
structure Frame where
  assembly : Nat
  offset : Nat
  env : Nat → Option Ty

/-- `rt_type->get_kind() == generic` for an object of the class, `is_generic_template` for the class (`rt.cpp:809-818`). -/
def World.generic (W : World) (c : Nat) : Bool := !(W.cls c).params.isEmpty

/-- `generic_param_manager_builder_t::append` — `layout.cpp:265-294`: the rows are read with the analyzer, of assembly `a`. -/
def bindings (W : World) (a : Nat) (rows : List Nat) (args : List Ty) (n : Nat) : Option Ty :=
  ((rows.map (W.name a)).zip args).lookup n

/-- `commands.cpp:4326-4342`, with `parser.cpp:33-73`, `100-118`, for an object of class `c` with the type arguments `args`.  For a generic
object a generic method is made, with the type of the object as host and no type arguments (`rt.h:2205-2206`, `rt.cpp:2081-2091`);
otherwise it is the method as it is.  `none`: an assertion does not hold, or without assertions, the type parameters are not there. -/
def entry (W : World) (c : Nat) (args : List Ty) (m : Method) : Option Frame :=
  if W.generic c then
    if m.params.length ≤ 0 then
      some ⟨(W.cls c).assembly, m.body, bindings W (W.cls m.owner).assembly (W.cls c).params args⟩
    else none
  else
    if W.generic m.owner then none
    else some ⟨(W.cls m.owner).assembly, m.body, fun _ => none⟩

end Verif.Vcall
