import Verif.Model.Asm

/-
  What it means that an assembly read from its file has the declarations that were
  written.

  The reader makes one object (`Node`) for every row.  `back` says which declaration of the
  program an object of the reader stands for.  An attribute that was read is right when it
  is the attribute of that declaration, with the objects it names standing for the
  declarations the program has there.
-/

namespace Verif.Asm.Spec

open Verif.Asm

/-- A type as an attribute: the type of the literal `null` is written as no type. -/
def present (W : World) (t : Id) : Option Id :=
  if W.gtype t = .null then none else some t

/-- The value `v` is what the declaration `e` has as its attribute `f`. -/
def Kept (W : World) (back : Node → Id) (e : Id) (f : String) : Val → Prop
  | .text s => s = W.text e f
  | .num n => n = W.num e f
  | .type n => n.map back = (W.one e f).bind (present W)
  | .param j => ∃ t, W.one e f = some t ∧ W.gtype t = .genericParam j
  | .one n => n.map back = W.one e f
  | .types l => l.map (·.map back) = (W.many e f).map (present W)
  | .many l => l.map back = W.many e f

/-- The attributes an object has after reading, by kind of declaration. -/
def restored : Kind → List String
  | .assembly => ["name", "version", "info", "entry_point"]
  | .assemblyRef => ["package", "name"]
  | .type => ["name", "decorate", "ttype", "vtype", "generic_params", "namespace",
      "nest_types", "methods", "properties", "fields", "events", "type_defs", "super_types",
      "attributes"]
  | .typeRef => ["assembly", "namespace", "name", "host", "generic_param_count"]
  | .genericType => ["template", "args", "host"]
  | .arrayType => ["element_type", "dimension"]
  | .methodRef => ["name", "host", "params", "generic_param_count", "type"]
  | .methodRefParam => ["type", "ptype"]
  | .attribute => ["type", "constructor", "arguments", "compile_time"]
  | .attributeArgument => ["name", "value", "name_type"]
  | .genericParam => ["name", "attributes", "param_type"]
  | .typeDefParam => ["name", "attributes"]
  | .method => ["name", "decorate", "type", "generic_params", "params", "trait"]
  | .param => ["name", "attributes", "type", "param_type", "default_value"]
  | .property => ["name", "decorate", "type", "attributes", "params", "get_method",
      "set_method"]
  | .field => ["name", "decorate", "type", "attributes", "init_value"]
  | .event => ["name", "decorate", "type", "attributes", "add_method", "remove_method"]
  | .typeDef => ["name", "decorate", "type", "params", "namespace"]
  | .constant => ["value", "type"]
  | .genericArgument | .nestType | .superType => []

/-- Every list of the program has fewer than 512 elements. -/
def ShortLists (W : World) : Prop := ∀ e f, (W.many e f).length < 512

/-- No table has more than 2^20 rows. -/
def SmallTables (t : Tables) : Prop := ∀ k, (t k).length ≤ 2 ^ 20

/-- The columns that hold a method. -/
def methodColumns : List String :=
  ["entry_point", "constructor", "get_method", "set_method", "add_method", "remove_method"]

/-- The methods that declarations name are methods of the assembly itself. -/
def OwnMethods (W : World) : Prop :=
  ∀ e f m, f ∈ methodColumns → W.one e f = some m → W.own m = true

/-- The reference `r`, put into a method body, names in the tables the row that stands
    for the declaration asked for. -/
def Loaded (W : World) (back : Node → Id) (t : Tables) : Load → Ref → Prop
  | .type x, r =>
    getType t r = .ok none ∧ W.gtype x = .null ∨
    (∃ n, getType t r = .ok (some n) ∧ back n = x) ∨
    (∃ j, W.gtype x = .genericParam j ∧ r.extra = paramIndex ∧ r.index = j % 2 ^ 20)
  | .method m, r => ∃ i, r.index = i ∧ r.count = 1 ∧
    if W.own m then r.extra = 0 ∧ i < (t .method).length ∧ back (.method, i) = m
    else r.extra = 1 ∧ i < (t .methodRef).length ∧ back (.methodRef, i) = m
  | .field f, r => ∃ i, r.index = i ∧ r.count = 1 ∧ i < (t .field).length ∧
    back (.field, i) = f

end Verif.Asm.Spec
