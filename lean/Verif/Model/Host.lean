import Verif.Model.Asm

/-
  How the virtual machine finds the class of a method, of a field and of a nested class in
  the tables of an assembly, and a class by its name: modules/rt/assembly_loader.cpp.

  The tables are those of `Verif.Model.Asm`; an object of the virtual machine is given by the
  index of its row.
-/

namespace Verif.Host

open Verif.Asm

/-- modules/rt/assembly_loader.cpp:110-128, `__binary_find`: from `b` up to `e`.  The first
    number bounds the depth of the recursion of the model only; `e - b` is enough. -/
def binaryFind (f : Nat → Int) : Nat → Nat → Nat → Option Nat
  | 0, _, _ => none
  | n + 1, b, e =>
    if b = e then none
    else
      let m := b + (e - b) / 2
      if f m < 0 then binaryFind f n b m
      else if f m > 0 then binaryFind f n (m + 1) e
      else some m

/-- modules/rt/assembly_loader.cpp:601-605, 611-615 and 625-629: the three comparisons, which
    differ in the column. -/
def compare (r : Ref) (index : Nat) : Int :=
  if index < r.index then -1 else if index ≥ r.index + r.count then 1 else 0

/-- modules/rt/assembly_loader.cpp:146-156, `search_host`: the row of the class whose list in
    column `f` has the member with this index. -/
def searchHost (t : Tables) (f : String) (index : Nat) : Option Nat :=
  let n := (t .type).length
  binaryFind (fun i => compare (refAt (rowOf t (.type, i)) f) index) n 0 n

/-- modules/rt/assembly_loader.cpp:598-606, `get_host_by_method_ref`. -/
def hostOfMethod (t : Tables) (r : Ref) : Option Nat := searchHost t "methods" r.index

/-- modules/rt/assembly_loader.cpp:608-616, `get_host_by_field_ref`. -/
def hostOfField (t : Tables) (r : Ref) : Option Nat := searchHost t "fields" r.index

/-- modules/rt/assembly_loader.cpp:652-667, `__init_search_datas`, and the search in
    `__nest_type_map`: the index of the row of the table of nested types that holds the
    reference.  The map itself is the subject of `Verif.Model.LrTree` (`fixed_map_t`); when
    several rows hold the reference the model takes the first. -/
def nestIndex (t : Tables) (r : Ref) : Option Nat :=
  (t .nestType).findIdx? fun row => refAt row "type" == r

/-- modules/rt/assembly_loader.cpp:618-632, `get_host_by_nest_type_ref`. -/
def hostOfNested (t : Tables) (r : Ref) : Option Nat :=
  match nestIndex t r with
  | none => none
  | some j => searchHost t "nest_types" j

/-- modules/rt/assembly_loader.cpp:292-306 (`__read_assembly`): the row of the class of the
    entry point, which is built when the assembly is loaded. -/
def entryClass (t : Tables) : Option Nat :=
  let r := refAt (rowOf t (.assembly, 0)) "entry_point"
  if r.isNull then none else hostOfMethod t r

/-- include/modules/rt.h:2392-2402, `new_entity` for a general type, with
    modules/rt/assembly_loader.cpp:641-645, `load`: the class around the class with row `i`.
    The entry point is read before `__nest_type_map` is filled, and the object built then for
    its class is kept. -/
def hostOfClass (t : Tables) (i : Nat) : Option Nat :=
  if entryClass t = some i then none else hostOfNested t (Ref.of i 1 0)

/-- modules/rt/assembly_loader.cpp:311-329, the keys of `__general_type_map`. -/
def key (t : Tables) (i : Nat) : String × String × Nat :=
  let row := rowOf t (.type, i)
  (textAt row "namespace", textAt row "name", (refAt row "generic_params").count)

/-- modules/rt/assembly_loader.cpp:100-107, `get_type` by namespace, name and number of type
    parameters; of several classes with the same key the model takes the first. -/
def typeByName (t : Tables) (ns name : String) (count : Nat) : Option Nat :=
  (List.range (t .type).length).find? fun i => key t i == (ns, name, count)

/-- modules/rt/rt.cpp:2636-2645, `get_type` for a reference to a class of another assembly:
    `t` are the tables with the reference, `u` those of the other assembly, which
    modules/rt/rt.cpp:2606-2623 finds by its name.  The host of the reference is not looked
    at. -/
def foreignClass (t u : Tables) (r : Ref) : Option Nat :=
  let row := rowOf t (.typeRef, r.index)
  typeByName u (textAt row "namespace") (textAt row "name") (numAt row "generic_param_count")

end Verif.Host
