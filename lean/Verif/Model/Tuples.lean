import Verif.Model.Fields

/-!
# The items of tuples

Model of the members that the compiler gives to a tuple type (`modules/core/core.cpp:4175-4279`), of those that the
virtual machine gives to it (`modules/rt/rt.cpp:1324-1371`, `1393-1407`), of the code of the methods that it makes
(`modules/rt/__rt_commands.h`, `modules/rt/rt_commands.cpp:15-37`, `modules/exec/parser.cpp:15-27`, `343-363`,
`modules/exec/commands.cpp:7084-7160`) and of running it.  How the tuple gets its values is modelled in
`Verif.Model.Fields`.

Simplifications.  Types are numbers, as in `Verif.Model.Fields`; equal types are one object.  The assembly that is compiled is
not the one with the tuple type, as for all programs.  A failed assertion or `X_UNEXPECTED` is `none`.
-/

namespace Verif.Tuples

open Verif.Fields

/-- A name: its characters. -/
abbrev Name := List Char

/-- `_FT("…%1%", position + 1)`: text and then the number from 1 on — `core.cpp:4241, 4253, 4263`, `rt.cpp:1356`. -/
def numbered (text : Name) (position : Nat) : Name := text ++ Nat.toDigits 10 (position + 1)

/-! ## Compiling -/

/-- `property_t` — name, type and the name of the method that reads it. -/
structure Property where
  name : Name
  type : Nat
  getter : Name
  deriving DecidableEq, Repr

/-- A member that a name means. -/
inductive Member where
  | field (position : Nat)
  | property (p : Property)
  deriving DecidableEq, Repr

/-- The loop that adds the fields — `core.cpp:4231-4249`. -/
def itemFields : Nat → List Nat → List (Name × Nat)
  | _, [] => []
  | k, _ :: ts => (numbered "__item".toList k, k) :: itemFields (k + 1) ts

/-- The loop that adds the properties — `core.cpp:4231-4271`. -/
def itemProperties : Nat → List Nat → List Property
  | _, [] => []
  | k, t :: ts =>
    ⟨numbered "Item".toList k, t, numbered "get_Item".toList k⟩ :: itemProperties (k + 1) ts

/-- The property that the template declares — `core_lib/System/System.cs:153-156`; `int` is the type `intType`. -/
def ownProperties (intType : Nat) : List Property := [⟨"Count".toList, intType, "get_Count".toList⟩]

/-- `get_member` for a name — `core.cpp:3690-3700`, of a tuple type with the type arguments `args`: fields, then properties,
those of the items first (`core.cpp:4231-4274`). -/
def findMember (intType : Nat) (args : List Nat) (n : Name) : Option Member :=
  match (itemFields 0 args).find? (fun f => decide (f.1 = n)) with
  | some f => some (.field f.2)
  | none =>
    ((itemProperties 0 args ++ ownProperties intType).find? (fun p => decide (p.name = n))).map .property

/-! ## The methods of the virtual machine -/

/-- A command of a method that the virtual machine makes — `__rt_commands.h:71-132`. -/
inductive RtCommand where
  | pushArgument (identity : Nat)
  | pushField (address : Nat)
  | ret
  deriving DecidableEq, Repr

/-- A number in bytes, the lowest first. -/
def bytesOf : Nat → Nat → List Nat
  | 0, _ => []
  | n + 1, x => x % 256 :: bytesOf n (x / 256)

/-- The number of bytes. -/
def numberOf : List Nat → Nat
  | [] => 0
  | b :: bs => b + 256 * numberOf bs

/-- The bytes of a command in memory: `cmd`, then `stype` or `smp`, each one byte, then the rest, aligned. -/
def image : RtCommand → List Nat
  | .pushArgument i => [1, 2] ++ bytesOf 2 i
  | .pushField a => [1, 3, 0, 0, 0, 0, 0, 0] ++ bytesOf 8 a
  | .ret => [6, 2]

/-- `to_method_body` — `rt_commands.cpp:15-37`: each command after its size, which has to be below 255. -/
def toBody : List RtCommand → Option (List Nat)
  | [] => some []
  | c :: cs =>
    if (image c).length < 255 then (toBody cs).map (fun r => (image c).length :: (image c ++ r)) else none

/-- The casts of `new_command` — `commands.cpp:7084-7160`: what a command in memory is. -/
def ofImage : List Nat → Option RtCommand
  | 1 :: 2 :: rest => some (.pushArgument (numberOf (rest.take 2)))
  | 1 :: 3 :: rest => some (.pushField (numberOf ((rest.drop 6).take 8)))
  | 6 :: 2 :: _ => some .ret
  | _ => none

/-- `__parse_dynamic_commands` with `read_next` — `parser.cpp:15-27`, `343-356`. -/
def readAll (bytes : List Nat) : Option (List RtCommand) :=
  match bytes with
  | [] => some []
  | size :: rest =>
    if size ≤ rest.length then
      match ofImage (rest.take size), readAll (rest.drop size) with
      | some c, some cs => some (c :: cs)
      | _, _ => none
    else none
termination_by bytes.length
decreasing_by simp only [List.length_drop, List.length_cons]; omega

/-- `rt_dynamic_method_t`: a method without parameters. -/
structure Dynamic where
  name : Name
  ret : Nat
  body : List Nat
  deriving DecidableEq, Repr

/-- The loop of `__get_tuple_members` — `rt.cpp:1340-1365`; `address` are the addresses of the fields. -/
def tupleMethods (address : Nat → Nat) : Nat → List Nat → Option (List Dynamic)
  | _, [] => some []
  | k, t :: ts =>
    match toBody [.pushArgument 0, .pushField (address k), .ret], tupleMethods address (k + 1) ts with
    | some body, some r => some (⟨numbered "get_Item".toList k, t, body⟩ :: r)
    | _, _ => none

/-- A method of the template — name, number of type parameters and of parameters, result. -/
structure Own where
  name : Name
  generic : Nat
  params : Nat
  ret : Nat
  deriving DecidableEq, Repr

/-- A method that is found. -/
inductive Found where
  | dynamic (d : Dynamic)
  | own (m : Own)
  deriving DecidableEq, Repr

/-- The loop over the methods of the virtual machine — `rt.cpp:1400-1403` with the callback of `__get_method`
(`rt.cpp:2854-2858`) and `compare_to` (`rt.cpp:1181-1215`): it goes on after a method is found. -/
def searchDynamic (n : Name) (ret : Nat) : List Dynamic → Option Found → Option Found
  | [], acc => acc
  | d :: ds, acc => searchDynamic n ret ds (if d.name = n ∧ d.ret = ret then some (.dynamic d) else acc)

/-- The methods of the template come after them — `rt.cpp:1406`, `1950-1998`. -/
def searchOwn (n : Name) (ret : Nat) (acc : Option Found) : List Own → Option Found
  | [] => acc
  | m :: ms =>
    if m.name = n ∧ m.generic = 0 ∧ m.params = 0 ∧ m.ret = ret then some (.own m) else searchOwn n ret acc ms

/-- The methods of the template — `System.cs:148-166`; types that do not matter are 0. -/
def ownMethods (intType : Nat) : List Own :=
  [⟨".ctor".toList, 0, 1, 0⟩, ⟨"get_Count".toList, 0, 0, intType⟩, ⟨"Get".toList, 0, 1, 0⟩, ⟨"Get".toList, 1, 1, 0⟩]

/-- `__get_method` for a method without parameters of a tuple type — `rt.cpp:2803-2863`. -/
def getMethod (intType : Nat) (address : Nat → Nat) (args : List Nat) (n : Name) (ret : Nat) : Option Found :=
  match tupleMethods address 0 args with
  | none => none
  | some ds => searchOwn n ret (searchDynamic n ret ds none) (ownMethods intType)

/-! ## Running -/

/-- What a cell of the stack holds: the address of the tuple, or a value. -/
inductive Cell where
  | this
  | value (b : Bytes)
  deriving DecidableEq, Repr

/-- What a call leaves: a value on the stack, or a structure in the place whose address lay below the arguments. -/
inductive Result where
  | value (b : Bytes)
  | place (b : Bytes)
  deriving DecidableEq, Repr

/-- The bytes that `push field` reads — `commands.cpp:600-606`, `1037-1056`, `7103-7118`: the size of the basic type, and 8 for
what is an object, a structure as well. -/
def width (W : World) (t : Nat) : Nat :=
  match W.kind t with
  | .prim s => s
  | _ => 8

/-- The field with an address — the pointer in the command. -/
def fieldAt (address : Nat → Nat) (args : List Nat) (a : Nat) : Option Nat :=
  (List.range args.length).find? (fun k => decide (address k = a))

/-- The commands of a method without local variables and parameters other than `this`, one after the other — `push
argument` (`commands.cpp:7088-7100`), `push field` (`commands.cpp:1037-1056`) and `ret` (`commands.cpp:5500-5690`), which
depends on the type of the result: of a structure nothing is copied.  `place` is what the place for a structure
holds. -/
def run (W : World) (sort : List Item → List Item) (fuel : Nat) (address : Nat → Nat) (tuple : Nat) (args : List Nat)
    (m : Bytes) (ret : Nat) (place : Bytes) : List RtCommand → List Cell → Option Result
  | [], _ => none
  | .pushArgument i :: cs, stack =>
    if i = 0 then run W sort fuel address tuple args m ret place cs (.this :: stack) else none
  | .pushField a :: cs, .this :: stack =>
    match fieldAt address args a with
    | none => none
    | some k =>
      match args[k]?, fieldOffset W sort fuel tuple k with
      | some t, some offset =>
        match read m offset (width W t) with
        | none => none
        | some v => run W sort fuel address tuple args m ret place cs (.value v :: stack)
      | _, _ => none
  | .pushField _ :: _, _ => none
  | .ret :: _, stack =>
    if isStruct W ret then some (.place place)
    else match stack with
      | .value v :: _ => some (.value v)
      | _ => none

/-- `t.name` for a tuple: the compiler finds the property and writes a call of its method, the virtual machine finds the
method and runs it. -/
def readMember (W : World) (sort : List Item → List Item) (fuel : Nat) (intType : Nat) (address : Nat → Nat)
    (tuple : Nat) (m : Bytes) (place : Bytes) (n : Name) : Option Result :=
  match W.kind tuple with
  | .obj _ _ args =>
    match findMember intType args n with
    | some (.property p) =>
      match getMethod intType address args p.getter p.type with
      | some (.dynamic d) =>
        match readAll d.body with
        | none => none
        | some cs => run W sort fuel address tuple args m d.ret place cs []
      | _ => none
    | _ => none
  | _ => none

end Verif.Tuples
