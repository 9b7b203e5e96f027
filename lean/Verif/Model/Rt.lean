import Verif.Model.Host

/-
  The objects the virtual machine has for types: modules/rt/rt.cpp (`rt_pool_t`,
  `assembly_analyzer_t::get_type`, `__to_generic`, `__fetch_type`) and the values of type
  parameters, modules/rt/layout.cpp (`generic_param_manager_t` and its builder).

  The tables are those of `Verif.Model.Asm`.  An assertion that fails (`_A`, `_M`) is the
  outcome `assertion`, as in a debug build.
-/

namespace Verif.Rt

open Verif.Asm

/-- A pointer to an object for a type. -/
abbrev Obj := Nat

/-- What the virtual machine keeps for a type: the classes `rt_general_type_t` (its assembly
    and its row), `rt_generic_type_t`, `rt_array_type_t` of include/modules/rt.h and
    `__type_place_holder_t` of modules/rt/layout.cpp:102-189. -/
inductive Shape where
  | general (a i : Nat)
  | generic (template : Obj) (host : Option Obj) (args : List Obj)
  | array (element : Obj) (dimension : Nat)
  | holder (i : Nat)
deriving DecidableEq, Repr

/-- The objects made so far, by pointer. -/
abbrev Pool := List Shape

/-- The assemblies: their tables, and modules/rt/rt.cpp:2607-2623, the search for an assembly by
    package and name (`load_assembly`); loading is not modelled. -/
structure System where
  tables : Nat → Tables
  find : String → String → Option Nat

inductive Err where
  /-- `_A`, `_M` -/
  | assertion
  /-- a null pointer is followed -/
  | null
  /-- `X_UNEXPECTED` -/
  | unexpected
  /-- "ref index overflow" -/
  | overflow
  /-- `assembly_not_found` -/
  | noAssembly
  /-- "generic param index out of range" -/
  | index
  /-- an array is read past its end -/
  | pastEnd
  /-- the model's fuel is spent -/
  | fuel
deriving DecidableEq, Repr

/-- modules/rt/rt.cpp:254-283, `to_generic_type` and `to_array_type`, with
    include/modules/rt.h:567-592, `__rt_pool_partial_t::get`, modules/rt/assembly_loader.cpp:
    248-267, `__entity_at` (one object for every row), and modules/rt/layout.cpp:193-260, the
    place holders: the object with this content, or a new one.  The keys of the maps are the
    contents; the pools are one list in the model, because objects of different classes have
    different contents. -/
def make (P : Pool) (x : Shape) : Obj × Pool :=
  match P.findIdx? (· == x) with
  | some o => (o, P)
  | none => (P.length, P ++ [x])

/-- modules/rt/assembly_loader.cpp:271-292, `__entity_at` and `__metadata_at`: the row a
    reference names.  The number of rows is checked, the count of the reference is not. -/
def rowAt (t : Tables) (k : Kind) (i : Nat) : Except Err Row :=
  if i ≥ (t k).length then .error .overflow else .ok (rowOf t (k, i))

/-- include/modules/core.h:2741-2753, `generic_param_type_t::params`. -/
def packKind : Nat := 3

/-- The rows a reference ranges over (modules/core/__xil.h:422-508, `begin` and `end`). -/
def rows (r : Ref) : List Nat := (List.range r.count).map (r.index + ·)

/-! ## The values of type parameters -/

/-- modules/rt/__layout.h:150-242, `generic_param_manager_t`.  Entries made later come first.
    No code gives a manager a parent, so the model has none. -/
structure Mgr where
  atypes : List Obj := []
  named : List (String × Nat × Nat) := []
  map : List (String × Obj) := []

/-- modules/rt/layout.cpp:13-20, `append` with a name. -/
def Mgr.append (m : Mgr) (name : String) (o : Obj) : Except Err Mgr :=
  if (m.map.lookup name).isSome then .error .assertion
  else .ok { m with map := (name, o) :: m.map, atypes := m.atypes ++ [o] }

/-- modules/rt/layout.cpp:23-34, `append` without name and with name and range, as
    modules/rt/layout.cpp:278-287 calls them: all types that are left belong to the name. -/
def Mgr.appendPack (m : Mgr) (name : String) (os : List Obj) : Mgr :=
  { m with named := (name, m.atypes.length, os.length) :: m.named, atypes := m.atypes ++ os }

/-- modules/rt/layout.cpp:46-57, `type_at` by name. -/
def Mgr.typeAt (m : Mgr) (name : String) : Option Obj := m.map.lookup name

/-- modules/rt/layout.cpp:37-43, `type_at` by position. -/
def Mgr.typeAtIndex (m : Mgr) (j : Nat) : Except Err Obj :=
  match m.atypes[j]? with
  | none => .error .index
  | some o => .ok o

/-- modules/rt/__layout.h:196-212, `pick_types`, with modules/rt/layout.cpp:60-72, `types_of`:
    no types when the name is not known.  The positions lie inside the list, because
    `appendPack` is the only source of ranges. -/
def Mgr.pick (m : Mgr) (name : String) : List Obj :=
  match m.named.lookup name with
  | none => []
  | some (index, count) => (m.atypes.drop index).take count

/-- modules/rt/layout.cpp:265-294, `append` with types: `gs` are the rows of the type
    parameters.  A parameter that takes all remaining types ends the loop. -/
def appendArgs (t : Tables) : List Nat → List Obj → Mgr → Except Err Mgr
  | [], _, m => .ok m
  | g :: gs, os, m =>
    match rowAt t .genericParam g with
    | .error x => .error x
    | .ok row =>
      if numAt row "param_type" = packKind then .ok (m.appendPack (textAt row "name") os)
      else
        match os with
        | [] => .error .pastEnd
        | o :: os =>
          match m.append (textAt row "name") o with
          | .error x => .error x
          | .ok m => appendArgs t gs os m

/-- modules/rt/layout.cpp:296-306, `append` without types: place holders. -/
def appendHolders (t : Tables) : List Nat → Mgr → Pool → Except Err (Mgr × Pool)
  | [], m, P => .ok (m, P)
  | g :: gs, m, P =>
    match rowAt t .genericParam g with
    | .error x => .error x
    | .ok row =>
      let h := make P (.holder m.atypes.length)
      match m.append (textAt row "name") h.1 with
      | .error x => .error x
      | .ok m => appendHolders t gs m h.2

/-- The type parameters of the class with row `i`. -/
def paramsOf (t : Tables) (i : Nat) : List Nat := rows (refAt (rowOf t (.type, i)) "generic_params")

/-- modules/rt/layout.cpp:308-350, `append` of a type; `a` is the assembly of the analyzer, in
    which the type parameters are read. -/
def appendType (S : System) (a : Nat) (P : Pool) (m : Mgr) : Shape → Except Err (Mgr × Pool)
  | .generic ot _ args =>
    match P[ot]? with
    | some (.general b i) =>
      match appendArgs (S.tables a) (paramsOf (S.tables b) i) args m with
      | .error x => .error x
      | .ok m => .ok (m, P)
    | _ => .error .null
  | .general b i => appendHolders (S.tables a) (paramsOf (S.tables b) i) m P
  | .array _ _ => .ok (m, P)
  | .holder _ => .ok (m, P)

/-- `get_host_type`: include/modules/rt.h (`rt_general_type_t`, `rt_generic_type_t`); the host
    of a class is the subject of `Verif.Model.Host`. -/
def hostOf (S : System) (P : Pool) : Shape → Option Shape
  | .generic _ h _ => h.bind (P[·]?)
  | .general a i => (Host.hostOfClass (S.tables a) i).map (.general a)
  | .array _ _ => none
  | .holder _ => none

/-- modules/rt/layout.cpp:352-370, `__each_hosts` and `import` of a type: the outermost type
    first. -/
def importType (S : System) (a : Nat) : Nat → Shape → Pool → Except Err (Mgr × Pool)
  | 0, _, _ => .error .fuel
  | n + 1, x, P =>
    match hostOf S P x with
    | none => appendType S a P {} x
    | some y =>
      match importType S a n y P with
      | .error e => .error e
      | .ok (m, P) => appendType S a P m x

/-- modules/rt/rt.cpp:3276-3353, `new_entity` for a generic method, with
    modules/rt/rt.cpp:2081-2091, the constructor: the type arguments are kept in an array
    whose length is not passed on, and as many of them are used as the method has type
    parameters. -/
def methodArgs (params : List Nat) (args : List Obj) : Except Err (List Obj) :=
  if args.length < params.length then .error .pastEnd else .ok (args.take params.length)

/-- modules/rt/layout.cpp:372-381, `import` of a generic method: `a` is its assembly, `gs` are
    its type parameters, `x` is the type it belongs to. -/
def importMethod (S : System) (fuel : Nat) (a : Nat) (gs : List Nat) (x : Shape)
    (args : List Obj) (P : Pool) : Except Err (Mgr × Pool) :=
  match importType S a fuel x P with
  | .error e => .error e
  | .ok (m, P) =>
    match methodArgs gs args with
    | .error e => .error e
    | .ok os =>
      match appendArgs (S.tables a) gs os m with
      | .error e => .error e
      | .ok m => .ok (m, P)

/-! ## Types -/

/-- modules/rt/rt.cpp:787-807, `has_uncertain_types` and `is_match`: whether the class with
    these type parameters takes this many arguments. -/
def isMatch (t : Tables) (gs : List Nat) (count : Nat) : Except Err Bool :=
  match gs.getLast? with
  | none => .ok (count == 0)
  | some g =>
    match rowAt t .genericParam g with
    | .error x => .error x
    | .ok row =>
      if numAt row "param_type" = packKind then .ok (decide (gs.length - 1 ≤ count))
      else .ok (gs.length == count)

/-- modules/rt/rt.cpp:2996-3010, `is_generic_params`: the name, when the reference is a type
    parameter that stands for several types. -/
def packName (t : Tables) (r : Ref) : Except Err (Option String) :=
  if r.extra = extra .genericParam then
    if r.isNull then .error .null
    else
      match rowAt t .genericParam r.index with
      | .error x => .error x
      | .ok row =>
        if numAt row "param_type" = packKind then .ok (some (textAt row "name")) else .ok none
  else .ok none

/-- modules/rt/rt.cpp:2665-2683, the loop over the type arguments; `get` is `get_type`. -/
def argTypes (t : Tables) (m : Mgr) (get : Ref → Pool → Except Err (Option Obj × Pool)) :
    List Nat → Pool → Except Err (List Obj × Pool)
  | [], P => .ok ([], P)
  | g :: gs, P =>
    match rowAt t .genericArgument g with
    | .error x => .error x
    | .ok row =>
      let r := refAt row "type"
      match packName t r with
      | .error x => .error x
      | .ok (some name) =>
        match argTypes t m get gs P with
        | .error x => .error x
        | .ok (os, P) => .ok (m.pick name ++ os, P)
      | .ok none =>
        match get r P with
        | .error x => .error x
        | .ok (none, _) => .error .assertion
        | .ok (some o, P) =>
          match argTypes t m get gs P with
          | .error x => .error x
          | .ok (os, P) => .ok (o :: os, P)

/-- modules/rt/rt.cpp:2626-2706, `get_type`, in the assembly `a`. -/
def getType (S : System) (a : Nat) (m : Mgr) : Nat → Ref → Pool →
    Except Err (Option Obj × Pool)
  | 0, _, _ => .error .fuel
  | n + 1, r, P =>
    let t := S.tables a
    if r.isNull then .ok (none, P)
    else if r.extra = 0 then
      match rowAt t .type r.index with
      | .error x => .error x
      | .ok _ => let o := make P (.general a r.index); .ok (some o.1, o.2)
    else if r.extra = 1 then
      match rowAt t .typeRef r.index with
      | .error x => .error x
      | .ok row =>
        if (refAt row "assembly").isNull then .error .assertion
        else
          match rowAt t .assemblyRef (refAt row "assembly").index with
          | .error x => .error x
          | .ok arow =>
            match S.find (textAt arow "package") (textAt arow "name") with
            | none => .error .noAssembly
            | some b =>
              match Host.foreignClass t (S.tables b) r with
              | none => .ok (none, P)
              | some i => let o := make P (.general b i); .ok (some o.1, o.2)
    else if r.extra = 2 then
      match rowAt t .genericType r.index with
      | .error x => .error x
      | .ok row =>
        match getType S a m n (refAt row "template") P with
        | .error x => .error x
        | .ok (none, _) => .error .null
        | .ok (some ot, P) =>
          match P[ot]? with
          | some (.general b i) =>
            match getType S a m n (refAt row "host") P with
            | .error x => .error x
            | .ok (oh, P) =>
              match isMatch (S.tables b) (paramsOf (S.tables b) i) (refAt row "args").count with
              | .error x => .error x
              | .ok false => .error .assertion
              | .ok true =>
                match argTypes t m (getType S a m n) (rows (refAt row "args")) P with
                | .error x => .error x
                | .ok (os, P) => let o := make P (.generic ot oh os); .ok (some o.1, o.2)
          | _ => .error .assertion
    else if r.extra = 3 then
      match rowAt t .arrayType r.index with
      | .error x => .error x
      | .ok row =>
        match getType S a m n (refAt row "element_type") P with
        | .error x => .error x
        | .ok (none, _) => .error .assertion
        | .ok (some oe, P) =>
          let o := make P (.array oe (numAt row "dimension")); .ok (some o.1, o.2)
    else if r.extra = 4 then
      match rowAt t .genericParam r.index with
      | .error x => .error x
      | .ok row =>
        if numAt row "param_type" = packKind then .error .assertion
        else .ok (m.typeAt (textAt row "name"), P)
    else if r.extra = 5 then
      match m.typeAtIndex r.index with
      | .error x => .error x
      | .ok o => .ok (some o, P)
    else .error .unexpected

/-- modules/rt/rt.cpp:2747-2766, the loop of `__to_generic` over the type parameters of a
    class, which are read in the assembly of the analyzer. -/
def ownArgs (t : Tables) (m : Mgr) : List Nat → Except Err (List Obj)
  | [] => .ok []
  | g :: gs =>
    match rowAt t .genericParam g with
    | .error x => .error x
    | .ok row =>
      if numAt row "param_type" = packKind then
        match ownArgs t m gs with
        | .error x => .error x
        | .ok os => .ok (m.pick (textAt row "name") ++ os)
      else
        match m.typeAt (textAt row "name") with
        | none => .error .assertion
        | some o =>
          match ownArgs t m gs with
          | .error x => .error x
          | .ok os => .ok (o :: os)

/-- modules/rt/rt.cpp:2737-2775, `__to_generic`: the instance of the class with row `i` of
    assembly `b` that the values of the type parameters give; `a` is the assembly of the
    analyzer. -/
def toGeneric (S : System) (a : Nat) (m : Mgr) (b : Nat) : Nat → Nat → Pool →
    Except Err (Obj × Pool)
  | 0, _, _ => .error .fuel
  | n + 1, i, P =>
    let gs := paramsOf (S.tables b) i
    let finish (host : Option Obj) (P : Pool) : Except Err (Obj × Pool) :=
      match ownArgs (S.tables a) m gs with
      | .error x => .error x
      | .ok os =>
        let o := make P (.general b i)
        .ok (make o.2 (.generic o.1 host os))
    match Host.hostOfClass (S.tables b) i with
    | none => if gs.isEmpty then .ok (make P (.general b i)) else finish none P
    | some j =>
      match toGeneric S a m b n j P with
      | .error x => .error x
      | .ok (oh, P) =>
        match P[oh]? with
        | some (.generic _ _ _) => finish (some oh) P
        | _ => if gs.isEmpty then .ok (make P (.general b i)) else finish (some oh) P

/-! ## Fields -/

/-- modules/rt/rt.cpp:1591-1618, `__find_type_by_generic_param_name`: the type arguments of the
    instance, then those of the instance around it. -/
def findByName (S : System) (t : Tables) (name : String) : Nat → Shape → Pool →
    Except Err (Option Obj)
  | 0, _, _ => .error .fuel
  | n + 1, .generic ot h args, P =>
    match P[ot]? with
    | some (.general b i) =>
      match (paramsOf (S.tables b) i).findIdx? fun g =>
          textAt (rowOf t (.genericParam, g)) "name" == name with
      | some k =>
        match args[k]? with
        | none => .error .assertion
        | some o => .ok (some o)
      | none =>
        match h.bind (P[·]?) with
        | some (.generic ot h args) => findByName S t name n (.generic ot h args) P
        | _ => .ok none
    | _ => .error .null
  | _ + 1, _, _ => .error .null

/-- modules/rt/rt.cpp:1621-1643, `__fetch_type`, the type of a field (2249-2254): `x` is the
    instance the field belongs to, `m` are the values of its type parameters. -/
def fetchType (S : System) (a : Nat) (m : Mgr) (fuel : Nat) (x : Shape) (r : Ref) (P : Pool) :
    Except Err (Option Obj × Pool) :=
  if r.extra = extra .genericParam then
    match rowAt (S.tables a) .genericParam r.index with
    | .error e => .error e
    | .ok row =>
      match findByName S (S.tables a) (textAt row "name") fuel x P with
      | .error e => .error e
      | .ok none => .error .assertion
      | .ok (some o) => .ok (some o, P)
  else getType S a m fuel r P

/-- modules/rt/rt.cpp:2911-2960, `get_field` for a field of an instance of a
    generic class: what is found is kept for the assembly and the reference to the field
    (`cache`), whatever the values of the type parameters are.  `host` is the type the field is
    taken from, `type` the type of the field in its declaration, in assembly `b`. -/
def genericField (S : System) (a b : Nat) (m : Mgr) (fuel : Nat) (host type : Ref)
    (cache : Option (Option Obj × Option Obj)) (P : Pool) :
    Except Err ((Option Obj × Option Obj) × Pool) :=
  match cache with
  | some r => .ok (r, P)
  | none =>
    match getType S a m fuel host P with
    | .error e => .error e
    | .ok (none, _) => .error .null
    | .ok (some oh, P) =>
      match P[oh]? with
      | none => .error .null
      | some x =>
        match importType S b fuel x P with
        | .error e => .error e
        | .ok (m', P) =>
          match getType S b m' fuel type P with
          | .error e => .error e
          | .ok (o, P) => .ok ((o, some oh), P)

end Verif.Rt
