/-
  The declarations of an assembly, as the writer lays them out in metadata tables and as
  the reader builds them again: modules/core/assembly_writer.cpp and
  modules/core/assembly_reader.cpp, with the references and the tables of
  modules/core/__xil.h and modules/core/__assembly_layout.h.

  The bytes of the tables are the subject of `Verif.Model.Table`; here a table is a list of
  rows and a row a list of named cells.
-/

namespace Verif.Asm

/-- An object of the compiler: the model writes numbers for the pointers of the source.
    A constant stands for its value, because the table of constants is keyed by value
    (modules/core/__assembly_layout.h:854, `mt_t<constant>::entity_t` is `cvalue_t`). -/
abbrev Id := Nat

/-- modules/core/__assembly_layout.h:98-205, `mt_table_index_t`: the tables whose rows
    declarations need.  The tables of field, property and event references and of generic
    methods, fields and positions are not modelled. -/
inductive Kind where
  | assembly | assemblyRef | type | typeRef | genericType | arrayType
  | attribute | attributeArgument | genericParam | genericArgument | typeDefParam
  | method | param | property | field | event | typeDef
  | methodRef | methodRefParam | nestType | superType | constant
deriving DecidableEq, Repr

/-- modules/core/__assembly_layout.h:215-236 (`mt_type_extra_t`), 940-950
    (`mt_member_extra_t`, whose `import` is 1) and 755-1246 (the third argument of
    `__DefineMt`): the three bits of a reference that tell tables apart. -/
def extra : Kind → Nat
  | .typeRef => 1
  | .genericType => 2
  | .arrayType => 3
  | .genericParam => 4
  | .typeDefParam => 6
  | .methodRef => 1
  | _ => 0

/-- modules/core/__assembly_layout.h:230, `mt_type_extra_t::generic_param_index`. -/
def paramIndex : Nat := 5

/-- modules/core/__xil.h:422-508, `ref_t`. -/
structure Ref where
  index : Nat
  count : Nat
  extra : Nat
deriving DecidableEq, Repr

/-- modules/core/__xil.h:432-438: the constructor of `ref_t`; the bit fields keep 20 bits of
    the index, 9 bits of the count and 3 bits of the rest, and nothing checks that the
    values fit. -/
def Ref.of (index count extra : Nat) : Ref :=
  ⟨index % 2 ^ 20, count % 2 ^ 9, extra % 2 ^ 3⟩

/-- modules/core/xil.cpp:9, `ref_t::null`. -/
def Ref.null : Ref := Ref.of 0 0 0

/-- modules/core/__xil.h:474-478: a reference equals null exactly when its count is 0. -/
def Ref.isNull (r : Ref) : Bool := r.count == 0

/-- modules/core/core.h, `gtype_t`, and what the writer asks about a type
    (modules/core/assembly_writer.cpp:626-632, 730-738, 794-826): for a general type whether
    it belongs to the assembly being written, for a type parameter its position. -/
inductive GType where
  | general (own : Bool)
  | generic
  | array
  | genericParam (index : Nat)
  | typeDefParam
  | null
deriving DecidableEq, Repr

/-- What a method body asks the writer for (modules/core/assembly_writer.cpp:1383-1423,
    `on_load_ref` and `on_load_type_ref`); generic methods and fields of generic types are
    not modelled. -/
inductive Load where
  | type (t : Id)
  | method (m : Id)
  | field (f : Id)
deriving DecidableEq, Repr

/-- The program being written.  The attributes of an object have the names of the columns
    they are stored in.  `text` and `num` are the values stored as they are, `one` is a
    pointer (`none` for a null pointer) and `many` a list of pointers (the empty list also
    for a null list).  The lists of members are in the order the writer sorts them into
    (modules/core/assembly_writer.cpp:130-135, 151-157); where the source stores a type name the
    model has the type itself. -/
structure World where
  text : Id → String → String
  num : Id → String → Nat
  one : Id → String → Option Id
  many : Id → String → List Id
  gtype : Id → GType
  /-- whether a method belongs to the assembly being written
      (modules/core/assembly_writer.cpp:104-108, `__is_extern`) -/
  own : Id → Bool
  /-- modules/core/assembly_writer.cpp:521-523, the types of the assembly -/
  types : List Id
  /-- modules/core/assembly_writer.cpp:525-527, the typedefs of the assembly -/
  typeDefs : List Id
  /-- the assembly -/
  self : Id
  /-- what the method bodies ask for, in order -/
  loads : List Load

inductive Err where
  /-- `__CheckEmpty` -/
  | missing
  /-- `X_UNEXPECTED` -/
  | unexpected
  /-- `assembly_reference_not_found` -/
  | noReference
  /-- `write_unexpected_nest_type`, `read_unexpected_nest_type` -/
  | nestType
  /-- `mismatched_argument_count` -/
  | argumentCount
  /-- `unexpected_attribute_type` -/
  | attributeType
  /-- `overlimit` -/
  | limit
  /-- `invalid_ref` -/
  | invalidRef
  /-- the model's fuel is spent: the queue is not empty yet -/
  | fuel
deriving DecidableEq, Repr

inductive Cell where
  | text (s : String)
  | num (n : Nat)
  | ref (r : Ref)
deriving DecidableEq, Repr

/-- A row; the row made by `zero_object` has no cells, and a cell that is missing is zero. -/
abbrev Row := List (String × Cell)

/-- The state of the writer: the tables, for every table the map from objects to
    references (`__mt_map`), and the queue of rows to be filled (`__assign_queue`), in
    which an entry names a row and the object it is for. -/
structure St where
  rows : Kind → List Row
  map : Kind → List (Id × Ref)
  queue : List (Kind × Nat × Id)

def upd {α : Type} (f : Kind → α) (k : Kind) (v : α) : Kind → α :=
  fun k' => if k' = k then v else f k'

/-- modules/core/__assembly_layout.h:467-474, `search_ref`, as `__SearchRet` uses it
    (modules/core/assembly_writer.cpp:44-53). -/
def St.search (s : St) (k : Kind) (e : Id) : Option Ref := (s.map k).lookup e

/-- modules/core/__assembly_layout.h:388-401, `append`: a new row, empty, and the object's
    entry in the map. -/
def St.append (s : St) (k : Kind) (e : Id) : St :=
  { s with
    rows := upd s.rows k (s.rows k ++ [[]])
    map := upd s.map k ((e, Ref.of (s.rows k).length 1 (extra k)) :: s.map k) }

/-- modules/core/assembly_writer.cpp:501-504, `__enque_assign`. -/
def St.enque (s : St) (k : Kind) (i : Nat) (e : Id) : St :=
  { s with queue := s.queue ++ [(k, i, e)] }

/-- The pattern of the commit functions for one object
    (modules/core/assembly_writer.cpp:607-687 and 1426-1436): the reference in the map, or a
    new row, entered in the queue. -/
def commitOne (s : St) (k : Kind) (e : Id) : Ref × St :=
  match s.search k e with
  | some r => (r, s)
  | none => (Ref.of (s.rows k).length 1 (extra k),
      (s.append k e).enque k (s.rows k).length e)

/-- modules/core/assembly_writer.cpp:626-660, 730-738, 765-771 and 788-826, `__commit_type`,
    `__commit_general_type`, `__commit_generic_param` and `__commit_type_def_param`. -/
def commitType (W : World) (s : St) : Option Id → Except Err (Ref × St)
  | none => .ok (Ref.null, s)
  | some t =>
    match W.gtype t with
    | .general true => .ok (commitOne s .type t)
    | .general false => .ok (commitOne s .typeRef t)
    | .generic => .ok (commitOne s .genericType t)
    | .array => .ok (commitOne s .arrayType t)
    | .genericParam j =>
      match s.search .genericParam t with
      | some r => .ok (r, s)
      | none => .ok (Ref.of j 1 paramIndex, s)
    | .typeDefParam =>
      match s.search .typeDefParam t with
      | some r => .ok (r, s)
      | none => .error .unexpected
    | .null => .ok (Ref.null, s)

/-- modules/core/__assembly_layout.h:487-526, `acquire`: consecutive rows for the objects
    of a list, each with its entry in the map and in the queue.  The loop goes over the
    reference, the list and the rows together and ends with the shortest, and the reference
    counts only up to 511. -/
def acquire (s : St) (k : Kind) (es : List Id) : Ref × St :=
  if es.isEmpty then (Ref.of (s.rows k).length 0 0, s)
  else
    let base := (s.rows k).length
    let r := Ref.of base es.length (extra k)
    let here := (List.range r.count).zip es
    (r,
      { rows := upd s.rows k (s.rows k ++ es.map fun _ => [])
        map := upd s.map k
          ((here.map fun p => (p.2, Ref.of (r.index + p.1) 1 (extra k))).reverse ++ s.map k)
        queue := s.queue ++ here.map fun p => (k, base + p.1, p.2) })

/-- modules/core/assembly_writer.cpp:883-921, `__commit_method`; members of generic types
    (`impl_method_t`) are not modelled. -/
def commitMethod (W : World) (s : St) : Option Id → Except Err (Ref × St)
  | none => .ok (Ref.null, s)
  | some m =>
    if W.own m then
      match s.search .method m with
      | some r => .ok (r, s)
      | none =>
        match W.one m "host" with
        | none => .error .unexpected
        | some h =>
          match W.gtype h with
          | .general _ =>
            match commitType W s (some h) with
            | .error e => .error e
            | .ok (_, s) =>
              match s.search .method m with
              | some r => .ok (r, s)
              | none => .error .unexpected
          | _ => .error .unexpected
    else .ok (commitOne s .methodRef m)

/-- modules/core/assembly_writer.cpp:1081-1099, `__commit_field`, for fields of general
    types. -/
def commitField (W : World) (s : St) (f : Id) : Except Err (Ref × St) :=
  match s.search .field f with
  | some r => .ok (r, s)
  | none =>
    match commitType W s (W.one f "host") with
    | .error e => .error e
    | .ok (_, s) =>
      match s.search .field f with
      | some r => .ok (r, s)
      | none => .error .unexpected

/-- modules/core/assembly_writer.cpp:1138-1154, `__commit_type_def`. -/
def commitTypeDef (W : World) (s : St) (d : Id) : Except Err (Ref × St) :=
  match s.search .typeDef d with
  | some r => .ok (r, s)
  | none =>
    match commitType W s (W.one d "host") with
    | .error e => .error e
    | .ok (_, s) => .ok (commitOne s .typeDef d)

/-- modules/core/assembly_writer.cpp:1157-1215 and 1259-1380, `__commit_constant`: the row
    of a constant is filled at once.  The columns are "value" for numbers, strings and null
    and "type" for a constant that is a type; whether the constant suits the expected type
    is not modelled. -/
def commitConstant (W : World) (s : St) : Option Id → Except Err (Ref × St)
  | none => .ok (Ref.of (s.rows .constant).length 0 0, s)
  | some c =>
    match s.search .constant c with
    | some r => .ok (r, s)
    | none =>
      let i := (s.rows .constant).length
      match commitType W (s.append .constant c) (W.one c "type") with
      | .error e => .error e
      | .ok (rt, s) =>
        .ok (Ref.of i 1 (extra .constant),
          { s with rows := upd s.rows .constant ((s.rows .constant).set i
              [("value", .num (W.num c "value")), ("type", .ref rt)]) })

/-- modules/core/assembly_writer.cpp:607-623, `__commit_extern_assembly`. -/
def commitAssembly (s : St) : Option Id → Except Err (Ref × St)
  | none => .error .noReference
  | some a => .ok (commitOne s .assemblyRef a)

/-- The statements of the `__assign_mt` functions. -/
inductive Act where
  /-- `mt->x = __S(entity->x)`; the flag says that an empty name is an error -/
  | text (must : Bool)
  /-- `mt->x = entity->x` -/
  | num
  /-- `mt->x = __commit_type(entity->x)`; the flag says that a null type is an error -/
  | type (must : Bool)
  /-- `mt->x = __commit_type(entity)` -/
  | itself
  /-- `__commit_type(entity->x)`, the result not used -/
  | touch
  /-- `mt->x = __commit_method(entity->x)`; the flag says that a null method is an error -/
  | method (must : Bool)
  /-- `mt->x = __commit_constant(entity->x, …)` -/
  | constant
  /-- `mt->x = __commit_extern_assembly(entity->x)` -/
  | assembly
  /-- `mt->x = __commit_…s(entity->x)` -/
  | many (k : Kind)
  /-- `__commit_nest_types` -/
  | nest
  /-- `__commit_attribute_arguments` -/
  | arguments
  /-- the type of an attribute -/
  | attributeType
  /-- the type of a parameter in a reference to a method of another assembly -/
  | refParam
deriving DecidableEq, Repr

/-- modules/core/assembly_writer.cpp:111-447, the `__assign_mt` functions: for every table
    the columns in the order in which they are filled.  A check that stands before other
    statements is made when its column's turn comes; that a method which is no constructor
    has a type is not checked. -/
def steps : Kind → List (String × Act)
  | .assembly => [("name", .text false), ("version", .num), ("entry_point", .method false),
      ("info", .text false)]
  | .assemblyRef => [("name", .text true), ("package", .text false)]
  | .type => [("name", .text false), ("decorate", .num), ("namespace", .text false),
      ("host", .touch), ("generic_params", .many .genericParam), ("methods", .many .method),
      ("properties", .many .property), ("fields", .many .field), ("events", .many .event),
      ("type_defs", .many .typeDef), ("nest_types", .nest),
      ("super_types", .many .superType), ("attributes", .many .attribute),
      ("ttype", .num), ("vtype", .num), ("mtype", .num)]
  | .typeRef => [("assembly", .assembly), ("host", .type false), ("name", .text false),
      ("generic_param_count", .num), ("namespace", .text false)]
  | .genericType => [("template", .type true), ("args", .many .genericArgument),
      ("host", .type false)]
  | .arrayType => [("element_type", .type true), ("dimension", .num)]
  | .methodRef => [("host", .type false), ("name", .text false), ("type", .type false),
      ("params", .many .methodRefParam), ("generic_param_count", .num)]
  | .methodRefParam => [("ptype", .num), ("type", .refParam)]
  | .attribute => [("type", .attributeType), ("constructor", .method true),
      ("arguments", .arguments), ("compile_time", .num)]
  | .attributeArgument => [("name", .text false), ("name_type", .num), ("value", .constant)]
  | .genericParam => [("name", .text false), ("attributes", .many .attribute),
      ("param_type", .num)]
  | .genericArgument => [("type", .itself)]
  | .typeDefParam => [("name", .text true), ("attributes", .many .attribute)]
  | .method => [("decorate", .num), ("name", .text true), ("trait", .num),
      ("generic_params", .many .genericParam), ("type", .type false),
      ("owner", .type false), ("attributes", .many .attribute), ("params", .many .param)]
  | .param => [("name", .text true), ("type", .type true), ("param_type", .num),
      ("default_value", .constant), ("attributes", .many .attribute)]
  | .property => [("decorate", .num), ("name", .text false), ("type", .type true),
      ("owner", .type false), ("attributes", .many .attribute), ("params", .many .param),
      ("get_method", .method false), ("set_method", .method false)]
  | .field => [("decorate", .num), ("name", .text true), ("type", .type true),
      ("attributes", .many .attribute), ("init_value", .constant)]
  | .event => [("decorate", .num), ("name", .text true), ("type", .type true),
      ("owner", .type false), ("attributes", .many .attribute),
      ("add_method", .method false), ("remove_method", .method false)]
  | .typeDef => [("decorate", .num), ("params", .many .typeDefParam), ("type", .type true),
      ("name", .text false), ("namespace", .text false)]
  | .nestType => [("type", .itself)]
  | .superType => [("type", .itself)]
  | .constant => []

/-- modules/core/__assembly_layout.h:243-246, `__size`: declared to return `bool`. -/
def sizeOf (l : List Id) : Nat := if l.isEmpty then 0 else 1

/-- One statement for the object `e`: the cell it fills and the state after it. -/
def act (W : World) (s : St) (e : Id) (f : String) : Act → Except Err (Cell × St)
  | .text must => if must && (W.text e f).isEmpty then .error .missing
      else .ok (.text (W.text e f), s)
  | .num => .ok (.num (W.num e f), s)
  | .type must => if must && (W.one e f).isNone then .error .missing
      else match commitType W s (W.one e f) with
        | .error x => .error x
        | .ok (r, s) => .ok (.ref r, s)
  | .itself =>
      match commitType W s (some e) with
      | .error x => .error x
      | .ok (r, s) => .ok (.ref r, s)
  | .touch =>
      match commitType W s (W.one e f) with
      | .error x => .error x
      | .ok (_, s) => .ok (.num 0, s)
  | .method must => if must && (W.one e f).isNone then .error .missing
      else match commitMethod W s (W.one e f) with
        | .error x => .error x
        | .ok (r, s) => .ok (.ref r, s)
  | .constant =>
      match commitConstant W s (W.one e f) with
      | .error x => .error x
      | .ok (r, s) => .ok (.ref r, s)
  | .assembly =>
      match commitAssembly s (W.one e f) with
      | .error x => .error x
      | .ok (r, s) => .ok (.ref r, s)
  | .many k => let a := acquire s k (W.many e f); .ok (.ref a.1, a.2)
  -- modules/core/assembly_writer.cpp:834-846
  | .nest => if (W.many e f).any fun t => !(W.gtype t == .general true)
      then .error .nestType
      else let a := acquire s .nestType (W.many e f); .ok (.ref a.1, a.2)
  -- modules/core/assembly_writer.cpp:704-727; `W.one e "constructor"` is there, its column
  -- comes first
  | .arguments =>
      match W.one e "constructor" with
      | none => .error .missing
      | some c =>
        if (W.many c "params").length ≠ sizeOf (W.many e f) then .error .argumentCount
        else let a := acquire s .attributeArgument (W.many e f); .ok (.ref a.1, a.2)
  -- modules/core/assembly_writer.cpp:241-252
  | .attributeType =>
      match W.one e f with
      | none => .error .missing
      | some t =>
        match W.gtype t with
        | .general _ =>
          if (W.many t "generic_params").isEmpty then
            match commitType W s (some t) with
            | .error x => .error x
            | .ok (r, s) => .ok (.ref r, s)
          else .error .attributeType
        | _ => .error .attributeType
  -- modules/core/assembly_writer.cpp:220-236
  | .refParam =>
      match W.one e f with
      | none => .error .missing
      | some t =>
        match W.gtype t with
        | .genericParam j => .ok (.ref (Ref.of j 1 paramIndex), s)
        | _ =>
          match commitType W s (some t) with
          | .error x => .error x
          | .ok (r, s) => .ok (.ref r, s)

/-- The statements of one `__assign_mt` function, in order. -/
def fill (W : World) (e : Id) : List (String × Act) → St → Except Err (Row × St)
  | [], s => .ok ([], s)
  | (f, a) :: l, s =>
    match act W s e f a with
    | .error x => .error x
    | .ok (c, s) =>
      match fill W e l s with
      | .error x => .error x
      | .ok (row, s) => .ok ((f, c) :: row, s)

/-- modules/core/assembly_writer.cpp:534-592, `__assign_mts`: the loop over the queue.  The
    entry is removed before its row is filled, not after it; new entries go to the end in
    both cases. -/
def drain (W : World) : Nat → St → Except Err St
  | 0, s => if s.queue.isEmpty then .ok s else .error .fuel
  | n + 1, s =>
    match s.queue with
    | [] => .ok s
    | (k, i, e) :: q =>
      match fill W e (steps k) { s with queue := q } with
      | .error x => .error x
      | .ok (row, s) => drain W n { s with rows := upd s.rows k ((s.rows k).set i row) }

/-- modules/core/assembly_writer.cpp:521-523, the loop over the types. -/
def commitTypes (s : St) : List Id → St
  | [] => s
  | t :: l => commitTypes (commitOne s .type t).2 l

/-- modules/core/assembly_writer.cpp:525-527, the loop over the typedefs. -/
def commitTypeDefs (W : World) (s : St) : List Id → Except Err St
  | [] => .ok s
  | d :: l =>
    match commitTypeDef W s d with
    | .error x => .error x
    | .ok (_, s) => commitTypeDefs W s l

def empty : St := ⟨fun _ => [], fun _ => [], []⟩

/-- modules/core/assembly_writer.cpp:519-531 and 595-604, `__commit_eobjects`. -/
def commitAll (W : World) (fuel : Nat) : Except Err St :=
  match commitTypeDefs W (commitTypes empty W.types) W.typeDefs with
  | .error x => .error x
  | .ok s =>
    drain W fuel ((s.append .assembly W.self).enque .assembly (s.rows .assembly).length W.self)

def load (W : World) (s : St) : Load → Except Err (Ref × St)
  | .type t => commitType W s (some t)
  | .method m => commitMethod W s (some m)
  | .field f => commitField W s f

/-- modules/core/assembly_writer.cpp:1472-1478, the requests of the method bodies. -/
def loads (W : World) : List Load → St → Except Err (List Ref × St)
  | [], s => .ok ([], s)
  | l :: ls, s =>
    match load W s l with
    | .error x => .error x
    | .ok (r, s) =>
      match loads W ls s with
      | .error x => .error x
      | .ok (rs, s) => .ok (r :: rs, s)

/-- modules/core/assembly_writer.cpp:484-491 and 1472-1480: the declarations, then the
    method bodies, then the rows these asked for.  The result is the tables and the
    references that went into the method bodies. -/
def write (W : World) (fuel : Nat) : Except Err ((Kind → List Row) × List Ref) :=
  match commitAll W fuel with
  | .error x => .error x
  | .ok s =>
    match loads W W.loads s with
    | .error x => .error x
    | .ok (rs, s) =>
      match drain W fuel s with
      | .error x => .error x
      | .ok s => .ok (s.rows, rs)

/-! ## The reader -/

/-- An object of the reader: there is one for every row. -/
abbrev Node := Kind × Nat

abbrev Tables := Kind → List Row

def textAt (row : Row) (f : String) : String :=
  match row.lookup f with
  | some (.text s) => s
  | _ => ""

def numAt (row : Row) (f : String) : Nat :=
  match row.lookup f with
  | some (.num n) => n
  | _ => 0

def refAt (row : Row) (f : String) : Ref :=
  match row.lookup f with
  | some (.ref r) => r
  | _ => Ref.null

/-- modules/core/assembly_reader.cpp:547-554, `__get` (with `__CheckRefLimit`, 9-13). -/
def getOne (t : Tables) (k : Kind) (r : Ref) : Except Err (Option Node) :=
  if r.isNull then .ok none
  else if r.index + r.count - 1 ≥ (t k).length then .error .limit
  else .ok (some (k, r.index))

/-- modules/core/assembly_reader.cpp:354-384, `__get_type`. -/
def getType (t : Tables) (r : Ref) : Except Err (Option Node) :=
  if r.isNull then .ok none
  else if r.extra = 0 then getOne t .type r
  else if r.extra = 1 then getOne t .typeRef r
  else if r.extra = 2 then getOne t .genericType r
  else if r.extra = 3 then getOne t .arrayType r
  else if r.extra = 4 then getOne t .genericParam r
  else if r.extra = 6 then getOne t .typeDefParam r
  else .error .unexpected

/-- modules/core/assembly_reader.cpp:593-609 and 1031-1042, `__to_entities` and
    `__fill_entities`. -/
def getMany (t : Tables) (k : Kind) (r : Ref) : Except Err (List Node) :=
  if r.isNull then .ok []
  else if r.index + r.count - 1 ≥ (t k).length then .error .limit
  else .ok ((List.range r.count).map fun j => (k, r.index + j))

/-- `mapM` spelled out. -/
def mapE {α β : Type} (f : α → Except Err β) : List α → Except Err (List β)
  | [] => .ok []
  | a :: l =>
    match f a with
    | .error x => .error x
    | .ok b =>
      match mapE f l with
      | .error x => .error x
      | .ok bs => .ok (b :: bs)

def rowOf (t : Tables) (n : Node) : Row := (t n.1).getD n.2 []

/-- The types a list of rows holds in its column "type": modules/core/assembly_reader.cpp:
    387-420 (generic arguments), 913-920 (base types) and 923-937 (nested types, which must
    be general types). -/
def getThrough (t : Tables) (k : Kind) (r : Ref) : Except Err (List (Option Node)) :=
  match getMany t k r with
  | .error x => .error x
  | .ok ns =>
    mapE (fun n =>
      let q := refAt (rowOf t n) "type"
      if k = .nestType ∧ q.extra ≠ 0 then .error .nestType else getType t q) ns

/-- What the reader finds in a column. -/
inductive Val where
  | text (s : String)
  | num (n : Nat)
  | type (n : Option Node)
  /-- the type parameter with this number, of a method of another assembly -/
  | param (j : Nat)
  | one (n : Option Node)
  | types (l : List (Option Node))
  | many (l : List Node)
deriving DecidableEq, Repr

inductive Get where
  | text | num | type | host | imported | method | constant | assembly
  | many (k : Kind) | through (k : Kind)
deriving DecidableEq, Repr

/-- One statement of a `__build_…` function. -/
def get (t : Tables) (row : Row) (f : String) : Get → Except Err Val
  | .text => .ok (.text (textAt row f))
  | .num => .ok (.num (numAt row f))
  | .type =>
    match getType t (refAt row f) with
    | .error x => .error x
    | .ok n => .ok (.type n)
  -- modules/core/assembly_reader.cpp:737-747; that the host belongs to the same assembly is
  -- a matter of the other assembly
  | .host =>
    let r := refAt row f
    if r.isNull then .ok (.type none)
    else if r.extra ≠ 1 ∨ r.count ≠ 1 then .error .invalidRef
    else match getOne t .typeRef r with
      | .error x => .error x
      | .ok n => .ok (.type n)
  -- modules/core/assembly_reader.cpp:797-807, `__get_import_method_param_type`
  | .imported =>
    let r := refAt row f
    if r.extra = paramIndex then .ok (.param r.index)
    else match getType t r with
      | .error x => .error x
      | .ok n => .ok (.type n)
  -- modules/core/assembly_reader.cpp:557-560, `__get_method`: `extra` is not looked at
  | .method =>
    match getOne t .method (refAt row f) with
    | .error x => .error x
    | .ok n => .ok (.one n)
  | .constant =>
    match getOne t .constant (refAt row f) with
    | .error x => .error x
    | .ok n => .ok (.one n)
  | .assembly =>
    match getOne t .assemblyRef (refAt row f) with
    | .error x => .error x
    | .ok n => .ok (.one n)
  | .many k =>
    match getMany t k (refAt row f) with
    | .error x => .error x
    | .ok l => .ok (.many l)
  | .through k =>
    match getThrough t k (refAt row f) with
    | .error x => .error x
    | .ok l => .ok (.types l)

/-- modules/core/assembly_reader.cpp:1094-1254, the `__build_…` functions, with 387-441
    (generic and array types), 688-766 (assembly and type references), 810-856 (method
    references), 981-994 (the assembly) and 465-472, 940-963 (constants).  What a type or method
    reference is resolved to in the other assembly is not modelled: the model keeps what
    the lookup is made with. -/
def reads : Kind → List (String × Get)
  | .assembly => [("name", .text), ("version", .num), ("info", .text),
      ("entry_point", .method)]
  | .assemblyRef => [("package", .text), ("name", .text)]
  | .type => [("name", .text), ("decorate", .num), ("ttype", .num), ("vtype", .num),
      ("generic_params", .many .genericParam), ("namespace", .text),
      ("nest_types", .through .nestType), ("methods", .many .method),
      ("properties", .many .property), ("fields", .many .field), ("events", .many .event),
      ("type_defs", .many .typeDef), ("super_types", .through .superType),
      ("attributes", .many .attribute)]
  | .typeRef => [("assembly", .assembly), ("namespace", .text), ("name", .text),
      ("host", .host), ("generic_param_count", .num)]
  | .genericType => [("template", .type), ("args", .through .genericArgument),
      ("host", .type)]
  | .arrayType => [("element_type", .type), ("dimension", .num)]
  | .methodRef => [("name", .text), ("host", .type), ("params", .many .methodRefParam),
      ("generic_param_count", .num), ("type", .imported)]
  | .methodRefParam => [("type", .imported), ("ptype", .num)]
  | .attribute => [("type", .type), ("constructor", .method),
      ("arguments", .many .attributeArgument), ("compile_time", .num)]
  | .attributeArgument => [("name", .text), ("value", .constant), ("name_type", .num)]
  | .genericParam => [("name", .text), ("attributes", .many .attribute),
      ("param_type", .num)]
  | .typeDefParam => [("name", .text), ("attributes", .many .attribute)]
  | .method => [("name", .text), ("decorate", .num), ("type", .type),
      ("generic_params", .many .genericParam), ("params", .many .param), ("trait", .num)]
  | .param => [("name", .text), ("attributes", .many .attribute), ("type", .type),
      ("param_type", .num), ("default_value", .constant)]
  | .property => [("name", .text), ("decorate", .num), ("type", .type),
      ("attributes", .many .attribute), ("params", .many .param), ("get_method", .method),
      ("set_method", .method)]
  | .field => [("name", .text), ("decorate", .num), ("type", .type),
      ("attributes", .many .attribute), ("init_value", .constant)]
  | .event => [("name", .text), ("decorate", .num), ("type", .type),
      ("attributes", .many .attribute), ("add_method", .method), ("remove_method", .method)]
  | .typeDef => [("name", .text), ("decorate", .num), ("type", .type),
      ("params", .many .typeDefParam), ("namespace", .text)]
  | .constant => [("value", .num), ("type", .type)]
  | .genericArgument | .nestType | .superType => []

/-- The attributes of the object of one row. -/
def readRow (t : Tables) (n : Node) : Except Err (Node × List (String × Val)) :=
  match mapE (fun c : String × Get =>
      match get t (rowOf t n) c.1 c.2 with
      | .error x => .error x
      | .ok v => .ok (c.1, v)) (reads n.1) with
  | .error x => .error x
  | .ok fs => .ok (n, fs)

/-- modules/core/assembly_reader.cpp:477-541, `__build_entities`: the tables in the order
    in which their objects are built (generic and array types and constants are built where
    they are needed; the model builds them all). -/
def order : List Kind :=
  [.assemblyRef, .typeRef, .methodRef, .methodRefParam, .type, .constant, .genericType,
   .arrayType, .attribute, .method, .field, .property, .event, .typeDef, .typeDefParam,
   .param, .genericParam, .attributeArgument, .assembly]

def nodes (t : Tables) : List Node :=
  order.flatMap fun k => (List.range (t k).length).map fun i => (k, i)

/-- The objects the reader builds, with their attributes. -/
def read (t : Tables) : Except Err (List (Node × List (String × Val))) :=
  mapE (readRow t) (nodes t)

end Verif.Asm
