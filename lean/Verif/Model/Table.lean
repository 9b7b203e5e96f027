import Verif.Model.Heap

/-!
Model of the tables of an assembly file: which members of each metadata row are written
(`modules/core/assembly_layout.cpp:351-800`), how rows, the table directory and the heap are written
(`modules/core/assembly_writer.cpp:1511-1562`) and read back (`modules/core/__assembly_layout.h:288-345`, `1541-1702`).

A row is a map from member names to the bytes of the member; the sizes of the members are parameters, they only have to
be positive.  Not modelled: the meaning of the members, the brief mode that stops after some tables, the 16-bit
limits on member offsets, and the stack used by a table with many rows.
-/

namespace Verif.Table

open Verif.Heap (Byte Heap)

/-- `mt_table_index_t` — `modules/core/__assembly_layout.h:98-203`: the tables after the directory, in file order. -/
inductive Kind where
  | assembly | constant | assembly_ref | type_ref | type | generic_type | array_type | field_ref | method_ref
  | method_ref_param | property_ref | event_ref | super_type | nest_type | field | method | property | event
  | type_def | generic_field | position_field | generic_method | generic_property | generic_event
  | generic_type_def | type_def_param | generic_param | param | generic_argument | attribute | attribute_argument
deriving DecidableEq, Repr

/-- The tables in file order — `modules/core/__assembly_layout.h:108-197`. -/
def kinds : List Kind :=
  [.assembly, .constant, .assembly_ref, .type_ref, .type, .generic_type, .array_type, .field_ref, .method_ref,
   .method_ref_param, .property_ref, .event_ref, .super_type, .nest_type, .field, .method, .property, .event,
   .type_def, .generic_field, .position_field, .generic_method, .generic_property, .generic_event,
   .generic_type_def, .type_def_param, .generic_param, .param, .generic_argument, .attribute, .attribute_argument]

/-- The members of the metadata structures — `modules/core/__assembly_layout.h:752-1250`.  The union of `ttype` and
`vtype` is its byte `__tv_type`. -/
def declared : Kind → List String
  | .assembly => ["name", "version", "entry_point", "info"]
  | .assembly_ref => ["package", "name"]
  | .generic_argument => ["type", "atype"]
  | .constant => ["constant_type", "constant_flag", "data1", "data2"]
  | .type_ref => ["assembly", "host", "namespace_", "name", "generic_param_count"]
  | .type => ["name", "attributes", "decorate", "namespace_", "__tv_type", "mtype", "generic_params", "super_types",
      "methods", "properties", "fields", "events", "type_defs", "nest_types"]
  | .generic_type => ["template_", "args", "host"]
  | .array_type => ["element_type", "dimension"]
  | .field_ref => ["host", "type", "name"]
  | .property_ref => ["host", "type", "name"]
  | .event_ref => ["host", "type", "name"]
  | .method_ref => ["host", "type", "name", "params", "generic_param_count"]
  | .method_ref_param => ["ptype", "type"]
  | .super_type => ["type"]
  | .nest_type => ["type"]
  | .field => ["name", "decorate", "type", "attributes", "init_value"]
  | .property => ["name", "decorate", "type", "owner", "attributes", "params", "get_method", "set_method"]
  | .method => ["name", "decorate", "type", "owner", "attributes", "generic_params", "params", "body", "trait"]
  | .event => ["name", "decorate", "type", "owner", "attributes", "add_method", "remove_method"]
  | .type_def => ["name", "decorate", "type", "params", "namespace_"]
  | .generic_field => ["host", "template_"]
  | .position_field => ["host", "position"]
  | .generic_method => ["host", "template_", "args"]
  | .generic_property => ["host", "template_"]
  | .generic_event => ["host", "template_"]
  | .generic_type_def => ["host", "template_"]
  | .type_def_param => ["name", "attributes"]
  | .param => ["name", "attributes", "type", "param_type", "default_value"]
  | .generic_param => ["name", "attributes", "param_type"]
  | .attribute => ["type", "flag", "constructor", "arguments"]
  | .attribute_argument => ["name", "value", "name_type"]

/-- An item of a field list: `__M(member)` or `__V(lv)` — `modules/core/assembly_layout.cpp:363-372`. -/
inductive Item where
  | m (member : String)
  | v (lv : Nat)
deriving DecidableEq, Repr

/-- The field lists — `modules/core/assembly_layout.cpp:375-750`. -/
def listed : Kind → List Item
  | .assembly => [.m "name", .m "version", .m "entry_point", .m "info", .v 1]
  | .assembly_ref => [.m "package", .m "name", .v 1]
  | .generic_argument => [.m "type", .m "atype", .v 1]
  | .constant => [.m "constant_type", .m "constant_flag", .m "data1", .m "data2", .v 1]
  | .type_ref => [.m "assembly", .m "host", .m "namespace_", .m "name", .m "generic_param_count", .v 1]
  | .type => [.m "name", .m "attributes", .m "decorate", .m "namespace_", .m "__tv_type", .m "mtype",
      .m "generic_params", .m "super_types", .m "methods", .m "properties", .m "fields", .m "events",
      .m "nest_types", .v 1]
  | .generic_type => [.m "template_", .m "args", .m "host", .v 1]
  | .array_type => [.m "element_type", .m "dimension", .v 1]
  | .field_ref => [.m "host", .m "type", .m "name", .v 1]
  | .property_ref => [.m "host", .m "type", .m "name", .v 1]
  | .event_ref => [.m "host", .m "type", .m "name", .v 1]
  | .method_ref => [.m "host", .m "type", .m "name", .m "params", .m "generic_param_count", .v 1]
  | .method_ref_param => [.m "ptype", .m "type", .v 1]
  | .super_type => [.m "type", .v 1]
  | .nest_type => [.m "type", .v 1]
  | .field => [.m "name", .m "decorate", .m "type", .m "attributes", .m "init_value", .v 1]
  | .property => [.m "name", .m "decorate", .m "type", .m "owner", .m "attributes", .m "params", .m "get_method",
      .m "set_method", .v 1]
  | .method => [.m "name", .m "decorate", .m "type", .m "owner", .m "attributes", .m "generic_params", .m "params",
      .m "body", .m "trait", .v 1]
  | .event => [.m "name", .m "decorate", .m "type", .m "owner", .m "attributes", .m "add_method",
      .m "remove_method", .v 1]
  | .type_def => [.m "name", .m "decorate", .m "type", .m "params", .m "namespace_", .v 1]
  | .generic_field => [.m "host", .m "template_", .v 1]
  | .position_field => [.m "host", .m "position", .v 1]
  | .generic_method => [.m "host", .m "template_", .m "args", .v 1]
  | .generic_property => [.m "host", .m "template_", .v 1]
  | .generic_event => [.m "host", .m "template_", .v 1]
  | .generic_type_def => [.m "host", .m "template_", .v 1]
  | .type_def_param => [.m "name", .m "attributes", .v 1]
  | .param => [.m "name", .m "attributes", .m "type", .m "param_type", .m "default_value", .v 1]
  | .generic_param => [.m "name", .m "attributes", .m "param_type", .v 1]
  | .attribute => [.m "type", .m "flag", .m "constructor", .m "arguments", .v 1]
  | .attribute_argument => [.m "name", .m "value", .m "name_type", .v 1]

/-- `__mt_fields_manager_initialize_t::__initialize` — `modules/core/assembly_layout.cpp:770-801`: the members are moved
to the front, in order; the field count of version 1 is the number of members before the first version marker
(`__current_lv` is 1, `modules/core/__assembly.h:12`).  Result: the members and the count. -/
def initFields : List Item → List String × Option Nat
  | items => go items [] none
where
  go : List Item → List String → Option Nat → List String × Option Nat
    | [], f, n => (f, n)
    | .m x :: rest, f, n => go rest (f ++ [x]) n
    | .v _ :: rest, f, n => go rest f (some (n.getD f.length))

/-- The members `write` and `read` go through — `modules/core/__assembly_layout.h:300-345`. -/
def fieldsOf (k : Kind) : List String :=
  let (f, n) := initFields (listed k)
  f.take (n.getD 0)

/-- A row in memory. -/
abbrev RowData := String → List Byte

/-- `__entity_operation_t::write` — `modules/core/__assembly_layout.h:316-325`. -/
def writeRow (k : Kind) (r : RowData) : List Byte := (fieldsOf k).flatMap r

/-- Four bytes, least significant first. -/
def le32 (n : Nat) : List Byte := (List.range 4).map fun i => BitVec.ofNat 8 (n / 256 ^ i)

/-- The number of four bytes. -/
def ofLe32 (bs : List Byte) : Nat := bs.foldr (fun b acc => b.toNat + 256 * acc) 0

/-- What the writer holds before writing: the bytes of the guide row, the rows of every table, and the heap. -/
structure Assembly where
  guide : List Byte
  rows : Kind → List RowData
  heap : Heap

/-- `__entity_operation_t::get_size` — `modules/core/__assembly_layout.h:304-314`. -/
def rowSize (size : Kind → String → Nat) (k : Kind) : Nat := ((fieldsOf k).map (size k)).foldl (· + ·) 0

/-- The directory entries `(offset, rows)` and the heap offset — `__fill_metadatas`,
`modules/core/assembly_writer.cpp:1527-1546`.  The first offset is the size of the header row plus the size of the
directory, whose rows have not been appended yet at that point. -/
def directory (size : Kind → String → Nat) (a : Assembly) : List (Nat × Nat) × Nat :=
  go kinds (8 + 8 * 0) []
where
  go : List Kind → Nat → List (Nat × Nat) → List (Nat × Nat) × Nat
    | [], off, acc => (acc, off)
    | k :: ks, off, acc =>
      go ks (off + rowSize size k * (a.rows k).length) (acc ++ [(off, (a.rows k).length)])

/-- `__fill_metadatas`, `__write` — `modules/core/assembly_writer.cpp:1511-1562`; `none`: the heap is above the limit
(`include/modules/jc.h:16`) or has no memory. -/
def writeFile (size : Kind → String → Nat) (a : Assembly) : Option (List Byte) :=
  let (dir, heapOffset) := directory size a
  if a.heap.buf.p - 1 > 64 * 1024 * 1024 then none
  else
    a.heap.written.map fun heap =>
      a.guide ++ (le32 heapOffset ++ le32 (a.heap.buf.p - 1)) ++
        dir.flatMap (fun (o, n) => le32 o ++ le32 n) ++
        kinds.flatMap (fun k => (a.rows k).flatMap (writeRow k)) ++ heap

/-- `stream.read(p, n) != n` — `modules/core/__assembly_layout.h:333`: the next `n` bytes; `none` is the exception. -/
def take (n : Nat) (s : List Byte) : Option (List Byte × List Byte) :=
  if s.length < n then none else some (s.take n, s.drop n)

/-- `__entity_operation_t::read` — `modules/core/__assembly_layout.h:327-337`: the listed members are overwritten. -/
def readFields (size : String → Nat) : List String → RowData → List Byte → Option (RowData × List Byte)
  | [], r, s => some (r, s)
  | f :: fs, r, s =>
    match take (size f) s with
    | none => none
    | some (bs, s) => readFields size fs (fun x => if x = f then bs else r x) s

/-- The loop over the rows of one table — `modules/core/__assembly_layout.h:1556-1571`; `blank` is what a row holds
after `acquire` and `init`. -/
def readRows (size : Kind → String → Nat) (blank : RowData) (k : Kind) :
    Nat → List Byte → Option (List RowData × List Byte)
  | 0, s => some ([], s)
  | n + 1, s =>
    match readFields (size k) (fieldsOf k) blank s with
    | none => none
    | some (r, s) =>
      match readRows size blank k n s with
      | none => none
      | some (rs, s) => some (r :: rs, s)

/-- `__assembly_table_reader_t::read` — `modules/core/__assembly_layout.h:1551-1577`: the tables in order, each with
the number of rows from the directory. -/
def readTables (size : Kind → String → Nat) (blank : RowData) :
    List (Kind × Nat) → List Byte → Option (List (Kind × List RowData) × List Byte)
  | [], s => some ([], s)
  | (k, n) :: ks, s =>
    match readRows size blank k n s with
    | none => none
    | some (rs, s) =>
      match readTables size blank ks s with
      | none => none
      | some (ts, s) => some ((k, rs) :: ts, s)

/-- `__read_tables` — `modules/core/__assembly_layout.h:1670-1679`: the row counts of `n` directory entries. -/
def readDirectory : Nat → List Byte → Option (List Nat × List Byte)
  | 0, s => some ([], s)
  | n + 1, s =>
    match take 4 s with
    | none => none
    | some (_, s) =>
      match take 4 s with
      | none => none
      | some (rows, s) =>
        match readDirectory n s with
        | none => none
        | some (rest, s) => some (ofLe32 rows :: rest, s)

/-- `metadata_reader_t::read` after the guide — `modules/core/__assembly_layout.h:1618-1642`, `1658-1702`.  `h0` is the
fresh heap. -/
def readFile (size : Kind → String → Nat) (blank : RowData) (c : Heap.Codec) (g : Nat → Byte) (h0 : Heap)
    (guideSize : Nat) (s : List Byte) : Option (List Byte × List (Kind × List RowData) × Heap) :=
  match take guideSize s with
  | none => none
  | some (guide, s) =>
    match take 4 s with
    | none => none
    | some (_, s) =>
      match take 4 s with
      | none => none
      | some (heapSize, s) =>
        match readDirectory kinds.length s with
        | none => none
        | some (counts, s) =>
          match readTables size blank (kinds.zip counts) s with
          | none => none
          | some (ts, s) =>
            match Heap.load c g (ofLe32 heapSize + 1) h0 (ofLe32 heapSize) s with
            | none => none
            | some h => some (guide, ts, h)

end Verif.Table
