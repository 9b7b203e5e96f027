import Verif.Model.Xil

/-!
# Method bodies

Model of what the compiler writes for a method — `modules/core/core.cpp:1513-1542`, `1565-1588`,
`1628-1636`, `1685-1689`, `1767-1815`, `8224-8265`, `modules/core/xil.cpp:1089-1125`,
`modules/core/assembly_writer.cpp:1484-1501` — and of what the virtual machine reads from it —
`modules/exec/parser.h:14-131`.

Simplifications.  The buffer is a list of bytes (it grows as needed, `core.cpp:8368-8391`).  Structures are
stored field by field, little-endian (`include/modules/core.h:3059-3283`), an enumeration in one byte.
References to types are their 32-bit images.
-/

namespace Verif.Body

open Verif.Xil

/-- A local variable — `local_variable_t`: its number, type and index. -/
structure Var where
  identity : BitVec 16
  ref : BitVec 32
  index : BitVec 16
  deriving DecidableEq, Repr

/-- A row of a switch table — `include/modules/core.h:3174-3184`, `modules/exec/utils.h:12-16`. -/
structure Row where
  value : BitVec 32
  step : BitVec 32
  deriving DecidableEq, Repr

/-- A switch table — `include/modules/core.h:3203-3233`. -/
structure Table where
  dflt : BitVec 32
  rows : List Row
  deriving DecidableEq, Repr

/-- A protected block — `include/modules/core.h:3262-3276`. -/
structure Block where
  type : BitVec 8
  start : BitVec 32
  end_ : BitVec 32
  entry : BitVec 32
  relation : BitVec 32
  deriving DecidableEq, Repr

/-! ## Writing -/

/-- A stub: the type in four bits, and the count in 16 — `include/modules/core.h:3095-3146`. -/
def stub (type : Nib) (count : BitVec 16) : List Byte := [mkByte type 0, 0] ++ le16 count

/-- `local_variable_defination_t::write` — `core.cpp:1685-1689`. -/
def writeVar (v : Var) : List Byte := le32 v.ref ++ le16 v.index

/-- `local_variables_t::write` — `core.cpp:1513-1542`, of the variables as they are sorted. -/
def writeVars (vs : List Var) : List Byte :=
  if vs.length = 0 then [] else stub 1 (BitVec.ofNat 16 vs.length) ++ vs.flatMap writeVar

/-- The sort of `local_variables_t::write`: the variables in another order, none before one with a smaller
number — `core.cpp:1526-1528`. -/
def Sorts (vs sorted : List Var) : Prop :=
  sorted.Perm vs ∧ sorted.Pairwise (fun a b => ¬ b.identity < a.identity)

/-- The rows of a switch table — `core.cpp:1580-1585`. -/
def writeRow (r : Row) : List Byte := le32 r.value ++ le32 r.step

/-- `switch_table_t::write` — `core.cpp:1573-1586`; the number of rows is kept in 16 bits
(`core.h:3196-3201`). -/
def writeTable (t : Table) : List Byte :=
  le16 (BitVec.ofNat 16 t.rows.length) ++ le16 0 ++ le32 t.dflt ++
    (t.rows.take (BitVec.ofNat 16 t.rows.length).toNat).flatMap writeRow

/-- `switch_manager_t::write` — `core.cpp:1628-1636`: also when there are no tables. -/
def writeTables (ts : List Table) : List Byte := stub 2 (BitVec.ofNat 16 ts.length) ++ ts.flatMap writeTable

/-- The image of `method_xil_block_t`. -/
def writeBlock (b : Block) : List Byte := [b.type, 0, 0, 0] ++ le32 b.start ++ le32 b.end_ ++ le32 b.entry ++ le32 b.relation

/-- `xilx_block_manager_t::write` — `core.cpp:8224-8265`. -/
def writeBlocks (bs : List Block) : List Byte :=
  if bs = [] then [] else stub 3 (BitVec.ofNat 16 bs.length) ++ bs.flatMap writeBlock

/-- What a method is stored as — `core.cpp:1800-1809`, `assembly_writer.cpp:1484-1501`: nothing when there
are no instructions. -/
def writeMethod (vs : List Var) (ts : List Table) (bs : List Block) (code : List Byte) : List Byte :=
  if code = [] then [] else writeVars vs ++ writeTables ts ++ writeBlocks bs ++ stub 15 0 ++ code

/-! ## Reading -/

/-- An exception, or a read past the end of the memory. -/
inductive Err where
  | overflow | ub
  deriving DecidableEq, Repr

/-- `__read<uint16_t>` — `parser.h:106-114`. -/
def read16 : List Byte → Except Err (BitVec 16 × List Byte)
  | a :: b :: rest => .ok (b ++ a, rest)
  | _ => .error .overflow

/-- `__read<uint32_t>`, `__read<ref_t>`, `__read<int32_t>`. -/
def read32 : List Byte → Except Err (BitVec 32 × List Byte)
  | a :: b :: c :: d :: rest => .ok (d ++ c ++ b ++ a, rest)
  | _ => .error .overflow

/-- `__read_stub` — `parser.h:117-130`: the count, when the next stub has the type. -/
def readStub (type : Nib) : List Byte → Except Err (Option (BitVec 16) × List Byte)
  | [] => .ok (none, [])
  | a :: rest =>
    if lo a = type then
      match rest with
      | _ :: c :: d :: rest => .ok (some (d ++ c), rest)
      | _ => .error .ub
    else .ok (none, a :: rest)

/-- Reading a number of things. -/
def repeatRead {α : Type} (f : List Byte → Except Err (α × List Byte)) : Nat → List Byte → Except Err (List α × List Byte)
  | 0, bs => .ok ([], bs)
  | n + 1, bs =>
    match f bs with
    | .error e => .error e
    | .ok (x, bs) =>
      match repeatRead f n bs with
      | .error e => .error e
      | .ok (xs, bs) => .ok (x :: xs, bs)

/-- A part: its stub and its elements. -/
def readPart {α : Type} (type : Nib) (f : List Byte → Except Err (α × List Byte)) (bs : List Byte) :
    Except Err (List α × List Byte) :=
  match readStub type bs with
  | .error e => .error e
  | .ok (none, bs) => .ok ([], bs)
  | .ok (some n, bs) => repeatRead f n.toNat bs

/-- The body of the loop in `each_variable` — `parser.h:28-37`. -/
def readVar (bs : List Byte) : Except Err ((BitVec 32 × BitVec 16) × List Byte) :=
  match read32 bs with
  | .error e => .error e
  | .ok (ref, bs) =>
    match read16 bs with
    | .error e => .error e
    | .ok (index, bs) => .ok ((ref, index), bs)

/-- A row — `parser.h:60`. -/
def readRow (bs : List Byte) : Except Err (Row × List Byte) :=
  match read32 bs with
  | .error e => .error e
  | .ok (value, bs) =>
    match read32 bs with
    | .error e => .error e
    | .ok (step, bs) => .ok (⟨value, step⟩, bs)

/-- `exec_switch_table_t` — `modules/exec/utils.h:20-31`: the number of rows is a signed 16-bit number. -/
structure ExecTable where
  rowCount : BitVec 16
  dflt : BitVec 32
  rows : List Row
  deriving DecidableEq, Repr

/-- The body of the loop in `each_switch_table` — `parser.h:49-63`. -/
def readTable (bs : List Byte) : Except Err (ExecTable × List Byte) :=
  match read16 bs with
  | .error e => .error e
  | .ok (count, bs) =>
    match read16 bs with
    | .error e => .error e
    | .ok (_, bs) =>
      match read32 bs with
      | .error e => .error e
      | .ok (dflt, bs) =>
        match repeatRead readRow count.toNat bs with
        | .error e => .error e
        | .ok (rows, bs) => .ok (⟨count, dflt, rows⟩, bs)

/-- `__read<method_xil_block_t>`. -/
def readBlock : List Byte → Except Err (Block × List Byte)
  | t :: _ :: _ :: _ :: bs =>
    match read32 bs with
    | .error e => .error e
    | .ok (start, bs) =>
      match read32 bs with
      | .error e => .error e
      | .ok (end_, bs) =>
        match read32 bs with
        | .error e => .error e
        | .ok (entry, bs) =>
          match read32 bs with
          | .error e => .error e
          | .ok (relation, bs) => .ok (⟨t, start, end_, entry, relation⟩, bs)
  | _ => .error .overflow

/-- What is read of a body: types and indices of the variables, tables, blocks, and the bytes of the
instructions. -/
structure Read where
  vars : List (BitVec 32 × BitVec 16)
  tables : List ExecTable
  blocks : List Block
  code : List Byte
  deriving DecidableEq, Repr

/-- `each_variable`, `each_switch_table`, `each_xil_block` and the stub of `each_xil`, in the order of
`modules/exec/parser.cpp:160-225`. -/
def readMethod (bs : List Byte) : Except Err Read :=
  match readPart 1 readVar bs with
  | .error e => .error e
  | .ok (vars, bs) =>
    match readPart 2 readTable bs with
    | .error e => .error e
    | .ok (tables, bs) =>
      match readPart 3 readBlock bs with
      | .error e => .error e
      | .ok (blocks, bs) =>
        match readStub 15 bs with
        | .error e => .error e
        | .ok (none, _) => .ok ⟨vars, tables, blocks, []⟩
        | .ok (some _, bs) => .ok ⟨vars, tables, blocks, bs⟩

end Verif.Body
