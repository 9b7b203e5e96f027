import Verif.Model.Bits

/-!
# Instructions ("xils"): memory image, size, stream writer and stream reader

Model of `modules/core/__xil.h:626-1790` (the instruction structures), `modules/core/xil.cpp:993-1125`
(`__size_of`, `xil_reader_t::read`, `xil_buffer_writer_t::write`) and
`modules/compile/__xil_struct.h` (the instructions the compiler builds).

An instruction object in memory is a list of bytes: the fixed part followed by the `extra` bytes of
`xil_extra_t` (`modules/core/__xil.h:1804-1816`).  Bytes and bit fields the constructors leave
uninitialised are taken from a `Garbage` argument, over which the theorems quantify.
Little-endian layout; bit fields from the least significant bit.
-/

namespace Verif.Xil

open Verif.Bits

abbrev Byte := BitVec 8
abbrev Nib := BitVec 4

/-- A byte from two 4-bit fields, the first field in the low half (`modules/core/__xil.h:660-661`). -/
def mkByte (lo hi : Nib) : Byte := hi ++ lo
/-- Low 4-bit field of a byte. -/
def lo (b : Byte) : Nib := b.extractLsb' 0 4
/-- High 4-bit field of a byte. -/
def hi (b : Byte) : Nib := b.extractLsb' 4 4

/-- `*(uint16_t *)p = x`. -/
def le16 (x : BitVec 16) : List Byte := [x.extractLsb' 0 8, x.extractLsb' 8 8]
/-- `*(uint32_t *)p = x` / `*(ref_t *)p = x`. -/
def le32 (x : BitVec 32) : List Byte :=
  [x.extractLsb' 0 8, x.extractLsb' 8 8, x.extractLsb' 16 8, x.extractLsb' 24 8]
/-- `*(uint16_t *)p`; `none`: reads past the end of the buffer. -/
def rd16 : List Byte → Option (BitVec 16)
  | a :: b :: _ => some (b ++ a)
  | _ => none
/-- `*(uint32_t *)p` / `*(ref_t *)p`; `none`: reads past the end of the buffer. -/
def rd32 : List Byte → Option (BitVec 32)
  | a :: b :: c :: d :: _ => some (d ++ c ++ b ++ a)
  | _ => none

/-- Storing `bs` at the start of the memory area `mem`. -/
def overwrite (mem bs : List Byte) : List Byte := bs ++ mem.drop bs.length

/-! ## Instructions -/

/-- Storage kinds with a variable number — `modules/core/__xil.h:305-351`. -/
inductive VarStorage where
  | local | argument | localAddr | argumentAddr | localContent | argumentContent
  deriving DecidableEq, Repr

/-- Codes of `xil_storage_type_t` — `modules/core/__xil.h:309-335`. -/
def VarStorage.code : VarStorage → Nib
  | .local => 1 | .argument => 2 | .localAddr => 5 | .argumentAddr => 6
  | .localContent => 10 | .argumentContent => 11

/-- Storage kinds with a metadata reference. -/
inductive RefStorage where
  | field | arrayElement | fieldAddr | arrayElementAddr | fieldContent | arrayElementContent
  deriving DecidableEq, Repr

/-- Codes of `xil_storage_type_t` — `modules/core/__xil.h:309-335`. -/
def RefStorage.code : RefStorage → Nib
  | .field => 3 | .arrayElement => 4 | .fieldAddr => 7 | .arrayElementAddr => 8
  | .fieldContent => 12 | .arrayElementContent => 13

/-- The instructions the compiler builds (`modules/compile/__xil_struct.h`); operands that are stored
in 4-bit fields are 4-bit values, metadata and resource references are their 32-bit images. -/
inductive Instr where
  /-- `x_push_variable_xil_t` and its subclasses, 225-300, 330-348, 378-395, 437-444. -/
  | pushVar (st : VarStorage) (dtype : Nib) (identity : BitVec 16)
  /-- `x_push_field_xil_t`, `x_push_array_element_xil_t` and `_addr`/`_content` forms, 303-324, 351-372, 398-419. -/
  | pushRef (st : RefStorage) (dtype : Nib) (ref : BitVec 32)
  /-- `x_push_const_xil_t`, `x_push_string_xil_t`, `x_push_null_xil_t`, `x_push_type_xil_t`, 502-512, 527-560:
      the value's bytes. -/
  | pushConst (dtype : Nib) (value : List Byte)
  /-- `x_push_generic_const_xil_t`, 515-524. -/
  | pushGenericConst (ref : BitVec 32)
  /-- `x_push_object_xil_t`, 424-434. -/
  | pushObject (otype : Nib) (ref : BitVec 32)
  /-- `x_push_params_xil_t`, 494-499. -/
  | pushParams
  /-- `x_push_duplicate_xil_t`, 447-452. -/
  | pushDuplicate
  /-- `x_push_convert_xil_t`, 455-465. -/
  | pushConvert (dtype1 : Nib) (dtype2 : Byte)
  /-- `x_push_box_xil_t`, 468-478. -/
  | pushBox (boxType : Nib) (ref : BitVec 32)
  /-- `x_push_unbox_xil_t`, 481-491. -/
  | pushUnbox (boxType : Nib) (ref : BitVec 32)
  /-- `x_pop_empty_xil_t(ref_t)`, 100. -/
  | popEmptyStruct (ref : BitVec 32)
  /-- `x_pop_empty_xil_t(xil_type_t)`, 102-104. -/
  | popEmpty (dtype : Nib)
  /-- `x_pop_variable_xil_t` and subclasses, 566-595, 613-630. -/
  | popVar (st : VarStorage) (dtype : Nib) (identity : BitVec 16)
  /-- `x_pop_field_xil_t`, `x_pop_array_element_xil_t` and `_addr` forms, 110-119, 598-607, 633-654. -/
  | popRef (st : RefStorage) (dtype : Nib) (ref : BitVec 32)
  /-- `x_pick_variable_xil_t` and subclasses, 660-689, 707-724. -/
  | pickVar (st : VarStorage) (dtype : Nib) (identity : BitVec 16)
  /-- `x_pick_field_xil_t` and `_addr` forms, 692-701, 727-748. -/
  | pickRef (st : RefStorage) (dtype : Nib) (ref : BitVec 32)
  /-- `x_method_call_xil_t`, 69-78. -/
  | call (callType : Nib) (method : BitVec 32)
  /-- `x_command_call_xil_t`, 83-91. -/
  | callCommand (command : Byte)
  /-- `x_jmp_xil_t`, 753-758 (every model but `switch_`). -/
  | jmp (model : BitVec 3) (step : BitVec 32)
  /-- `x_switch_xil_t`, 761-769. -/
  | switch (tbl : BitVec 32)
  /-- `smp_xil_t`, `modules/core/__xil.h:1470-1482`. -/
  | smp (smp : Nib)
  /-- `x_al_xil_t`, 9-14. -/
  | al (cmd dtype1 dtype2 : Nib)
  /-- `x_cmp_xil_t`, 39-44. -/
  | cmp (cmd dtype1 dtype2 : Nib)
  /-- `x_logic_xil_t`, 29-34. -/
  | logic (cmd : Nib)
  /-- `x_bit_xil_t`, 19-24. -/
  | bit (cmd dtype1 dtype2 : Nib)
  /-- `x_cast_xil_t`, 49-54. -/
  | cast (cmd : Nib) (ref : BitVec 32)
  /-- `x_new_xil_t`, `x_new_array_xil_t`, `x_stack_alloc_xil_t`, 137-164 (every new type but `stack_allocs`). -/
  | new (newType : Nib) (ref : BitVec 32)
  /-- `x_stack_allocs_xil_t`, 169-178. -/
  | newStackAllocs (ref : BitVec 32) (count : BitVec 32)
  /-- `x_object_copy_xil_t`, `x_generic_copy_xil_t`, 772-798: `copyType` 1 or 2. -/
  | copy (generic : Bool) (kind : Nib) (ref : BitVec 32)
  /-- `x_array_begin_xil_t`, `x_array_element_xil_t(dtype)`, `x_array_end_xil_t`, 183-201, 213-220. -/
  | init (initType : Nib) (dtype : Nib)
  /-- `x_array_element_xil_t(type_ref)`, 203-207. -/
  | initRef (initType : Nib) (ref : BitVec 32)
  deriving DecidableEq, Repr

/-- `size_of(xil_type_t)` — `modules/core/__xil.h:711-745`; references and resources are 4 bytes. -/
def sizeOfType (t : Nib) : Nat :=
  match t.toNat with
  | 1 | 2 | 11 => 1
  | 3 | 4 => 2
  | 5 | 6 | 9 | 12 => 4
  | 7 | 8 | 10 => 8
  | 14 | 13 => 4
  | 15 => 4
  | _ => 0

/-- Uninitialised memory under a new instruction object: a 4-bit field and eight extra bytes. -/
structure Garbage where
  nib : Nib
  b0 : Byte
  b1 : Byte
  b2 : Byte
  b3 : Byte
  b4 : Byte
  b5 : Byte
  b6 : Byte
  b7 : Byte

/-- The `extra` area of an instruction before anything is stored there. -/
def Garbage.area (g : Garbage) : List Byte := [g.b0, g.b1, g.b2, g.b3, g.b4, g.b5, g.b6, g.b7]

/-- `push_xil_t(stype, dtype)` for a storage type below `__external__` — `modules/core/__xil.h:784-789`:
header byte and type byte; the high field of the type byte is set to 0. -/
def pushHead (st dtype : Nib) (identity : Nib) : List Byte := [mkByte 1 st, mkByte dtype identity]

/-- `push_xil_t(stype)` for an external storage type (`16..21`), its low field holding `data` —
`modules/core/__xil.h:784-789`; `external_type = stype - 15`. -/
def pushExternalHead (ext data : Nib) : List Byte := [mkByte 1 15, mkByte data ext]

/-- `set_identity` — `modules/core/__xil.h:830-841` (same text in pop and pick): the 4-bit field and
the extra area after the call. -/
def setIdentity (area : List Byte) (identity : BitVec 16) : Nib × List Byte :=
  if identity < 15#16 then (identity.setWidth 4, area) else (15, overwrite area (le16 identity))

/-- The memory image of an instruction built by the compiler.  `none`: the constructor throws
(`overflow`). -/
def image (g : Garbage) : Instr → Option (List Byte)
  | .pushVar st dtype id =>
    let (n, area) := setIdentity g.area id
    some (pushHead st.code dtype n ++ area)
  | .pushRef st dtype ref => some (pushHead st.code dtype 0 ++ overwrite g.area (le32 ref))
  | .pushConst dtype value => some (pushHead 9 dtype 0 ++ overwrite g.area value)
  | .pushGenericConst ref => some (pushHead 9 0 0 ++ overwrite g.area (le32 ref))
  | .pushObject ot ref => some (pushExternalHead 1 ot ++ overwrite g.area (le32 ref))
  | .pushParams => some (pushExternalHead 2 0 ++ g.area)
  | .pushDuplicate => some (pushExternalHead 3 0 ++ g.area)
  | .pushConvert t1 t2 => some (pushExternalHead 4 t1 ++ overwrite g.area [t2])
  | .pushBox bt ref => some (pushExternalHead 5 bt ++ overwrite g.area (le32 ref))
  | .pushUnbox bt ref => some (pushExternalHead 6 bt ++ overwrite g.area (le32 ref))
  | .popEmptyStruct ref => some ([mkByte 2 0, mkByte 0 g.nib] ++ overwrite g.area (le32 ref))
  | .popEmpty dtype => some ([mkByte 2 0, mkByte dtype g.nib] ++ g.area)
  | .popVar st dtype id =>
    let (n, area) := setIdentity g.area id
    some ([mkByte 2 st.code, mkByte dtype n] ++ area)
  | .popRef st dtype ref =>
    some ([mkByte 2 st.code, mkByte dtype g.nib] ++ overwrite g.area (le32 ref))
  | .pickVar st dtype id =>
    let (n, area) := setIdentity g.area id
    some ([mkByte 3 st.code, mkByte dtype n] ++ area)
  | .pickRef st dtype ref =>
    some ([mkByte 3 st.code, mkByte dtype g.nib] ++ overwrite g.area (le32 ref))
  | .call ct m => some (mkByte 4 ct :: le32 m)
  | .callCommand c => some (mkByte 4 5 :: [c, g.b1, g.b2, g.b3])
  | .jmp model step =>
    let x : Jmp := { cmd1 := 5, hdata := 0, e0 := g.b0, e1 := g.b1, e2 := g.b2 }
    ((x.setModel (model.setWidth 4)).setStep step).map fun y => [mkByte y.cmd1 y.hdata, y.e0, y.e1, y.e2]
  | .switch tbl =>
    let x : Jmp := { cmd1 := 5, hdata := 0, e0 := g.b0, e1 := g.b1, e2 := g.b2 }
    ((x.setModel 3).setStep 0).bind fun y =>
      (y.setTbl tbl).map fun z => [mkByte z.cmd1 z.hdata, z.e0, z.e1, z.e2]
  | .smp s => some [mkByte 6 s]
  | .al c t1 t2 => some [mkByte 7 c, mkByte t1 t2]
  | .cmp c t1 t2 => some [mkByte 8 c, mkByte t1 t2]
  | .logic c => some [mkByte 9 c]
  | .bit c t1 t2 => some [mkByte 10 c, mkByte t1 t2]
  | .cast c ref => some (mkByte 11 c :: le32 ref)
  | .new nt ref => some (mkByte 12 nt :: (le32 ref ++ g.area.take 4))
  | .newStackAllocs ref count => some (mkByte 12 4 :: (le32 ref ++ le32 count))
  | .copy generic kind ref =>
    some ([mkByte 15 0, mkByte (if generic then 2 else 1) kind] ++ le32 ref)
  | .init it dtype => some ([mkByte 15 1, mkByte it dtype] ++ g.area.take 4)
  | .initRef it ref => some ([mkByte 15 1, mkByte it 0] ++ le32 ref)

/-! ## Size of an instruction, from its bytes -/

/-- `size_of(const push_xil_t &)` less the two fixed bytes — `modules/core/__xil.h:881-927`. -/
def pushExtra (stype dtype ident : Nib) : Nat :=
  match stype.toNat with
  | 1 | 5 | 2 | 6 => if ident = 15 then 2 else 0
  | 3 | 7 | 4 | 8 => 4
  | 9 => if dtype = 0 then 4 else sizeOfType dtype
  | 15 =>
    -- `stype()` is `15 + external_type` (`modules/core/__xil.h:809-815`)
    match ident.toNat with
    | 1 => 4          -- object
    | 2 | 3 => 0      -- params, duplicate
    | 4 => 1          -- convert
    | 5 | 6 => 4      -- box, unbox
    | _ => 0
  | _ => 0

/-- `size_of(const pop_xil_t &)` less the two fixed bytes — `modules/core/__xil.h:1018-1044`. -/
def popExtra (stype dtype ident : Nib) : Nat :=
  match stype.toNat with
  | 0 => if dtype = 0 then 4 else 0
  | 1 | 2 => if ident = 15 then 2 else 0
  | 3 | 4 => 4
  | _ => 0

/-- `size_of(const pick_xil_t &)` less the two fixed bytes — `modules/core/__xil.h:1127-1148`. -/
def pickExtra (stype ident : Nib) : Nat :=
  match stype.toNat with
  | 1 | 2 => if ident = 15 then 2 else 0
  | 3 | 4 => 4
  | _ => 0

/-- `jmp_xil_step_size` — `modules/core/__xil.h:1558-1567`. -/
def jmpStepSize (hdata : Nib) : Nat :=
  if hdata &&& 7 = 3 then 1 else if hdata >>> 3 = 1 then 3 else 1

/-- `__size_of` — `modules/core/xil.cpp:993-1047`, on the bytes at the instruction's address.
`none`: a byte past the end of the buffer is needed.  A size of 0 is the `default` case. -/
def sizeOf : List Byte → Option Nat
  | [] => none
  | b :: rest =>
    match (lo b).toNat with
    | 0 => some 1                                                   -- empty
    | 1 => rest.head?.map fun c => 2 + pushExtra (hi b) (lo c) (hi c) -- push
    | 2 => rest.head?.map fun c => 2 + popExtra (hi b) (lo c) (hi c)  -- pop
    | 3 => rest.head?.map fun c => 2 + pickExtra (hi b) (hi c)        -- pick
    | 4 => some 5                                                   -- call
    | 5 => some (1 + jmpStepSize (hi b))                            -- jmp
    | 6 => some 1                                                   -- smp
    | 7 => some 2                                                   -- al
    | 8 => some 2                                                   -- cmp
    | 9 => some 1                                                   -- logic
    | 10 => some 2                                                  -- bit
    | 11 => some 5                                                  -- cast
    | 12 => some (5 + if hi b = 4 then 4 else 0)                    -- new
    | 15 =>
      -- `command()` is `15 + cmd2` (`modules/core/__xil.h:645-651`)
      match (hi b).toNat with
      | 0 => rest.head?.map fun c => 2 + if lo c = 1 ∨ lo c = 2 then 4 else 0   -- copy
      | 1 => rest.head?.map fun c => 2 + if hi c = 0 then 4 else 0              -- init
      | _ => some 0
    | _ => some 0

/-! ## Writer and reader -/

/-- The bytes of one instruction written by `xil_buffer_writer_t::write` — `modules/core/xil.cpp:1118`:
`__size_of(xil)` bytes from its address.  `none`: the object is smaller than its size. -/
def written (img : List Byte) : Option (List Byte) :=
  match sizeOf img with
  | none => none
  | some n => if n ≤ img.length then some (img.take n) else none

/-- `xil_buffer_writer_t::write` on a pool of instruction objects — `modules/core/xil.cpp:1089-1125`
(without the stub that precedes them, see the method-body model). -/
def writeAll : List (List Byte) → Option (List Byte)
  | [] => some []
  | img :: rest =>
    match written img, writeAll rest with
    | some a, some b => some (a ++ b)
    | _, _ => none

/-- Building the instruction objects of a method (each over whatever its memory held before) and writing
them out — `modules/compile/__xil_struct.h` constructors, then `modules/core/xil.cpp:1089-1125`.
`none`: a constructor throws. -/
def emit (prog : List (Instr × Garbage)) : Option (List Byte) :=
  (prog.mapM fun p => image p.2 p.1).bind writeAll

/-- What the loop `while (reader.read(&xil))` does with at most `fuel` reads. -/
inductive ReadResult where
  /-- the end was reached; the addresses handed out, each as the bytes from there to the end -/
  | done (xs : List (List Byte))
  /-- a byte past the end of the buffer was read -/
  | outOfBounds (xs : List (List Byte))
  /-- still reading after `fuel` reads -/
  | running (xs : List (List Byte))
  deriving DecidableEq, Repr

/-- Prepends an address to a result. -/
def ReadResult.push (x : List Byte) : ReadResult → ReadResult
  | .done xs => .done (x :: xs)
  | .outOfBounds xs => .outOfBounds (x :: xs)
  | .running xs => .running (x :: xs)

/-- `xil_reader_t::read` in a loop — `modules/core/xil.cpp:1062-1077`, `modules/exec/parser.h:90-96`.
The cursor is the remaining bytes; a size reaching past the end leaves the cursor at or past the end,
where the next `read` returns `false`. -/
def readAll : Nat → List Byte → ReadResult
  | _, [] => .done []
  | 0, _ :: _ => .running []
  | fuel + 1, b :: rest =>
    match sizeOf (b :: rest) with
    | none => .outOfBounds [b :: rest]
    | some n => (readAll fuel ((b :: rest).drop n)).push (b :: rest)

/-! ## Reading operands back, as the virtual machine does -/

/-- `get_identity` — `modules/core/__xil.h:824-827` (same in pop and pick). -/
def getIdentity (ident : Nib) (extra : List Byte) : Option (BitVec 16) :=
  if ident < 15 then some (ident.setWidth 16) else rd16 extra

/-- Storage code with a variable number. -/
def VarStorage.ofCode (c : Nib) : Option VarStorage :=
  match c.toNat with
  | 1 => some .local | 2 => some .argument | 5 => some .localAddr | 6 => some .argumentAddr
  | 10 => some .localContent | 11 => some .argumentContent | _ => none

/-- Storage code with a reference. -/
def RefStorage.ofCode (c : Nib) : Option RefStorage :=
  match c.toNat with
  | 3 => some .field | 4 => some .arrayElement | 7 => some .fieldAddr | 8 => some .arrayElementAddr
  | 12 => some .fieldContent | 13 => some .arrayElementContent | _ => none

/-- The operands of a push instruction through its accessors (`stype`, `dtype`, `get_identity`, `get_ref`,
`get_extra`, `dtype2`, `get_object_type`, `get_box_type`) — `modules/core/__xil.h:809-871`, used in
`modules/exec/commands.cpp:2677-2786`. -/
def decodePush (st : Nib) (c : Byte) (extra : List Byte) : Option Instr :=
  match VarStorage.ofCode st with
  | some v => (getIdentity (hi c) extra).map (.pushVar v (lo c))
  | none =>
    match RefStorage.ofCode st with
    | some r => (rd32 extra).map (.pushRef r (lo c))
    | none =>
      if st = 9 then
        if lo c = 0 then (rd32 extra).map .pushGenericConst
        else if extra.length < sizeOfType (lo c) then none
        else some (.pushConst (lo c) (extra.take (sizeOfType (lo c))))
      else if st = 15 then
        match (hi c).toNat with
        | 1 => (rd32 extra).map (.pushObject (lo c))
        | 2 => some .pushParams
        | 3 => some .pushDuplicate
        | 4 => extra.head?.map (.pushConvert (lo c))
        | 5 => (rd32 extra).map (.pushBox (lo c))
        | 6 => (rd32 extra).map (.pushUnbox (lo c))
        | _ => none
      else none

/-- The operands of a pop instruction — `modules/core/__xil.h:975-1010`. -/
def decodePop (st : Nib) (c : Byte) (extra : List Byte) : Option Instr :=
  if st = 0 then
    if lo c = 0 then (rd32 extra).map .popEmptyStruct else some (.popEmpty (lo c))
  else
    match VarStorage.ofCode st with
    | some v => (getIdentity (hi c) extra).map (.popVar v (lo c))
    | none =>
      match RefStorage.ofCode st with
      | some r => (rd32 extra).map (.popRef r (lo c))
      | none => none

/-- The operands of a pick instruction — `modules/core/__xil.h:1084-1119`. -/
def decodePick (st : Nib) (c : Byte) (extra : List Byte) : Option Instr :=
  match VarStorage.ofCode st with
  | some v => (getIdentity (hi c) extra).map (.pickVar v (lo c))
  | none =>
    match RefStorage.ofCode st with
    | some r => (rd32 extra).map (.pickRef r (lo c))
    | none => none

/-- The operands of a jump instruction — `modules/core/xil.cpp:835-863`; a short jump has only one extra
byte. -/
def decodeJmp (h : Nib) : List Byte → Option Instr
  | [] => none
  | e0 :: rest =>
    if h &&& 7 = 3 then
      some (.switch (Jmp.tbl { cmd1 := 5, hdata := h, e0 := e0, e1 := 0, e2 := 0 }))
    else if h >>> 3 = 0 then
      (Jmp.step { cmd1 := 5, hdata := h, e0 := e0, e1 := 0, e2 := 0 }).map
        (.jmp ((h &&& 7).setWidth 3))
    else
      match rest with
      | e1 :: e2 :: _ =>
        (Jmp.step { cmd1 := 5, hdata := h, e0 := e0, e1 := e1, e2 := e2 }).map
          (.jmp ((h &&& 7).setWidth 3))
      | _ => none

/-- What the virtual machine sees at an instruction's address: command and operands through the accessors
of the instruction structures (`modules/core/__xil.h`).  `none`: an operand lies past the end of the buffer
or the code is not an instruction the compiler builds. -/
def decode : List Byte → Option Instr
  | [] => none
  | b :: rest =>
    match (lo b).toNat with
    | 1 => match rest with | c :: extra => decodePush (hi b) c extra | [] => none
    | 2 => match rest with | c :: extra => decodePop (hi b) c extra | [] => none
    | 3 => match rest with | c :: extra => decodePick (hi b) c extra | [] => none
    | 4 =>
      if hi b = 5 then rest.head?.map .callCommand else (rd32 rest).map (.call (hi b))
    | 5 => decodeJmp (hi b) rest
    | 6 => some (.smp (hi b))
    | 7 => rest.head?.map fun c => .al (hi b) (lo c) (hi c)
    | 8 => rest.head?.map fun c => .cmp (hi b) (lo c) (hi c)
    | 9 => some (.logic (hi b))
    | 10 => rest.head?.map fun c => .bit (hi b) (lo c) (hi c)
    | 11 => (rd32 rest).map (.cast (hi b))
    | 12 =>
      if hi b = 4 then (rd32 rest).bind fun r => (rd32 (rest.drop 4)).map (.newStackAllocs r)
      else (rd32 rest).map (.new (hi b))
    | 15 =>
      match (hi b).toNat, rest with
      | 0, c :: extra =>
        if lo c = 2 then (rd32 extra).map (.copy true (hi c))
        else if lo c = 1 then (rd32 extra).map (.copy false (hi c)) else none
      | 1, c :: extra =>
        if hi c = 0 then (rd32 extra).map (.initRef (lo c)) else some (.init (lo c) (hi c))
      | _, _ => none
    | _ => none

/-! ## Type codes -/

/-- `vtype_t` — `include/modules/core.h:635-673`; `unknown` stands for `__unknown__` and `__end__`. -/
inductive VType where
  | int8 | uint8 | int16 | uint16 | int32 | uint32 | int64 | uint64 | float | double | bool | char
  | ptr | string | void | mobject | default | unknown
  deriving DecidableEq, Repr

/-- `to_xil_type(vtype_t)` — `modules/core/xil.cpp:215-273`, with the codes of
`modules/core/__xil.h:170-206`; `none` is `__unknown__`. -/
def toXilType : VType → Option Nib
  | .int8 => some 1 | .uint8 => some 2 | .int16 => some 3 | .uint16 => some 4 | .int32 => some 5
  | .uint32 => some 6 | .int64 => some 7 | .uint64 => some 8 | .float => some 9 | .double => some 10
  | .bool => some 11 | .char => some 12 | .mobject => some 14 | .ptr => some 13 | .string => some 15
  | .void => some 0 | .default => some 0 | .unknown => none

/-- `to_vtype(xil_type_t)` — `modules/core/__vtype_traits.h:789-841`. -/
def toVType (t : Nib) : VType :=
  match t.toNat with
  | 1 => .int8 | 2 => .uint8 | 3 => .int16 | 4 => .uint16 | 5 => .int32 | 6 => .uint32 | 7 => .int64
  | 8 => .uint64 | 9 => .float | 10 => .double | 11 => .bool | 12 => .char | 15 => .string
  | 14 => .mobject | 13 => .ptr | _ => .unknown

end Verif.Xil
