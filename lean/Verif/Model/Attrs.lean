/-!
# What attributes do while a program is compiled

Models the commit of attributes: `attribute_t::set_owner`, `commit` (`modules/core/core.cpp:573-598`), `module_t::register_commit`,
`commit` (`modules/core/core.cpp:6306-6320`), the implementations of `InternalAttribute`, `InlineAttribute`, `EntryPointAttribute` and
`AttributeUsageAttribute` (`modules/core/system_type.cpp:805-1088`), and where a program is started
(`modules/exec/exec.cpp:243-265`).

Simplifications.  Methods and types are numbers; what attributes look at is in a table.  The type of an attribute is resolved already.
An internal type is looked up by name, not by `vtype`.  The entry point is passed from compiler to runtime as it is (C86, C91).
-/

namespace Verif.Attrs

/-- `access_value_t` — `include/modules/core.h:1503-1509`. -/
inductive Access where
  | unset | pub | prot | priv | intern | protOrIntern | protAndIntern
deriving DecidableEq, Repr

/-- The numbers of `access_value_t` — `common/__enum.h:252-258`: `X_ENUM` counts from `__default__ = 0`. -/
def Access.code : Access → Nat
  | .unset => 0
  | .pub => 1
  | .prot => 2
  | .priv => 3
  | .intern => 4
  | .protOrIntern => 5
  | .protAndIntern => 6

/-- `bit_has_flag` — `include/common.h:1535-1540`. -/
def hasFlag (v flag : Nat) : Bool := Nat.land v flag != 0

/-- `decorate_value_t` — `include/modules/core.h:1516-1530`. -/
structure Decor where
  access : Access := .unset
  isStatic : Bool := false
  isSealed : Bool := false
  isOverride : Bool := false
  isVirtual : Bool := false
  isAbstract : Bool := false
  isNew : Bool := false
  isConst : Bool := false
  isReadonly : Bool := false
  isExtern : Bool := false
deriving DecidableEq, Repr

/-- What is looked at of a method; `result`: whether the type of the result is `void`, if there is one that is known. -/
structure Method where
  decor : Option Decor := none
  result : Option Bool := some true
  generics : Nat := 0
  params : Nat := 0
deriving DecidableEq, Repr

/-- The type of an attribute: one of the four that the compiler knows, or one of the program. -/
inductive Kind where
  | internal | inline | entryPoint | usage | user
deriving DecidableEq, Repr

/-- `bind_object`. -/
inductive Owner where
  | method (m : Nat)
  | type (t : Nat)
  | other
deriving DecidableEq, Repr

structure Attr where
  kind : Kind
  owner : Owner
deriving DecidableEq, Repr

structure Program where
  methods : Nat → Method
  identity : Nat → String

/-- What is reported. -/
inductive Err where
  | noReturnType | notGeneric | noParams | publicStatic | decorateNotAllowed (names : List String) | duplicated
  | externStatic | externExtern | externNotAllowed (names : List String)
deriving DecidableEq, Repr

/-- What the commits have done: reports with the method they are about, the entry point of the assembly, the methods with
`inline_type = always`, the types bound to internal implementations. -/
structure St where
  errors : List (Err × Nat) := []
  entry : Option Nat := none
  inlined : List Nat := []
  bound : List (String × Nat) := []
deriving DecidableEq, Repr

/-- The names of internal implementations — `modules/core/system_type.cpp:813-866`, `include/modules/core.h:45-93`. -/
def internalNames : List String :=
  ["Object", "Type", "Exception", "SystemException", "NullReferenceException", "InvalidCastException", "OutOfRangeException",
    "Attribute", "Enum", "Array", "Array<>", "ITuple<...>", "Tuple<...>", "Delegate<,...>", "MulticastDelegate<,...>", "Void", "Ptr",
    "Int8", "UInt8", "Int16", "UInt16", "Int32", "UInt32", "Int64", "UInt64", "Boolean", "Char", "String", "Single", "Double",
    "Diagnostics.TraceAttribute", "Reflection.ReflectionInfo", "Reflection.Assembly", "Reflection.Member", "Reflection.Method",
    "Reflection.Property", "Reflection.Event", "Reflection.Field", "Reflection.Parameter", "Reflection.GenericParameter"].map
      ("System." ++ ·)

/-- The modifiers that neither an entry point nor an internal method may have — `modules/core/system_type.cpp:899-905, 1030-1036`. -/
def notAllowed (d : Decor) : List String :=
  (if d.isSealed then ["sealed"] else []) ++ (if d.isOverride then ["override"] else []) ++ (if d.isVirtual then ["virtual"] else []) ++
    (if d.isAbstract then ["abstract"] else []) ++ (if d.isNew then ["new"] else []) ++ (if d.isConst then ["const"] else []) ++
    (if d.isReadonly then ["readonly"] else [])

/-- `__validate_entry_point` — `modules/core/system_type.cpp:1000-1048`. -/
def validate (m : Method) : List Err :=
  let d := m.decor.getD {}
  (if m.result = some false then [.noReturnType] else []) ++ (if m.generics > 0 then [.notGeneric] else []) ++
    (if m.params > 0 then [.noParams] else []) ++
    (if !d.isStatic || !hasFlag d.access.code Access.pub.code then [.publicStatic] else []) ++
    (if notAllowed d ≠ [] then [.decorateNotAllowed (notAllowed d)] else [])

/-- The checks of an internal method — `modules/core/system_type.cpp:883-915`. -/
def validateExtern (m : Method) : List Err :=
  let d := m.decor.getD {}
  (if !d.isStatic then [.externStatic] else []) ++ (if !d.isExtern then [.externExtern] else []) ++
    (if notAllowed d ≠ [] then [.externNotAllowed (notAllowed d)] else [])

/-- `attribute_t::commit` with the implementation of its type — `modules/core/core.cpp:581-598`,
`modules/core/system_type.cpp:870-921, 963-970, 987-998, 1051-1058, 1078-1081`; `none` when an exception is thrown. -/
def commit (P : Program) (s : St) (a : Attr) : Option St :=
  match a.kind, a.owner with
  | .internal, .type t =>
    if P.identity t ∈ internalNames then some { s with bound := (P.identity t, t) :: s.bound } else none
  | .internal, .method m => some { s with errors := s.errors ++ (validateExtern (P.methods m)).map (·, m) }
  | .inline, .method m => some { s with inlined := s.inlined ++ [m] }
  | .entryPoint, .method m =>
    let s1 := { s with errors := s.errors ++ (validate (P.methods m)).map (·, m) }
    if s1.entry.isSome then some { s1 with errors := s1.errors ++ [(.duplicated, m)] } else some { s1 with entry := some m }
  | _, _ => some s

/-- `module_t::commit` — `modules/core/core.cpp:6314-6320`. -/
def commitAll (P : Program) : List Attr → St → Option St
  | [], s => some s
  | a :: as, s =>
    match commit P s a with
    | none => none
    | some s1 => commitAll P as s1

/-- `get_internal_type(name)` — `modules/core/system_type.cpp:935-943`: the type that was bound last. -/
def internalType (s : St) (name : String) : Option Nat := s.bound.lookup name

/-- `executor_t::execute` — `modules/exec/exec.cpp:243-262`: the method that is called, or the error that there is none. -/
def start (entry : Option Nat) : Except String Nat :=
  match entry with
  | none => .error "assembly_no_entry_point"
  | some m => .ok m

end Verif.Attrs
