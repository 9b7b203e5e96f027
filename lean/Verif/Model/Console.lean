import Verif.Model.Expr
import Verif.Model.Arr

/-!
# Calls of the runtime library: the console and the lengths of arrays

Models the command of an internal call (`modules/exec/commands.cpp:3916-4022`), the functions of `modules/rtlib/system.cpp` and
of `modules/rtlib/array.cpp:21-64`, the table of their names (`modules/rtlib/rtlib.cpp:40-107`), the methods of
`core_lib/System/Console.cs` and of `Array` (`core_lib/System/System.cs:90-102`).

Simplifications.  The stack and its units are those of C77.  A text is a list of character codes.  The stream `std::wcout` is the
characters that have left it and its `badbit`; which characters it can encode is a parameter (nothing in the program sets a
locale, so these are the ones of the locale "C").  The methods of `Console` are executed as the internal calls in their bodies,
with the argument pushed before each; their own calls are those of C77.  `Single` and `Double`, tuples, reflection and the
functions of `modules/rtlib/math.cpp` are not modelled.
-/

namespace Verif.Console

open Verif.Fold Verif.Expr

/-! ## The output stream -/

/-- `std::wcout`. -/
structure Stream where
  chars : List Int := []
  bad : Bool := false
deriving DecidableEq, Repr

/-- Writing characters: when one cannot be encoded the rest is not written and `badbit` is set; with `badbit` nothing is
written. -/
def Stream.puts (enc : Int → Bool) (o : Stream) : List Int → Stream
  | [] => o
  | c :: cs => if o.bad then o else if enc c then Stream.puts enc { o with chars := o.chars ++ [c] } cs else { o with bad := true }

/-- The line end of `std::endl`. -/
def newline : Int := 10

/-- Decimal digits, as the stream writes them. -/
def digits (n : Nat) : List Int := if h : n < 10 then [48 + (n : Int)] else digits (n / 10) ++ [48 + ((n % 10 : Nat) : Int)]
termination_by n
decreasing_by omega

/-- `std::wcout << value` for an integer (`int8_t` and `uint8_t` are promoted to `int`: a wide stream has no operators for
them). -/
def decimal (v : Int) : List Int := if v < 0 then 45 :: digits v.natAbs else digits v.natAbs

/-! ## The functions of the library -/

/-- The functions behind the names. -/
inductive Func where
  | writeString (line : Bool)
  | write (t : VT) (line : Bool)
  | rank | length | lengthOfDimension
deriving DecidableEq, Repr

/-- `__append_libfuncs` — `modules/rtlib/rtlib.cpp:44-79`, without `Single` and `Double`, tuples, reflection and
mathematics. -/
def libfuncs : List (String × Func) :=
  [("Console_WriteString", .writeString false), ("Console_WriteChar", .write .char false),
   ("Console_WriteInt8", .write .int8 false), ("Console_WriteUInt8", .write .uint8 false),
   ("Console_WriteInt16", .write .int16 false), ("Console_WriteUInt16", .write .uint16 false),
   ("Console_WriteInt32", .write .int32 false), ("Console_WriteUInt32", .write .uint32 false),
   ("Console_WriteInt64", .write .int64 false), ("Console_WriteUInt64", .write .uint64 false),
   ("Console_WriteStringLine", .writeString true), ("Console_WriteCharLine", .write .char true),
   ("Console_WriteInt8Line", .write .int8 true), ("Console_WriteUInt8Line", .write .uint8 true),
   ("Console_WriteInt16Line", .write .int16 true), ("Console_WriteUInt16Line", .write .uint16 true),
   ("Console_WriteInt32Line", .write .int32 true), ("Console_WriteUInt32Line", .write .uint32 true),
   ("Console_WriteInt64Line", .write .int64 true), ("Console_WriteUInt64Line", .write .uint64 true),
   ("Array_GetRank", .rank), ("Array_GetLength", .length), ("Array_GetLengthOfDimension", .lengthOfDimension)]

/-- `get_libfunc` — `modules/rtlib/rtlib.cpp:20-27`, `113-117`. -/
def getLibfunc (name : String) : Option Func := libfuncs.lookup name

/-- What the addresses on the stack stand for: strings (a `const char_t *`; the characters before the end of the pool's
string), where the compiler's string constants are, and arrays. -/
structure World where
  strs : Nat → Option (List Int)
  lit : List Int → Nat
  arrs : Nat → Option Arr.Arr
  enc : Int → Bool

/-- `ctx.return_` — `include/modules/rtlib.h:90-94`: a whole unit is written, of which only the value is set. -/
def return_ (junk : Nat) (mem : Mem) (a : Nat) (v : Int) : Mem := store mem a 8 (Expr.enc .int32 v + 256 ^ bytes .int32 * junk)

/-- The end of a line of `write`: all but `console_write_uint64_line` — `modules/rtlib/system.cpp:21-27`, `139-142`. -/
def endsLine (t : VT) (line : Bool) : Bool := line && t != .uint64

/-- A function of the library; its arguments begin at the address `a`. `none`: undefined (a null or dangling array, a dimension
that is none). -/
def apply (w : World) (junk : Nat) (a : Nat) (mem : Mem) (o : Stream) : Func → Option (Mem × Stream)
  /- `modules/rtlib/system.cpp:32-52` -/
  | .writeString line =>
    let p := (readAt .uint64 mem a).toNat
    if p = 0 then some (mem, o)
    else do
      let s ← w.strs p
      let o1 := o.puts w.enc (s.takeWhile (· != 0))
      some (mem, if line then o1.puts w.enc [newline] else o1)
  /- `modules/rtlib/system.cpp:13-27`, `54-142` -/
  | .write t line =>
    let v := readAt t mem a
    let o1 := o.puts w.enc (if t = .char then [v] else decimal v)
    some (mem, if endsLine t line then o1.puts w.enc [newline] else o1)
  /- `modules/rtlib/array.cpp:24-30`, `include/modules/mm.h:80-84` -/
  | .rank => do
    let x ← w.arrs (readAt .uint64 mem a).toNat
    some (return_ junk mem a x.dimension, o)
  /- `modules/rtlib/array.cpp:37-43`, `include/modules/mm.h:93-96` -/
  | .length => do
    let x ← w.arrs (readAt .uint64 mem a).toNat
    some (return_ junk mem a x.total, o)
  /- `modules/rtlib/array.cpp:48-64`: the dimension becomes a `dimension_t`, an `int16_t` (`include/modules/core.h:4633`) -/
  | .lengthOfDimension => do
    let x ← w.arrs (readAt .uint64 mem a).toNat
    let l ← Arr.lengthOf x (conv .int16 (readAt .int32 mem (a + 8)))
    some (return_ junk mem a l, o)

/-! ## The internal call -/

/-- The machine: the stack pointer (in units), the memory of the stack, the stream, and the sizes in the commands that were made
for functions of the library (units of the parameters, units of the result). -/
structure Machine where
  top : Nat
  mem : Mem
  out : Stream
  cache : Func → Option (Nat × Nat)

/-- `__unit_size_of` — `modules/exec/commands.cpp:562-597`, `include/modules/core.h:2062-2095`: all types but `Void` need one
unit. -/
def unitsOf (t : VT) : Nat := if t = .void then 0 else 1

/-- `__get_method_unit_size` — `modules/exec/commands.cpp:3986-4000`. -/
def sizes (params : List VT) (ret : VT) : Nat × Nat := ((params.map unitsOf).sum, unitsOf ret)

/-- Making and executing the command of a call of an internal method — `modules/exec/commands.cpp:3937-3947`, `4003-4022`.
The commands are kept by the function only: a second method with the same name gets the command of the first. -/
def call (w : World) (junk : Nat) (name : String) (params : List VT) (ret : VT) (s : Machine) : Option Machine := do
  let f ← getLibfunc name
  let z := (s.cache f).getD (sizes params ret)
  if s.top < z.1 then none
  else do
    let r ← apply w junk (8 * (s.top - z.1)) s.mem s.out f
    some { top := s.top - z.1 + z.2, mem := r.1, out := r.2, cache := fun g => if g = f then some z else s.cache g }

/-- Pushing a value — `include/modules/exec.h:112-121`, `168-173`; a reference is pushed as its address. -/
def pushV (junk : Nat) (t : VT) (v : Int) (s : Machine) : Machine :=
  { s with mem := store s.mem (8 * s.top) 8 (Expr.enc t v + 256 ^ bytes t * junk), top := s.top + 1 }

/-- How a type is kept on the stack: references are addresses. -/
def word (t : VT) : VT := if t = .string ∨ t = .mobject then .uint64 else t

/-- Methods of the class `Internal` — `core_lib/System/Internal.cs:20-27`, `50-120`: parameters and result. -/
def internals : List (String × List VT × VT) :=
  [("Array_GetRank", [.mobject], .int32), ("Array_GetLength", [.mobject], .int32),
   ("Array_GetLengthOfDimension", [.mobject, .int32], .int32),
   ("Console_WriteString", [.string], .void), ("Console_WriteChar", [.char], .void),
   ("Console_WriteInt8", [.int8], .void), ("Console_WriteUInt8", [.uint8], .void),
   ("Console_WriteInt16", [.int16], .void), ("Console_WriteUInt16", [.uint16], .void),
   ("Console_WriteInt32", [.int32], .void), ("Console_WriteUInt32", [.uint32], .void),
   ("Console_WriteInt64", [.int64], .void), ("Console_WriteUInt64", [.uint64], .void),
   ("Console_WriteStringLine", [.string], .void), ("Console_WriteCharLine", [.char], .void),
   ("Console_WriteInt8Line", [.int8], .void), ("Console_WriteUInt8Line", [.uint8], .void),
   ("Console_WriteInt16Line", [.int16], .void), ("Console_WriteUInt16Line", [.uint16], .void),
   ("Console_WriteInt32Line", [.int32], .void), ("Console_WriteUInt32Line", [.uint32], .void),
   ("Console_WriteInt64Line", [.int64], .void), ("Console_WriteUInt64Line", [.uint64], .void)]

/-- Pushing arguments. -/
def pushAll (junk : Nat) : List VT → List Int → Machine → Machine
  | t :: ts, v :: vs, s => pushAll junk ts vs (pushV junk (word t) v s)
  | _, _, s => s

/-- `Internal.name(args)`. -/
def internal (w : World) (junk : Nat) (name : String) (args : List Int) (s : Machine) : Option Machine := do
  let (params, ret) ← internals.lookup name
  if args.length ≠ params.length then none else call w junk name params ret (pushAll junk params args s)

/-! ## `Console` -/

/-- The methods of `Console`. -/
inductive Meth where
  | write (t : VT)
  | writeLine (t : VT)
  | newline
deriving DecidableEq, Repr

/-- What a method of `Console` gives to an internal method: its argument, what `ToString` of its argument gives, or a
string constant. -/
inductive Arg where
  | value
  | toStr
  | text (s : List Int)
deriving DecidableEq, Repr

/-- The characters of "True", "False" and "\r\n". -/
def trueText : List Int := [84, 114, 117, 101]
def falseText : List Int := [70, 97, 108, 115, 101]
def crlf : List Int := [13, 10]

/-- The bodies of the methods — `core_lib/System/Console.cs:12-147`; `none`: there is no such overload. -/
def body : Meth → Option (List (String × Arg))
  | .write .string => some [("Console_WriteString", .value)]
  | .writeLine .string => some [("Console_WriteStringLine", .value)]
  | .newline => some [("Console_WriteString", .text [10])]
  | .write .char => some [("Console_WriteChar", .value)]
  | .writeLine .char => some [("Console_WriteCharLine", .value)]
  | .write .int8 => some [("Console_WriteInt8", .value)]
  | .writeLine .int8 => some [("Console_WriteInt8Line", .value)]
  | .write .uint8 => some [("Console_WriteUInt8", .value)]
  | .writeLine .uint8 => some [("Console_WriteUInt8Line", .value)]
  | .write .int16 => some [("Console_WriteInt16", .value)]
  | .writeLine .int16 => some [("Console_WriteInt16Line", .value)]
  | .write .uint16 => some [("Console_WriteUInt16", .value)]
  | .writeLine .uint16 => some [("Console_WriteUInt16Line", .value)]
  | .write .int32 => some [("Console_WriteInt32", .value)]
  | .writeLine .int32 => some [("Console_WriteInt32Line", .value)]
  | .write .uint32 => some [("Console_WriteUInt32", .value)]
  | .writeLine .uint32 => some [("Console_WriteUInt32Line", .value)]
  | .write .int64 => some [("Console_WriteInt64", .value)]
  | .writeLine .int64 => some [("Console_WriteInt64Line", .value)]
  | .write .uint64 => some [("Console_WriteUInt64", .value)]
  | .writeLine .uint64 => some [("Console_WriteUInt64Line", .value)]
  | .write .bool => some [("Console_WriteString", .toStr)]
  | .writeLine .bool => some [("Console_WriteString", .toStr), ("Console_WriteString", .text crlf)]
  | _ => none

/-- The value of an argument.  `Boolean.ToString` — `core_lib/System/+types.cs:92-98`. -/
def argOf (w : World) (v : Int) : Arg → Int
  | .value => v
  | .toStr => if v ≠ 0 then w.lit trueText else w.lit falseText
  | .text s => w.lit s

/-- The statements of a body. -/
def runBody (w : World) (junk : Nat) (v : Int) : List (String × Arg) → Machine → Option Machine
  | [], s => some s
  | (f, x) :: rest, s => do runBody w junk v rest (← internal w junk f [argOf w v x] s)

/-- A call of a method of `Console` with the argument `v` (an address for a string). -/
def console (w : World) (junk : Nat) (m : Meth) (v : Int) (s : Machine) : Option Machine := do
  runBody w junk v (← body m) s

/-- A sequence of calls. -/
def consoles (w : World) (junk : Nat) : List (Meth × Int) → Machine → Option Machine
  | [], s => some s
  | (m, v) :: rest, s => do consoles w junk rest (← console w junk m v s)

/-! ## `Array` -/

/-- `Rank`, `Length` and `GetLength` — `core_lib/System/System.cs:93-102`: the result is on top of the stack. -/
def rankOf (w : World) (junk : Nat) (array : Int) (s : Machine) : Option Machine := internal w junk "Array_GetRank" [array] s
def lengthOf (w : World) (junk : Nat) (array : Int) (s : Machine) : Option Machine := internal w junk "Array_GetLength" [array] s
def getLength (w : World) (junk : Nat) (array dimension : Int) (s : Machine) : Option Machine :=
  internal w junk "Array_GetLengthOfDimension" [array, dimension] s

end Verif.Console
