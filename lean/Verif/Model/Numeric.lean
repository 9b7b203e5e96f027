import Verif.Model.CStr
import Verif.Model.Value

/-!
Model of the numeric literal parser — `algorithm/numeric.cpp` — and of how the token reader uses it —
`modules/compile/token_reader.cpp:150-175`.

The source from a position on is the list of its remaining characters; reading at or after the end gives the character 0
(`cptr_t`, `algorithm/__string.h:445-470`).  Floating-point literals are computed exactly, as an integer times a power of ten:
rounding and the checks for infinity are not modelled.
-/

namespace Verif.Numeric

open Verif.CStr (Ch isDigit isWord isDigitOf digitValue)
open Verif.Value (TValue)

/-- `*p` of a `cptr_t`. -/
def at0 (s : List Ch) : Ch := s.headD 0#32

/-! ## Digits -/

/-- The integer types a literal can have. -/
inductive ITy where
  | int32 | uint32 | int64 | uint64
deriving DecidableEq, Repr

def ITy.signed : ITy → Bool
  | .int32 | .int64 => true
  | _ => false

def ITy.bits : ITy → Nat
  | .int32 | .uint32 => 32
  | _ => 64

/-- `__max_value` — `algorithm/numeric.cpp:92-105`. -/
def maxValue (t : ITy) (positive : Bool) : Nat :=
  if t.signed then (if positive then 2 ^ (t.bits - 1) - 1 else 2 ^ (t.bits - 1) - 1 + 1) else 2 ^ t.bits - 1

/-- The outcome of pushing one character. -/
inductive Push where
  | ok (v : Nat)
  | format
  | overflow
  /-- overflow of a signed type: undefined behaviour -/
  | ub
deriving DecidableEq, Repr

/-- `push` for integers — `algorithm/numeric.cpp:108-119`: `__numeric * __radix + n` is computed in the type itself. -/
def push (t : ITy) (radix : Nat) (positive : Bool) (v : Nat) (c : Ch) : Push :=
  if !isDigitOf c radix then .format
  else
    let n := (digitValue c).toNat
    let prelimit := maxValue t positive / radix
    let prelimitMod := maxValue t positive % radix
    if v > prelimit ∨ (v = prelimit ∧ n > prelimitMod) then .overflow
    else if t.signed then (if v * radix + n < 2 ^ (t.bits - 1) then .ok (v * radix + n) else .ub)
    else .ok ((v * radix + n) % 2 ^ t.bits)

/-- The outcome of parsing digits into one type; on overflow the value so far and the digits left. -/
inductive Scan where
  | done (v : Nat)
  | format
  | overflow (v : Nat) (rest : List Ch)
  | ub
deriving DecidableEq, Repr

/-- `__parser_t::parse` — `algorithm/numeric.cpp:262-277`. -/
def scan (t : ITy) (radix : Nat) (positive : Bool) (v : Nat) : List Ch → Scan
  | [] => .done v
  | c :: s =>
    if c = 39#32 then scan t radix positive v s
    else
      match push t radix positive v c with
      | .ok w => scan t radix positive w s
      | .format => .format
      | .overflow => .overflow v (c :: s)
      | .ub => .ub

/-- The outcome of parsing an integer literal. -/
inductive Res where
  | int (t : ITy) (v : Nat)
  | format
  | overflow
  | ub
deriving DecidableEq, Repr

/-- `__multi_parser_t`, `each_types` — `algorithm/numeric.cpp:288-343`, `include/common.h:941-968`: on overflow the next type
goes on from where the last stopped. -/
def multi (radix : Nat) (positive : Bool) (v : Nat) (s : List Ch) : List ITy → Res
  | [] => .overflow
  | t :: ts =>
    match scan t radix positive v s with
    | .done w => .int t w
    | .format => .format
    | .ub => .ub
    | .overflow w s' => multi radix positive w s' ts

/-! ## Floating-point digits -/

/-- The state of `__parser_op_t` for floating types — `algorithm/numeric.cpp:233-245`; the value is `mant * 10 ^ exp`. -/
structure FSt where
  mant : Nat := 0
  exp : Int := 0
  point : Bool := false
  e : Bool := false
  ec : Ch := 0#32
  pow : Int := 0
  pzc : Nat := 0
  pze : Bool := false
  iz : Bool := true
deriving DecidableEq, Repr

/-- `push` for floating types — `algorithm/numeric.cpp:149-204`.  `none`: format error; `some none`: overflow. -/
def fpush (st : FSt) (c : Ch) : Option (Option FSt) :=
  if c = 46#32 then some (some { st with point := true, pzc := if st.iz then st.pzc + 1 else st.pzc })
  else if c = 69#32 ∨ c = 101#32 then some (some { st with e := true })
  else if c = 43#32 ∨ c = 45#32 then some (some { st with ec := c })
  else if !isDigitOf c 10 then none
  else
    let n := (digitValue c).toNat
    if !st.e then
      if !st.point then
        some (some { st with mant := st.mant * 10 + n, iz := if n > 0 then false else st.iz })
      else
        some (some { st with mant := st.mant * 10 + n, exp := st.exp - 1,
                             pzc := if !st.pze && n = 0 && st.iz then st.pzc + 1 else st.pzc,
                             pze := if !st.pze && n = 0 && st.iz then st.pze else true })
    else if st.pow > 21474836 then some none
    else some (some { st with pow := st.pow * 10 + n })

/-- `commit` — `algorithm/numeric.cpp:207-231`: the final mantissa and exponent. -/
def fcommit (st : FSt) : Nat × Int :=
  if st.pow ≠ 0 then
    let exp := if st.pzc > 0 then st.exp + st.pzc else st.exp
    let pow := if st.pzc > 0 then st.pow - st.pzc else st.pow
    (st.mant, if st.ec = 43#32 then exp + pow else exp - pow)
  else (st.mant, st.exp)

/-- `__parser_t::parse` for floating types. -/
def fscan (st : FSt) : List Ch → Option (Option (Nat × Int))
  | [] => some (some (fcommit st))
  | c :: s =>
    if c = 39#32 then fscan st s
    else
      match fpush st c with
      | none => none
      | some none => some none
      | some (some st') => fscan st' s

/-! ## Reading a literal -/

/-- The fields of `__numeric_parser_t` — `algorithm/numeric.cpp:393-403`.  The only error set while reading is a format
error. -/
structure St where
  /-- `__ts` is `ts_unsigned` -/
  unsigned : Bool := false
  /-- `__tp` -/
  positive : Option Bool := none
  /-- `__tl` is `tl_long` -/
  long : Bool := false
  /-- `__tf` is `tf_float` -/
  float : Bool := false
  radix : Nat := 0
  point : Bool := false
  failed : Bool := false
  /-- the branch for `E` in radix 10 was entered (it is not modelled further: see `Props.radix_never_ten`) -/
  exponent : Bool := false
deriving DecidableEq, Repr

/-- `__set_error` — `algorithm/numeric.cpp:721-725`. -/
def St.fail (st : St) : St := { st with failed := true }

/-- `__set_radix` — `algorithm/numeric.cpp:658-664`. -/
def St.setRadix (st : St) (r : Nat) : St := if st.radix > 0 then st.fail else { st with radix := r }

/-- `__set_positive` — `algorithm/numeric.cpp:685-691`. -/
def St.setPositive (st : St) (b : Bool) : St := if st.positive ≠ none then st.fail else { st with positive := some b }

/-- `__set_point` — `algorithm/numeric.cpp:667-673`. -/
def St.setPoint (st : St) : St := if st.point then st.fail else { st with point := true }

/-- `__set_sign` — `algorithm/numeric.cpp:676-682`. -/
def St.setUnsigned (st : St) : St := if st.unsigned || st.float then st.fail else { st with unsigned := true }

/-- `__set_long` — `algorithm/numeric.cpp:694-700`. -/
def St.setLong (st : St) : St := if st.long then st.fail else { st with long := true }

/-- `__set_float` — `algorithm/numeric.cpp:703-709`. -/
def St.setFloat (st : St) : St := if st.float || st.unsigned then st.fail else { st with float := true }

/-- `__do_read_prefix` — `algorithm/numeric.cpp:417-464`: the state, the character before the position reached, and the
characters left. -/
def readPrefix (st : St) (prev : Ch) : List Ch → St × Ch × List Ch
  | [] => (st.fail, prev, [])
  | c :: s =>
    if c = 45#32 then readPrefix (st.setPositive false) c s
    else if c = 43#32 then readPrefix (st.setPositive true) c s
    else if c = 48#32 then
      if at0 s = 88#32 ∨ at0 s = 120#32 then (st.setRadix 16, at0 s, s.tail)
      else if at0 s = 66#32 ∨ at0 s = 98#32 then (st.setRadix 2, at0 s, s.tail)
      else if at0 s = 46#32 then (st, prev, c :: s)
      else if at0 s = 48#32 then readPrefix st c s
      else (st.setRadix 8, c, s)
    else if c = 0#32 then (st.fail, prev, c :: s)
    else (st, prev, c :: s)

/-- The end of the digits: their text and the character before the end. -/
abbrev End := Option (List Ch × Ch)

/-- `if (!p_end) p_end = __p` -/
def End.or (e : End) (acc : List Ch) (prev : Ch) : End :=
  match e with
  | none => some (acc, prev)
  | e => e

/-- `label_default` for a character that is not a word character, or the end of the source —
`algorithm/numeric.cpp:567-576`. -/
def finish (st : St) (acc : List Ch) (prev : Ch) (e : End) (left : List Ch) : St × List Ch × List Ch :=
  match End.or e acc prev with
  | some (text, last) => (if last = 39#32 then st.fail else st, text, left)
  | none => (st, acc, left)

/-- `__do_continue_read` — `algorithm/numeric.cpp:495-584`: the state, the text of the digits, and the characters left. -/
def continueRead (st : St) (prev : Ch) (acc : List Ch) (e : End) : List Ch → St × List Ch × List Ch
  | [] => finish st acc prev e []
  | c :: s =>
    let dflt (_ : Unit) : St × List Ch × List Ch :=
      if !isWord c then finish st acc prev e (c :: s)
      else continueRead (if e.isSome then st.fail else st) c (acc ++ [c]) e s
    if c = 46#32 then continueRead st.setPoint c (acc ++ [c]) e s
    else if c = 69#32 ∨ c = 101#32 then
      if st.radix = 10 then continueRead { st with exponent := true } c (acc ++ [c]) e s else dflt ()
    else if c = 70#32 ∨ c = 102#32 then
      if st.radix = 10 ∨ st.radix = 0 then continueRead st.setFloat c (acc ++ [c]) (End.or e acc prev) s else dflt ()
    else if c = 76#32 ∨ c = 108#32 then continueRead st.setLong c (acc ++ [c]) (End.or e acc prev) s
    else if c = 85#32 ∨ c = 117#32 then continueRead st.setUnsigned c (acc ++ [c]) (End.or e acc prev) s
    else if c = 72#32 ∨ c = 104#32 then continueRead (st.setRadix 16) c (acc ++ [c]) (End.or e acc prev) s
    else if c = 39#32 then continueRead (if !isDigit prev then st.fail else st) c (acc ++ [c]) e s
    else dflt ()

/-- `__continue_read` after the loop — `algorithm/numeric.cpp:471-489`: radix, unsigned, and whether the number is a
`double`. -/
def St.settle (st : St) : Nat × Bool × Bool :=
  let radix := if st.radix = 0 then 10 else st.radix
  let unsigned := if st.unsigned then true else radix == 16
  let double := !st.float && (st.point || st.exponent)
  ((if (double || st.float) && radix == 8 then 10 else radix), unsigned, double)

/-- What a literal denotes. -/
inductive Lit where
  | val (v : TValue)
  /-- a floating-point literal: type (`float` 4, `double` 8, `long double` 16 bytes) and exact value `mant * 10 ^ exp`, to be
  negated if `neg` -/
  | float (size : Nat) (neg : Bool) (mant : Nat) (exp : Int)
  | format
  | overflow
  | ub
deriving DecidableEq, Repr

/-- The types tried — `__parse`, `algorithm/numeric.cpp:617-637`. -/
def intTypes (long unsigned : Bool) (radix : Nat) : List ITy :=
  if long then (if unsigned then [.uint64] else [.int64, .uint64])
  else if unsigned then [.uint32, .uint64]
  else if radix = 10 then [.int32, .int64, .uint64]
  else [.int32, .uint32, .int64, .uint64]

/-- A value of a type as a `tvalue_t`. -/
def ITy.mk : ITy → Nat → TValue
  | .int32, v => .int32 (BitVec.ofNat 32 v)
  | .uint32, v => .uint32 (BitVec.ofNat 32 v)
  | .int64, v => .int64 (BitVec.ofNat 64 v)
  | .uint64, v => .uint64 (BitVec.ofNat 64 v)

/-- `__parse` and `__revise` — `algorithm/numeric.cpp:587-648`. -/
def convert (st : St) (text : List Ch) : Lit :=
  let (radix, unsigned, double) := st.settle
  let neg := st.positive == some false
  let flt (size : Nat) : Lit :=
    match fscan {} text with
    | none => .format
    | some none => .overflow
    | some (some (m, e)) => .float size neg m e
  if double then
    if radix ≠ 10 ∨ unsigned then .format else flt (if st.long then 16 else 8)
  else if st.float then
    if radix ≠ 10 ∨ unsigned ∨ st.long then .format else flt 4
  else
    match multi radix (!neg) 0 text (intTypes st.long unsigned radix) with
    | .int t v =>
      if neg then
        match Value.negate (t.mk v) with
        | some w => .val w
        | none => .ub
      else .val (t.mk v)
    | .format => .format
    | .overflow => .overflow
    | .ub => .ub

/-- `try_parse_numeric` — `algorithm/numeric.cpp:378-390`, `730-774`: the literal at the beginning of the source and the
characters left. -/
def parseNumeric (prev : Ch) (src : List Ch) : Lit × List Ch :=
  let (st, prev, s) := readPrefix {} prev src
  let (st, text, left) := continueRead st prev [] none s
  (if st.failed then .format else convert st text, left)

/-- The error code of a token. -/
inductive TokErr where
  | none | numericOverflow | numericFormat | string | char | comment | unknown
deriving DecidableEq, Repr

/-- `__read_number` — `modules/compile/token_reader.cpp:150-175`: the codes of the numeric parser are `__default__` = 0,
`success` = 1, `format_error` = 2, `overflow` = 3 (`algorithm/__numeric.h:11-22`, `common/__enum.h:252-263`), and only
`__default__` is taken to mean that there is no error. -/
def numberError : Lit → TokErr
  | .overflow => .numericOverflow
  | _ => .numericFormat

end Verif.Numeric
