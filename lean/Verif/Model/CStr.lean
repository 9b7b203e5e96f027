/-!
Model of the character table and the C-string functions: `algorithm/__string.h:48-179`, `algorithm/string.cpp`.

`char_t` is `wchar_t` (`arch/x86_64/__types.h:21`): a 32-bit signed integer on this platform.  A `const char_t *`
is the list of characters from the pointer to the end of the array it points into; reading from the empty list
is an access past the end of the array and makes the result `none`.
-/

namespace Verif.CStr

/-- A character. -/
abbrev Ch := BitVec 32

/-! ## Character table -/

/-- The `set_flag` calls of `__char_property_t::init` — `algorithm/string.cpp:8-21` — as (first, last, flags);
flag bits of `algorithm/__string.h:51-63`: whitespace 1, upper 2, lower 4, digit 8, word 16, lineend 32,
xdigit 64, odigit 128, bdigit 256. -/
def flagRanges : List (Nat × Nat × Nat) :=
  [(65, 90, 2 ||| 16), (97, 122, 4 ||| 16), (48, 57, 8 ||| 16 ||| 64), (65, 70, 64), (97, 102, 64),
   (48, 55, 128), (48, 49, 256), (95, 95, 16),
   (32, 32, 1), (9, 9, 1), (13, 13, 1), (10, 10, 1), (0, 0, 1),
   (13, 13, 32), (10, 10, 32), (0, 0, 32)]

/-- The flags stored in the table for an index. -/
def flagsAt (i : Nat) : Nat :=
  flagRanges.foldl (fun f r => if r.1 ≤ i ∧ i ≤ r.2.1 then f ||| r.2.2 else f) 0

/-- The table has `numeric_limits<char>::max()` = 127 entries — `algorithm/__string.h:80`. -/
def tableSize : Nat := 127

/-- `__char_has_flag(c, flag)` — `algorithm/__string.h:85-89`: `(size_t)c` sign-extends. -/
def hasFlag (c : Ch) (flag : Nat) : Bool :=
  if (c.signExtend 64).toNat ≥ tableSize then false else flagsAt c.toNat &&& flag != 0

/-- `is_whitespace` — `algorithm/__string.h:92-95`. -/
def isWhitespace (c : Ch) : Bool := hasFlag c 1
/-- `is_upper` — `algorithm/__string.h:98-101`. -/
def isUpper (c : Ch) : Bool := hasFlag c 2
/-- `is_lower` — `algorithm/__string.h:104-107`. -/
def isLower (c : Ch) : Bool := hasFlag c 4
/-- `is_letter` — `algorithm/__string.h:110-113`. -/
def isLetter (c : Ch) : Bool := hasFlag c (2 ||| 4)
/-- `is_digit(c)` — `algorithm/__string.h:116-119`. -/
def isDigit (c : Ch) : Bool := hasFlag c 8
/-- `is_xdigit` — `algorithm/__string.h:122-125`. -/
def isXDigit (c : Ch) : Bool := hasFlag c 64
/-- `is_odigit` — `algorithm/__string.h:128-131`. -/
def isODigit (c : Ch) : Bool := hasFlag c 128
/-- `is_bdigit` — `algorithm/__string.h:134-137`. -/
def isBDigit (c : Ch) : Bool := hasFlag c 256
/-- `is_word` — `algorithm/__string.h:152-155`. -/
def isWord (c : Ch) : Bool := hasFlag c 16
/-- `is_word_or_digit` — `algorithm/__string.h:158-161`. -/
def isWordOrDigit (c : Ch) : Bool := hasFlag c (16 ||| 8)
/-- `is_lineend` — `algorithm/__string.h:164-167`. -/
def isLineEnd (c : Ch) : Bool := hasFlag c 32

/-- `__properties[c]` and `overlimit(c)` take a `char`: the character is cut to 8 bits and sign-extended
(`algorithm/__property.h:25-52`, `71-74`). `none` is over the limit. -/
def tableIndex (c : Ch) : Option Nat :=
  let i := ((c.setWidth 8).signExtend 64).toNat
  if i ≥ tableSize then none else some i

/-- `digit_value` — `algorithm/__string.h:140-143` with `algorithm/string.cpp:23-27, 37-47`. -/
def digitValue (c : Ch) : Int :=
  match tableIndex c with
  | none => -1
  | some i =>
    if 65 ≤ i ∧ i ≤ 70 then (i : Int) - 65 + 10
    else if 97 ≤ i ∧ i ≤ 102 then (i : Int) - 97 + 10
    else if 48 ≤ i ∧ i ≤ 57 then (i : Int) - 48
    else -1

/-- `is_digit(c, radix)` — `algorithm/__string.h:146-149`: `(uint_t)` of a negative value is huge. -/
def isDigitOf (c : Ch) (radix : Nat) : Bool := 0 ≤ digitValue c ∧ digitValue c < radix

/-- `to_upper` — `algorithm/__string.h:170-173` with `algorithm/string.cpp:23-27, 33-35`. -/
def toUpper (c : Ch) : Ch :=
  match tableIndex c with
  | none => c
  | some i => if 97 ≤ i ∧ i ≤ 122 then BitVec.ofNat 32 (i - 32) else BitVec.ofNat 32 i

/-- `to_lower` — `algorithm/__string.h:176-179` with `algorithm/string.cpp:23-31`. -/
def toLower (c : Ch) : Ch :=
  match tableIndex c with
  | none => c
  | some i => if 65 ≤ i ∧ i ≤ 90 then BitVec.ofNat 32 (i + 32) else BitVec.ofNat 32 i

/-! ## Strings -/

/-- The character operations used by the string templates — `algorithm/string.cpp:173-204`. -/
structure CharOp where
  equals : Ch → Ch → Bool
  greater : Ch → Ch → Bool

/-- `__char_op_t` — `algorithm/string.cpp:173-187`; `char_t` compares as signed. -/
def charOp : CharOp where
  equals a b := a = b
  greater a b := b.slt a

/-- `__char_ignorecase_op_t` — `algorithm/string.cpp:189-203`. -/
def ignoreCaseOp : CharOp where
  equals a b := a = b || toUpper a = toUpper b
  greater a b := (toUpper b).slt (toUpper a)

/-- `strlen` — `algorithm/string.cpp:55-65`. -/
def strlen : List Ch → Option Nat
  | [] => none
  | c :: s => if c = 0#32 then some 0 else (strlen s).map (· + 1)

/-- Result of `__str_equals`. -/
inductive StrEquals where | yes | no | nolonger
  deriving DecidableEq

/-- `__str_equals` — `algorithm/string.cpp:98-109`. -/
def strEquals (op : CharOp) : List Ch → List Ch → Option StrEquals
  | [], _ => none
  | _ :: _, [] => none
  | c :: s, d :: s0 =>
    if c = 0#32 ∨ d = 0#32 then some (if d = 0#32 then .yes else .nolonger)
    else if op.equals c d then strEquals op s s0
    else some .no

/-- The loop of `__strstr` — `algorithm/string.cpp:123-134`: `pos` is `s` less the start. -/
def strstrLoop (op : CharOp) (d : Ch) (s0 : List Ch) : Nat → List Ch → Option (Option Nat)
  | _, [] => none
  | pos, c :: s =>
    if c = 0#32 then some none
    else if op.equals c d then
      match strEquals op s s0 with
      | none => none
      | some .no => strstrLoop op d s0 (pos + 1) s
      | some .yes => some (some pos)
      | some .nolonger => some none
    else strstrLoop op d s0 (pos + 1) s

/-- `__strstr` — `algorithm/string.cpp:111-134`; the result is the offset found, `some none` is `nullptr`. -/
def strstr (op : CharOp) (s s0 : List Ch) : Option (Option Nat) :=
  match s0 with
  | [] => none
  | d :: s0' => if d = 0#32 then some (some 0) else strstrLoop op d s0' 0 s

/-- `__strchr` — `algorithm/string.cpp:136-150`. -/
def strchrLoop (op : CharOp) (d : Ch) : Nat → List Ch → Option (Option Nat)
  | _, [] => none
  | pos, c :: s =>
    if c = 0#32 then some none else if op.equals c d then some (some pos) else strchrLoop op d (pos + 1) s

/-- `__strcmp` — `algorithm/string.cpp:152-171`: the C++ `cmp_t` as an `Ordering`. -/
def strcmp (op : CharOp) : List Ch → List Ch → Option Ordering
  | [], _ => none
  | _ :: _, [] => none
  | c :: s1, d :: s2 =>
    if op.equals c d then if c ≠ 0#32 then strcmp op s1 s2 else some .eq
    else some (if op.greater c d then .gt else .lt)

end Verif.CStr
