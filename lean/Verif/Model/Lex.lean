import Verif.Model.Numeric

/-!
Model of the token reader: `modules/lang_cs/cs_token_reader.cpp`, `modules/compile/token_reader.cpp`,
`modules/compile/__token_reader.h`.

The source from the cursor on is the list of its remaining characters; reading at or after the end gives the character 0
(`cptr_t`, `algorithm/__string.h:445-470`).  The one place where the cursor goes beyond the end is an unclosed block comment;
it shows in the length of the token.  `__equals_keyword` reads through a raw pointer: what follows a section of source code is
taken to be a character that is not a word character.
-/

namespace Verif.Lex

open Verif.CStr (Ch isWhitespace isWord isLineEnd)
open Verif.Numeric (at0 Lit parseNumeric TokErr numberError)

/-- `is_name_prefix` — `modules/lang_cs/utils.h:42-51`, `modules/lang_cs/utils.cpp:11-20`. -/
def isNamePrefix (c : Ch) : Bool :=
  let i := (c.signExtend 64).toNat
  if i ≥ 127 then false else (97 ≤ i ∧ i ≤ 122) ∨ (65 ≤ i ∧ i ≤ 90) ∨ i = 95

/-- `is_numeric_prefix` — `modules/lang_cs/utils.h:54-57`, `modules/lang_cs/utils.cpp:11-20`. -/
def isNumPrefix (c : Ch) : Bool :=
  let i := (c.signExtend 64).toNat
  if i ≥ 127 then false else (48 ≤ i ∧ i ≤ 57) ∨ i = 46

/-- The values of `cs_token_value_t` for punctuation — `include/modules/lang_cs.h`. -/
inductive Sym where
  | leftBracket | rightBracket | leftSquare | rightSquare | leftBrace | rightBrace | threeDots | memberPoint | semicolon | comma
  | nullCoalescingAssign | nullCoalescing | questionMark | doubleColon | questionColon | baseMark | dollar
  | leftShiftAssign | leftShift | lessEqual | less | leftAngle
  | rightShiftAssign | rightShift | rightAngle | empty | greaterEqual | greater
  | leftIncrement | rightIncrement | addAssign | add | positive
  | leftDecrement | rightDecrement | subAssign | sub | minus
  | mulAssign | mul | divAssign | div | modAssign | mod
  | logicAnd | bitAndAssign | bitAnd | logicOr | bitOrAssign | bitOr | bitNot | bitXorAssign | bitXor
  | notEqual | logicNot | equal | assign
deriving DecidableEq, Repr

/-- What a token is.  A token made by `__Nws` has several possible values. -/
inductive Kind where
  | sym (values : List Sym)
  | keyword (text : List Ch)
  /-- a keyword in some contexts and a name in others (`__Eqks`) -/
  | contextual (text : List Ch)
  | name
  | num (l : Lit)
  | str (value : List Ch)
  | chr (value : Ch)
  | comment
  | unknown
deriving DecidableEq, Repr

/-- A token: `token_t`. -/
structure Tok where
  kind : Kind
  len : Nat
  err : TokErr := .none
deriving DecidableEq, Repr

/-! ## Pieces of `token_reader.cpp` -/

/-- `__skip_whitespace` — `modules/compile/token_reader.cpp:37-49`. -/
def skipWs : List Ch → List Ch
  | [] => []
  | c :: s => if c = 0#32 then c :: s else if isWhitespace c then skipWs s else c :: s

/-- `__read_line_comment` — `modules/compile/token_reader.cpp:120-131`: what is left. -/
def lineComment : List Ch → List Ch
  | [] => []
  | c :: s => if c = 0#32 then c :: s else if isLineEnd c then c :: s else lineComment s

/-- `__read_multiline_comment` — `modules/compile/token_reader.cpp:134-147`: whether the end is missing, by how much the cursor
is beyond the end of the source, and what is left. -/
def blockComment : List Ch → Bool × Nat × List Ch
  | [] => (true, 1, [])
  | c :: s =>
    if c = 0#32 then (true, 0, s)
    else if c = 42#32 ∧ at0 s = 47#32 then (false, 0, s.tail)
    else blockComment s

/-- `__read_name` — `modules/compile/token_reader.cpp:178-186`. -/
def readName : List Ch → List Ch
  | [] => []
  | c :: s => if isWord c then readName s else c :: s

/-- `__read_unknown` — `modules/compile/token_reader.cpp:189-205`. -/
def readUnknown (first : Ch) : List Ch → List Ch
  | [] => []
  | c :: s => if c = 0#32 then c :: s else if c ≠ first ∧ !isWord c then c :: s else readUnknown first s

/-- `__try_escape_char` — `modules/compile/token_reader.cpp:208-265`. -/
def escape (c : Ch) : Option Ch :=
  if c = 110#32 then some 10#32          -- n
  else if c = 114#32 then some 13#32     -- r
  else if c = 116#32 then some 9#32      -- t
  else if c = 98#32 then some 8#32       -- b
  else if c = 97#32 then some 7#32       -- a
  else if c = 48#32 then some 0#32       -- 0
  else if c = 92#32 then some 92#32      -- \
  else if c = 34#32 then some 34#32      -- "
  else if c = 39#32 then some 39#32      -- '
  else if c = 118#32 then some 11#32     -- v
  else if c = 63#32 then some 63#32      -- ?
  else if c = 102#32 then some 102#32    -- f
  else none

/-- `__read_string` — `modules/compile/token_reader.cpp:268-315`: the text, whether there is an error, and what is left. -/
def readString (acc : List Ch) (err : Bool) : List Ch → List Ch × Bool × List Ch
  | [] => (acc, true, [])
  | c :: s =>
    if c = 92#32 then
      match s with
      | [] => (acc, true, [])
      | d :: s' =>
        if d = 0#32 then (acc, true, d :: s')
        else
          match escape d with
          | some e => readString (acc ++ [e]) err s'
          | none => readString acc true s'
    else if c = 34#32 then (acc, err, s)
    else if c = 0#32 then (acc, true, c :: s)
    else readString (acc ++ [c]) err s

/-- `__read_multiline_string` — `modules/compile/token_reader.cpp:318-349`: the case of a quote falls through into the case of
the end of the source. -/
def readVerbatim (acc : List Ch) : List Ch → List Ch × Bool × List Ch
  | [] => (acc, true, [])
  | c :: s =>
    if c = 34#32 then (if at0 s = 34#32 then (acc ++ [34#32], true, s.tail) else (acc, false, s))
    else if c = 0#32 then (acc, true, c :: s)
    else readVerbatim (acc ++ [c]) s

/-- `__new_string` — `modules/compile/token_reader.cpp:112-117`: the text is copied with `strcpy`, up to its first NUL. -/
def stored (s : List Ch) : List Ch := s.takeWhile (· ≠ 0#32)

/-- The variables of `__read_char` — `modules/compile/token_reader.cpp:354-358`; `p` is the rest of the source. -/
structure CharSt where
  p : List Ch
  ret : Ch := 0#32
  count : Nat := 0
  err : Bool := false
deriving DecidableEq, Repr

/-- One round of the loop of `__read_char` — `modules/compile/token_reader.cpp:360-393`; `inr` when it jumps to `__end`. -/
def charStep (st : CharSt) : CharSt ⊕ CharSt :=
  let c := at0 st.p
  if c = 39#32 then .inr { st with p := st.p.tail }
  else if c = 92#32 then
    let d := at0 st.p.tail
    if d = 0#32 then .inr { st with p := st.p.tail, err := true }
    else
      match escape d with
      | some e => .inl { st with p := st.p.tail.tail, ret := e, count := st.count + 1 }
      | none => .inl { st with p := st.p.tail.tail, count := st.count + 1, err := true }
  else if c = 13#32 ∨ c = 10#32 ∨ c = 0#32 then .inl { st with err := true }
  else .inl { st with p := st.p.tail, ret := c, count := st.count + 1 }

/-- `n` rounds of the loop: the state at `__end` if it got there. -/
def charRun : Nat → CharSt → Option CharSt
  | 0, _ => none
  | n + 1, st =>
    match charStep st with
    | .inr st' => some st'
    | .inl st' => charRun n st'

/-- The loop as a function of the rest of the source; `none` if it never ends (`Props.readChar_iff` relates it to `charRun`). -/
def readChar (st : CharSt) : List Ch → Option CharSt
  | [] => none
  | c :: s =>
    if c = 39#32 then some { st with p := s }
    else if c = 92#32 then
      match s with
      | [] => some { st with p := [], err := true }
      | d :: s' =>
        if d = 0#32 then some { st with p := d :: s', err := true }
        else
          match escape d with
          | some e => readChar { st with ret := e, count := st.count + 1 } s'
          | none => readChar { st with count := st.count + 1, err := true } s'
    else if c = 13#32 ∨ c = 10#32 ∨ c = 0#32 then none
    else readChar { st with ret := c, count := st.count + 1 } s

/-- After `__end` — `modules/compile/token_reader.cpp:395-409`. -/
def charErr (st : CharSt) : TokErr := if st.count = 0 then .char else if st.count > 1 then .char else if st.err then .char else .none

/-! ## `cs_token_reader.cpp` -/

/-- The keywords in the order in which they are tried — `modules/lang_cs/cs_token_reader.cpp:71-210`; `true` marks those that are
also names. -/
def keywords : List (Bool × List Ch) := [
   (false, [97#32, 98#32, 115#32, 116#32, 114#32, 97#32, 99#32, 116#32]), -- abstract
   (false, [97#32, 115#32]), -- as
   (true, [97#32, 100#32, 100#32]), -- add
   (false, [98#32, 97#32, 115#32, 101#32]), -- base
   (false, [98#32, 114#32, 101#32, 97#32, 107#32]), -- break
   (false, [98#32, 121#32, 116#32, 101#32]), -- byte
   (false, [98#32, 111#32, 111#32, 108#32]), -- bool
   (false, [99#32, 97#32, 115#32, 101#32]), -- case
   (false, [99#32, 97#32, 116#32, 99#32, 104#32]), -- catch
   (false, [99#32, 104#32, 97#32, 114#32]), -- char
   (false, [99#32, 104#32, 101#32, 99#32, 107#32, 101#32, 100#32]), -- checked
   (false, [99#32, 108#32, 97#32, 115#32, 115#32]), -- class
   (false, [99#32, 111#32, 110#32, 115#32, 116#32]), -- const
   (false, [99#32, 111#32, 110#32, 116#32, 105#32, 110#32, 117#32, 101#32]), -- continue
   (false, [100#32, 101#32, 99#32, 105#32, 109#32, 97#32, 108#32]), -- decimal
   (false, [100#32, 101#32, 102#32, 97#32, 117#32, 108#32, 116#32]), -- default
   (false, [100#32, 101#32, 108#32, 101#32, 103#32, 97#32, 116#32, 101#32]), -- delegate
   (false, [100#32, 111#32]), -- do
   (false, [100#32, 111#32, 117#32, 98#32, 108#32, 101#32]), -- double
   (false, [101#32, 108#32, 115#32, 101#32]), -- else
   (false, [101#32, 110#32, 117#32, 109#32]), -- enum
   (false, [101#32, 118#32, 101#32, 110#32, 116#32]), -- event
   (false, [101#32, 120#32, 112#32, 108#32, 105#32, 99#32, 105#32, 116#32]), -- explicit
   (false, [101#32, 120#32, 116#32, 101#32, 114#32, 110#32]), -- extern
   (false, [102#32, 97#32, 108#32, 115#32, 101#32]), -- false
   (false, [102#32, 105#32, 110#32, 97#32, 108#32, 108#32, 121#32]), -- finally
   (false, [102#32, 105#32, 120#32, 101#32, 100#32]), -- fixed
   (false, [102#32, 108#32, 111#32, 97#32, 116#32]), -- float
   (false, [102#32, 111#32, 114#32]), -- for
   (false, [102#32, 111#32, 114#32, 101#32, 97#32, 99#32, 104#32]), -- foreach
   (false, [102#32, 114#32, 111#32, 109#32]), -- from
   (false, [103#32, 111#32, 116#32, 111#32]), -- goto
   (true, [103#32, 101#32, 116#32]), -- get
   (true, [103#32, 108#32, 111#32, 98#32, 97#32, 108#32]), -- global
   (false, [105#32, 102#32]), -- if
   (false, [105#32, 109#32, 112#32, 108#32, 105#32, 99#32, 105#32, 116#32]), -- implicit
   (false, [105#32, 110#32]), -- in
   (false, [105#32, 110#32, 116#32]), -- int
   (false, [105#32, 110#32, 116#32, 101#32, 114#32, 102#32, 97#32, 99#32, 101#32]), -- interface
   (false, [105#32, 110#32, 116#32, 101#32, 114#32, 110#32, 97#32, 108#32]), -- internal
   (false, [105#32, 115#32]), -- is
   (false, [105#32, 109#32, 112#32, 111#32, 114#32, 116#32]), -- import
   (false, [108#32, 111#32, 99#32, 107#32]), -- lock
   (false, [108#32, 111#32, 110#32, 103#32]), -- long
   (false, [110#32, 97#32, 109#32, 101#32, 115#32, 112#32, 97#32, 99#32, 101#32]), -- namespace
   (false, [110#32, 101#32, 119#32]), -- new
   (false, [110#32, 117#32, 108#32, 108#32]), -- null
   (false, [111#32, 98#32, 106#32, 101#32, 99#32, 116#32]), -- object
   (false, [111#32, 112#32, 101#32, 114#32, 97#32, 116#32, 111#32, 114#32]), -- operator
   (false, [111#32, 117#32, 116#32]), -- out
   (false, [111#32, 118#32, 101#32, 114#32, 114#32, 105#32, 100#32, 101#32]), -- override
   (false, [112#32, 97#32, 114#32, 97#32, 109#32, 115#32]), -- params
   (false, [112#32, 114#32, 105#32, 118#32, 97#32, 116#32, 101#32]), -- private
   (false, [112#32, 114#32, 111#32, 116#32, 101#32, 99#32, 116#32, 101#32, 100#32]), -- protected
   (false, [112#32, 117#32, 98#32, 108#32, 105#32, 99#32]), -- public
   (false, [114#32, 101#32, 97#32, 100#32, 111#32, 110#32, 108#32, 121#32]), -- readonly
   (false, [114#32, 101#32, 102#32]), -- ref
   (false, [114#32, 101#32, 116#32, 117#32, 114#32, 110#32]), -- return
   (true, [114#32, 101#32, 109#32, 111#32, 118#32, 101#32]), -- remove
   (false, [115#32, 98#32, 121#32, 116#32, 101#32]), -- sbyte
   (false, [115#32, 101#32, 97#32, 108#32, 101#32, 100#32]), -- sealed
   (false, [115#32, 104#32, 111#32, 114#32, 116#32]), -- short
   (false, [115#32, 105#32, 122#32, 101#32, 111#32, 102#32]), -- sizeof
   (false, [115#32, 116#32, 97#32, 99#32, 107#32, 97#32, 108#32, 108#32, 111#32, 99#32]), -- stackalloc
   (false, [115#32, 116#32, 97#32, 116#32, 105#32, 99#32]), -- static
   (false, [115#32, 116#32, 114#32, 105#32, 110#32, 103#32]), -- string
   (false, [115#32, 116#32, 114#32, 117#32, 99#32, 116#32]), -- struct
   (false, [115#32, 119#32, 105#32, 116#32, 99#32, 104#32]), -- switch
   (true, [115#32, 101#32, 116#32]), -- set
   (false, [116#32, 104#32, 105#32, 115#32]), -- this
   (false, [116#32, 104#32, 114#32, 111#32, 119#32]), -- throw
   (false, [116#32, 114#32, 117#32, 101#32]), -- true
   (false, [116#32, 114#32, 121#32]), -- try
   (false, [116#32, 121#32, 112#32, 101#32, 111#32, 102#32]), -- typeof
   (false, [116#32, 121#32, 112#32, 101#32, 100#32, 101#32, 102#32]), -- typedef
   (false, [117#32, 105#32, 110#32, 116#32]), -- uint
   (false, [117#32, 108#32, 111#32, 110#32, 103#32]), -- ulong
   (false, [117#32, 110#32, 99#32, 104#32, 101#32, 99#32, 107#32, 101#32, 100#32]), -- unchecked
   (false, [117#32, 110#32, 115#32, 97#32, 102#32, 101#32]), -- unsafe
   (false, [117#32, 115#32, 104#32, 111#32, 114#32, 116#32]), -- ushort
   (false, [117#32, 115#32, 105#32, 110#32, 103#32]), -- using
   (false, [118#32, 105#32, 114#32, 116#32, 117#32, 97#32, 108#32]), -- virtual
   (false, [118#32, 111#32, 105#32, 100#32]), -- void
   (false, [118#32, 111#32, 108#32, 97#32, 116#32, 105#32, 108#32, 101#32]), -- volatile
   (false, [118#32, 97#32, 114#32]), -- var
   (false, [119#32, 104#32, 105#32, 108#32, 101#32]), -- while
   (true, [119#32, 104#32, 101#32, 114#32, 101#32])  -- where
  ]

/-- `__equals_keyword` — `modules/compile/__token_reader.h:71-75`: `p` is after the first character. -/
def equalsKeyword (p : List Ch) (keyword : List Ch) : Bool :=
  keyword.tail.isPrefixOf p && !isWord (at0 (p.drop (keyword.length - 1)))

/-- The cases for letters — `modules/lang_cs/cs_token_reader.cpp:71-210`. -/
def lexKeyword (c : Ch) (s : List Ch) : Option (Bool × List Ch) :=
  keywords.find? fun k => k.2.head? == some c && equalsKeyword s k.2

/-- The cases for punctuation other than literals and comments — `modules/lang_cs/cs_token_reader.cpp:212-503`: the possible
values of the token and the number of characters after the first. -/
def lexSym (c : Ch) (s : List Ch) : Option (List Sym × Nat) :=
  let d := at0 s
  let e := at0 s.tail
  if c = 40#32 then some ([.leftBracket], 0)
  else if c = 41#32 then some ([.rightBracket], 0)
  else if c = 91#32 then some ([.leftSquare], 0)
  else if c = 93#32 then some ([.rightSquare], 0)
  else if c = 123#32 then some ([.leftBrace], 0)
  else if c = 125#32 then some ([.rightBrace], 0)
  else if c = 46#32 then (if d = 46#32 ∧ e = 46#32 then some ([.threeDots], 2) else some ([.memberPoint], 0))
  else if c = 59#32 then some ([.semicolon], 0)
  else if c = 44#32 then some ([.comma], 0)
  else if c = 63#32 then
    if d = 63#32 then (if e = 61#32 then some ([.nullCoalescingAssign], 2) else some ([.nullCoalescing], 1))
    else some ([.questionMark], 0)
  else if c = 58#32 then (if d = 58#32 then some ([.doubleColon], 1) else some ([.questionColon, .baseMark], 0))
  else if c = 36#32 then some ([.dollar], 0)
  else if c = 60#32 then
    if d = 60#32 then (if e = 61#32 then some ([.leftShiftAssign], 2) else some ([.leftShift], 1))
    else if d = 61#32 then some ([.lessEqual], 1)
    else some ([.less, .leftAngle], 0)
  else if c = 62#32 then
    if d = 62#32 then (if e = 61#32 then some ([.rightShiftAssign], 2) else some ([.rightShift, .rightAngle], 1))
    else if d = 61#32 then some ([.greaterEqual], 1)
    else some ([.greater, .rightAngle], 0)
  else if c = 43#32 then
    if d = 43#32 then some ([.leftIncrement, .rightIncrement], 1)
    else if d = 61#32 then some ([.addAssign], 1)
    else some ([.add, .positive], 0)
  else if c = 45#32 then
    if d = 45#32 then some ([.leftDecrement, .rightDecrement], 1)
    else if d = 61#32 then some ([.subAssign], 1)
    else some ([.sub, .minus], 0)
  else if c = 42#32 then (if d = 61#32 then some ([.mulAssign], 1) else some ([.mul], 0))
  else if c = 47#32 then (if d = 61#32 then some ([.divAssign], 1) else some ([.div], 0))
  else if c = 37#32 then (if d = 61#32 then some ([.modAssign], 1) else some ([.mod], 0))
  else if c = 38#32 then
    if d = 38#32 then some ([.logicAnd], 1)
    else if d = 61#32 then some ([.bitAndAssign], 1)
    else some ([.bitAnd], 0)
  else if c = 124#32 then
    if d = 124#32 then some ([.logicOr], 1)
    else if d = 61#32 then some ([.bitOrAssign], 1)
    else some ([.bitOr], 0)
  else if c = 126#32 then some ([.bitNot], 0)
  else if c = 94#32 then (if d = 61#32 then some ([.bitXorAssign], 1) else some ([.bitXor], 0))
  else if c = 33#32 then (if d = 61#32 then some ([.notEqual], 1) else some ([.logicNot], 0))
  else if c = 61#32 then (if d = 61#32 then some ([.equal], 1) else some ([.assign], 0))
  else none

/-- The outcome of reading one token: the token, a second one that follows it (`__next_token`), and what is left. -/
inductive Step where
  | tok (t : Tok) (queued : Option Tok) (rest : List Ch)
  | hang
deriving DecidableEq, Repr

/-- `__read_number` at the cursor `s`; the character before the cursor, which the parser of numbers may look at, is given as 0: it
makes no difference (`Props.number_prev`). -/
def lexNumber (s : List Ch) : Step :=
  let (l, rest) := parseNumeric 0#32 s
  .tok ⟨.num l, s.length - rest.length, numberError l⟩ none rest

/-- The switch and what follows it — `modules/lang_cs/cs_token_reader.cpp:69-519` — at the character `c`; `operand` is whether
the value of the last token is `name` or `cvalue`. -/
def lexAt (operand : Bool) (c : Ch) (s : List Ch) : Step :=
  let n := s.length + 1
  if (c = 43#32 ∨ c = 45#32) ∧ at0 s ≠ c ∧ at0 s ≠ 61#32 ∧ isNumPrefix (at0 s) ∧ !operand then lexNumber (c :: s)
  else if c = 47#32 ∧ at0 s = 47#32 then
    let rest := lineComment s.tail
    .tok ⟨.comment, n - rest.length, .none⟩ none rest
  else if c = 47#32 ∧ at0 s = 42#32 then
    let (err, over, rest) := blockComment s.tail
    .tok ⟨.comment, n - rest.length + over, if err then .comment else .none⟩ none rest
  else if c = 34#32 then
    let (v, err, rest) := readString [] false s
    .tok ⟨.str (stored v), n - rest.length, if err then .string else .none⟩ none rest
  else if c = 64#32 ∧ at0 s = 34#32 then
    let (v, err, rest) := readVerbatim [] s.tail
    .tok ⟨.str (stored v), n - rest.length, if err then .string else .none⟩ none rest
  else if c = 64#32 ∧ isNamePrefix (at0 s) then
    let rest := readName s
    .tok ⟨.name, n - rest.length, .none⟩ none rest
  else if c = 39#32 then
    match readChar { p := s } s with
    | some st => .tok ⟨.chr st.ret, n - st.p.length, charErr st⟩ none st.p
    | none => .hang
  else
    match lexSym c s with
    | some (vs, k) =>
      .tok ⟨.sym vs, k + 1, .none⟩
        (if vs = [.rightShift, .rightAngle] then some ⟨.sym [.empty, .rightAngle], k + 1, .none⟩ else none) (s.drop k)
    | none =>
      match lexKeyword c s with
      | some (ctx, k) => .tok ⟨if ctx then .contextual k else .keyword k, k.length, .none⟩ none (s.drop (k.length - 1))
      | none =>
        if isNumPrefix c then lexNumber (c :: s)
        else if isNamePrefix c then
          let rest := readName s
          .tok ⟨.name, n - rest.length, .none⟩ none rest
        else
          let rest := readUnknown c s
          .tok ⟨.unknown, n - rest.length, .unknown⟩ none rest

/-- The state of the enumerator: the rest of the source, `__next_token`, and whether the last token made is a name or a
constant (`__last_value`). -/
structure LexSt where
  src : List Ch
  queued : Option Tok := none
  operand : Bool := false
deriving DecidableEq, Repr

inductive Next where
  | tok (t : Tok) (st : LexSt)
  | eof
  | hang
deriving DecidableEq, Repr

/-- The value of the token is `name` or `cvalue`. -/
def Kind.operand : Kind → Bool
  | .name | .num _ | .str _ | .chr _ => true
  | _ => false

/-- `cs_token_enumerator_t::next` — `modules/lang_cs/cs_token_reader.cpp:54-520`. -/
def next (st : LexSt) : Next :=
  match st.queued with
  | some t => .tok t { st with queued := none }
  | none =>
    match skipWs st.src with
    | [] => .eof
    | c :: s =>
      if c = 0#32 then .eof
      else
        match lexAt st.operand c s with
        | .tok t q rest => .tok t ⟨rest, q, t.kind.operand⟩
        | .hang => .hang

end Verif.Lex
