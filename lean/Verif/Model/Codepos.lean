/-!
# Where errors in code are shown

Model of the position of code — `codepos_helper_t`, `modules/compile/analyze_utils.cpp:11-63` —, of the line it
is in — `code_unit_t::current_line_pos`, `modules/core/core.cpp:730-768` — and of the line and the marks that
are printed below errors — `modules/compile/compile.cpp:1127-1170`.

Simplifications.  The code of a file is a list of characters, followed in memory by a zero; a pointer is an
offset into it.  Offsets that may be one before the code (`start`) are written one larger.  `none` is undefined
behaviour (memory outside of the code is read, a string of negative length is made) or a loop without an end.
The code is given without a length, as all callers do.
-/

namespace Verif.Codepos

/-- `codepos_t` — `modules/compile/__analyze_utils.h:14-22`. -/
structure Pos where
  line : Nat
  col : Nat
  deriving DecidableEq, Repr

/-- `*p`: after the code there is a zero. -/
def charAt (code : List Char) (k : Nat) : Char := code.getD k '\x00'

/-- The loop of `__ensure_initialized` and the entry after it — `analyze_utils.cpp:52-60`; `k` is the offset. -/
def breaks : Nat → List Char → List Nat
  | k, [] => [k]
  | k, c :: l =>
    if c = '\x00' then [k]
    else if c = '\n' then (k + 1) :: breaks (k + 1) l
    else breaks (k + 1) l

/-- `__pos_arr` — `analyze_utils.cpp:46-60`. -/
def posArr (code : List Char) : List Nat := 0 :: breaks 0 code

/-- The search — `analyze_utils.cpp:20-35`; `fuel` bounds the rounds.  `index - 1` of 0 is not a small
number. -/
def search (arr : List Nat) (p : Nat) : Nat → Nat → Nat → Option Pos
  | 0, _, _ => none
  | fuel + 1, start, stop =>
    if start ≤ stop then
      let index := (start + stop) / 2
      match arr[index]?, arr[index + 1]? with
      | some lo, some hi =>
        if p < lo then (if index = 0 then none else search arr p fuel start (index - 1))
        else if p ≥ hi then search arr p fuel (index + 1) stop
        else some ⟨index + 1, p - lo + 1⟩
      | _, _ => none
    else some ⟨0, 0⟩

/-- `pos_of` — `analyze_utils.cpp:11-38`. -/
def posOf (code : List Char) (p : Nat) : Option Pos :=
  let arr := posArr code
  match arr[0]?, arr[arr.length - 1]? with
  | some first, some last =>
    if p < first ∨ p ≥ last then some ⟨0, 0⟩ else search arr p arr.length 0 (arr.length - 2)
  | _, _ => none

/-- `al::is_lineend` — `algorithm/__string.h:164-167`, `algorithm/string.cpp:22`. -/
def isLineEnd (c : Char) : Bool := c = '\n' || c = '\r' || c = '\x00'

/-- The loop over `'\r'` — `core.cpp:743-744`; takes and gives `start + 1`. -/
def skipReturns (code : List Char) : Nat → Nat
  | 0 => 0
  | k + 1 => if charAt code k = '\r' then skipReturns code k else k + 1

/-- The loop to the start of the line — `core.cpp:747-754`; takes and gives `start + 1`. -/
def scanBack (code : List Char) : Nat → Nat
  | 0 => 0
  | k + 1 => if isLineEnd (charAt code k) then k + 2 else scanBack code k

/-- `start + 1` — `core.cpp:737-755`. -/
def lineStart (code : List Char) (s : Nat) : Nat :=
  if charAt code s = '\n' then scanBack code (skipReturns code s) else scanBack code (s + 1)

/-- The loop to the end of the line — `core.cpp:757-764`; takes what is after `end`, gives `end + 1`. -/
def scanForward : Nat → List Char → Nat
  | k, [] => k + 1
  | k, c :: l => if c = '\x00' then k + 1 else if isLineEnd c then k else scanForward (k + 1) l

/-- `__to_prefix_space` — `compile.cpp:1127-1146`. -/
def prefixSpace (s : List Char) : List Char := s.map fun c => if c = '\t' then c else ' '

/-- `format_code_line` — `compile.cpp:1149-1170`: the line and the marks, for the code at `s` of a length. -/
def formatLine (code : List Char) (s length : Nat) : Option (List Char × List Char) :=
  match lineStart code s with
  | 0 => none
  | start + 1 =>
    let stop := scanForward (s + length) (code.drop (s + length))
    if start ≤ stop ∧ start ≤ s then
      some (((code ++ ['\x00']).drop start).take (stop - start),
        prefixSpace ((code.drop start).take (s - start)) ++
          (if length = 0 then ['^'] else List.replicate length '~'))
    else none

end Verif.Codepos
