import Verif.Model.Paths

/-!
# The command line of the tool

Model of `external/cmdline/cmdline.h` (the parser of options, 437-536, 590-632, 651-788) and of
what `modules/april/april.cpp` does with it.

A C string is the list of its characters without the final 0.
-/

namespace Verif.Cmd

open Verif.Paths (Str)

def hyphen : Nat := 45
def equals : Nat := 61

/-- An option: its name, its letter, whether it takes a value, and which values its reader
accepts.  `external/cmdline/cmdline.h:634-788`.  No option of the tool is mandatory (`need`). -/
structure Opt where
  name : Str
  short : Option Nat
  hasValue : Bool
  reads : Str → Bool

/-- What was parsed: the successful calls of `set` in order, the number of errors, and
`others`. -/
structure St where
  sets : List (Str × Option Str) := []
  errors : Nat := 0
  rest : List Str := []
deriving DecidableEq

def St.fail (st : St) : St := { st with errors := st.errors + 1 }

/-- `options.find(name)`. -/
def byName (os : List Opt) (n : Str) : Option Opt := os.find? fun o => o.name == n

/-- `lookup[c]`, for options whose letters are all different.  `cmdline.h:448-460`. -/
def byShort (os : List Opt) (c : Nat) : Option Opt := os.find? fun o => o.short == some c

/-- `set_option(name)`.  `cmdline.h:612-621`, `set()` of the two classes (662-665, 727-729). -/
def setFlag (os : List Opt) (n : Str) (st : St) : St :=
  match byName os n with
  | none => st.fail
  | some o => if o.hasValue then st.fail else { st with sets := st.sets ++ [(n, none)] }

/-- `set_option(name, value)`.  `cmdline.h:623-632`, `set(value)` of the two classes (667-669,
731-740). -/
def setValue (os : List Opt) (n v : Str) (st : St) : St :=
  match byName os n with
  | none => st.fail
  | some o =>
    if o.hasValue && o.reads v then { st with sets := st.sets ++ [(n, some v)] } else st.fail

/-- `strchr(s, '=')`, and the text before and after it. -/
def splitEq : Str → Option (Str × Str)
  | [] => none
  | c :: s => if c = equals then some ([], s) else (splitEq s).map fun p => (c :: p.1, p.2)

/-- The letters of a short argument before the last one.  `cmdline.h:495-506`. -/
def letters (os : List Opt) : Str → St → St
  | [], st => st
  | c :: cs, st =>
    letters os cs (match byShort os c with
      | none => st.fail
      | some o => setFlag os o.name st)

/-- The loop over the arguments.  `cmdline.h:462-529`. -/
def go (os : List Opt) : List Str → St → St
  | [], st => st
  | a :: as, st =>
    if [hyphen, hyphen] <+: a then
      match splitEq (a.drop 2) with
      | some (n, v) => go os as (setValue os n v st)
      | none =>
        match byName os (a.drop 2) with
        | none => go os as st.fail
        | some o =>
          if o.hasValue then
            match as with
            | [] => st.fail
            | v :: as' => go os as' (setValue os (a.drop 2) v st)
          else go os as (setFlag os (a.drop 2) st)
    else if [hyphen] <+: a then
      match (a.drop 1).getLast? with
      | none => go os as st
      | some c =>
        match byShort os c with
        | none => go os as (letters os (a.drop 1).dropLast st).fail
        | some o =>
          match as with
          | [] => setFlag os o.name (letters os (a.drop 1).dropLast st)
          | v :: as' =>
            if o.hasValue then
              go os as' (setValue os o.name v (letters os (a.drop 1).dropLast st))
            else go os (v :: as') (setFlag os o.name (letters os (a.drop 1).dropLast st))
    else go os as { st with rest := st.rest ++ [a] }

/-- `parse(argc, argv)` for the arguments after the first.  `cmdline.h:437-536`. -/
def parse (os : List Opt) (args : List Str) : St := go os args {}

/-! ## The options of the tool -/

def txt (s : String) : Str := s.toList.map Char.toNat

/-- White space that reading a number skips. -/
def space (c : Nat) : Bool := c == 32 || (9 ≤ c && c ≤ 13)

def digit (c : Nat) : Bool := 48 ≤ c && c ≤ 57

/-- The number of decimal digits, most significant first. -/
def decimal (s : Str) : Nat := s.foldl (fun n c => 10 * n + (c - 48)) 0

/-- Digits to the end of the text, and the sign in front of them; too large numbers fail. -/
def signed (neg : Bool) (s : Str) : Option Int :=
  if s ≠ [] ∧ s.all digit = true then
    let v : Int := if neg then - (decimal s : Int) else decimal s
    if -2147483648 ≤ v ∧ v ≤ 2147483647 then some v else none
  else none

/-- `lexical_cast<int>(s)`: read a number, and be at the end then.  `cmdline.h:81-89`.  The stream
is the one of the standard library. -/
def readInt (s : Str) : Option Int :=
  match s.dropWhile space with
  | [] => none
  | c :: cs => if c = 45 then signed true cs else if c = 43 then signed false cs
    else signed false (c :: cs)

/-- The options of `compile`, together with `help`.  `modules/april/april.cpp:351-356`,
`cmdline.h:550-554`. -/
def compileOpts : List Opt :=
  [⟨txt "output", some 111, true, fun _ => true⟩,
   ⟨txt "optimize", some 79, true, fun v => (readInt v).isSome⟩,
   ⟨txt "help", some 63, false, fun _ => false⟩]

/-- The options of `run`.  `april.cpp:288-291`. -/
def runOpts : List Opt := ⟨txt "execute", some 101, true, fun _ => true⟩ :: compileOpts

/-- `help` alone has only the option `help`. -/
def helpOpts : List Opt := [⟨txt "help", some 63, false, fun _ => false⟩]

/-- The last value an option was set to.  `get`, `cmdline.h:373-380`. -/
def valueOf (n : Str) (st : St) : Option Str :=
  (st.sets.filterMap fun p => if p.1 = n then p.2 else none).getLast?

/-- What is done: compile, run, help, version.  `compile_options_t`, `run_options_t`. -/
structure Options where
  files : List Str
  output : Str
  optimize : Int
  execute : Str
deriving DecidableEq

inductive Order
  | compile (o : Options)
  | run (o : Options)
  | help (sub : Str)
  | version
deriving DecidableEq

/-- How parsing ends: with an order, with a message and `false`, by `exit(n)` within the parser,
with an error that `main` catches, or with a failed assertion. -/
inductive Parsed
  | order (o : Order)
  | stop
  | exit (code : Nat)
  | thrown
  | assertion
deriving DecidableEq

/-- `parse_check(argc, argv)`, where `argc` counts the command: `none` if it returns.
`cmdline.h:550-554, 598-608`. -/
def check (args : List Str) (st : St) : Option Nat :=
  if (args.isEmpty && st.errors != 0) || st.sets.any (fun p => p.1 == txt "help") then some 0
  else if st.errors != 0 then some 1
  else none

/-- `__read_compile_options`.  `april.cpp:359-378`. -/
def readOptions (st : St) (k : Options → Order) : Parsed :=
  let level := ((valueOf (txt "optimize") st).bind readInt).getD 0
  if ¬ (0 ≤ level ∧ level ≤ 3) then .thrown
  else if st.rest = [] then .stop
  else .order (k ⟨st.rest, (valueOf (txt "output") st).getD [], level,
    (valueOf (txt "execute") st).getD []⟩)

/-- `__parse_compile`, `__parse_run`.  `april.cpp:286-313`. -/
def parseCompile (os : List Opt) (k : Options → Order) (args : List Str) : Parsed :=
  match check args (parse os args) with
  | some n => .exit n
  | none => readOptions (parse os args) k

/-- `__parse_help`.  `april.cpp:316-342`. -/
def parseHelp (args : List Str) : Parsed :=
  match check args (parse helpOpts args) with
  | some n => .exit n
  | none =>
    match (parse helpOpts args).rest with
    | [c] => .order (.help c)
    | _ => .stop

/-- `april_options_t::parse` for the arguments after the name of the program.
`april.cpp:196-233`, `__to_april_command` 148-163, `__parse` 258-283. -/
def parseArgs : List Str → Parsed
  | [] => .stop
  | c :: args =>
    if c = txt "compile" then parseCompile compileOpts .compile args
    else if c = txt "run" then parseCompile runOpts .run args
    else if c = txt "version" then .order .version
    else if c = txt "help" then parseHelp args
    else .stop

/-- What compiling can come to: without errors, with errors, or by an exception. -/
inductive Ran
  | clean
  | errors
  | thrown
deriving DecidableEq

/-- `april_t::execute`: `none` for a failed assertion.  The result of `compile()` and `run()` is
not looked at.  `show_help(command)` calls `__parse` with `argc = 0`, which asserts
`argc >= 1`.  `april.cpp:398-455, 236-242, 261`. -/
def execute (doit : Order → Ran) : Order → Option Ran
  | .compile o => some (doit (.compile o))
  | .run o => some (doit (.run o))
  | .help sub =>
    if sub ∈ [txt "compile", txt "run", txt "version", txt "help"] then none else some .clean
  | .version => some .clean

/-- How the process ends. -/
inductive End
  | code (n : Nat)
  | aborted
deriving DecidableEq

/-- `__main`.  `april.cpp:460-478`. -/
def main (doit : Order → Ran) (args : List Str) : End :=
  match parseArgs args with
  | .exit n => .code n
  | .thrown => .code 1
  | .stop => .code 1
  | .assertion => .aborted
  | .order o =>
    match execute doit o with
    | none => .aborted
    | some .thrown => .code 1
    | some _ => .code 0

end Verif.Cmd
