import Verif.Model.Paths

/-!
# Naming files with `*` and `?`

Model of how the files given to the compiler are found: `lib::split_path_filter`,
`__wildcard_to_regex`, `__each`, `all_files` (`lib/file.cpp:352-402`, `include/lib.h:213-303`) and
`each_files` of the command line tool (`modules/april/util.h:38-71`).

Of the file system only which directories there are, and the names of the files in them, is
kept.  `std::basic_regex` is a library; the part of it that the texts made here can reach is
written down below as its documentation has it.
-/

namespace Verif.Wild

open Verif.Paths (Str slash dot)

def star : Nat := 42       -- '*'
def mark : Nat := 63       -- '?'
def backslash : Nat := 92
def caret : Nat := 94      -- '^'
def dollar : Nat := 36     -- '$'
def plus : Nat := 43       -- '+'
def bar : Nat := 124       -- '|'

/-- The characters that `__wildcard_to_regex` escapes: `\ . [ ] : ( ) { }`.
`include/lib.h:260-264`. -/
def escaped : List Nat := [backslash, dot, 91, 93, 58, 40, 41, 123, 125]

/-- One character of a filter.  `include/lib.h:258-278`. -/
def piece (c : Nat) : Str :=
  if c ∈ escaped then [backslash, c]
  else if c = star then [dot, star, mark]
  else if c = mark then [dot]
  else [c]

/-- `__wildcard_to_regex(s)`.  `include/lib.h:248-284`. -/
def toRegex (filter : Str) : Str := caret :: (filter.flatMap piece ++ [dollar])

/-! ## `std::basic_regex`, as far as it is used -/

/-- What stands for one character. -/
inductive Atom where
  | lit (c : Nat)
  | any
deriving Repr, DecidableEq

/-- `.` is every character but the ends of lines (ECMAScript). -/
def Atom.ok : Atom → Nat → Bool
  | .lit a, c => a == c
  | .any, c => c != 10 && c != 13

/-- A part of a regular expression. -/
inductive Item where
  | one (a : Atom)
  | many (a : Atom)      -- `*` and `*?`
  | more (a : Atom)      -- `+` and `+?`
  | first                -- `^`
  | last                 -- `$`
deriving Repr, DecidableEq

/-- Behind an atom: `*` or `+`, and the `?` that makes it lazy. -/
def quantified (a : Atom) : Str → Item × Nat
  | c :: d :: _ =>
    if c = star then (.many a, if d = mark then 2 else 1)
    else if c = plus then (.more a, if d = mark then 2 else 1)
    else (.one a, 0)
  | [c] =>
    if c = star then (.many a, 1)
    else if c = plus then (.more a, 1)
    else (.one a, 0)
  | [] => (.one a, 0)

/-- The characters that have a meaning of their own in a regular expression; those that are
not handled below are not modelled. -/
def special : List Nat := [40, 41, 91, 93, 123, 125, star, plus, mark]

/-- Reading a regular expression: the alternatives between `|`.  `none`: it is wrong or not
modelled.  `skip` characters have already been read. -/
def parse : Nat → Str → Option (List (List Item))
  | _, [] => some [[]]
  | skip + 1, _ :: cs => parse skip cs
  | 0, c :: cs =>
    if c = bar then (parse 0 cs).map fun alts => [] :: alts
    else
      let put (it : Item) (skip : Nat) : Option (List (List Item)) :=
        (parse skip cs).map fun alts =>
          match alts with
          | a :: rest => (it :: a) :: rest
          | [] => [[it]]
      if c = caret then put .first 0
      else if c = dollar then put .last 0
      else if c = backslash then
        match cs with
        | [] => none
        | d :: ds =>
          let q := quantified (.lit d) ds
          put q.1 (q.2 + 1)
      else if c = dot then
        let q := quantified .any cs
        put q.1 q.2
      else if c ∈ special then none
      else
        let q := quantified (.lit c) cs
        put q.1 q.2

/-- Any number of characters, then `k`. -/
def runMany (a : Atom) (k : Bool → Str → Bool) : Bool → Str → Bool
  | b, [] => k b []
  | b, c :: cs => k b (c :: cs) || (a.ok c && runMany a k false cs)

/-- Whether a match starts here; `b`: this is the start of the text. -/
def run : List Item → Bool → Str → Bool
  | [], _, _ => true
  | .one a :: is, _, s =>
    match s with
    | c :: cs => a.ok c && run is false cs
    | [] => false
  | .many a :: is, b, s => runMany a (run is) b s
  | .more a :: is, _, s =>
    match s with
    | c :: cs => a.ok c && runMany a (run is) false cs
    | [] => false
  | .first :: is, b, s => b && run is b s
  | .last :: is, b, s => s.isEmpty && run is b s

/-- Whether there is a match anywhere (`std::regex_iterator`). -/
def search (alts : List (List Item)) : Bool → Str → Bool
  | b, [] => alts.any fun is => run is b []
  | b, c :: cs => (alts.any fun is => run is b (c :: cs)) || search alts false cs

/-- `al::regex_is_match(name, regex)`.  `algorithm/__string.h:697-705`, `746-750`. -/
def isMatch (regex name : Str) : Option Bool := (parse 0 regex).map fun alts => search alts true name

/-! ## Finding files -/

/-- The position of the last slash: what stands before it and behind it. -/
def splitLast : Str → Option (Str × Str)
  | [] => none
  | c :: cs =>
    match splitLast cs with
    | some (d, f) => some (c :: d, f)
    | none => if c = slash then some ([], cs) else none

/-- `split_path_filter(path, out_dir, out_filter)`.  `lib/file.cpp:388-402`. -/
def splitPathFilter (path : Str) : Option (Str × Str) :=
  match splitLast path with
  | none => none
  | some (d, f) => if f.any fun c => c = mark || c = star then some (d, f) else none

/-- A file system: the names of the files in a directory (`none`: no such directory), and
whether there is a file of this path. -/
structure FS where
  dir : Str → Option (List Str)
  file : Str → Bool

inductive Err where
  | notExists
  | badRegex
deriving Repr, DecidableEq

/-- `lib::all_files(directory, filter)`: the paths of the files whose names match, nothing for
a directory that does not exist.  `lib/file.cpp:352-384`, `include/lib.h:213-244`. -/
def allFiles (fs : FS) (directory filter : Str) : Except Err (List Str) :=
  match parse 0 (toRegex filter) with
  | none => .error .badRegex
  | some alts =>
    match fs.dir directory with
    | none => .ok []
    | some ns => .ok ((ns.filter fun n => search alts true n).map fun n => directory ++ slash :: n)

/-- `each_files(path, f)`: the paths that `f` is called with.  In the second case the directory
that is listed is the variable `directory`, which has not been set.
`modules/april/util.h:43-71`. -/
def eachFiles (fs : FS) (path : Str) : Except Err (List Str) :=
  match splitPathFilter path with
  | some (d, f) => allFiles fs d f
  | none =>
    if (fs.dir path).isSome then
      match allFiles fs [] [star, dot, star] with
      | .ok ps => .ok (ps.filter fun p => p.head? != some dot)
      | .error e => .error e
    else if fs.file path then .ok [path]
    else .error .notExists

end Verif.Wild
