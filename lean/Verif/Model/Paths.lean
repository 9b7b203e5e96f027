/-!
# Paths of files

Model of `lib::make_absolute`, `lib::absolute`, `lib::path_combine` and
`lib::path_add_extension`
(`lib/file.cpp:238-339`, `include/lib.h:90-184`).

Characters are numbers.  A path is the list of its characters and never contains the
character 0, as no path of the operating system does; the 0 behind the last character,
which the C++ code does look at, is `at' path path.length`.  A pointer into the path is its
distance from the first character, an integer, because the code steps before the first
character and compares with it.  (Stepping there is already undefined in C++; the model is
lenient about it and only counts *reading* there as undefined.)
-/

namespace Verif.Paths

/-- Text: the codes of the characters (`string_t`, `char_t` is `wchar_t`). -/
abbrev Str := List Nat

/-- `_T('/')`. -/
def slash : Nat := 47

/-- `_T('.')`. -/
def dot : Nat := 46

/-- What a call may end with: a value, the thrown `format_error`, or a read outside of the
buffer. -/
inductive Res (α : Type) where
  | ok (a : α)
  | formatError
  | ub
deriving Repr, DecidableEq

/-- `*p` for a pointer `p` that is known to be inside (`c_str()` ends with 0). -/
def at' (s : Str) (p : Int) : Nat := s.getD p.toNat 0

/-- Whether `p` may be read at all. -/
def inside (s : Str) (p : Int) : Bool := decide (0 ≤ p) && decide (p ≤ s.length)

/-- `al::starts_with(s + p, prefix)`, `algorithm/__string.h:199-245`. -/
def startsWith (s : Str) (p : Int) (pre : Str) : Bool := pre.isPrefixOf (s.drop p.toNat)

/-- `__pre_with(p_start, p, prefix)`: whether the prefix ends at `p`, behind a slash or at
the start of the path.  `lib/file.cpp:238-250`. -/
def preWith (s : Str) (p : Int) (pre : Str) : Bool :=
  if p + 1 < pre.length then false
  else
    let start := p - pre.length + 1
    if start ≤ 0 || at' s (start - 1) == slash then startsWith s start pre else false

/-- The loop of `__jmp_relative` that steps back to the next slash, starting from `p ≥ 0`.
`lib/file.cpp:275-279`. -/
def backNat (s : Str) : Nat → Int
  | 0 => if at' s 0 == slash then 0 else -1
  | n + 1 => if at' s ((n + 1 : Nat) : Int) == slash then ((n + 1 : Nat) : Int) else backNat s n

/-- The same loop from any `p`: nothing is done before the start.
`lib/file.cpp:275-279`. -/
def back (s : Str) (p : Int) : Int := if p < 0 then p else backNat s p.toNat

/-- `__jmp_relative(p_start, p)`: the answer and where `p` is left.  The recursion is bounded
by `fuel`; `lib/file.cpp:252-285`. -/
def jmp : Nat → Str → Int → Res (Bool × Int)
  | 0, _, _ => .ub
  | n + 1, s, p =>
    if preWith s (p - 1) [dot] then
      let q := p - 2
      if 0 ≤ q ∧ at' s q = slash then
        match jmp n s q with
        | .ok r => .ok (true, r.2)
        | .formatError => .formatError
        | .ub => .ub
      else .ok (true, q)
    else if preWith s (p - 1) [dot, dot] then
      let q := p - 3
      if 0 ≤ q then
        if at' s q = slash then
          match jmp n s q with
          | .ok r => .ok (true, back s (r.2 - 1))
          | .formatError => .formatError
          | .ub => .ub
        else .ok (true, back s (q - 1))
      else .formatError
    else .ok (false, p)

/-- `while (__jmp_relative(p_start, p)) if (p < p_start || *p != '/') break;`
`lib/file.cpp:302-306`. -/
def jmps : Nat → Str → Int → Res Int
  | 0, _, _ => .ub
  | n + 1, s, p =>
    match jmp (p.toNat + 1) s p with
    | .ok (false, q) => .ok q
    | .ok (true, q) => if q < 0 || at' s q != slash then .ok q else jmps n s q
    | .formatError => .formatError
    | .ub => .ub

/-- The copying loop, from the end of the path to its start; `out` is what has been written.
`lib/file.cpp:298-316`. -/
def copy : Nat → Str → Int → Str → Res Str
  | 0, _, _, _ => .ub
  | n + 1, s, p, out =>
    if p < 0 then .ok out
    else if at' s p = slash then
      match jmps (p.toNat + 1) s p with
      | .ok q => if 0 ≤ q then copy n s (q - 1) (at' s q :: out) else copy n s q out
      | .formatError => .formatError
      | .ub => .ub
    else copy n s (p - 1) (at' s p :: out)

/-- `make_absolute(path)`.  `lib/file.cpp:288-332`. -/
def makeAbsolute (s : Str) : Res Str :=
  match jmp (s.length + 1) s s.length with
  | .ok r =>
    if inside s r.2 then
      if at' s r.2 = 0 ∨ at' s r.2 = slash then copy (s.length + 2) s (r.2 - 1) []
      else copy (s.length + 2) s r.2 []
    else .ub
  | .formatError => .formatError
  | .ub => .ub

/-- `absolute(path, relative)`.  `lib/file.cpp:335-339`; `boost::filesystem::absolute` is a
library function: a path with a leading slash is itself, another one is appended to the
directory `relative` (which is taken to be absolute). -/
def absolute (path relative : Str) : Res Str :=
  if path.head? = some slash then makeAbsolute path
  else if relative.getLast? = some slash then makeAbsolute (relative ++ path)
  else makeAbsolute (relative ++ slash :: path)

/-- `__path_combine(ss, first, path, paths ...)`: what is written to the stream.
`include/lib.h:134-155`. -/
def pathCombineFrom : Bool → List Str → Str
  | _, [] => []
  | first, path :: paths =>
    (if path.length > 0 || (path.length == 1 && path.head? != some slash) then
      (if !first && path.head? == some slash then path.drop 1 else path)
        ++ (if decide (paths.length > 0) && path.getLast? != some slash then [slash] else [])
     else [])
    ++ pathCombineFrom false paths

/-- `path_combine(paths ...)`.  `include/lib.h:158-165`. -/
def pathCombine (paths : List Str) : Str := pathCombineFrom true paths

/-- `path_add_extension(path, ext)`.  `include/lib.h:168-182`. -/
def addExtension (path ext : Str) : Str :=
  if ext.length = 0 then path
  else path ++ (if ext.head? != some dot then [dot] else []) ++ ext

/-- Where the assembly of a project is written: `file_assembly_writer_t::new_stream`,
`modules/compile/compile.cpp:752-770`; `ext` is `JC_ASSEMBLY_EXT`. -/
def assemblyPath (ext directory name : Str) : Str :=
  addExtension (pathCombine [directory, name]) ext

/-- Where the virtual machine looks for an assembly that another one needs:
`load_assembly(ctx, path, package, name)` without package, `modules/rt/assembly_loader.cpp:746-758`
(a package ends the program). -/
def loaderPath (ext directory name : Str) : Str := directory ++ [slash] ++ name ++ [dot] ++ ext

end Verif.Paths
