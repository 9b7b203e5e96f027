/-!
# Names with dots

Models `mname_t`, the names with dots of namespaces, assemblies and packages: `mname_operate_context_t` (`include/modules/core.h:1304-1338`),
`mname_t` (`include/modules/core.h:1344-1464`, `modules/core/core.cpp:858-1073`), `al::split` (`include/algorithm.h:172-199`), the
commit of a name in a source file (`modules/compile/ast.cpp:1048-1063`) and the name of a namespace that is read from an assembly
(`modules/core/assembly_reader.cpp:290-312`).

Simplifications.  A `sid_t` is its text (texts and `sid_t`s correspond, C48).  Pointers to names are places in the list of all names
that were created; names are never freed.  There is a cache (`modules/compile/compile.cpp:427`).
-/

namespace Verif.DotNames

/-- A text. -/
abbrev Text := List Char

/-- `mname_t` — `include/modules/core.h:1344-1356`. -/
structure Name where
  text : Text
  parts : List Text
deriving DecidableEq, Repr

/-- All names that were created, and the cache. -/
structure St where
  objs : List Name := []
  cache : List (Text × Nat) := []
deriving DecidableEq, Repr

/-- The loop of `al::split_if`: `cur` is what lies between `it0` and `it` — `include/algorithm.h:176-190`. -/
def splitLoop : Text → Text → List Text
  | cur, [] => [cur]
  | cur, c :: cs => if c = '.' then cur :: splitLoop [] cs else splitLoop (cur ++ [c]) cs

/-- `al::split` at dots — `include/algorithm.h:173-199`. -/
def split (t : Text) : List Text := if t.isEmpty then [] else splitLoop [] t

/-- `al::join_str(…, ".")` — used in `modules/core/core.cpp:890, 1000, 1028`. -/
def joinDots : List Text → Text
  | [] => []
  | [p] => p
  | p :: q :: ps => p ++ '.' :: joinDots (q :: ps)

/-- `from_cache` — `include/modules/core.h:1315-1328`. -/
def fromCache (s : St) (key : Text) (load : Name) : Nat × St :=
  match s.cache.lookup key with
  | some i => (i, s)
  | none => (s.objs.length, { objs := s.objs ++ [load], cache := (key, s.objs.length) :: s.cache })

/-- `mname_t::parse`; `none` when it throws — `modules/core/core.cpp:919-936`. -/
def parse (s : St) (t : Text) : Option (Nat × St) :=
  if t.isEmpty then none else some (fromCache s t { text := t, parts := split t })

/-- `mname_t::combine` of two names that are there — `modules/core/core.cpp:950-965`. -/
def combineNames (s : St) (a b : Name) : Nat × St :=
  let t := a.text ++ '.' :: b.text
  fromCache s t { text := t, parts := a.parts ++ b.parts }

/-- `mname_t::combine` — `modules/core/core.cpp:946-965`; `none` is `nullptr`. -/
def combine (s : St) (a b : Option Nat) : Option Nat × St :=
  match a, b with
  | none, b => (b, s)
  | a, none => (a, s)
  | some a, some b =>
    match s.objs[a]?, s.objs[b]? with
    | some x, some y => let r := combineNames s x y; (some r.1, r.2)
    | _, _ => (none, s)

/-- `mname_t::to_mname` — `modules/core/core.cpp:1050-1055`: one part, whatever the text is. -/
def toMname (s : St) (n : Text) : Nat × St := fromCache s n { text := n, parts := [n] }

/-- `mname_t::combine` with a simple name — `modules/core/core.cpp:975-979`. -/
def combineName (s : St) (a : Option Nat) (n : Text) : Option Nat × St :=
  let r := toMname s n
  combine r.2 a (some r.1)

/-- `mname_t::get_parent` — `modules/core/core.cpp:988-1013`. -/
def getParent (s : St) (a : Option Nat) : Option Nat × St :=
  match a.bind (s.objs[·]?) with
  | none => (none, s)
  | some x =>
    match x.parts with
    | [] => (none, s)
    | [_] => (none, s)
    | [p, _] => let r := fromCache s p { text := p, parts := [p] }; (some r.1, r.2)
    | ps =>
      let t := joinDots ps.dropLast
      let r := fromCache s t { text := t, parts := ps.dropLast }
      (some r.1, r.2)

/-- `mname_t::get_child` — `modules/core/core.cpp:1016-1041`. -/
def getChild (s : St) (a : Option Nat) : Option Nat × St :=
  match a.bind (s.objs[·]?) with
  | none => (none, s)
  | some x =>
    match x.parts with
    | [] => (none, s)
    | [_] => (none, s)
    | [_, p] => let r := fromCache s p { text := p, parts := [p] }; (some r.1, r.2)
    | ps =>
      let t := joinDots ps.tail
      let r := fromCache s t { text := t, parts := ps.tail }
      (some r.1, r.2)

/-- A name in a source file: `append_part`, `commit` and `to_internal` — `modules/compile/ast.cpp:1048-1063`,
`modules/core/core.cpp:888-892, 1064-1071`. -/
def internal (s : St) (ps : List Text) : Nat × St := fromCache s (joinDots ps) { text := joinDots ps, parts := ps }

/-- `mname_t::join` — `include/modules/core.h:1437-1452`. -/
def join (s : St) (ps : List Text) : Option Nat × St :=
  if ps.isEmpty then (none, s)
  else let r := fromCache s (joinDots ps) { text := joinDots ps, parts := ps }; (some r.1, r.2)

/-- The name of a namespace that is read from an assembly, and its parent: `__to_namespace` —
`modules/core/assembly_reader.cpp:291-309`. -/
def readNamespace (s : St) (n : Text) : (Nat × Option Nat) × St :=
  let r := toMname s n
  let p := getParent r.2 (some r.1)
  ((r.1, p.1), p.2)

/-- What can be asked for; the names that are given are results of earlier calls. -/
inductive Op where
  | parse (t : Text)
  | combine (a b : Option Nat)
  | combineName (a : Option Nat) (n : Text)
  | toMname (n : Text)
  | getParent (a : Option Nat)
  | getChild (a : Option Nat)
  | internal (ps : List Text)
  | join (ps : List Text)
  | readNamespace (n : Text)
deriving Repr

/-- One call; the result is the name that is returned. -/
def step (s : St) : Op → Option Nat × St
  | .parse t =>
    match parse s t with
    | some r => (some r.1, r.2)
    | none => (none, s)
  | .combine a b => combine s a b
  | .combineName a n => combineName s a n
  | .toMname n => let r := toMname s n; (some r.1, r.2)
  | .getParent a => getParent s a
  | .getChild a => getChild s a
  | .internal ps => let r := internal s ps; (some r.1, r.2)
  | .join ps => join s ps
  | .readNamespace n => let r := readNamespace s n; (some r.1.1, r.2)

/-- A state after any number of calls. -/
def run : List Op → St → St
  | [], s => s
  | op :: ops, s => run ops (step s op).2

end Verif.DotNames
