/-!
# The assemblies of a running program

Model of `rt_assemblies_t` — `modules/rt/rt.cpp:2326-2378`, `include/modules/rt.h:86-123` — and of the
provider the program is run with (`modules/april/compiler.cpp:146-206`, `modules/rt/assembly_loader.cpp:715-757`).

Simplifications.  What is in an assembly is not modelled: an assembly is the number of the object that was
made for it when its file was read.  Memory for it is never short.
-/

namespace Verif.Loaded

/-- Package and name, `modules/rt/rt.cpp:2343`. -/
abbrev Key := String × String

/-- What a provider may do (`include/modules/rt.h:75-84`): make the object of an assembly, give a null
pointer, or throw. -/
inductive Answer where
  | made
  | null
  | throws
deriving DecidableEq, Repr

/-- `rt_assembly_provider_t`, `include/modules/rt.h:75-84`. -/
structure Provider where
  main : Answer
  load : Key → Answer

/-- `rt::load_assembly(ctx, path)`, `modules/rt/assembly_loader.cpp:736-743`: a file that cannot be opened or
has another layout throws. -/
def open_ (files : String → Bool) (path : String) : Answer := if files path then .made else .throws

/-- `__rt_assembly_provider_t`, `modules/april/compiler.cpp:146-206`, with `load_assembly` by package and name,
`modules/rt/assembly_loader.cpp:745-757`. -/
def fileProvider (files : String → Bool) (mainPath dir ext : String) (paths : List (Key × String)) : Provider where
  main := open_ files mainPath
  load key :=
    match paths.lookup key with
    | some path => open_ files path
    | none => if key.1 = "" then open_ files (dir ++ "/" ++ key.2 ++ "." ++ ext) else .throws

/-- `rt_assemblies_t`, its fields (`include/modules/rt.h:114-121`), with the objects that exist and the field
`index` of each, which is negative at first. -/
structure State where
  objects : Nat
  index : Nat → Int
  main : Option Nat
  map : List (Key × Nat)
  vector : List Nat

/-- Nothing is loaded. -/
def State.start : State := ⟨0, fun _ => -1, none, [], []⟩

/-- What a call gives. -/
inductive Out where
  | assembly (a : Nat)
  | error
  | fault
deriving DecidableEq, Repr

/-- `__revise_assembly`, `modules/rt/rt.cpp:2369-2376`, for an object. -/
def State.revise (s : State) (a : Nat) : State :=
  if s.index a < 0 then
    { s with index := fun i => if i = a then (s.vector.length : Int) else s.index i, vector := s.vector ++ [a] }
  else s

/-- A new object. -/
def State.fresh (s : State) : State :=
  { s with objects := s.objects + 1, index := fun i => if i = s.objects then -1 else s.index i }

/-- `load_main_assembly`, `modules/rt/rt.cpp:2329-2338`.  A null pointer is followed in `__revise_assembly`. -/
def State.loadMain (p : Provider) (s : State) : State × Out :=
  match s.main with
  | some a => (s, .assembly a)
  | none =>
    match p.main with
    | .throws => (s, .error)
    | .null => (s, .fault)
    | .made =>
      let s1 := { s.fresh with main := some s.objects }
      (s1.revise s.objects, .assembly s.objects)

/-- `load_assembly`, `modules/rt/rt.cpp:2341-2357`.  The null pointer is followed before it is tested. -/
def State.load (p : Provider) (s : State) (k : Key) : State × Out :=
  match s.map.lookup k with
  | some a => (s, .assembly a)
  | none =>
    match p.load k with
    | .throws => (s, .error)
    | .null => (s, .fault)
    | .made =>
      let s1 := s.fresh.revise s.objects
      ({ s1 with map := (k, s.objects) :: s1.map }, .assembly s.objects)

/-- `at`, `modules/rt/rt.cpp:2360-2366`. -/
def State.at (s : State) (i : Int) : Out :=
  if i < 0 ∨ i ≥ (s.vector.length : Int) then .error
  else
    match s.vector[i.toNat]? with
    | some a => .assembly a
    | none => .fault

/-- The calls. -/
inductive Op where
  | main
  | load (k : Key)
  | at (i : Int)

/-- One call. -/
def step (p : Provider) (s : State) : Op → State × Out
  | .main => s.loadMain p
  | .load k => s.load p k
  | .at i => (s, s.at i)

/-- Several calls; the files may change from one to the next. -/
def run (s : State) : List (Provider × Op) → State × List Out
  | [] => (s, [])
  | (p, op) :: ops =>
    let (s1, o) := step p s op
    let (s2, os) := run s1 ops
    (s2, o :: os)

end Verif.Loaded
