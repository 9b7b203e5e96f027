/-!
# Building a solution

Model of how the compiler goes through the projects of a solution: `compiler_t::compile`,
`__compile_project`, the building context and the assembly loader
(`modules/compile/compile.cpp:474-649`, `851-928`), and of the `import` of an assembly
(`modules/compile/ast.cpp:2329-2388`).

What is inside the files of a project is left out: of a project only the assemblies it
imports (in the order in which they are met) and whether its own code has errors are kept.
Referenced assembly files are known by their name only and always load; packages are left
out.
-/

namespace Verif.Build

/-- A project (`ast_project_t`): its name, the names it imports, whether compiling its own code
logs an error. -/
structure Proj where
  name : Nat
  imports : List Nat
  faulty : Bool
deriving Repr, DecidableEq

/-- A solution (`ast_solution_t`) and the assembly files given to the compiler
(`ref_assemblies_t`). -/
structure Solution where
  projects : List Proj
  refs : List Nat
deriving Repr

/-- The building context, the cache of the loader and what has come out so far:
`compile.cpp:474-539`, `584`, `905-916`.
`compiled`: the names of the assemblies in `assemblies`, in the order of `append`.
`written`: the assemblies written to their files. -/
structure State where
  compiling : List Nat
  compiled : List Nat
  loaded : List Nat
  errors : Nat
  written : List Nat
deriving Repr, DecidableEq

/-- What loading an assembly ends with; `circular` and `notFound` are exceptions. -/
inductive Outcome where
  | found
  | circular
  | notFound
deriving Repr, DecidableEq

/-- `ast_solution_t::get_project`: a later project of the same name has replaced the earlier
one.  `modules/core/core.cpp:6956-6974`. -/
def Solution.project (s : Solution) (name : Nat) : Option Proj :=
  s.projects.reverse.find? fun p => p.name == name

/-- `load_assembly(package, assembly)` without package: the cache of the loader, the compiled
assemblies, the projects of the solution, the assembly files.  `compile` compiles a project.
`compile.cpp:557-606`, `609-650`.  The cache is filled when nothing was thrown. -/
def load (compile : State → Proj → Option (Outcome × State)) (s : Solution) (st : State)
    (name : Nat) : Option (Outcome × State) :=
  if st.loaded.contains name then some (.found, st)
  else if st.compiled.contains name then some (.found, { st with loaded := name :: st.loaded })
  else
    match s.project name with
    | some p =>
      match compile st p with
      | some (.found, st') => some (.found, { st' with loaded := name :: st'.loaded })
      | r => r
    | none =>
      if s.refs.contains name then some (.found, { st with loaded := name :: st.loaded })
      else some (.notFound, st)

/-- An `import` of the project `owner`: importing itself, a circle and a missing assembly are
logged as errors.  `ast.cpp:2345-2388`. -/
def importOne (compile : State → Proj → Option (Outcome × State)) (s : Solution) (owner : Nat)
    (st : State) (name : Nat) : Option State :=
  if owner = name then some { st with errors := st.errors + 1 }
  else
    match load compile s st name with
    | some (.found, st') => some st'
    | some (_, st') => some { st' with errors := st'.errors + 1 }
    | none => none

/-- The imports of a project, one after another. -/
def importAll (compile : State → Proj → Option (Outcome × State)) (s : Solution) (owner : Nat) :
    State → List Nat → Option State
  | st, [] => some st
  | st, u :: us =>
    match importOne compile s owner st u with
    | some st' => importAll compile s owner st' us
    | none => none

/-- The rest of `__compile_project`: the errors of the project itself, the file that is written
if there has been no error in the whole build, the end of compiling.
`compile.cpp:903-919`. -/
def finish (p : Proj) (st : State) : State :=
  let errors := if p.faulty then st.errors + 1 else st.errors
  { st with
    errors := errors
    written := if errors = 0 then st.written ++ [p.name] else st.written
    compiling := st.compiling.erase p.name
    compiled := st.compiled ++ [p.name] }

/-- `__compile_project`: `compile.cpp:883-928`.  The depth of the nested calls is bounded by
`fuel`; `none` when it does not suffice. -/
def compileProject (s : Solution) : Nat → State → Proj → Option (Outcome × State)
  | 0, _, _ => none
  | n + 1, st, p =>
    if st.compiling.contains p.name then some (.circular, st)
    else
      match importAll (compileProject s n) s p.name
          { st with compiling := p.name :: st.compiling } p.imports with
      | some st' => some (.found, finish p st')
      | none => none

/-- The loop over the projects: `compile.cpp:860-866`.  The exception of a circle would leave
the loop; it cannot be thrown here. -/
def compileAll (s : Solution) (fuel : Nat) : State → List Proj → Option State
  | st, [] => some st
  | st, p :: ps =>
    if !st.compiling.contains p.name && !st.compiled.contains p.name then
      match compileProject s fuel st p with
      | some (.found, st') => compileAll s fuel st' ps
      | _ => none
    else compileAll s fuel st ps

/-- `compiler_t::compile`: `compile.cpp:851-869`.  Calls nest at most as deep as there are
projects, and once more for the project that closes a circle. -/
def build (s : Solution) : Option State :=
  compileAll s (s.projects.length + 1)
    { compiling := [], compiled := [], loaded := [], errors := 0, written := [] } s.projects

end Verif.Build
