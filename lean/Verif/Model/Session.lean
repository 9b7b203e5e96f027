import Verif.Model.Build

/-!
# Sessions of the compiler, and the tool that runs programs

Model of `april_compiler_t` (projects are begun, files added, projects committed) and of
`april_xcompiler_t` (which decides from the files given what to compile, and what to run):
`modules/april/compiler.cpp`, `modules/april/__compiler.h`, `modules/april/util.cpp:10-24`.

Paths are numbers in the order in which `std::sort` puts paths.  The text of files is left out.
-/

namespace Verif.Session

abbrev Str := List Nat

/-- `compile_file_type_t`, from the extension of the file.  `util.cpp:10-24`. -/
inductive Kind
  | source
  | project
  | solution
  | assembly
deriving DecidableEq, Repr

/-- A file: its absolute path, the name of the directory it is in, its name without extension,
its type. -/
structure File where
  path : Nat
  dirName : Str
  stem : Str
  kind : Kind
deriving DecidableEq, Repr

/-- `project_t`: its name and its files (path and directory name). -/
structure Project where
  name : Str
  files : List File
deriving DecidableEq, Repr

inductive Err
  | projectNotCommitted
  | noCurrentProject
  | noProjectNeedCommit
  | projectNoFiles
  | noProjects
  | fileNotExists
  | mixtureFileTypes
  | noFiles
  | duplicateAssembly
  | noExecutableAssembly
  | duplicatedExecutable
  | assemblyNotFound
  | assemblyCannotExecutable
deriving DecidableEq, Repr

/-- `april_compiler_t`: the current project and the solution.  `__compiler.h:52-58`. -/
structure Sess where
  current : Option Project
  projects : List Project
deriving DecidableEq, Repr

/-- `std::sort` of the files by their paths. -/
def insert (f : File) : List File → List File
  | [] => [f]
  | g :: gs => if f.path ≤ g.path then f :: g :: gs else g :: insert f gs

def sort : List File → List File
  | [] => []
  | f :: fs => insert f (sort fs)

/-- The loop of `add_file`: it returns at the first file that is no source.
`compiler.cpp:50-65`. -/
def takeFiles (p : Project) : List File → Project
  | [] => p
  | f :: fs =>
    if f.kind ≠ .source then p
    else if p.files.any (fun g => g.path == f.path) then takeFiles p fs
    else takeFiles { p with files := p.files ++ [f] } fs

/-- `solution->exists(name)`. -/
def taken (ps : List Project) (n : Str) : Bool := ps.any fun p => p.name == n

/-- Decimal digits of the index, as the format `%1%%2%` writes it. -/
def digits (fuel n : Nat) : Str :=
  match fuel with
  | 0 => []
  | fuel + 1 => if n < 10 then [48 + n] else digits fuel (n / 10) ++ [48 + n % 10]

/-- The loop of `__get_default_project_name`, with a bound on the number of rounds; what it
returns is `dir_name`, not `dir_name0`.  `compiler.cpp:127-132`. -/
def freeName (ps : List Project) (dir : Str) : Nat → Nat → Str
  | 0, _ => dir
  | fuel + 1, index =>
    if ¬ taken ps (dir ++ digits 20 index) = true then dir else freeName ps dir fuel (index + 1)

/-- `__get_default_project_name`.  `compiler.cpp:114-133`. -/
def defaultName (ps : List Project) (p : Project) : Str :=
  match p.files with
  | [] => []
  | f :: _ =>
    if ¬ taken ps f.dirName = true then f.dirName else freeName ps f.dirName (ps.length + 1) 1

/-- `begin_project(name)`.  `compiler.cpp:29-36`. -/
def beginProject (s : Sess) (name : Str) : Except Err Sess :=
  match s.current with
  | some _ => .error .projectNotCommitted
  | none => .ok { s with current := some ⟨name, []⟩ }

/-- `add_file(path)`, where `files` are the files that the path names.  `compiler.cpp:39-65`. -/
def addFile (s : Sess) (files : List File) : Except Err Sess :=
  match s.current with
  | none => .error .noCurrentProject
  | some p => .ok { s with current := some (takeFiles p (sort files)) }

/-- `commit_project()`.  `compiler.cpp:68-83`. -/
def commitProject (s : Sess) : Except Err Sess :=
  match s.current with
  | none => .error .noProjectNeedCommit
  | some p =>
    if p.files = [] then .error .projectNoFiles
    else
      let name := if p.name = [] then defaultName s.projects p else p.name
      .ok ⟨none, s.projects ++ [{ p with name := name }]⟩

/-- The checks of `compile`: then the solution is compiled.  `compiler.cpp:94-109`. -/
def compile (s : Sess) : Except Err (List Project) :=
  match s.current with
  | some _ => .error .projectNotCommitted
  | none => if s.projects = [] then .error .noProjects else .ok s.projects

/-- Calls of the interface. -/
inductive Op
  | begin (name : Str)
  | add (files : List File)
  | commit
deriving DecidableEq

def step (s : Sess) : Op → Except Err Sess
  | .begin n => beginProject s n
  | .add fs => addFile s fs
  | .commit => commitProject s

def runOps : Sess → List Op → Except Err Sess
  | s, [] => .ok s
  | s, o :: os =>
    match step s o with
    | .error e => .error e
    | .ok s' => runOps s' os

def start : Sess := ⟨none, []⟩

/-! ## The tool -/

/-- Calls that add the files of a project. -/
def addAll : Sess → List (List File) → Except Err Sess
  | s, [] => .ok s
  | s, fs :: rest =>
    match addFile s fs with
    | .error e => .error e
    | .ok s' => addAll s' rest

/-- `begin_project`, `add_file` for every file, `commit_project`. -/
def makeProject (s : Sess) (name : Str) (adds : List (List File)) : Except Err Sess :=
  match beginProject s name with
  | .error e => .error e
  | .ok s₁ =>
    match addAll s₁ adds with
    | .error e => .error e
    | .ok s₂ => commitProject s₂

/-- A project of a solution file: `__compile_solution`.  `compiler.cpp:328-350`. -/
def solutionProject (s : Sess) (name : Str) (adds : List (List File)) : Except Err Sess :=
  makeProject s name adds

/-- A project file: `__add_project`, which does not pass the name on.  `compiler.cpp:373-390`. -/
def projectFile (s : Sess) (_name : Str) (adds : List (List File)) : Except Err Sess :=
  makeProject s [] adds

/-- `__determine_compile_type`, over the files of all the paths given: the type that is compiled
(`none` if there are only assemblies), and the recorded assemblies.  `compiler.cpp:278-299`. -/
def determine : Option Kind → List File → Except Err (Option Kind)
  | t, [] => .ok t
  | t, f :: fs =>
    if f.kind = .assembly then determine t fs
    else
      match t with
      | none => determine (some f.kind) fs
      | some k => if k = f.kind then determine t fs else .error .mixtureFileTypes

/-- Where an assembly that can be run comes from.  `__compiler.h:143`. -/
inductive From
  | project
  | assembly
deriving DecidableEq, Repr

/-- `__cassembly_t`: name, origin, path, and whether it has an entry point. -/
structure CAsm where
  name : Str
  orig : From
  path : Nat
  exec : Bool
deriving DecidableEq, Repr

/-- The two first of several candidates in order. -/
def firstOf : List CAsm → Except Err CAsm
  | c₁ :: c₂ :: _ => if c₁.orig = c₂.orig then .error .duplicatedExecutable else .ok c₁
  | _ => .error .noExecutableAssembly

/-- The end of the two functions that choose: one candidate is taken; of several, sorted by
origin (projects first), the first, if the second has another origin.
`compiler.cpp:503-518, 543-556`. -/
def choose (cs : List CAsm) : Except Err CAsm :=
  match cs with
  | [] => .error .noExecutableAssembly
  | [c] => .ok c
  | _ =>
    firstOf (cs.filter (fun c => c.orig = .project) ++ cs.filter (fun c => c.orig = .assembly))

/-- `__pick_default_execute_assembly`.  `compiler.cpp:493-518`. -/
def pickDefault (cs : List CAsm) : Except Err CAsm := choose (cs.filter (·.exec))

/-- `__get_assembly(name)`.  `compiler.cpp:521-556`. -/
def getAssembly (cs : List CAsm) (name : Str) : Except Err CAsm :=
  match cs.filter (fun c => c.name = name && c.exec) with
  | [] =>
    if cs.any (fun c => c.name = name) then .error .assemblyCannotExecutable
    else .error .assemblyNotFound
  | c :: rest => choose (c :: rest)

/-- `provider.append` for all assemblies, and `load_assembly` without package: the path found, or
`none` if the assembly is looked for in the directory of the main assembly.  A later one of the
same name replaces the earlier one.  `compiler.cpp:161-187, 262-269`. -/
def provide (cs : List CAsm) (name : Str) : Option Nat :=
  (cs.reverse.find? fun c => c.name == name).map CAsm.path

/-- `__init_compiler`: the assembly files become references of the solution; two of one name are
refused.  `compiler.cpp:416-429`, `modules/compile/compile.cpp:302-314`. -/
def initRefs : List CAsm → List CAsm → Except Err (List CAsm)
  | refs, [] => .ok refs
  | refs, a :: as =>
    if refs.any (fun r => r.name == a.name) then .error .duplicateAssembly
    else initRefs (refs ++ [a]) as

/-- How an import finds its assembly while compiling: the last project of that name, then the
references.  `modules/compile/compile.cpp:609-650`, `modules/core/core.cpp:6956-6974`. -/
def importPath (projects refs : List CAsm) (name : Str) : Option Nat :=
  match projects.reverse.find? (fun c => c.name == name) with
  | some c => some c.path
  | none => (refs.find? fun c => c.name == name).map CAsm.path

/-- The codes that ask the controller.  `modules/compile`, `compile_optimize_code_t`. -/
inductive Opt
  | removeUnreachedCodes
  | convertSwitchToIf
  | autoDetermineConstants
  | computeConstants
  | optimizeBasicAlgorithm
  | removeUnnecessaryExpressions
  | other
deriving DecidableEq, Repr

/-- `optimize(code)`.  `compiler.cpp:559-583`. -/
def optimize (level : Int) : Opt → Bool
  | .removeUnreachedCodes => level ≥ 2
  | .convertSwitchToIf => level ≥ 2
  | .autoDetermineConstants => level ≥ 2
  | .computeConstants => level ≥ 1
  | .optimizeBasicAlgorithm => level ≥ 2
  | .removeUnnecessaryExpressions => level ≥ 1
  | .other => level ≥ 1

end Verif.Session
