import Verif.Model.Session

/-! What a user of a session expects. -/

namespace Verif.Session.Spec

/-- One project of a session: the name given (empty: none), and the files that each call of
`add_file` named. -/
structure Script where
  name : Str
  adds : List (List File)

/-- The calls that make the project. -/
def Script.ops (s : Script) : List Op := .begin s.name :: (s.adds.map .add ++ [.commit])

/-- Some call named a source file. -/
def Script.HasSource (s : Script) : Prop := ∃ fs ∈ s.adds, ∃ f ∈ fs, f.kind = .source

/-- The files named by one call are all sources, or none of them is. -/
def AllAlike (fs : List File) : Prop :=
  (∀ f ∈ fs, f.kind = .source) ∨ (∀ f ∈ fs, f.kind ≠ .source)

/-- The project has the paths of exactly the source files that were named, each once. -/
def Holds (p : Project) (adds : List (List File)) : Prop :=
  (p.files.map File.path).Nodup ∧
    ∀ x, x ∈ p.files.map File.path ↔ ∃ fs ∈ adds, ∃ f ∈ fs, f.kind = .source ∧ f.path = x

/-- What is compiled: nothing if there are only assemblies, and otherwise the one type that all
the other files have. -/
def TypeIs (files : List File) : Option Kind → Prop
  | none => ∀ f ∈ files, f.kind = .assembly
  | some k => k ≠ .assembly ∧ (∃ f ∈ files, f.kind = k)
    ∧ ∀ f ∈ files, f.kind = .assembly ∨ f.kind = k

/-- `c` is the one to run among `cs`: the only executable project, or the only executable
assembly when no project is. -/
def IsMain (cs : List CAsm) (c : CAsm) : Prop :=
  (∃ a b, cs.filter (·.exec) = a ++ c :: b ∧ ∀ d ∈ a ++ b, d.orig ≠ c.orig)
    ∧ (c.orig = .assembly → ∀ d ∈ cs, d.exec = true → d.orig = .assembly)

end Verif.Session.Spec
