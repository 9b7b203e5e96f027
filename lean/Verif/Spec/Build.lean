import Verif.Model.Build

/-! # What building a solution means -/

namespace Verif.Build.Spec

/-- The names of the projects. -/
def names (s : Solution) : List Nat := s.projects.map Proj.name

/-- No two projects have the same name. -/
def Distinct (s : Solution) : Prop := (names s).Nodup

/-- Project `p` imports project `q`. -/
def Uses (s : Solution) (p q : Proj) : Prop :=
  p ∈ s.projects ∧ q ∈ s.projects ∧ q.name ∈ p.imports

/-- From `p` one can get to `q` by one or more imports. -/
inductive Reaches (s : Solution) : Proj → Proj → Prop
  | one {p q} : Uses s p q → Reaches s p q
  | more {p q r} : Uses s p q → Reaches s q r → Reaches s p r

/-- Some project needs itself. -/
def Circular (s : Solution) : Prop := ∃ p, Reaches s p p

/-- Everything that is imported exists. -/
def Complete (s : Solution) : Prop :=
  ∀ p ∈ s.projects, ∀ u ∈ p.imports, u ∈ names s ∨ u ∈ s.refs

/-- No project has errors of its own. -/
def Sound (s : Solution) : Prop := ∀ p ∈ s.projects, p.faulty = false

end Verif.Build.Spec
