import Verif.Model.Paths

/-!
# What a path means

A path with a leading slash is a list of names, each behind a slash.  Following it from the
root, `.` stays, `..` goes up (and stays at the root), any other name goes down.
-/

namespace Verif.Paths.Spec

/-- The path that goes through these names. -/
def render (names : List Str) : Str := (names.map fun n => slash :: n).flatten

/-- Where one arrives from the place `stack` (its names, the innermost first). -/
def walk : List Str → List Str → List Str
  | stack, [] => stack
  | stack, n :: ns =>
    if n = [dot] then walk stack ns
    else if n = [dot, dot] then walk stack.tail ns
    else walk (n :: stack) ns

/-- The names of the place that one arrives at. -/
def resolve (names : List Str) : List Str := (walk [] names).reverse

/-- `.` or `..`. -/
def Dots (n : Str) : Prop := n = [dot] ∨ n = [dot, dot]

/-- An ordinary name of a file or directory. -/
def Name (n : Str) : Prop := n ≠ [] ∧ ¬ Dots n ∧ slash ∉ n

/-- How many levels these names go up. -/
def ups (names : List Str) : Nat := names.count [dot, dot]

/-- A stretch of a path: some ordinary names, then some `.` and `..` that take back at most
those names. -/
structure Leg where
  names : List Str
  dots : List Str

/-- The names of a leg. -/
def Leg.all (l : Leg) : List Str := l.names ++ l.dots

/-- The dots of the leg take back at most the names of the leg. -/
def Leg.Good (l : Leg) : Prop :=
  l.names ≠ [] ∧ (∀ n ∈ l.names, Name n) ∧ (∀ d ∈ l.dots, Dots d)
    ∧ ups l.dots ≤ l.names.length

instance (n : Str) : Decidable (Dots n) := by unfold Dots; infer_instance
instance (n : Str) : Decidable (Name n) := by unfold Name; infer_instance
instance (l : Leg) : Decidable l.Good := by unfold Leg.Good; infer_instance

end Verif.Paths.Spec
