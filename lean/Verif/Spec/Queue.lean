import Verif.Model.Queue

/-!
# What the steps of the compiler rely on
-/

namespace Verif.Queue

/-- The items of one step, in their order. -/
def ofStep {α : Type} (s : Nat) (xs : List (α × Nat)) : List α := (xs.filter (·.2 == s)).map (·.1)

/-- A visit delays only to its own step or to a later one. -/
def Forward {α σ : Type} (visit : σ → α → Nat → σ × List (α × Nat)) : Prop :=
  ∀ s x k, ∀ y ∈ (visit s x k).2, k ≤ y.2

/-- What the visits `xs` delay, from the state `s` on. -/
def delayed {α σ : Type} (visit : σ → α → Nat → σ × List (α × Nat)) : σ → List (α × Nat) → List (α × Nat)
  | _, [] => []
  | s, x :: xs => (visit s x.1 x.2).2 ++ delayed visit (visit s x.1 x.2).1 xs

/-- The state after the visits `xs`. -/
def after {α σ : Type} (visit : σ → α → Nat → σ × List (α × Nat)) : σ → List (α × Nat) → σ
  | s, [] => s
  | s, x :: xs => after visit (visit s x.1 x.2).1 xs

/-- The visits that are asked for when `xs` is what is visited, starting with one visit of the root in the first step. -/
def asked {α σ : Type} (visit : σ → α → Nat → σ × List (α × Nat)) (s : σ) (root : α) (xs : List (α × Nat)) :
    List (α × Nat) :=
  (root, 0) :: delayed visit s xs

end Verif.Queue
