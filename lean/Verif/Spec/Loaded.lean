import Verif.Model.Loaded
/-!
# What an assembly is for a running program

Every name stands for one assembly, whenever it is used.
-/

namespace Verif.Loaded

/-- The state after some calls. -/
def after (ops : List (Provider × Op)) : State := (run State.start ops).1

/-- The `i`-th call and what it gave. -/
def Gave (ops : List (Provider × Op)) (i : Nat) (op : Op) (a : Nat) : Prop :=
  (∃ p, ops[i]? = some (p, op)) ∧ (run State.start ops).2[i]? = some (.assembly a)

end Verif.Loaded
