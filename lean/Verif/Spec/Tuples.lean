import Verif.Model.Tuples

/-!
# What is expected of the items of tuples
-/

namespace Verif.Tuples

/-- `Item1`, `Item2` and so on. -/
def itemName (k : Nat) : Name := ("Item" ++ Nat.repr k).toList

/-- The private fields `__item1`, `__item2` and so on. -/
def fieldName (k : Nat) : Name := ("__item" ++ Nat.repr k).toList

/-- What fits in the memory of a command: a parameter number of 16 bits, an address of 64. -/
def Small : RtCommand → Prop
  | .pushArgument i => i < 65536
  | .pushField a => a < 2 ^ 64
  | .ret => True

/-- The fields of a tuple with `n` items are different objects in memory. -/
def Placed (address : Nat → Nat) (n : Nat) : Prop :=
  (∀ k < n, address k < 2 ^ 64) ∧ ∀ j < n, ∀ k < n, address j = address k → j = k

end Verif.Tuples
