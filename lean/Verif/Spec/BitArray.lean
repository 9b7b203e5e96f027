import Verif.Model.BitArray

/-! # What the bit array means -/

namespace Verif.BitArray

/-- The value of a bit after a history of settings: that of the last setting of its index. -/
def bitAfter (f : Nat → Bool) : List (Nat × Bool) → Nat → Bool
  | [], i => f i
  | (k, v) :: rest, i => bitAfter (fun j => if j = k then v else f j) rest i

/-- The length after a history: one more than the largest index set. -/
def lengthAfter : List (Nat × Bool) → Nat
  | [] => 0
  | (k, _) :: rest => max (k + 1) (lengthAfter rest)

/-- The least index from `from_` on, below `length`, whose bit is `value`. -/
def IsFirst (bits : Nat → Bool) (length : Nat) (value : Bool) (from_ : Nat) : Option Nat → Prop
  | some i => from_ ≤ i ∧ i < length ∧ bits i = value ∧ ∀ j, from_ ≤ j → j < i → bits j ≠ value
  | none => ∀ j, from_ ≤ j → j < length → bits j ≠ value

end Verif.BitArray
