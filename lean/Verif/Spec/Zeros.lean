import Verif.Model.Zeros
/-!
# New memory

What a program may expect of the bytes of an object that was just made.
-/

namespace Verif.Zeros

open Verif.Copy (Mem)

/-- Bytes from an address on are zero. -/
def Zero (m : Mem) (p n : Nat) : Prop := ∀ k, k < n → m (p + k) = 0

/-- The number in `n` bytes at an address, the lowest first. -/
def number (m : Mem) (p : Nat) : Nat → Nat
  | 0 => 0
  | n + 1 => (m p).toNat + 256 * number m (p + 1) n

/-- Only bytes of a block have changed. -/
def Only (m m' : Mem) (block n : Nat) : Prop := ∀ a, a < block ∨ block + n ≤ a → m' a = m a

end Verif.Zeros
