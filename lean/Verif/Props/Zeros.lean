import Verif.Proof.Zeros
/-!
# C136: new objects start out with zeros
-/

namespace Verif.Zeros

open Verif.Copy (Mem)

/-- Whatever is in memory: a new object — of any size — is all zeros, its type stands before it, and nothing but
the memory that was allocated for it has changed. -/
theorem new_object (m : Mem) (block type size : Nat) (ht : type < 2 ^ 64) :
    ∃ m', newObj m block type size = some (m', block + 8) ∧ Zero m' (block + 8) size ∧
      number m' block 8 = type ∧ Only m m' block (objectBytes size) :=
  newObj_spec m block type size ht

/-- Non-vacuity: an object of 150 bytes in memory full of ones — two rounds of the loop. -/
example : ∃ m', newObj (fun _ => 1) 1000 77 150 = some (m', 1008) ∧ m' 1157 = 0 ∧ m' 1160 = 1 ∧ m' 1000 = 77 := by
  refine ⟨_, rfl, ?_, ?_, ?_⟩ <;> decide +kernel

/-- A new array of one dimension, of elements of up to 8 bytes: every element is zero, its type and its length stand
before it, and nothing but the memory that was allocated for it has changed.  Missing: several dimensions and
larger elements (`several_refuted`, `large_refuted`). -/
theorem new_array_partial (m : Mem) (block type size n : Nat) (ht : type < 2 ^ 64) (hn : n < 2 ^ 31)
    (hs : size ≤ 8) :
    ∃ m', newArray m block type size [(n : Int)] = some (m', block + 16) ∧ Zero m' (block + 16) (n * size) ∧
      number m' (block + 8) 8 = type ∧ number m' (block + 4) 4 = n ∧
      Only m m' block (arrayBytes size [(n : Int)]) := by
  obtain ⟨m', e, h1, h2, h3⟩ := newArray_one m block type size n ht hn hs
  exact ⟨m', e, h1, h2, h3, (newArray_only m m' block type size _ _ e).2⟩

example : ∃ m', newArray (fun _ => 1) 1000 77 4 [35] = some (m', 1016) ∧ m' 1155 = 0 ∧ m' 1160 = 1 ∧
    m' 1008 = 77 ∧ m' 1004 = 35 := by
  refine ⟨_, rfl, ?_, ?_, ?_, ?_⟩ <;> decide +kernel

/-- Making an array of any number of dimensions and any elements changes nothing but the memory allocated for it. -/
theorem new_array_only (m m' : Mem) (block type size : Nat) (lengths : List Int) (obj : Nat)
    (h : newArray m block type size lengths = some (m', obj)) : Only m m' block (arrayBytes size lengths) :=
  (newArray_only m m' block type size lengths obj h).2

example : ∃ m', newArray (fun _ => 1) 1000 77 4 [2, 3, 5] = some (m', 1024) ∧ m' 999 = 1 ∧ m' 1016 = 77 ∧
    m' 1012 = 30 ∧ m' 1008 = 5 ∧ m' 1004 = 15 ∧ m' 1000 = 30 ∧ m' 1024 = 0 := by
  refine ⟨_, rfl, ?_, ?_, ?_, ?_, ?_, ?_, ?_⟩ <;> decide +kernel

/-- Not so for two dimensions: of 2 × 3 numbers of 4 bytes only the first two are set to zero — what was in memory
stays in the others. -/
theorem several_refuted (m : Mem) (block type : Nat) :
    ∃ m' obj, newArray m block type 4 [2, 3] = some (m', obj) ∧ ∀ k, 8 ≤ k → k < 2 * 3 * 4 →
      m' (obj + k) = m (obj + k) := by
  obtain ⟨m', e⟩ : ∃ m', newArray m block type 4 [2, 3] = some (m', block + 24) := ⟨_, rfl⟩
  obtain ⟨_, h⟩ := newArray_only m m' block type 4 [2, 3] _ e
  refine ⟨m', block + 24, e, fun k hk _ => h _ (Or.inr ?_)⟩
  have : arrayBytes 4 [2, 3] = 32 := by decide
  omega

/-- Not so for elements of more than 8 bytes: of one element of 16 bytes the first 8 are set to zero. -/
theorem large_refuted (m : Mem) (block type : Nat) :
    ∃ m' obj, newArray m block type 16 [1] = some (m', obj) ∧ ∀ k, 8 ≤ k → k < 1 * 16 →
      m' (obj + k) = m (obj + k) := by
  obtain ⟨m', e⟩ : ∃ m', newArray m block type 16 [1] = some (m', block + 16) := ⟨_, rfl⟩
  obtain ⟨_, h⟩ := newArray_only m m' block type 16 [1] _ e
  refine ⟨m', block + 16, e, fun k hk _ => h _ (Or.inr ?_)⟩
  have : arrayBytes 16 [1] = 24 := by decide
  omega

/-- `zero_object` of an object of any size sets all its bytes to zero, and no others. -/
theorem zero_object (m : Mem) (p size : Nat) :
    Zero (zeroObject m p size) p size ∧ Only m (zeroObject m p size) p size := by
  have e : 2 ^ 3 * (size / 8) + size % 2 ^ 3 = size := by omega
  refine ⟨fun k hk => ?_, fun a ha => ?_⟩
  · rw [zeroObject, zeroBytes_at, e, if_pos (by omega)]
  · rw [zeroObject, zeroBytes_at, e, if_neg (by omega)]

example : zeroObject (fun _ => 1) 100 15 114 = 0 ∧ zeroObject (fun _ => 1) 100 15 115 = 1 ∧
    zeroObject (fun _ => 1) 100 15 99 = 1 := by
  have h := zero_object (fun _ => 1) 100 15
  exact ⟨h.1 14 (by omega), h.2 115 (by omega), h.2 99 (by omega)⟩

end Verif.Zeros
