/-!
What the text of a GUID is: 36 characters, hexadecimal digits in groups of 8-4-4-4-12 with hyphens between.
-/

namespace Verif.Guid.Spec

/-- The hexadecimal digits, by value. -/
def lower : List Char := ['0', '1', '2', '3', '4', '5', '6', '7', '8', '9', 'a', 'b', 'c', 'd', 'e', 'f']
/-- The same in upper case. -/
def upper : List Char := ['0', '1', '2', '3', '4', '5', '6', '7', '8', '9', 'A', 'B', 'C', 'D', 'E', 'F']

/-- A character code is a hexadecimal digit of the given value. -/
def IsDigit (c : BitVec 32) (v : Nat) : Prop :=
  (∃ ch, lower[v]? = some ch ∧ c.toNat = ch.toNat) ∨ (∃ ch, upper[v]? = some ch ∧ c.toNat = ch.toNat)

/-- Where the hyphens are. -/
def hyphens : List Nat := [8, 13, 18, 23]

/-- Where the first digit of each of the 16 bytes is. -/
def starts : List Nat := [0, 2, 4, 6, 9, 11, 14, 16, 19, 21, 24, 26, 28, 30, 32, 34]

/-- The characters `s` start with a GUID in text form, whose bytes are `g`. -/
def IsText (s : List (BitVec 32)) (g : List (BitVec 8)) : Prop :=
  g.length = 16 ∧ (∀ i ∈ hyphens, s[i]? = some (BitVec.ofNat 32 '-'.toNat)) ∧
  ∀ (k p : Nat) (b : BitVec 8), g[k]? = some b → starts[k]? = some p →
    ∃ c c' hi lo, s[p]? = some c ∧ s[p + 1]? = some c' ∧ IsDigit c hi ∧ IsDigit c' lo ∧ b.toNat = 16 * hi + lo

end Verif.Guid.Spec
