import Verif.Model.CStr
/-!
Vocabulary for the C-string properties: what a NUL-terminated string is, dictionary order, occurrence.
-/

namespace Verif.CStr

/-- A text: a sequence of characters none of which is NUL. -/
def Text (t : List Ch) : Prop := ∀ c ∈ t, c ≠ 0#32

/-- An array holding the text `t`, its NUL terminator and whatever comes after it. -/
def asArray (t junk : List Ch) : List Ch := t ++ 0#32 :: junk

/-- Dictionary order on sequences of integers, a proper prefix coming first. -/
inductive DictLt : List Int → List Int → Prop where
  | nil (b bs) : DictLt [] (b :: bs)
  | head (a as b bs) : a < b → DictLt (a :: as) (b :: bs)
  | tail (a as bs) : DictLt as bs → DictLt (a :: as) (a :: bs)

/-- The code units of a text, as the signed integers the C++ compares. -/
def units (t : List Ch) : List Int := t.map BitVec.toInt

/-- `w` occurs in `t` at position `i`. -/
def OccursAt (w t : List Ch) (i : Nat) : Prop := w <+: t.drop i ∧ i + w.length ≤ t.length

/-- A 7-bit character. -/
def Ascii (c : Ch) : Prop := c.toNat < 128

/-- The capital of an English letter; any other character unchanged. -/
def capital (c : Ch) : Ch := if 97 ≤ c.toNat ∧ c.toNat ≤ 122 then c - 32#32 else c

/-- The small form of an English letter; any other character unchanged. -/
def small (c : Ch) : Ch := if 65 ≤ c.toNat ∧ c.toNat ≤ 90 then c + 32#32 else c

/-- Value of a hexadecimal digit. -/
def hexValue (c : Ch) : Option Nat :=
  if 48 ≤ c.toNat ∧ c.toNat ≤ 57 then some (c.toNat - 48)
  else if 65 ≤ c.toNat ∧ c.toNat ≤ 70 then some (c.toNat - 55)
  else if 97 ≤ c.toNat ∧ c.toNat ≤ 102 then some (c.toNat - 87)
  else none

end Verif.CStr
