import Verif.Model.Numeric

/-!
What numeric literals are and what they denote.
-/

namespace Verif.Numeric.Spec

open Verif.CStr (Ch)
open Verif.Numeric

/-- The value of a digit character: `0`-`9`, `A`-`F`, `a`-`f`. -/
def digit (c : Ch) : Option Nat :=
  if 48 ≤ c.toNat ∧ c.toNat ≤ 57 then some (c.toNat - 48)
  else if 65 ≤ c.toNat ∧ c.toNat ≤ 70 then some (c.toNat - 55)
  else if 97 ≤ c.toNat ∧ c.toNat ≤ 102 then some (c.toNat - 87)
  else none

/-- `Body radix ok text ds`: the text consists of the digits `ds`, at least one, with at most one separator `'` between two of
them; a separator may follow a digit `d` only if `ok d`. -/
inductive Body (radix : Nat) (ok : Nat → Prop) : List Ch → List Nat → Prop where
  | one {c : Ch} {d : Nat} : digit c = some d → d < radix → Body radix ok [c] [d]
  | cons {c : Ch} {d : Nat} {s ds} : digit c = some d → d < radix → Body radix ok s ds → Body radix ok (c :: s) (d :: ds)
  | sep {c : Ch} {d : Nat} {s ds} : digit c = some d → d < radix → ok d → Body radix ok s ds →
      Body radix ok (c :: 39#32 :: s) (d :: ds)

/-- The positional value of digits, the most significant first. -/
def value (radix : Nat) : List Nat → Nat
  | [] => 0
  | d :: ds => d * radix ^ ds.length + value radix ds

/-- The largest value of a type. -/
def largest : ITy → Nat
  | .int32 => 2147483647
  | .uint32 => 4294967295
  | .int64 => 9223372036854775807
  | .uint64 => 18446744073709551615

/-- What introduces a literal of a radix. -/
inductive Prefix : Nat → List Ch → Prop where
  | dec : Prefix 10 []
  | oct : Prefix 8 [48#32]
  | hex : Prefix 16 [48#32, 120#32]
  | hexU : Prefix 16 [48#32, 88#32]
  | bin : Prefix 2 [48#32, 98#32]
  | binU : Prefix 2 [48#32, 66#32]

/-- A type suffix: whether it says `long`, and whether it says unsigned. -/
inductive Suffix : List Ch → Bool → Bool → Prop where
  | none : Suffix [] false false
  | long {c : Ch} : c = 76#32 ∨ c = 108#32 → Suffix [c] true false
  | uns {c : Ch} : c = 85#32 ∨ c = 117#32 → Suffix [c] false true
  | ulong {c d : Ch} : c = 85#32 ∨ c = 117#32 → d = 76#32 ∨ d = 108#32 → Suffix [c, d] true true
  | longu {c d : Ch} : c = 76#32 ∨ c = 108#32 → d = 85#32 ∨ d = 117#32 → Suffix [c, d] true true

/-- The types a literal may have, in order of preference. -/
def types (radix : Nat) (long unsigned : Bool) : List ITy :=
  match long, unsigned || radix == 16 with
  | true, true => [.uint64]
  | true, false => [.int64, .uint64]
  | false, true => [.uint32, .uint64]
  | false, false => if radix = 10 then [.int32, .int64, .uint64] else [.int32, .uint32, .int64, .uint64]

/-- What may follow a literal. -/
def Ends (rest : List Ch) : Prop := ∀ c s, rest = c :: s → CStr.isWord c = false ∧ c ≠ 46#32 ∧ c ≠ 39#32

/-- What a literal with these digits denotes: the first type that holds the value, or an overflow. -/
def denoted (radix : Nat) (long unsigned : Bool) (ds : List Nat) : Lit :=
  match (types radix long unsigned).find? fun t => value radix ds ≤ largest t with
  | some t => .val (t.mk (value radix ds))
  | none => .overflow

end Verif.Numeric.Spec

namespace Verif.Numeric.Spec

open Verif.CStr (Ch)

/-- The suffixes of a literal with a decimal point and the sizes of its type: `double` 8, `float` 4, `long double` 16. -/
inductive FSuffix : List Ch → Nat → Prop where
  | none : FSuffix [] 8
  | float {c : Ch} : c = 70#32 ∨ c = 102#32 → FSuffix [c] 4
  | long {c : Ch} : c = 76#32 ∨ c = 108#32 → FSuffix [c] 16

end Verif.Numeric.Spec
