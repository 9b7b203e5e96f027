import Verif.Model.CStr

/-!
Model of GUIDs and of the hexadecimal printing of byte buffers: `include/common.h:2736-2894`, `2270-2315`.
-/

namespace Verif.Guid

open Verif.CStr (Ch)

abbrev Byte := BitVec 8

/-- `__digit_value` — `include/common.h:2738-2750`; `none` is -1.  `char_t` is a signed type. -/
def digitValue (c : Ch) : Option Nat :=
  if c.sle 57#32 && (48#32).sle c then some (c - 48#32).toNat
  else if c.sle 70#32 && (65#32).sle c then some ((c - 65#32).toNat + 10)
  else if c.sle 102#32 && (97#32).sle c then some ((c - 97#32).toNat + 10)
  else none

/-- What a call of `guid_t::parse` does. -/
inductive Outcome where
  | ok (g : List Byte)
  /-- the exception `format_error` -/
  | formatError
  /-- a read past the end of the text's array, or a write past the 16 bytes of the GUID -/
  | outOfBounds
deriving DecidableEq, Repr

/-- The loop of `guid_t::parse` — `include/common.h:2791-2815`: `s` is the array from the pointer on, `i` is `p - s`, `out`
the bytes already written through `gp`.  Both digits are read before either is checked. -/
def parseLoop (s : List Ch) (i : Nat) (out : List Byte) : Outcome :=
  if i < 36 then
    match s[i]? with
    | none => .outOfBounds
    | some c =>
      if c = 45#32 then
        if i ≠ 8 ∧ i ≠ 13 ∧ i ≠ 18 ∧ i ≠ 23 then .formatError else parseLoop s (i + 1) out
      else
        match s[i + 1]? with
        | none => .outOfBounds
        | some c' =>
          match digitValue c, digitValue c' with
          | some d1, some d2 =>
            if out.length < 16 then parseLoop s (i + 2) (out ++ [BitVec.ofNat 8 ((d1 <<< 4) ||| d2)])
            else .outOfBounds
          | _, _ => .formatError
  else .ok out
termination_by 36 - i

/-- `guid_t::parse` — `include/common.h:2783-2818`; `none` is `nullptr`. -/
def parse : Option (List Ch) → Outcome
  | none => .ok (List.replicate 16 0#8)
  | some s => parseLoop s 0 []

/-- A hexadecimal digit as the C++ library prints it (lower case). -/
def lowerDigit (n : Nat) : Ch := if n < 10 then BitVec.ofNat 32 (48 + n) else BitVec.ofNat 32 (97 + (n - 10))

/-- `ss << std::hex << p[i]` on a wide stream: the byte is promoted to `int` and printed in hexadecimal without
padding. -/
def printByte (b : Byte) : List Ch :=
  if b.toNat < 16 then [lowerDigit b.toNat] else [lowerDigit (b.toNat / 16), lowerDigit (b.toNat % 16)]

/-- `operator string_t` — `include/common.h:2767-2780`. -/
def toText (g : List Byte) : List Ch :=
  (g.take 4).flatMap printByte ++ 45#32 :: ((g.drop 4).take 2).flatMap printByte ++
    45#32 :: ((g.drop 6).take 2).flatMap printByte ++ 45#32 :: ((g.drop 8).take 2).flatMap printByte ++
    45#32 :: ((g.drop 10).take 6).flatMap printByte

/-- Eight bytes read as an `uint64_t`. -/
def word (bs : List Byte) : BitVec 64 := BitVec.ofNat 64 (bs.foldr (fun b acc => b.toNat + 256 * acc) 0)

/-- `operator ==` — `include/common.h:2760-2764`. -/
def eq (a b : List Byte) : Bool := word (a.take 8) == word (b.take 8) && word ((a.drop 8).take 8) == word ((b.drop 8).take 8)

/-- `operator <` — `include/common.h:2281-2284`, `2822-2827`: `std::tuple` compares the two words lexicographically. -/
def lt (a b : List Byte) : Bool :=
  if (word (a.take 8)).ult (word (b.take 8)) then true
  else if (word (b.take 8)).ult (word (a.take 8)) then false
  else (word ((a.drop 8).take 8)).ult (word ((b.drop 8).take 8))

/-! ## Buffers -/

/-- `__digit_to_char` — `include/common.h:2849-2855`. -/
def digitToChar (n : Nat) : Ch := if n ≤ 9 then BitVec.ofNat 32 (48 + n) else BitVec.ofNat 32 (65 + (n - 10))

/-- `__ToChars` — `include/common.h:2865`. -/
def toChars (b : Byte) : List Ch := [digitToChar (b >>> 4).toNat, digitToChar (b &&& 0x0F#8).toNat]

/-- The loop over all bytes but the last — `include/common.h:2867-2874` — and the last byte (2876-2878). -/
def dumpLoop : List Byte → List Ch
  | [] => []
  | [b] => toChars b
  | b :: rest => toChars b ++ 32#32 :: dumpLoop rest

/-- `stream << buffer` — `include/common.h:2858-2883`. -/
def dump (bs : List Byte) : List Ch := if bs.length = 0 then [] else dumpLoop bs

end Verif.Guid
