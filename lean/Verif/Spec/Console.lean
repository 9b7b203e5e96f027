import Verif.Model.Console
import Verif.Spec.Fold

/-! What the console is expected to show. -/

namespace Verif.Console.Spec

open Verif.Fold Verif.Fold.Spec

/-- The number that decimal digits stand for. -/
def number (ds : List Nat) : Nat := ds.foldl (fun a d => 10 * a + d) 0

/-- `txt` is the decimal numeral of `v`: digits without leading zeros, behind a minus sign for negative numbers. -/
def Numeral (v : Int) (txt : List Int) : Prop :=
  ∃ ds : List Nat, ds ≠ [] ∧ (∀ d ∈ ds, d < 10) ∧ (ds.head? = some 0 → ds = [0]) ∧ number ds = v.natAbs ∧
    txt = (if v < 0 then [45] else []) ++ ds.map fun (d : Nat) => 48 + (d : Int)

/-- `txt` is what a value of type `t` looks like: a string or character itself, the numeral of an integer, `True` or `False`.
Strings are given by their addresses; nothing stands for null. -/
def Looks (w : World) (t : VT) (v : Int) (txt : List Int) : Prop :=
  match t with
  | .string => 0 ≤ v ∧ v < 2 ^ 64 ∧ (v = 0 ∧ txt = [] ∨ v ≠ 0 ∧ w.strs v.toNat = some txt ∧ 0 ∉ txt)
  | .char => Value .char v ∧ txt = [v]
  | .bool => (v = 1 ∧ txt = [84, 114, 117, 101]) ∨ (v = 0 ∧ txt = [70, 97, 108, 115, 101])
  | .int8 | .uint8 | .int16 | .uint16 | .int32 | .uint32 | .int64 | .uint64 => Value t v ∧ Numeral v txt
  | _ => False

/-- What a call of a method of `Console` is expected to write. -/
inductive Shows (w : World) : Meth → Int → List Int → Prop
  | write {t v txt} : Looks w t v txt → Shows w (.write t) v txt
  | line {t v txt} : Looks w t v txt → Shows w (.writeLine t) v (txt ++ [10])
  | newline {v} : Shows w .newline v [10]

/-- What a sequence of calls is expected to write: one behind the other. -/
inductive ShowsAll (w : World) : List (Meth × Int) → List Int → Prop
  | nil : ShowsAll w [] []
  | cons {m v txt rest more} : Shows w m v txt → ShowsAll w rest more → ShowsAll w ((m, v) :: rest) (txt ++ more)

/-- The string constants of the library: "\n", "True", "False" and "\r\n". -/
def constants : List (List Int) := [[10], [84, 114, 117, 101], [70, 97, 108, 115, 101], [13, 10]]

/-- The constants are strings in memory; the stream can encode digits, letters and control characters (ASCII). -/
structure Ok (w : World) : Prop where
  lit : ∀ s ∈ constants, w.lit s ≠ 0 ∧ w.lit s < 2 ^ 64 ∧ w.strs (w.lit s) = some s
  ascii : ∀ c, 0 ≤ c → c < 128 → w.enc c = true

/-- The commands that were made so far are those of methods of the class `Internal`. -/
def CacheOk (s : Machine) : Prop :=
  ∀ f z, s.cache f = some z → ∀ x ∈ internals, getLibfunc x.1 = some f → z = sizes x.2.1 x.2.2

/-- The calls the theorems leave out: lines of an `UInt64`, of a null string, of a `Boolean`. -/
def plainCall : Meth × Int → Prop
  | (.writeLine .uint64, _) => False
  | (.writeLine .bool, _) => False
  | (.writeLine .string, v) => v ≠ 0
  | _ => True

/-- The stack of `s'` is that of `s`. -/
def SameStack (s s' : Machine) : Prop := s'.top = s.top ∧ ∀ x, x < 8 * s.top → s'.mem x = s.mem x

end Verif.Console.Spec
