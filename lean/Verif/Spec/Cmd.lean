import Verif.Model.Cmd

/-!
# How a command line is written, and what it means

A command line is a sequence of items.  This does not use the parser.
-/

namespace Verif.Cmd.Spec

open Verif.Paths (Str)

/-- The ways to write something on the command line. -/
inductive Item
  /-- a file -/
  | file (f : Str)
  /-- `-`, which is ignored -/
  | dash
  /-- `--name=value` -/
  | long (n v : Str)
  /-- `--name value` -/
  | longNext (n v : Str)
  /-- `--name` -/
  | longFlag (n : Str)
  /-- `-abc` -/
  | flags (as : Str) (c : Nat)
  /-- `-abc value`, where `c` takes the value -/
  | flagsNext (as : Str) (c : Nat) (v : Str)

/-- The arguments that an item is written with. -/
def Item.words : Item → List Str
  | .file f => [f]
  | .dash => [[hyphen]]
  | .long n v => [hyphen :: hyphen :: (n ++ equals :: v)]
  | .longNext n v => [hyphen :: hyphen :: n, v]
  | .longFlag n => [hyphen :: hyphen :: n]
  | .flags as c => [hyphen :: (as ++ [c])]
  | .flagsNext as c v => [hyphen :: (as ++ [c]), v]

/-- `n` is the name of an option that takes the value `v`. -/
def TakesValue (os : List Opt) (n v : Str) : Prop :=
  ∃ o ∈ os, o.name = n ∧ o.hasValue = true ∧ o.reads v = true

/-- `n` is the name of an option without value. -/
def IsFlag (os : List Opt) (n : Str) : Prop := ∃ o ∈ os, o.name = n ∧ o.hasValue = false

/-- `c` is the letter of an option without value, named `n`. -/
def Letter (os : List Opt) (c : Nat) (n : Str) : Prop :=
  ∃ o ∈ os, o.short = some c ∧ o.name = n ∧ o.hasValue = false

/-- The letters `as` stand for the options without value named `ns`. -/
inductive Letters (os : List Opt) : Str → List Str → Prop
  | nil : Letters os [] []
  | cons {c n as ns} : Letter os c n → Letters os as ns → Letters os (c :: as) (n :: ns)

/-- `c` is the letter of an option named `n` that takes the value `v`. -/
def ValueLetter (os : List Opt) (c : Nat) (n v : Str) : Prop :=
  ∃ o ∈ os, o.short = some c ∧ o.name = n ∧ o.hasValue = true ∧ o.reads v = true

/-- What an item says: the options it sets, and the files it names. -/
inductive Says (os : List Opt) : Item → List (Str × Option Str) → List Str → Prop
  | file {f} : f.head? ≠ some hyphen → Says os (.file f) [] [f]
  | dash : Says os .dash [] []
  | long {n v} : equals ∉ n → TakesValue os n v → Says os (.long n v) [(n, some v)] []
  | longNext {n v} : equals ∉ n → TakesValue os n v → Says os (.longNext n v) [(n, some v)] []
  | longFlag {n} : equals ∉ n → IsFlag os n → Says os (.longFlag n) [(n, none)] []
  | flags {as c ns n} : (as ++ [c]).head? ≠ some hyphen → Letters os as ns →
      Letter os c n → Says os (.flags as c) (ns.map (·, none) ++ [(n, none)]) []
  | flagsNext {as c ns n v} : (as ++ [c]).head? ≠ some hyphen → Letters os as ns →
      ValueLetter os c n v →
      Says os (.flagsNext as c v) (ns.map (·, none) ++ [(n, some v)]) []

/-- A command line, read from left to right. -/
inductive Line (os : List Opt) : List Str → List (Str × Option Str) → List Str → Prop
  | nil : Line os [] [] []
  | cons {i args s r s' r'} : Says os i s r → Line os args s' r' →
      Line os (i.words ++ args) (s ++ s') (r ++ r')

/-- Names and letters of options are all different. -/
def Distinct (os : List Opt) : Prop :=
  (os.map Opt.name).Nodup ∧ (os.filterMap Opt.short).Nodup

end Verif.Cmd.Spec

namespace Verif.Cmd.Spec

open Verif.Paths (Str)

/-- The last value that the option `n` was given, or `d` if it was not given. -/
def Last (s : List (Str × Option Str)) (n : Str) (d v : Str) : Prop :=
  (∃ before after, s = before ++ (n, some v) :: after ∧ ∀ w, (n, some w) ∉ after)
    ∨ (v = d ∧ ∀ w, (n, some w) ∉ s)

/-- A level of optimization as it is written: one of the digits 0 to 3, possibly after zeros, a
sign and white space. -/
def Level (v : Str) (l : Int) : Prop :=
  ∃ blanks sign zeros : Str, ∃ d : Nat, v = blanks ++ sign ++ zeros ++ [48 + d] ∧ (l = d ∧ d ≤ 3) ∧
    (∀ c ∈ blanks, c = 32 ∨ 9 ≤ c ∧ c ≤ 13) ∧ (∀ c ∈ zeros, c = 48) ∧
    (sign = [] ∨ sign = [43] ∨ sign = [45] ∧ d = 0)

end Verif.Cmd.Spec
