import Verif.Model.Fold

/-!
# Values of enumerators

`/repo/modules/compile/ast.cpp:2745-3022` (`__fields_init_stub_t`, `__enum_fields_init_stub_t`) and
`/repo/modules/compile/ast.cpp:3345-3400`: the compiler gives every field of an enumeration its value.

Simplifications.  One enumeration is looked at; constants of other types are literals.  Floating-point
constants are not modelled.  The result of an operator on two constants is any function of them.  All fields
of the enumeration are static constants, as the grammar makes them.
-/

namespace Verif.Enums

open Verif.Fold (VT conv inRange)

/-- `cvalue_t`: a constant — `/repo/include/modules/core.h:1653-1717`.  Strings and types are not told
apart. -/
inductive Cv where
  | num (t : VT) (v : Int)
  | string
  | null
  | type
  | nan
  deriving DecidableEq, Repr

/-- The place in `cvalue_type_t` — `/repo/include/modules/core.h:715-733`. -/
def Cv.rank : Cv → Nat
  | .num _ _ => 0
  | .string => 1
  | .null => 2
  | .type => 3
  | .nan => 4

/-- An initial value as written: a constant, another enumerator, an operator, or an expression that is no
constant (a call, say) and in which other fields occur. -/
inductive Ex where
  | lit (c : Cv)
  | field (i : Nat)
  | op (f : Cv → Cv → Cv) (a b : Ex)

/-- `field->init_value` of every field, in the order of the declaration. -/
abbrev Inits := List (Option Ex)

/-- `init_value` of a field. -/
def initOf (s : Inits) (i : Nat) : Option Ex := (s[i]?).join

/-- The value of an expression when the fields have the values `g`.
`/repo/modules/core/expression_executor.cpp:541-647`. -/
def eval (g : Nat → Cv) : Ex → Cv
  | .lit c => c
  | .field i => g i
  | .op f a b => f (eval g a) (eval g b)

/-- `execute()`: a field without initial value has the default value, any other field the value of its
expression.  `/repo/modules/core/core.cpp:5494-5505`.  The recursion through fields is bounded by `fuel`; the
theorems give enough. -/
def exec (t : VT) (s : Inits) : Nat → Ex → Cv
  | 0, e => eval (fun _ => .nan) e
  | fuel + 1, e =>
    eval (fun i =>
      match initOf s i with
      | none => .num t 0
      | some e' => exec t s fuel e') e

/-- The fields that occur in an expression, in the order `__each_field` meets them.
`/repo/modules/compile/ast.cpp:2851-2872`. -/
def refs : Ex → List Nat
  | .lit _ => []
  | .field i => [i]
  | .op _ a b => refs a ++ refs b

/-- The fields `__do_is_circular_defination` goes to: the field before, for a field without value, and the
fields that occur in the value.  `/repo/modules/compile/ast.cpp:2887-2919`. -/
def depends (s : Inits) (i : Nat) : List Nat :=
  match initOf s i with
  | none => if i = 0 then [] else [i - 1]
  | some e => refs e

/-- `__is_circular_defination(fields, field)`: the fields on the way here are kept, and taken off again on
the way back.  `/repo/modules/compile/ast.cpp:2874-2902`. -/
def circular (s : Inits) : Nat → List Nat → Nat → Bool
  | 0, _, _ => false
  | fuel + 1, path, i =>
    if path.contains i then true
    else (depends s i).any fun j => circular s fuel (i :: path) j

/-- `__deep_each_field` with the callback of `__is_all_fields_initialized`: every field that occurs, and
every field that occurs in its value, has a value that is a constant.
`/repo/modules/compile/ast.cpp:2801-2817, 2833-2849`. -/
def allInit (t : VT) (s : Inits) : Nat → Ex → Bool
  | 0, _ => true
  | fuel + 1, e =>
    (refs e).all fun j =>
      match initOf s j with
      | none => false
      | some e' => exec t s (fuel + 1) e' != .nan && allInit t s fuel e'

/-- `__compare_tvalue` with `<=` or `<` on two numbers that are not floating-point.
`/repo/common/common.cpp:64-102`. -/
def compare (le : Int → Int → Bool) (t1 : VT) (v1 : Int) (t2 : VT) (v2 : Int) : Bool :=
  if t1 = t2 then le v1 v2
  else if t1 = .uint64 then le v1 (conv .uint64 (conv .int64 v2))
  else if t2 = .uint64 then le (conv .uint64 (conv .int64 v1)) v2
  else le (conv .int64 v1) (conv .int64 v2)

/-- `operator <=` of constants.  `/repo/modules/core/core.cpp:1242-1267`. -/
def Cv.le (a b : Cv) : Bool :=
  match a, b with
  | .num t1 v1, .num t2 v2 => compare (fun x y => decide (x ≤ y)) t1 v1 t2 v2
  | a, b => decide (a.rank ≤ b.rank)

/-- `operator <` of constants.  `/repo/modules/core/core.cpp:1217-1239`. -/
def Cv.lt (a b : Cv) : Bool :=
  match a, b with
  | .num t1 v1, .num t2 v2 => compare (fun x y => decide (x < y)) t1 v1 t2 v2
  | a, b => decide (a.rank < b.rank)

/-- `__min` and `__max`. -/
def minOf (t : VT) : Int := if t.signed then -(2 ^ (t.bits - 1) : Nat) else 0
def maxOf (t : VT) : Int := if t.signed then (2 ^ (t.bits - 1) : Nat) - 1 else (2 ^ t.bits : Nat) - 1

/-- What is reported. -/
inductive Err where
  | circular
  | notConstant
  | tooLarge
  | tooSmall
  deriving DecidableEq, Repr

/-- The state of the object that fills in the values: the fields, `__value`, `__is_next_value`, the reports. -/
structure St where
  inits : Inits
  value : Int := 0
  isNext : Bool := true
  errors : List (Nat × Err) := []

/-- `__fill_ret_t`. -/
inductive Ret where
  | succeed
  | error (e : Err)
  | break_
  deriving DecidableEq, Repr

/-- `field->init_value = …`. -/
def St.put (s : St) (i : Nat) (c : Cv) : St := { s with inits := s.inits.set i (some (.lit c)) }

/-- A number that is enough for all walks over the fields. -/
def St.fuel (s : St) : Nat := s.inits.length + 1

/-- `__fill_value`.  `/repo/modules/compile/ast.cpp:2934-2997`. -/
def fill (t : VT) (s : St) (i : Nat) : Ret × St :=
  match initOf s.inits i with
  | some e =>
    if circular s.inits s.fuel [] i then (.error .circular, s)
    else
      let v := exec t s.inits s.fuel e
      if v = .nan then
        if allInit t s.inits s.fuel e then (.error .notConstant, s) else (.break_, s)
      else if !v.le (.num t (maxOf t)) then (.error .tooLarge, s)
      else if v.lt (.num t (minOf t)) then (.error .tooSmall, s)
      else
        match v with
        | .num _ n => (.succeed, { s.put i (.num t (conv t n)) with value := conv t n, isNext := false })
        | _ => (.succeed, s.put i .nan)
  | none =>
    if s.isNext then (.succeed, { s.put i (.num t s.value) with isNext := false })
    else if s.value = maxOf t then (.error .tooLarge, s)
    else (.succeed, { s.put i (.num t (s.value + 1)) with value := s.value + 1 })

/-- The number of fields without value right behind a place: they are skipped after a field that has to
wait.  `/repo/modules/compile/ast.cpp:2773-2779`. -/
def skip (inits : Inits) (i : Nat) : Nat := ((inits.drop (i + 1)).takeWhile (·.isNone)).length

/-- The loop of `continue_` over the places from `i` on; `brk` is `__break_index`, when it was set.  `n` is
how many places are left.  `/repo/modules/compile/ast.cpp:2754-2790`. -/
def loop (t : VT) : Nat → Nat → Option Nat → St → Option Nat × St
  | 0, _, brk, s => (brk, s)
  | n + 1, i, brk, s =>
    if i < s.inits.length then
      match fill t s i with
      | (.succeed, s') => loop t n (i + 1) brk s'
      | (.error e, s') =>
        loop t n (i + 1) brk { s'.put i (.num t 0) with errors := s'.errors ++ [(i, e)] }
      | (.break_, s') => loop t n (i + 1 + skip s'.inits i) (brk.or (some i)) s'
    else (brk, s)

/-- `continue_` again and again, as `__delay` has it: from the first field that had to wait.
`/repo/modules/compile/ast.cpp:3327-3336, 3361-3391`. -/
def passes (t : VT) : Nat → Nat → St → Option Nat × St
  | 0, i, s => (some i, s)
  | k + 1, i, s =>
    match loop t s.inits.length i none s with
    | (none, s') => (none, s')
    | (some j, s') => passes t k j s'

/-- The values of an enumeration with the fields `decl` and the underlying type `t`, after `k` rounds. -/
def assign (t : VT) (decl : Inits) (k : Nat) : Option Nat × St := passes t k 0 { inits := decl }

/-- The value a field has in the end. -/
def valueOf (s : St) (i : Nat) : Option Int :=
  match initOf s.inits i with
  | some (.lit (.num _ v)) => some v
  | _ => none

end Verif.Enums
