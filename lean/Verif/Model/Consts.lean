/-!
# Values of constant fields

Models how the compiler gives the static constant fields of a class or struct their values: `__fields_init_stub_t` with
`__general_fields_init_stub_t` (`modules/compile/ast.cpp:2745-2921, 3022-3069`), `__walk_analysis` and
`__walk_analysis_init_fields` (`modules/compile/ast.cpp:3330-3342, 3391-3399`) and `field_variable_t::execute`
(`modules/core/core.cpp:5494-5505`).

Simplifications.  One class is looked at; constants of other classes are literals (a qualified name is no constant, C116).  What an
operator gives for constants is any function of them; `none` stands for a value that is no constant (`nan`).  The values of one
declared type are given by `fits`, which the code never looks at.
-/

namespace Verif.Consts

variable {V : Type}

/-- An initial value as written: a literal (`none`: something that is never a constant, a call), the name of a field, an operator. -/
inductive Ex (V : Type) where
  | lit (c : Option V)
  | field (i : Nat)
  | op (f : Option V → Option V → Option V) (a b : Ex V)

/-- A field: whether it is a static constant, the values of its type, the default value, the initial value. -/
structure Fld (V : Type) where
  const : Bool
  fits : V → Bool
  dflt : V
  init : Option (Ex V)

/-- `init_value` of a field. -/
def initOf (s : List (Fld V)) (i : Nat) : Option (Ex V) := (s[i]?).bind (·.init)

/-- The value of an expression when the fields have the values `g` — `modules/core/expression_executor.cpp:541-647`. -/
def eval (g : Nat → Option V) : Ex V → Option V
  | .lit c => c
  | .field i => g i
  | .op f a b => f (eval g a) (eval g b)

/-- `execute()` — `modules/core/core.cpp:5494-5505`: a field that is no static constant has no value, one without initial value has
the default value.  The recursion through fields is bounded by `fuel`. -/
def exec (s : List (Fld V)) : Nat → Ex V → Option V
  | 0, e => eval (fun _ => none) e
  | fuel + 1, e =>
    eval (fun i =>
      match s[i]? with
      | none => none
      | some f =>
        if f.const then
          match f.init with
          | none => some f.dflt
          | some e' => exec s fuel e'
        else none) e

/-- The fields that occur in an expression — `__each_field`, `modules/compile/ast.cpp:2851-2872`. -/
def refs : Ex V → List Nat
  | .lit _ => []
  | .field i => [i]
  | .op _ a b => refs a ++ refs b

/-- The fields `__do_is_circular_defination` goes to — `modules/compile/ast.cpp:2891-2904`; the class is no enumeration. -/
def depends (s : List (Fld V)) (i : Nat) : List Nat :=
  match initOf s i with
  | none => []
  | some e => refs e

/-- `__is_circular_defination(fields, field)` — `modules/compile/ast.cpp:2874-2889`. -/
def circular (s : List (Fld V)) : Nat → List Nat → Nat → Bool
  | 0, _, _ => false
  | fuel + 1, path, i =>
    if path.contains i then true
    else (depends s i).any fun j => circular s fuel (i :: path) j

/-- `__is_all_fields_initialized` with `__deep_each_field` — `modules/compile/ast.cpp:2801-2817, 2833-2849`. -/
def allInit (s : List (Fld V)) : Nat → Ex V → Bool
  | 0, _ => true
  | fuel + 1, e =>
    (refs e).all fun j =>
      match initOf s j with
      | none => false
      | some e' => (exec s (fuel + 1) e').isSome && allInit s fuel e'

/-- What is reported. -/
inductive Err where
  | circular | notConstant
deriving DecidableEq, Repr

/-- The fields, and what has been reported. -/
structure St (V : Type) where
  flds : List (Fld V)
  errors : List (Nat × Err) := []

/-- `field->init_value = …`. -/
def St.put (s : St V) (i : Nat) (v : V) : St V :=
  { s with flds := s.flds.modify i fun f => { f with init := some (.lit (some v)) } }

/-- A number that is enough for all walks over the fields. -/
def St.fuel (s : St V) : Nat := s.flds.length + 1

/-- `__fill_ret_t`. -/
inductive Ret where
  | succeed
  | error (e : Err)
  | break_
deriving DecidableEq, Repr

/-- `__general_fields_init_stub_t::__fill_value` — `modules/compile/ast.cpp:3030-3061`. -/
def fill (s : St V) (i : Nat) (f : Fld V) : Ret × St V :=
  match f.init with
  | none => (.succeed, s.put i f.dflt)
  | some e =>
    if circular s.flds s.fuel [] i then (.error .circular, s)
    else
      match exec s.flds s.fuel e with
      | none => if allInit s.flds s.fuel e then (.error .notConstant, s) else (.break_, s)
      | some v => (.succeed, s.put i v)

/-- The number of fields without initial value right behind a place — `modules/compile/ast.cpp:2773-2779`. -/
def skip (s : List (Fld V)) (i : Nat) : Nat := ((s.drop (i + 1)).takeWhile (·.init.isNone)).length

/-- The loop of `continue_` over the places from `i` on; `brk` is `__break_index`, when it was set.  `n` is how many places are
left — `modules/compile/ast.cpp:2752-2790`. -/
def loop : Nat → Nat → Option Nat → St V → Option Nat × St V
  | 0, _, brk, s => (brk, s)
  | n + 1, i, brk, s =>
    match s.flds[i]? with
    | none => (brk, s)
    | some f =>
      if f.const then
        match fill s i f with
        | (.succeed, s') => loop n (i + 1) brk s'
        | (.error e, s') => loop n (i + 1) brk { s'.put i f.dflt with errors := s'.errors ++ [(i, e)] }
        | (.break_, s') => loop n (i + 1 + skip s'.flds i) (brk.or (some i)) s'
      else loop n (i + 1) brk s

/-- `continue_` again and again, from the first field that had to wait — `modules/compile/ast.cpp:3331-3337, 3391-3397`. -/
def passes : Nat → Nat → St V → Option Nat × St V
  | 0, i, s => (some i, s)
  | k + 1, i, s =>
    match loop s.flds.length i none s with
    | (none, s') => (none, s')
    | (some j, s') => passes k j s'

/-- The constants of a class with the fields `decl` after `k` rounds; `none` when nothing has to wait. -/
def assign (decl : List (Fld V)) (k : Nat) : Option Nat × St V := passes k 0 { flds := decl }

end Verif.Consts
