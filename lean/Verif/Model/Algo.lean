/-!
Model of the generic helpers of `include/algorithm.h`: value selection, comparison, composite keys, splitting.
Template parameters are Lean type parameters; a C++ `operator <` is a `Bool`-valued function.
-/

namespace Verif.Algo

variable {α : Type}

/-! ## select -/

/-- The loop of `select(begin, end, cmp_func)` — `include/algorithm.h:127-133`: `max` is the position (and
element) selected so far, the list holds the elements from position `pos` on. -/
def selectLoop (cmp : α → α → Bool) : Nat × α → Nat → List α → Nat
  | max, _, [] => max.1
  | max, pos, x :: rest =>
    if cmp max.2 x then selectLoop cmp (pos, x) (pos + 1) rest
    else selectLoop cmp max (pos + 1) rest

/-- `select(begin, end, cmp_func)` — `include/algorithm.h:121-136`, as a position; `end` for an empty list. -/
def select (cmp : α → α → Bool) : List α → Nat
  | [] => 0
  | x :: rest => selectLoop cmp (0, x) 1 rest

/-- `select_min` — `include/algorithm.h:145-156`: `select` with `x < y`. -/
def selectMin (lt : α → α → Bool) (xs : List α) : Nat := select (fun x y => lt x y) xs

/-- `select_max` — `include/algorithm.h:159-170`: `select` with `y < x`. -/
def selectMax (lt : α → α → Bool) (xs : List α) : Nat := select (fun x y => lt y x) xs

/-! ## max, min, in, cmp over argument lists -/

/-- `max(v...)` — `include/algorithm.h:21-37`: the variadic form is `max(v1, max(rest...))`. -/
def maxOf (lt : α → α → Bool) (v : α) : List α → α
  | [] => v
  | r :: rest => let m := maxOf lt r rest; if lt v m then m else v

/-- `min(v...)` — `include/algorithm.h:43-59`. -/
def minOf (lt : α → α → Bool) (v : α) : List α → α
  | [] => v
  | r :: rest => let m := minOf lt r rest; if lt v m then v else m

/-- `cmp(t1, t2, rest...)` — `include/algorithm.h:106-116`, on the list of argument pairs. -/
def cmpPairs (lt : α → α → Bool) : List (α × α) → Int
  | [] => 0
  | (a, b) :: rest => if lt a b then -1 else if lt b a then 1 else cmpPairs lt rest

/-! ## split -/

/-- The loop of `split_if` — `include/algorithm.h:181-191`: `cur` is the piece from `it0` to `it`. -/
def splitLoop (pred : α → Bool) : List α → List α → List (List α)
  | cur, [] => [cur]
  | cur, x :: rest => if pred x then cur :: splitLoop pred [] rest else splitLoop pred (cur ++ [x]) rest

/-- `split_if` — `include/algorithm.h:175-192`: the pieces handed to the callback, in order. -/
def splitIf (pred : α → Bool) : List α → List (List α)
  | [] => []
  | xs => splitLoop pred [] xs

/-- The loop of `split_array` — `include/algorithm.h:251-262`: `key0` and the run from `it0` to `it`. -/
def splitArrayLoop {κ : Type} (eq : κ → κ → Bool) (key : α → κ) : κ → List α → List α → List (κ × List α)
  | key0, run, [] => [(key0, run)]
  | key0, run, x :: rest =>
    if eq (key x) key0 then splitArrayLoop eq key key0 (run ++ [x]) rest
    else (key0, run) :: splitArrayLoop eq key (key x) [x] rest

/-- `split_array` — `include/algorithm.h:240-263`: the (key, run) pairs handed to the callback, in order. -/
def splitArray {κ : Type} (eq : κ → κ → Bool) (key : α → κ) : List α → List (κ × List α)
  | [] => []
  | x :: rest => splitArrayLoop eq key (key x) [x] rest

/-! ## Composite keys -/

/-- The element loop of `multikey_t::__cmp` — `include/algorithm.h:676-687`. -/
def keyLoop (lt : α → α → Bool) : List α → List α → Int
  | a :: as, b :: bs => if lt a b then -1 else if lt b a then 1 else keyLoop lt as bs
  | _, _ => 0

/-- `(int)size` on a 64-bit size: the low 32 bits, signed. -/
def toInt32 (n : Nat) : Int := (BitVec.ofNat 32 n).toInt

/-- `multikey_t::__cmp` — `include/algorithm.h:671-688`.  The difference of two `int`s is kept as a
mathematical integer (it does not overflow for sizes below 2^31, where the theorems use it). -/
def keyCmp (lt : α → α → Bool) (a b : List α) : Int :=
  if a.length ≠ b.length then toInt32 a.length - toInt32 b.length else keyLoop lt a b

/-- `multikey_t::operator <` — `include/algorithm.h:638-641`. -/
def keyLt (lt : α → α → Bool) (a b : List α) : Bool := keyCmp lt a b < 0
/-- `multikey_t::operator <=` — `include/algorithm.h:643-646`. -/
def keyLe (lt : α → α → Bool) (a b : List α) : Bool := keyCmp lt a b ≤ 0
/-- `multikey_t::operator >` — `include/algorithm.h:648-651`. -/
def keyGt (lt : α → α → Bool) (a b : List α) : Bool := keyCmp lt a b > 0
/-- `multikey_t::operator >=` — `include/algorithm.h:653-656`. -/
def keyGe (lt : α → α → Bool) (a b : List α) : Bool := keyCmp lt a b ≥ 0
/-- `multikey_t::operator ==` — `include/algorithm.h:658-661`. -/
def keyEq (lt : α → α → Bool) (a b : List α) : Bool := keyCmp lt a b = 0
/-- `multikey_t::operator !=` — `include/algorithm.h:663-666`. -/
def keyNe (lt : α → α → Bool) (a b : List α) : Bool := keyCmp lt a b ≠ 0

end Verif.Algo
