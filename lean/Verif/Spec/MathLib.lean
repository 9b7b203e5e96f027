import Verif.Model.MathLib
import Verif.Spec.Expr
import Verif.Spec.Fold

/-! What it means that a call of a compiled method gives a result, and the sign of a number. -/

namespace Verif.MathLib.Spec

open Verif.Fold Verif.Expr

/-- Called with the arguments, method `f` gives `v`: from every state of the machine at a `call` of the method, with the
arguments on top of the stack, it comes to the command behind the call, with `v` in the place of the arguments; the frame and
everything below the arguments are as before. -/
def Returns (img : Image) (junk : Junk) (f : Nat) (params : List VT) (args : List Int) (ret : VT) (v : Int) : Prop :=
  ∀ s : State, img.code[s.pc]? = some (.call f) → params.length ≤ s.top →
    (∀ (i : Nat) t w, params[i]? = some t → args[i]? = some w →
      readAt t s.mem (8 * (s.top - params.length + i)) = w) →
    ∃ n s', steps img junk n s = some s' ∧ s'.pc = s.pc + 1 ∧ s'.lp = s.lp ∧ s'.top = s.top - params.length + 1 ∧
      readAt ret s'.mem (8 * (s.top - params.length)) = v ∧ ∀ x, x < 8 * (s.top - params.length) → s'.mem x = s.mem x

/-- The sign of a number. -/
def sign (v : Int) : Int := if v < 0 then -1 else if v = 0 then 0 else 1

end Verif.MathLib.Spec
