import Verif.Model.Mval

/-!
# What a method that is used as a value should be

Uses the programs, the states and the types of the model, none of its functions.
-/

namespace Verif.Mval

open Verif.Overload (Ty Tys Method)

/-- The object that a delegate of a method should have, by what stands before the name of the method: none for a static method, the object that
is named for another one, and the object the program runs on when none is named.  The outer `none`: the program is wrong (an object before a
static method, no object for another one). -/
def expected (this : Option Nat) (left : Left) (static : Bool) : Option (Option Nat) :=
  match static, left with
  | true, .plain => some none
  | true, .type => some none
  | true, _ => none
  | false, .type => none
  | false, .value o => some (some o)
  | false, _ => this.map some

/-- After the assignment the variable `p` has the delegate of the method with the object that is meant, and nothing else is different. -/
def Made (this : Option Nat) (left : Left) (m : Method) (p : Nat) (s s' : State) : Prop :=
  ∃ i, expected this left m.static_ = some i ∧ s'.vars p = some ⟨i, m.id⟩ ∧ (∀ q, q ≠ p → s'.vars q = s.vars q) ∧
    s'.stack = s.stack

/-- The types of a list, in a generic type. -/
inductive Lists : Tys → List Ty → Prop
  | nil : Lists .nil []
  | cons {t : Ty} {ts : Tys} {l : List Ty} : Lists ts l → Lists (.cons t ts) (t :: l)

/-- The type is `Delegate<R, P1, P2, ...>` of the result and the parameters of the method. -/
def Signature (E : Env) (m : Method) (t : Ty) : Prop :=
  ∃ args, t = .gen E.delegate args ∧ Lists args (E.ret m.id :: m.params.map fun p => p.2)

end Verif.Mval
