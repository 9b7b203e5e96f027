import Verif.Model.Sync

/-!
# What a semaphore and the locks of objects should do
-/

namespace Verif.Sync

/-- The signals that the threads hold together. -/
def heldTotal (s : Sem) : Nat := (s.threads.map (·.held)).sum

/-- The thread is inside `acquire`, and counted as waiting. -/
def Waits (t : Thread) : Bool :=
  match t.phase with
  | .idle | .needWait => false
  | _ => true

/-- The thread has been given a signal that it has not taken yet. -/
def Promised (t : Thread) : Bool :=
  match t.phase with
  | .woken true | .back true => true
  | _ => false

/-- Any number of steps. -/
inductive Steps (max : Nat) (e : Env) : Sem → Sem → Prop
  | refl (s : Sem) : Steps max e s s
  | step (s s' s'' : Sem) : Steps max e s s' → Step max e s' s'' → Steps max e s s''

/-- The thread `i` has the lock of the object `o`. -/
def Has (s : Locks) (i o : Nat) : Prop := ∃ t x, s.threads[i]? = some t ∧ (o, x) ∈ t.held

/-- The thread `i` is waiting in `enter o`. -/
def Wants (s : Locks) (i o : Nat) : Prop := ∃ t x, s.threads[i]? = some t ∧ t.want = some (o, x)

end Verif.Sync
