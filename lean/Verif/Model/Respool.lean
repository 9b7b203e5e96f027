/-!
# The resource pool

Model of `respool_t` — `algorithm/__collections.h:540-629`.

Both calls hold the pool's mutex from beginning to end, so an execution with any number of threads is a
sequence of complete calls in the order in which they take the mutex.  The set of acquired objects is a
list without order.  `_A` is an assertion; it is kept as an outcome.
-/

namespace Verif.Respool

/-- `respool_t`: `__capacity`, `__acquired_set`, `__released_queue` (front first), and the objects that
the creator has destroyed and made. -/
structure Pool where
  capacity : Nat
  acquired : List Nat
  queue : List Nat
  gone : List Nat
  made : List Nat
  deriving DecidableEq, Repr

/-- How a call can fail. -/
inductive Err where
  | notInPool | assertion
  deriving DecidableEq, Repr

/-- The constructor — `__collections.h:548-556`. -/
def Pool.empty (capacity : Nat) : Pool := ⟨capacity, [], [], [], []⟩

/-- `__acquired_set.insert(obj)` and `_A(r.second)` — `__collections.h:576-577`. -/
def Pool.use (p : Pool) (obj : Nat) : Except Err (Pool × Nat) :=
  if obj ∈ p.acquired then .error .assertion else .ok ({ p with acquired := obj :: p.acquired }, obj)

/-- `acquire` — `__collections.h:560-580`; `fresh` is what the creator gives if it is asked. -/
def Pool.acquire (p : Pool) (fresh : Nat) : Except Err (Pool × Nat) :=
  match p.queue with
  | [] => { p with made := fresh :: p.made }.use fresh
  | obj :: rest => { p with queue := rest }.use obj

/-- The loop that destroys the oldest objects — `__collections.h:597-601`. -/
def trim (capacity : Nat) : List Nat → List Nat → List Nat × List Nat
  | [], gone => ([], gone)
  | obj :: rest, gone =>
    if (obj :: rest).length > capacity then trim capacity rest (gone ++ [obj]) else (obj :: rest, gone)

/-- `release` — `__collections.h:583-602`. -/
def Pool.release (p : Pool) (obj : Nat) : Except Err Pool :=
  if obj ∈ p.acquired then
    let queue := p.queue ++ [obj]
    if queue.length > p.capacity * 3 / 2 then
      let (queue, gone) := trim p.capacity queue p.gone
      .ok { p with acquired := p.acquired.erase obj, queue := queue, gone := gone }
    else .ok { p with acquired := p.acquired.erase obj, queue := queue }
  else .error .notInPool

/-- The objects that the destructor destroys — `__collections.h:605-617`. -/
def Pool.destructor (p : Pool) : List Nat := p.acquired ++ p.queue

/-- A call by some thread. -/
inductive Call where
  /-- `acquire`, when the creator would give `fresh`. -/
  | acquire (fresh : Nat)
  | release (obj : Nat)
  deriving DecidableEq, Repr

/-- What a call returned. -/
inductive Event where
  | got (obj : Nat)
  | released (obj : Nat)
  /-- The call threw. -/
  | refused (obj : Nat)
  /-- An assertion failed. -/
  | assertion
  deriving DecidableEq, Repr

/-- One call. -/
def Pool.step (p : Pool) : Call → Pool × Event
  | .acquire fresh =>
    match p.acquire fresh with
    | .ok (p', obj) => (p', .got obj)
    | .error _ => (p, .assertion)
  | .release obj =>
    match p.release obj with
    | .ok p' => (p', .released obj)
    | .error _ => (p, .refused obj)

/-- Calls, in the order in which they take the mutex; the events in the same order. -/
def Pool.run : Pool → List Call → Pool × List Event
  | p, [] => (p, [])
  | p, c :: cs =>
    let (p1, e) := p.step c
    let (p2, es) := p1.run cs
    (p2, e :: es)

end Verif.Respool
