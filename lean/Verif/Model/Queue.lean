/-!
# The queue of delayed visits

Model of `ast_walk_queue_t` (`include/modules/core.h:5823-5894`) and of the loop that empties it
(`modules/core/core.cpp:6795-6807`): while the compiler visits the syntax tree, a node may ask to be visited again in a
later step.

Simplifications.  An item is of any type; the layer, the node and the tag of `__walk_item_t` are part of it.  What a visit
does is a function from the state of the compiler to the new state and the items that it delays; a visit that throws is
left out.  The loop has fuel; a run that uses it up is `none`.
-/

namespace Verif.Queue

/-- `ast_walk_queue_t`: one queue for each step, and `__qitem_index` — `core.h:5862-5894`. -/
structure Queue (α : Type) where
  items : Nat → List α
  index : Nat

/-- `__queue_size`, as used by `ast_walk_context_t` — `core.h:6067`. -/
def size : Nat := 32

/-- The constructor — `core.h:5833-5839`. -/
def Queue.empty {α : Type} : Queue α := ⟨fun _ => [], 0⟩

/-- `enque` — `core.h:5842-5847`; the assertion that there is a queue for the step is `none`. -/
def Queue.enque {α : Type} (q : Queue α) (item : α) (step : Nat) : Option (Queue α) :=
  if step < size then
    some { q with items := fun s => if s = step then q.items s ++ [item] else q.items s }
  else none

/-- Enqueues several items, one after another. -/
def Queue.enqueAll {α : Type} (q : Queue α) : List (α × Nat) → Option (Queue α)
  | [] => some q
  | x :: xs =>
    match q.enque x.1 x.2 with
    | none => none
    | some q' => q'.enqueAll xs

/-- The loop of `deque`, with the number of queues from `__qitem_index` on — `core.h:5850-5859`.  The index stays where an
item was found. -/
def Queue.dequeFrom {α : Type} : Nat → Queue α → Option (α × Queue α)
  | 0, _ => none
  | n + 1, q =>
    match q.items q.index with
    | x :: xs => some (x, { q with items := fun s => if s = q.index then xs else q.items s })
    | [] => Queue.dequeFrom n { q with index := q.index + 1 }

/-- `deque` — `core.h:5850-5859`. -/
def Queue.deque {α : Type} (q : Queue α) : Option (α × Queue α) := Queue.dequeFrom (size - q.index) q

/-- `ast_walk_context_t::__walk` — `core.cpp:6795-6807`: the items visited with the steps they were visited in, and the
last state. -/
def run {α σ : Type} (visit : σ → α → Nat → σ × List (α × Nat)) :
    Nat → Queue α → σ → Option (List (α × Nat) × σ)
  | 0, _, _ => none
  | fuel + 1, q, s =>
    match q.deque with
    | none => some ([], s)
    | some (x, q') =>
      match q'.enqueAll (visit s x q'.index).2 with
      | none => none
      | some q'' =>
        match run visit fuel q'' (visit s x q'.index).1 with
        | none => none
        | some (xs, s') => some ((x, q'.index) :: xs, s')

end Verif.Queue
