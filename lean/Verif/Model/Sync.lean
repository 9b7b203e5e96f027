/-!
# The semaphore and the locks of objects

Model of `semaphore_t` (`algorithm/thread.cpp:17-56`, `algorithm/__thread.h:60-109`) and of
`object_lock_manager_t` (`algorithm/__thread.h:124-222`) as transition systems: a state, and the steps that the
threads can take from it, in any order.

Simplifications.  All that a thread does while it holds `__mutex` and without waiting is one step (what it reads and
writes then is protected by `__mutex`).  A thread sleeps on the condition variable until a `notify_one` picks
it, it wakes up by itself (which C++ allows), or its time is up.  Memory is sequentially consistent.  The
counters of references and exits do not overflow.
-/

namespace Verif.Sync

/-! ## The semaphore -/

/-- Where a thread is. -/
inductive Phase where
  /-- Outside. -/
  | idle
  /-- In `acquire`, with `__mutex`, before the lock of `__wait_mutex` — `__thread.h:75`. -/
  | needWait
  /-- With `__wait_mutex`, counted, before `wait` — `__thread.h:76-83`. -/
  | ready
  /-- In `wait` or `wait_for`. -/
  | sleeping
  /-- Woken up: `true` by a signal, `false` when the time is up; before it has `__wait_mutex` again. -/
  | woken (success : Bool)
  /-- With `__wait_mutex` again, before the lock of `__mutex` — `__thread.h:87`. -/
  | back (success : Bool)
  deriving DecidableEq, Repr

/-- A thread: where it is, and the signals it has acquired and not released. -/
structure Thread where
  phase : Phase
  held : Nat
  deriving DecidableEq, Repr

/-- The semaphore and the threads; the owners of the two mutexes. -/
structure Sem where
  signal : Nat
  waiting : Nat
  mutex : Option Nat
  waitMutex : Option Nat
  threads : List Thread
  deriving DecidableEq, Repr

/-- The constructor — `thread.cpp:18-22`: nothing is acquired. -/
def Sem.init (max n : Nat) : Sem := ⟨max, 0, none, none, List.replicate n ⟨.idle, 0⟩⟩

/-- What wakes sleeping threads besides `notify_one`. -/
structure Env where
  /-- Threads may wake up by themselves. -/
  spurious : Bool
  /-- Threads may use a timeout. -/
  timeouts : Bool

/-- `__signal_count--`, of a `uint32_t`. -/
def decr (n : Nat) : Nat := (n + (2 ^ 32 - 1)) % 2 ^ 32

/-- Whether `__try_acquire` gets a signal — `thread.cpp:39-48`. -/
def Sem.canTake (s : Sem) : Bool := s.waiting == 0 && decide (s.signal > 0)

/-- The steps of the threads. -/
inductive Step (max : Nat) (e : Env) : Sem → Sem → Prop
  /-- `acquire`, `try_acquire`: a signal is there — `thread.cpp:41-45`. -/
  | take (s : Sem) (i : Nat) (t : Thread) : s.threads[i]? = some t → t.phase = .idle → s.mutex = none →
      s.canTake = true →
      Step max e s { s with signal := decr s.signal, threads := s.threads.set i ⟨.idle, t.held + 1⟩ }
  /-- `acquire`: none is there — `__thread.h:70-75`. -/
  | enter (s : Sem) (i : Nat) (t : Thread) : s.threads[i]? = some t → t.phase = .idle → s.mutex = none →
      s.canTake = false →
      Step max e s { s with mutex := some i, threads := s.threads.set i ⟨.needWait, t.held⟩ }
  /-- The lock of `__wait_mutex`, the count, the unlock of `__mutex` — `__thread.h:75-78`. -/
  | lockWait (s : Sem) (i : Nat) (t : Thread) : s.threads[i]? = some t → t.phase = .needWait →
      s.waitMutex = none →
      Step max e s { s with waitMutex := some i, mutex := none, waiting := s.waiting + 1,
                            threads := s.threads.set i ⟨.ready, t.held⟩ }
  /-- `wait` begins. -/
  | sleep (s : Sem) (i : Nat) (t : Thread) : s.threads[i]? = some t → t.phase = .ready →
      Step max e s { s with waitMutex := none, threads := s.threads.set i ⟨.sleeping, t.held⟩ }
  /-- A thread wakes up by itself. -/
  | spurious (s : Sem) (i : Nat) (t : Thread) : e.spurious = true → s.threads[i]? = some t → t.phase = .sleeping →
      Step max e s { s with threads := s.threads.set i ⟨.woken true, t.held⟩ }
  /-- The time is up. -/
  | timeout (s : Sem) (i : Nat) (t : Thread) : e.timeouts = true → s.threads[i]? = some t → t.phase = .sleeping →
      Step max e s { s with threads := s.threads.set i ⟨.woken false, t.held⟩ }
  /-- `__wait_mutex` is locked again. -/
  | relock (s : Sem) (i : Nat) (t : Thread) (ok : Bool) : s.threads[i]? = some t → t.phase = .woken ok →
      s.waitMutex = none →
      Step max e s { s with waitMutex := some i, threads := s.threads.set i ⟨.back ok, t.held⟩ }
  /-- The end of `acquire` — `__thread.h:87-92`: the locks end with it. -/
  | finish (s : Sem) (i : Nat) (t : Thread) (ok : Bool) : s.threads[i]? = some t → t.phase = .back ok →
      s.mutex = none →
      Step max e s { s with signal := if ok then decr s.signal else s.signal, waiting := decr s.waiting,
                            waitMutex := none, threads := s.threads.set i ⟨.idle, t.held + ok.toNat⟩ }
  /-- `release` of a signal that is held, nobody sleeps — `thread.cpp:50-60`. -/
  | release (s : Sem) (i : Nat) (t : Thread) : s.threads[i]? = some t → t.phase = .idle → 0 < t.held →
      s.mutex = none → s.signal < max → (∀ t ∈ s.threads, t.phase ≠ .sleeping) →
      Step max e s { s with signal := s.signal + 1, threads := s.threads.set i ⟨.idle, t.held - 1⟩ }
  /-- `release`, with `notify_one` for one of the threads that sleep. -/
  | notify (s : Sem) (i j : Nat) (t u : Thread) : s.threads[i]? = some t → t.phase = .idle → 0 < t.held →
      s.mutex = none → s.signal < max → s.threads[j]? = some u → u.phase = .sleeping →
      Step max e s { s with signal := s.signal + 1,
                            threads := (s.threads.set i ⟨.idle, t.held - 1⟩).set j ⟨.woken true, u.held⟩ }

/-- The states that can be reached. -/
inductive Reach (max : Nat) (e : Env) (n : Nat) : Sem → Prop
  | init : Reach max e n (Sem.init max n)
  | step (s s' : Sem) : Reach max e n s → Step max e s s' → Reach max e n s'

/-! ## The locks of objects -/

/-- A thread: the object whose lock it waits for, with the mutex; and the locks it has. -/
structure LThread where
  want : Option (Nat × Nat)
  held : List (Nat × Nat)
  deriving DecidableEq, Repr

/-- The manager: which mutex is for which object, the references to a mutex, its owner, and the exits that left a
mutex without references. -/
structure Locks where
  map : List (Nat × Nat)
  ref : Nat → Nat
  owner : Nat → Option Nat
  exited : Nat
  threads : List LThread

/-- At the start. -/
def Locks.init (n : Nat) : Locks := ⟨[], fun _ => 0, fun _ => none, 0, List.replicate n ⟨none, []⟩⟩

/-- `__clean_up`, when it is due — `__thread.h:188-192`, `207-220`. -/
def Locks.clean (s : Locks) : Locks :=
  if s.exited ≥ 10 then { s with map := s.map.filter (fun p => s.ref p.2 != 0), exited := 0 } else s

/-- `__mutex_map.find`. -/
def find (map : List (Nat × Nat)) (o : Nat) : Option Nat := (map.find? (fun p => p.1 == o)).map (·.2)

/-- A function with a new value. -/
def upd {α : Type} (f : Nat → α) (k : Nat) (v : α) : Nat → α := fun x => if x = k then v else f x

/-- The steps of the threads.  The pool gives a mutex that it has not given before or that was given back
(`respool_t`, modelled on its own). -/
inductive LStep : Locks → Locks → Prop
  /-- `enter`, the mutex is known — `__thread.h:134-142`, `194-197`. -/
  | enterOld (s : Locks) (i o w : Nat) (t : LThread) : s.threads[i]? = some t → t.want = none →
      find s.clean.map o = some w →
      LStep s { s.clean with ref := upd s.ref w (s.ref w + 1), threads := s.threads.set i ⟨some (o, w), t.held⟩ }
  /-- `enter`, with a mutex of the pool — `__thread.h:202`. -/
  | enterNew (s : Locks) (i o w : Nat) (t : LThread) : s.threads[i]? = some t → t.want = none →
      find s.clean.map o = none → (∀ p ∈ s.clean.map, p.2 ≠ w) →
      LStep s { s.clean with map := (o, w) :: s.clean.map, ref := upd s.ref w (s.ref w + 1),
                             threads := s.threads.set i ⟨some (o, w), t.held⟩ }
  /-- The lock of the mutex, without that of the manager — `__thread.h:29-35`. -/
  | lock (s : Locks) (i o w : Nat) (t : LThread) : s.threads[i]? = some t → t.want = some (o, w) →
      s.owner w = none →
      LStep s { s with owner := upd s.owner w (some i), threads := s.threads.set i ⟨none, (o, w) :: t.held⟩ }
  /-- `exit` of an object whose lock is held (`x` is the mutex that was locked) — `__thread.h:145-159`. -/
  | exit (s : Locks) (i o w x : Nat) (t : LThread) : s.threads[i]? = some t → t.want = none → (o, x) ∈ t.held →
      find s.clean.map o = some w → 0 < s.ref w →
      LStep s { s.clean with ref := upd s.ref w (s.ref w - 1),
                             exited := if s.ref w - 1 = 0 then s.clean.exited + 1 else s.clean.exited,
                             owner := upd s.owner w none,
                             threads := s.threads.set i ⟨none, t.held.erase (o, x)⟩ }

/-- The states that can be reached. -/
inductive LReach (n : Nat) : Locks → Prop
  | init : LReach n (Locks.init n)
  | step (s s' : Locks) : LReach n s → LStep s s' → LReach n s'

end Verif.Sync
