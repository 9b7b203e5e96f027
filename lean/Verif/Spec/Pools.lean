import Verif.Model.Pools
/-!
# What a pool promises: objects live as long as it does

"Objects that are deallocated at the end of the lifecycle" (`include/common.h:2185`).
-/

namespace Verif.Pools

/-- Memory that is in use is not given again. -/
def Fresh (pick : List Nat → Nat) : Prop := ∀ l, pick l ∉ l

/-- Memory as it is found: no block twice, every object is in a block. -/
structure World.Sane (w : World) : Prop where
  live : w.live.Nodup
  built : w.built.Nodup
  held : ∀ a ∈ w.built, a ∈ w.live

/-- Calls that only make things, by constructors that do not throw. -/
def Makes (calls : List Call) : Prop := ∀ c ∈ calls, c = .object false ∨ c = .plain

/-- An object was made at an address. -/
def ObjectAt (calls : List Call) (as : List Nat) (a : Nat) : Prop := (Call.object false, a) ∈ calls.zip as

/-- What a call of a pool shows. -/
def birth (c : Call × Nat) : Event :=
  match c.1 with
  | .object _ => .made c.2
  | _ => .given c.2

/-- While the pool is there: every call gave memory of its own, and nothing has gone. -/
structure Kept (calls : List Call) (as : List Nat) (w0 w : World) : Prop where
  all : as.length = calls.length
  apart : as.Nodup
  own : ∀ a ∈ as, a ∉ w0.live
  log : w.log = w0.log ++ (calls.zip as).map birth
  live : ∀ a, a ∈ w.live ↔ a ∈ w0.live ∨ a ∈ as
  built : ∀ a, a ∈ w.built ↔ a ∈ w0.built ∨ ObjectAt calls as a

/-- When the pool goes: the destructor of every object it made runs once, then the block is given back,
and nothing else happens. -/
structure Ended (calls : List Call) (as : List Nat) (w0 w w' : World) : Prop where
  ends : ∃ l, w'.log = w.log ++ l ∧
    (∀ a, ObjectAt calls as a → l.count (.gone a) = 1 ∧ l.count (.back a) = 1 ∧
      ∃ l1 l2, l = l1 ++ .gone a :: .back a :: l2) ∧
    (∀ e ∈ l, ∃ a, ObjectAt calls as a ∧ (e = .gone a ∨ e = .back a))
  live : ∀ a, a ∈ w'.live ↔ a ∈ w0.live ∨ a ∈ as ∧ ¬ ObjectAt calls as a
  built : ∀ a, a ∈ w'.built ↔ a ∈ w0.built

/-- One where it holds, else nothing. -/
def one (p : Prop) [Decidable p] : Nat := if p then 1 else 0

/-- What is in memory is what was there and was made, without what has gone; and a block is given back as
often as a destructor ran in it. -/
def Balanced (w w' : World) : Prop :=
  ∀ a, w'.log.count (.made a) + w.log.count (.gone a) + one (a ∈ w.built) =
      w'.log.count (.gone a) + w.log.count (.made a) + one (a ∈ w'.built) ∧
    w'.log.count (.gone a) + w.log.count (.back a) = w'.log.count (.back a) + w.log.count (.gone a)

/-- A block that was made larger or smaller begins with what it held. -/
def Keeps (m m' : Bytes) (a n size : Nat) : Prop :=
  ∀ bs, (a, bs) ∈ m → ∃ bs', (n, bs') ∈ m' ∧ bs'.length = size ∧
    bs'.take (min size bs.length) = bs.take (min size bs.length)

end Verif.Pools
