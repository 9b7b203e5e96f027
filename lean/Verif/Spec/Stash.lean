import Verif.Model.Stash
/-!
# What lists, caches and pools are for their users

A list is a list; a cache gives what was made for a key when the key was asked for first; the objects of a
pool that are in use are all different and contain what was put into them.
-/

namespace Verif.Stash

variable {α σ κ ν : Type}

/-- The elements a predicate accepts when it is asked about all of them, in order; and the state it is left
in. -/
def keep (pred : σ → α → Bool × σ) : σ → List α → List α × σ
  | s, [] => ([], s)
  | s, x :: xs =>
    let (ok, s') := pred s x
    let (ys, s'') := keep pred s' xs
    (if ok then x :: ys else ys, s'')

/-- What a call means for a list. -/
def stepList (l : List α) (s : σ) : Op α σ → List α × σ
  | .push x => (l ++ [x], s)
  | .append xs => (l ++ xs, s)
  | .walk pred => keep pred s l
  | .clear => ([], s)
  | .truncate n => (l.take n, s)

/-- What several mean. -/
def runList (l : List α) (s : σ) : List (Op α σ) → List α × σ
  | [] => (l, s)
  | op :: ops => let (l', s') := stepList l s op; runList l' s' ops

/-- What the creator makes when it is called for these keys, one after the other. -/
def makeAll (creator : σ → κ → ν × σ) : σ → List κ → List (κ × ν) × σ
  | s, [] => ([], s)
  | s, k :: ks =>
    let (v, s') := creator s k
    let (vs, s'') := makeAll creator s' ks
    ((k, v) :: vs, s'')

/-- The keys without those that came before. -/
def firsts [DecidableEq κ] : List κ → List κ → List κ
  | _, [] => []
  | seen, k :: ks => if k ∈ seen then firsts seen ks else k :: firsts (k :: seen) ks

/-- The objects in use: what was given and not given back, with what was put into it.  `none` when something
is given back that is not in use. -/
def inUse (u : List (Nat × α)) : List (PoolOp α) → List (Option Nat) → Option (List (Nat × α))
  | .new x :: ops, some o :: rs => inUse ((o, x) :: u) ops rs
  | .release o :: ops, none :: rs => if o ∈ u.map (·.1) then inUse (u.filter (·.1 ≠ o)) ops rs else none
  | [], [] => some u
  | _, _ => none

/-- The largest number of objects that were in use at once. -/
def peak (n m : Nat) : List (PoolOp α) → Nat
  | [] => m
  | .new _ :: ops => peak (n + 1) (max m (n + 1)) ops
  | .release _ :: ops => peak (n - 1) m ops

end Verif.Stash
