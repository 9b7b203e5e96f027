/-!
# Lists that are thinned out, caches that fill themselves and objects that are used again

Model of `walk_list_t` (`algorithm/__collections.h:1470-1597`), `auto_cache_t`
(`__collections.h:1848-1880`) and `respool_wrapper_t` (`__collections.h:1887-1932`).  The parser keeps the
ends of all it is considering in the first and takes its nodes from the last
(`modules/compile/__analyze_tree.h:1613, 1680`).

Simplifications.  Memory is never short.  A predicate may have a state of its own, but does not use the list
it is called for; neither does a creator use its cache.  What is read where nothing was written, or outside
the buffer, is `none`, "undefined".  `sort` is not modelled (`std::sort` on the elements).
-/

namespace Verif.Stash

/-! ## `walk_list_t` -/

/-- `walk_list_t`, its fields (`algorithm/__collections.h:1573-1574`).  A buffer is a list of places, each
with or without an element. -/
structure WList (α : Type) where
  size : Nat
  count : Nat
  buffer : Option (List (Option α))

variable {α σ : Type}

/-- A new list, `algorithm/__collections.h:1480-1481, 1573-1574`. -/
def WList.new : WList α := ⟨8, 0, none⟩

/-- The loop `while (__size < size) __size *= 2`, `algorithm/__collections.h:1582-1585`.  A size of zero would
never end. -/
def grow (size need : Nat) : Nat :=
  if h : size < need ∧ 0 < size then grow (size * 2) need else size
termination_by need - size
decreasing_by omega

/-- A write to a place; outside of the buffer it is undefined. -/
def put (b : List (Option α)) (i : Nat) (x : Option α) : Option (List (Option α)) :=
  if i < b.length then some (b.set i x) else none

/-- `__check_buffer_size`, `algorithm/__collections.h:1577-1595`. -/
def WList.check (l : WList α) (need : Nat) : WList α :=
  match l.buffer with
  | some b =>
    if l.size ≥ need then l
    else
      let size := grow l.size need
      { l with size := size, buffer := some (b.take l.count ++ List.replicate (size - l.count) none) }
  | none =>
    let size := grow l.size need
    { l with size := size, buffer := some (List.replicate size none) }

/-- `push_back`, `algorithm/__collections.h:1491-1495`. -/
def WList.push (l : WList α) (x : α) : Option (WList α) :=
  let l1 := l.check (l.count + 1)
  match l1.buffer with
  | none => none
  | some b =>
    match put b l1.count (some x) with
    | none => none
    | some b' => some { l1 with buffer := some b', count := l1.count + 1 }

/-- `append`, `algorithm/__collections.h:1498-1502`. -/
def WList.append (l : WList α) : List α → Option (WList α)
  | [] => some l
  | x :: xs =>
    match l.push x with
    | none => none
    | some l' => l'.append xs

/-- The loop of `walk`, `algorithm/__collections.h:1512-1517`: `obj` is read, `out` written; `k` rounds are
left. -/
def walkLoop (pred : σ → α → Bool × σ) : Nat → Nat → Nat → List (Option α) → σ →
    Option (Nat × List (Option α) × σ)
  | 0, _, out, b, s => some (out, b, s)
  | k + 1, obj, out, b, s =>
    match b[obj]? with
    | some (some x) =>
      match pred s x with
      | (true, s') =>
        match put b out (some x) with
        | none => none
        | some b' => walkLoop pred k (obj + 1) (out + 1) b' s'
      | (false, s') => walkLoop pred k (obj + 1) out b s'
    | _ => none

/-- `walk`, `algorithm/__collections.h:1505-1520`.  `last` is the end index, `none` for a negative one. -/
def WList.walk (l : WList α) (pred : σ → α → Bool × σ) (s : σ) (first : Nat := 0) (last : Option Nat := none) :
    Option (WList α × σ) :=
  match l.buffer with
  | none => some (l, s)
  | some b =>
    match walkLoop pred ((last.getD l.count) - first) first first b s with
    | none => none
    | some (out, b', s') => some ({ l with buffer := some b', count := out }, s')

/-- `clear`, `algorithm/__collections.h:1533-1536`. -/
def WList.clear (l : WList α) : WList α := { l with count := 0 }

/-- `truncate`, `algorithm/__collections.h:1539-1543`. -/
def WList.truncate (l : WList α) (n : Nat) : WList α := if n < l.count then { l with count := n } else l

/-- `all`, `begin`, `end`: `algorithm/__collections.h:1546-1551, 1560-1563`. -/
def WList.all (l : WList α) : Option (List α) :=
  match l.buffer with
  | none => some []
  | some b => if l.count ≤ b.length then (b.take l.count).mapM id else none

/-- `operator []`, `algorithm/__collections.h:1526-1530`; the outer `none` is the assertion or undefined. -/
def WList.get (l : WList α) (i : Nat) : Option α :=
  if i < l.count then
    match l.buffer with
    | none => none
    | some b => (b[i]?).join
  else none

/-- What is done with such a list. -/
inductive Op (α σ : Type) where
  | push (x : α)
  | append (xs : List α)
  | walk (pred : σ → α → Bool × σ)
  | clear
  | truncate (n : Nat)

/-- One of them. -/
def step (l : WList α) (s : σ) : Op α σ → Option (WList α × σ)
  | .push x => (l.push x).map (·, s)
  | .append xs => (l.append xs).map (·, s)
  | .walk pred => l.walk pred s
  | .clear => some (l.clear, s)
  | .truncate n => some (l.truncate n, s)

/-- Several. -/
def run (l : WList α) (s : σ) : List (Op α σ) → Option (WList α × σ)
  | [] => some (l, s)
  | op :: ops =>
    match step l s op with
    | none => none
    | some (l', s') => run l' s' ops

/-! ## `auto_cache_t` -/

/-- `auto_cache_t::get`, `algorithm/__collections.h:1861-1868`: the value, the cache and the state of the
creator afterwards. -/
def cacheGet {κ ν : Type} [DecidableEq κ] (creator : σ → κ → ν × σ) (cache : List (κ × ν)) (s : σ) (k : κ) :
    ν × List (κ × ν) × σ :=
  match cache.lookup k with
  | some v => (v, cache, s)
  | none =>
    let (v, s') := creator s k
    (v, (k, v) :: cache, s')

/-- Several calls. -/
def cacheRun {κ ν : Type} [DecidableEq κ] (creator : σ → κ → ν × σ) :
    List (κ × ν) → σ → List κ → List ν × List (κ × ν) × σ
  | c, s, [] => ([], c, s)
  | c, s, k :: ks =>
    let (v, c', s') := cacheGet creator c s k
    let (vs, c'', s'') := cacheRun creator c' s' ks
    (v :: vs, c'', s'')

/-! ## `respool_wrapper_t` -/

/-- `respool_wrapper_t` with the memory it takes objects from: how many were taken, the queue, and what each
object contains. -/
structure Pool (α : Type) where
  made : Nat
  queue : List Nat
  content : Nat → Option α

/-- `new_obj`, `algorithm/__collections.h:1897-1915`. -/
def Pool.new (p : Pool α) (x : α) : Pool α × Nat :=
  match p.queue with
  | o :: rest => ({ p with queue := rest, content := fun i => if i = o then some x else p.content i }, o)
  | [] => ({ p with made := p.made + 1, content := fun i => if i = p.made then some x else p.content i }, p.made)

/-- `release`, `algorithm/__collections.h:1918-1923`. -/
def Pool.release (p : Pool α) (o : Nat) : Pool α := { p with queue := p.queue ++ [o] }

/-- A new pool. -/
def Pool.start : Pool α := ⟨0, [], fun _ => none⟩

/-- What is done with a pool. -/
inductive PoolOp (α : Type) where
  | new (x : α)
  | release (o : Nat)

/-- One of them; the object that was given. -/
def Pool.step (p : Pool α) : PoolOp α → Pool α × Option Nat
  | .new x => let (p', o) := p.new x; (p', some o)
  | .release o => (p.release o, none)

/-- Several. -/
def Pool.run (p : Pool α) : List (PoolOp α) → Pool α × List (Option Nat)
  | [] => (p, [])
  | op :: ops =>
    let (p', r) := p.step op
    let (p'', rs) := p'.run ops
    (p'', r :: rs)

end Verif.Stash
