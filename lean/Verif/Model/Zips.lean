/-!
# Walking several sequences at once

Model of `al::zip` and `al::tie` — `algorithm/__collections.h:1937-2250`.

Simplifications.  The iterators `[__it, __it_end)` of a sequence are the list of the items that are left;
all sequences have items of one type (in the code each has its own, and the recursion is over the types).
`none` as a value is one that was not set.  A container that is copied is left out: `zip` returns a prvalue,
which is not copied.
-/

namespace Verif.Zips

variable {α : Type}

/-- `__zip_iterator_impl_base_t` — `__collections.h:1962-1993`. -/
structure Col (α : Type) where
  left : List α
  value : Option α
  deriving DecidableEq, Repr

/-- `__zip_iterator_impl_base_t::move_next` — `1975-1984`. -/
def Col.moveNext (c : Col α) : Bool × Col α :=
  match c.left with
  | [] => (false, c)
  | v :: l => (true, ⟨l, some v⟩)

/-- `__zip_iterator_impl_t::move_next` — `2025-2028`, and `2034-2050` for the last: the first of the sequences,
and when it has moved the others. -/
def moveNext : List (Col α) → Bool × List (Col α)
  | [] => (true, [])
  | [c] => ((Col.moveNext c).1, [(Col.moveNext c).2])
  | c :: cs =>
    let r := Col.moveNext c
    if r.1 then ((moveNext cs).1, r.2 :: (moveNext cs).2) else (false, r.2 :: cs)

/-- `set_value` — `2017-2022`, `2042-2046`, with `assign_value`, `2061-2064`: the values of all, in their
order. -/
def setValue : List (Col α) → List (Option α)
  | [] => []
  | c :: cs => c.value :: setValue cs

/-- `__zip_iterator_t` — `2140-2202`; the sequences are in the container, `active` is `__impl != nullptr`. -/
structure Itor (α : Type) where
  active : Bool
  value : List (Option α)
  deriving DecidableEq, Repr

/-- `__move_next` — `2176-2182`. -/
def Itor.next (it : Itor α) (impl : List (Col α)) : Itor α × List (Col α) :=
  let r := moveNext impl
  if r.1 then (⟨it.active, setValue r.2⟩, r.2) else (⟨false, it.value⟩, r.2)

/-- `__zip_container_t` — `2207-2235`: the sequences, shared by all iterators, and the iterator that `begin`
copies. -/
structure Zip (α : Type) where
  impl : List (Col α)
  first : Itor α
  deriving DecidableEq, Repr

/-- `al::zip`, the constructor of the container and of its iterator — `2216-2218`, `2152-2157`,
`2238-2241`. -/
def zip (cols : List (List α)) : Zip α :=
  let impl : List (Col α) := cols.map fun l => ⟨l, none⟩
  let r := Itor.next ⟨true, cols.map fun _ => none⟩ impl
  ⟨r.2, r.1⟩

/-- `operator == ` of an iterator and the end, which has none — `2188-2194`. -/
def Itor.atEnd (it : Itor α) : Bool := !it.active

/-- `for (auto && it : zip(…))` from an iterator: the rows the body sees, and the sequences afterwards;
`fuel` bounds the rounds. -/
def loop : Nat → Itor α → List (Col α) → Option (List (List (Option α)) × List (Col α))
  | 0, _, _ => none
  | fuel + 1, it, impl =>
    if it.atEnd then some ([], impl)
    else
      let r := it.next impl
      (loop fuel r.1 r.2).map fun x => (it.value :: x.1, x.2)

/-- A walk of a container: `begin` is a copy of its iterator — `2221-2224`. -/
def walk (fuel : Nat) (z : Zip α) : Option (List (List (Option α)) × Zip α) :=
  (loop fuel z.first z.impl).map fun x => (x.1, ⟨x.2, z.first⟩)

/-- `al::tie(vars …) = it` — `2096-2103`, `2125-2130`, `2245-2248`: the first variable is given the first
value, then the others theirs; the variables are addresses in a store. -/
def tie (store : Nat → Option α) : List Nat → List (Option α) → (Nat → Option α)
  | v :: vs, x :: xs => tie (fun a => if a = v then x else store a) vs xs
  | _, _ => store

end Verif.Zips
