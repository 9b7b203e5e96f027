import Verif.Model.Arr

/-!
# The places of local variables in the frame of a method

Model of `locals_layout_t` (`modules/rt/layout.cpp:436-694`, `modules/rt/__layout.h:269-406`).  The virtual machine
gives each local variable a place when it prepares a method.  It knows the index of each variable (how many
variables of the enclosing regions come before it), in the order of their identities, and wants variables that are
never in scope together to share memory.

A read or write outside of a vector, or the use of the element at its end, is `none`.  An offset is a `msize_t`,
16 bits.  `std::sort` is any function `sort` (the theorems need only that it keeps the elements).
-/

namespace Verif.Layout

open Verif.Arr (unitAlign)

/-- `storage_type_t` — `include/modules/rt.h:58-69`. -/
inductive Storage where
  | ref | value | mixture
  deriving DecidableEq, Repr

/-- What is known of a local variable: its index, the size of its type, how it is stored. -/
structure Def where
  index : Nat
  size : Nat
  storage : Storage
  deriving DecidableEq, Repr

/-- `__item_t` — `__layout.h:301-323`; `fresh` is `new_index`. -/
structure Item where
  index : Nat
  size : Nat
  storage : Storage
  fresh : Nat
  deriving DecidableEq, Repr

/-- `__group_t` — `__layout.h:351-364`; items are named by identity, a partial is an index and a position. -/
structure Group where
  index : Nat
  isReset : Bool
  items : List Nat
  partials : List (Nat × Nat)
  deriving DecidableEq, Repr

/-- The layout before `commit`. -/
structure Layout where
  items : List Item
  groups : Storage → Group

/-- An empty one. -/
def Layout.empty : Layout := ⟨[], fun _ => ⟨0, true, [], []⟩⟩

/-- `msize_t`. -/
def m16 (n : Nat) : Nat := n % 65536

/-- `__find_reset_index` — `layout.cpp:447-463`: from the last item back. -/
def findReset (index : Nat) (storage : Storage) : List Item → Nat
  | [] => 0
  | it :: older =>
    if it.index > index || it.storage != storage then findReset index storage older
    else if it.index == index then it.fresh
    else m16 (it.fresh + 1)

/-- `__group_t::reset` — `layout.cpp:516-520`. -/
def Group.reset (g : Group) (index : Nat) : Group := { g with index := index, isReset := true }

/-- `__group_t::append` — `layout.cpp:500-513`. -/
def Group.append (g : Group) (identity : Nat) : Group :=
  { index := m16 (g.index + 1)
    isReset := false
    items := g.items ++ [identity]
    partials := if g.isReset then g.partials ++ [(g.index, g.items.length)] else g.partials }

/-- The groups after the reset that a variable may cause — `layout.cpp:472-481`. -/
def resetGroups (l : Layout) (index : Nat) : Storage → Group :=
  match l.items.getLast? with
  | some last =>
    if index ≤ last.index then fun s => (l.groups s).reset (findReset index s l.items.reverse) else l.groups
  | none => l.groups

/-- `append` — `layout.cpp:466-488`. -/
def Layout.append (l : Layout) (d : Def) : Layout :=
  let groups := resetGroups l d.index
  { items := l.items ++ [⟨d.index, d.size, d.storage, (groups d.storage).index⟩]
    groups := fun s => if s = d.storage then (groups s).append l.items.length else groups s }

/-- All variables of a method, in order — `modules/exec/parser.cpp:166-170`. -/
def layoutOf (defs : List Def) : Layout := defs.foldl Layout.append .empty

/-! ## The offsets -/

/-- The offset of each item, by identity. -/
abbrev Offsets := Nat → Nat

/-- An offset is set. -/
def Offsets.set (o : Offsets) (identity offset : Nat) : Offsets := fun i => if i = identity then offset else o i

/-- What comes after an item that is put at an offset: `unit_align(offset, size) + size`. -/
def after (offset size : Nat) : Nat := m16 (unitAlign offset size + size)

/-- The loop that fills the gap before the first item with the last items — `layout.cpp:668-683`.  The items come in
reverse order. -/
def fillGap (size : Nat → Nat) (first aligned : Nat) : List Nat → Nat → Offsets → List Nat × Nat × Offsets
  | it :: next :: rest, offset, o =>
    if unitAlign offset first = offset then (it :: next :: rest, offset, o)
    else
      let offset0 := after offset (size it)
      if offset0 ≤ aligned then
        if offset0 ≥ aligned then (next :: rest, offset0, o.set it offset)
        else fillGap size first aligned (next :: rest) offset0 (o.set it offset)
      else (it :: next :: rest, offset, o)
  | items, offset, o => (items, offset, o)

/-- The loop over the items — `layout.cpp:685-692`. -/
def placeAll (size : Nat → Nat) : List Nat → Nat → Offsets → Nat × Offsets
  | [], offset, o => (offset, o)
  | it :: rest, offset, o => placeAll size rest (after offset (size it)) (o.set it offset)

/-- `__set_offsets` of sorted items; `first` is the size of the item at `it_begin` — `layout.cpp:656-694`. -/
def setOffsets (size : Nat → Nat) (offset first : Nat) (sorted : List Nat) (o : Offsets) : Nat × Offsets :=
  let aligned := m16 (unitAlign offset first)
  let r := fillGap size first aligned sorted.reverse offset o
  placeAll size r.1.reverse r.2.1 r.2.2

/-- `__min_index` over the partials that follow — `layout.cpp:632-653`: the smallest index before the first that is
not greater than `p`, and the position of that one. -/
def minIndex (p : Nat) : List (Nat × Nat) → Option Nat × Option Nat
  | [] => (none, none)
  | (i, b) :: rest =>
    if i ≤ p then (none, some b)
    else
      let r := minIndex p rest
      (some (match r.1 with | none => i | some m => min i m), r.2)

/-- The items of a group and the offsets. -/
structure State where
  items : List Nat
  offsets : Offsets

/-- `__set_offsets` of a range of the items of a group, sorted in place. -/
def setRange (size : Nat → Nat) (sort : List Nat → List Nat) (b e offset : Nat) (s : State) : Option (State × Nat) :=
  if e < b ∨ e > s.items.length then none
  else
    let range := sort ((s.items.drop b).take (e - b))
    let items := s.items.take b ++ range ++ s.items.drop e
    match items[b]? with
    | none => none
    | some first =>
      let r := setOffsets size offset (size first) range s.offsets
      some (⟨items, r.2⟩, r.1)

/-- The loop over the partials that follow, with the children of a partial — `layout.cpp:586-594`. -/
def children (p c : Nat) (call : Nat → List (Nat × Nat) → State → Option (State × Nat)) :
    List (Nat × Nat) → State → Nat → Option (State × Nat)
  | [], s, m => some (s, m)
  | (i, b) :: rest, s, m =>
    if i ≤ p then some (s, m)
    else if i = c then
      match call b rest s with
      | none => none
      | some (s', r) => children p c call rest s' (max m r)
    else children p c call rest s m

/-- The end of the items of a partial — `layout.cpp:566-569`. -/
def rangeEnd (p b length : Nat) : Option Nat × Option Nat → Nat
  | (some c, _) => b + (c - p)
  | (none, some e) => e
  | (none, none) => length

/-- `__arrange_variables` — `layout.cpp:554-616`: the partial `(p, b)` (it may have been changed for the call) and
the partials that follow. -/
def arrange (size : Nat → Nat) (sort : List Nat → List Nat) :
    Nat → Nat → Nat → List (Nat × Nat) → Nat → State → Option (State × Nat)
  | 0, _, _, _, _, _ => none
  | fuel + 1, p, b, rest, offset, s =>
    let m := minIndex p rest
    let e := rangeEnd p b s.items.length m
    match setRange size sort b e offset s with
    | none => none
    | some (s1, new) =>
      match m.1 with
      | some c =>
        match arrange size sort fuel c e rest new s1 with
        | none => none
        | some (s2, r) =>
          match children p c (fun b' rest' s => arrange size sort fuel c b' rest' new s) rest s2 (max 0 r) with
          | none => none
          | some (s3, r) => some (s3, max new r)
      | none =>
        match rest with
        | (i, b') :: rest' =>
          match arrange size sort fuel i b' rest' offset s1 with
          | none => none
          | some (s2, r) => some (s2, max new r)
        | [] => some (s1, new)

/-- `__arrange_variables_f` with the function that copies the items and gives 0; `call` arranges a partial on its own,
from an offset that is 0 — `layout.cpp:556-603`, `623-626`. -/
def collect (call : Nat → Nat → List (Nat × Nat) → State → Option (State × Nat)) :
    Nat → Nat → List (Nat × Nat) → State → List Nat → Option (State × List Nat)
  | p, b, rest, s, acc =>
    let m := minIndex p rest
    let e := rangeEnd p b s.items.length m
    if e < b ∨ e > s.items.length then none
    else
      let acc := acc ++ (s.items.drop b).take (e - b)
      match m.1 with
      | some c =>
        match call c e rest s with
        | none => none
        | some (s2, r) =>
          match children p c (fun b' rest' s => call c b' rest' s) rest s2 (max 0 r) with
          | none => none
          | some (s3, _) => some (s3, acc)
      | none =>
        match rest with
        | (i, b') :: rest' => collect call i b' rest' s acc
        | [] => some (s, acc)
termination_by structural _ _ rest => rest

/-- `__arrange_mixture_variables` — `layout.cpp:616-629`: the items of the partials are collected, those of children
are arranged on their own, from the offset 0. -/
def arrangeMixture (size : Nat → Nat) (sort : List Nat → List Nat) :
    Nat → Nat → Nat → List (Nat × Nat) → Nat → State → Option (State × Nat)
  | 0, _, _, _, _, _ => none
  | fuel + 1, p, b, rest, offset, s =>
    match collect (fun c e rest s => arrangeMixture size sort fuel c e rest 0 s) p b rest s [] with
    | none => none
    | some (s1, items) =>
      match sort items with
      | [] => none
      | first :: more =>
        let r := setOffsets size offset (size first) (first :: more) s1.offsets
        some (⟨s1.items, r.2⟩, r.1)

/-- Enough steps for every group. -/
def enough (g : Group) : Nat := (g.partials.length + 2) * (g.items.length + 2)

/-- One group of `commit` — `layout.cpp:527-548`. -/
def commitGroup (size : Nat → Nat) (sort : List Nat → List Nat) (storage : Storage) (g : Group)
    (offset : Nat) (o : Offsets) : Option (Offsets × Nat) :=
  if g.items = [] then some (o, offset)
  else
    match g.partials with
    | [] => none
    | (p, b) :: rest =>
      let r := match storage with
        | .mixture => arrangeMixture size sort (enough g) p b rest offset ⟨g.items, o⟩
        | _ => arrange size sort (enough g) p b rest offset ⟨g.items, o⟩
      match r with
      | none => none
      | some (s, new) => some (s.offsets, new)

/-- The size of an item. -/
def sizeOf (l : Layout) (identity : Nat) : Nat := (l.items[identity]?.map (·.size)).getD 0

/-- `commit` — `layout.cpp:523-551`: the offsets and the units of the frame. -/
def commit (sort : List Nat → List Nat) (l : Layout) : Option (Offsets × Nat) := do
  let size := sizeOf l
  let (o1, n1) ← commitGroup size sort .ref (l.groups .ref) 0 (fun _ => 0)
  let (o2, n2) ← commitGroup size sort .value (l.groups .value) n1 o1
  let (o3, n3) ← commitGroup size sort .mixture (l.groups .mixture) n2 o2
  pure (o3, m16 (unitAlign n3 8) / 8)

end Verif.Layout
