import Verif.Model.Fields

/-!
# What is expected of the fields of an object

The words of the properties: which fields an object has, what it means to name one, and how much room they take.
-/

namespace Verif.Fields

/-- `h` is the class `d` or one of its base classes: an object of class `d` has the fields that `h` declares. -/
inductive Chain (W : World) : Nat → Nat → Prop
  | self (d : Nat) : Chain W d d
  | up {d b h : Nat} {st : Bool} {fields : List Nat} : W.kind d = .obj st (some b) fields → Chain W b h → Chain W d h

/-- `x.f`, or `x.f.g` and so on through fields that are structures: from a type that declares `f` to the type of the
last field. -/
inductive Path (W : World) : Nat → List Nat → Nat → Prop
  | last {h f t : Nat} {st : Bool} {base : Option Nat} {fields : List Nat} :
      W.kind h = .obj st base fields → fields[f]? = some t → Path W h [f] t
  | step {h f t u : Nat} {st : Bool} {base base' : Option Nat} {fields fields' : List Nat} {g : Nat} {rest : List Nat} :
      W.kind h = .obj st base fields → fields[f]? = some t → W.kind t = .obj true base' fields' →
      Path W t (g :: rest) u → Path W h (f :: g :: rest) u

/-- A place in an object: the class that declares the first field, and the fields. -/
structure Loc where
  host : Nat
  path : List Nat
  deriving DecidableEq, Repr

/-- An object of class `d` has a place of type `t`. -/
def Has (W : World) (d : Nat) (x : Loc) (t : Nat) : Prop := Chain W d x.host ∧ Path W x.host x.path t

/-- Neither of two places is part of the other. -/
def Apart (x y : Loc) : Prop := x.host = y.host → ¬ x.path <+: y.path ∧ ¬ y.path <+: x.path

/-- A number rounded up to a multiple of 8. -/
def roundUp (n : Nat) : Nat := (n + 7) / 8 * 8

/-- The sum, if all are there. -/
def total : List (Option Nat) → Option Nat
  | [] => some 0
  | x :: xs =>
    match x, total xs with
    | some a, some b => some (a + b)
    | _, _ => none

/-- Room enough for a variable: 8 bytes for a reference, all of a structure. -/
def roomVar (W : World) (room : Nat → Option Nat) (t : Nat) : Option Nat :=
  match W.kind t with
  | .array => some 8
  | .iface => some 8
  | .obj false _ _ => some 8
  | .obj true _ _ => room t
  | .prim _ => room t

/-- Room enough for what an object of a type holds, every basic field taken as a multiple of 8 bytes: the fields of
the base class and its own.  `n` bounds the depth of base classes and of structures in structures; a structure that
contains itself has no room. -/
def room (W : World) : Nat → Nat → Option Nat
  | 0, _ => none
  | n + 1, t =>
    match W.kind t with
    | .prim s => some (roundUp s)
    | .array => some 8
    | .iface => none
    | .obj _ none fields => total (fields.map (roomVar W (room W n)))
    | .obj _ (some b) fields =>
      match room W n b, total (fields.map (roomVar W (room W n))) with
      | some x, some y => some (x + y)
      | _, _ => none

/-- The types of a program are so that what an object of class `d` holds fits into 16 bits. -/
def Fits (W : World) (n d : Nat) : Prop := ∃ k, room W n d = some k ∧ k ≤ 65528

/-- Basic types are 1, 2, 4 or 8 bytes wide. -/
def Basic (W : World) : Prop := ∀ t s, W.kind t = .prim s → s = 1 ∨ s = 2 ∨ s = 4 ∨ s = 8

/-- The natural width of a type that is not a structure. -/
def natural (W : World) (t : Nat) : Nat :=
  match W.kind t with
  | .prim s => s
  | _ => 8

/-- A place that is not a structure. -/
def Leaf (W : World) (t : Nat) : Prop := isStruct W t = false

/-- The order that `commit` asks of its sort: by storage type, then by size. -/
def rank : Verif.Layout.Storage → Nat
  | .ref => 0
  | .value => 1
  | .mixture => 2

/-- Not after. -/
def before (a b : Item) : Prop :=
  rank a.storage < rank b.storage ∨ (rank a.storage = rank b.storage ∧ a.size ≤ b.size)

/-- A function that sorts the fields. -/
structure Sorts (sort : List Item → List Item) : Prop where
  perm : ∀ xs, (sort xs).Perm xs
  sorted : ∀ xs, (sort xs).Pairwise before

/-- What a program does to an object: assignments to its places. -/
structure Assign where
  loc : Loc
  value : Bytes
  deriving DecidableEq, Repr

/-- The last value assigned to a place, if any. -/
def lastOf (x : Loc) : List Assign → Option Bytes
  | [] => none
  | a :: rest =>
    match lastOf x rest with
    | some v => some v
    | none => if a.loc = x then some a.value else none

/-- The assignments are made, one after the other. -/
def assignAll (W : World) (sort : List Item → List Item) (fuel : Nat) : List Assign → Bytes → Option Bytes
  | [], m => some m
  | a :: rest, m =>
    match setField W sort fuel m a.loc.host a.loc.path a.value with
    | none => none
    | some m1 => assignAll W sort fuel rest m1

end Verif.Fields
