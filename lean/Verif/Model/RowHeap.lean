/-!
# The row heap

Model of `heap_t` — `algorithm/__collections.h:68-331`.

Simplifications.  The rows of the pool are a function from row and column to the object that was last
stored there, with the number of rows; a row is allocated when it is pushed to the pool.  The row
pointer is not null exactly when the current row is not −1, and then it points to the current row, so
only the row is kept.  `quick_copy` is `memmove` (see C38).  `int` is unbounded.
-/

namespace Verif.RowHeap

variable {α : Type}

/-- How a call can fail: by an exception or by undefined behaviour. -/
inductive Err where
  | throw | ub
  deriving DecidableEq, Repr

/-- `heap_t` with its row size. -/
structure RH (α : Type) where
  rs : Nat
  cell : Nat → Nat → Option α
  rows : Nat
  cur : Option Nat
  col : Nat
  size : Nat

/-- The constructor — `__collections.h:80-83`. -/
def RH.empty (rs : Nat) : RH α := ⟨rs, fun _ _ => none, 0, none, 0, 0⟩

/-- `__current_hole` — `__collections.h:226-246`; the hole is at the returned row and column. -/
def RH.hole (h : RH α) : RH α × Nat × Nat :=
  let fresh (r : Nat) : RH α × Nat × Nat :=
    if r < h.rows then (⟨h.rs, h.cell, h.rows, some r, 1, h.size + 1⟩, r, 0)
    else (⟨h.rs, h.cell, h.rows + 1, some h.rows, 1, h.size + 1⟩, h.rows, 0)
  match h.cur with
  | none => fresh 0
  | some r =>
    if h.col ≥ h.rs then fresh (r + 1)
    else (⟨h.rs, h.cell, h.rows, some r, h.col + 1, h.size + 1⟩, r, h.col)

/-- Storing an object. -/
def RH.store (h : RH α) (r c : Nat) (x : α) : RH α :=
  { h with cell := fun r' c' => if r' = r ∧ c' = c then some x else h.cell r' c' }

/-- `__Copy` — `__collections.h:249-253`. -/
def RH.copy (h : RH α) (dr : Nat) (dc : Int) (sr : Nat) (sc n : Int) : Except Err (RH α) :=
  if ¬ (dr < h.rows ∧ sr < h.rows) then .error .ub
  else if n = 0 then .ok h
  else if 0 < n ∧ 0 ≤ dc ∧ dc + n ≤ h.rs ∧ 0 ≤ sc ∧ sc + n ≤ h.rs then
    .ok { h with cell := fun r c =>
      if r = dr ∧ dc ≤ (c : Int) ∧ (c : Int) < dc + n then h.cell sr ((c : Int) - dc + sc).toNat else h.cell r c }
  else .error .ub

/-- `new_obj` — `__collections.h:87-93`. -/
def RH.newObj (h : RH α) (x : α) : RH α :=
  let (h', r, c) := h.hole
  h'.store r c x

/-- The loop over the full rows in `__move_next` — `__collections.h:267-271`; `n` rows after
`from_row` are left. -/
def RH.shiftRows (fromRow : Nat) : Nat → RH α → Except Err (RH α)
  | 0, h => .ok h
  | n + 1, h => do
    let row := fromRow + n + 1
    let h ← h.copy (row + 1) 0 row ((h.rs : Int) - 1) 1
    let h ← h.copy row 1 row 0 ((h.rs : Int) - 1)
    h.shiftRows fromRow n

/-- `__move_next` — `__collections.h:256-282`. -/
def RH.moveNext (h : RH α) (index : Nat) : Except Err (RH α × Nat × Nat) :=
  let (h, _, _) := h.hole
  let fromRow := index / h.rs
  let fromCol := index % h.rs
  match h.cur with
  | none => .error .ub
  | some row => do
    let col : Int := (h.col : Int) - 1
    if row > fromRow then
      let h ← h.copy row 1 row 0 col
      let h ← h.shiftRows fromRow (row - fromRow - 1)
      let h ← h.copy (fromRow + 1) 0 fromRow ((h.rs : Int) - 1) 1
      let h ← h.copy fromRow ((fromCol : Int) + 1) fromRow fromCol ((h.rs : Int) - fromCol - 1)
      return (h, fromRow, fromCol)
    else
      let h ← h.copy fromRow ((fromCol : Int) + 1) fromRow fromCol (col - fromCol)
      return (h, fromRow, fromCol)

/-- `insert` — `__collections.h:109-124`. -/
def RH.insert (h : RH α) (index : Nat) (x : α) : Except Err (RH α) :=
  if index = h.size then .ok (h.newObj x)
  else if index > h.size then .error .throw
  else
    match h.moveNext index with
    | .error e => .error e
    | .ok (h', r, c) => .ok (h'.store r c x)

/-- The loop in `__move_previous` — `__collections.h:295-299`, over `n` rows from `row1`. -/
def RH.pullRows : Nat → Nat → RH α → Except Err (RH α)
  | 0, _, h => .ok h
  | n + 1, row1, h => do
    let h ← h.copy (row1 - 1) ((h.rs : Int) - 1) row1 0 1
    let h ← h.copy row1 0 row1 1 ((h.rs : Int) - 1)
    h.pullRows n (row1 + 1)

/-- The last part of `__move_previous` — `__collections.h:308-319`. -/
def RH.shrink (h : RH α) (row : Nat) : Except Err (RH α) :=
  if h.col = 0 then
    match row with
    | 0 => .error .ub
    | r + 1 =>
      if r < h.rows then .ok { h with col := h.rs - 1, cur := some r, size := h.size - 1 } else .error .ub
  else .ok { h with col := h.col - 1, size := h.size - 1 }

/-- `__move_previous` — `__collections.h:285-320`. -/
def RH.movePrevious (h : RH α) (index : Nat) : Except Err (RH α) :=
  let fromRow := index / h.rs
  let fromCol : Int := (index % h.rs : Nat)
  match h.cur with
  | none => .error .ub
  | some row => do
    let col : Int := (h.col : Int) - 1
    let h ←
      if row > fromRow then do
        let h ← h.copy fromRow (fromCol - 1) fromRow fromCol (h.rs - fromCol)
        let h ← h.pullRows (row - fromRow - 1) (fromRow + 1)
        h.copy row 0 row 1 col
      else h.copy fromRow (fromCol - 1) fromRow fromCol (col - fromCol + 1)
    h.shrink row

/-- `delete_` — `__collections.h:127-135`. -/
def RH.delete (h : RH α) (index : Nat) : Except Err (RH α) :=
  if index ≥ h.size then .error .throw else h.movePrevious (index + 1)

/-- `operator[]` — `__collections.h:144-147`. -/
def RH.at_ (h : RH α) (index : Nat) : Option α := h.cell (index / h.rs) (index % h.rs)

/-- `last` — `__collections.h:150-156`.  `.ok none` is the null pointer. -/
def RH.last (h : RH α) : Except Err (Option (Nat × Nat)) :=
  match h.cur with
  | none => .ok none
  | some r => if h.col = 0 then .error .ub else .ok (some (r, h.col - 1))

/-- `clear` — `__collections.h:159-167`. -/
def RH.clear (h : RH α) : RH α := { h with cur := none, col := 0, size := 0 }

/-- A call of the heap. -/
inductive Op (α : Type) where
  | new (x : α)
  | insert (i : Nat) (x : α)
  | delete (i : Nat)
  | clear

/-- The effect of a call. -/
def RH.step (h : RH α) : Op α → Except Err (RH α)
  | .new x => .ok (h.newObj x)
  | .insert i x => h.insert i x
  | .delete i => h.delete i
  | .clear => .ok h.clear

/-- A history of calls. -/
def RH.run : RH α → List (Op α) → Except Err (RH α)
  | h, [] => .ok h
  | h, o :: os =>
    match h.step o with
    | .error e => .error e
    | .ok h' => h'.run os

end Verif.RowHeap
