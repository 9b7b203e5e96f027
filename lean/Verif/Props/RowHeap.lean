import Verif.Proof.RowHeap

/-! # C30: the row heap -/

namespace Verif.RowHeap.Props

variable {α : Type}

/-- **C30**.  Whatever the row size, after any history of creations, insertions, clearings and good
deletions (see `Good`), indexing from 0 to the size gives the objects of the list that the history
means, in order.  Deletions from other rows, or of the last object of a row, are excluded: see
`delete_loses_refuted`, `delete_before_row_refuted` and `delete_full_row_refuted`. -/
theorem heap_is_sequence_partial (rs : Nat) (h0 : 0 < rs) (os : List (Op α)) (hg : AllGood rs [] os) :
    ∃ h, (RH.empty rs).run os = .ok h ∧ h.size = (runList [] os).length ∧
      h.toList = (runList [] os).map some := by
  obtain ⟨h, e, r⟩ := (rep_empty (α := α) rs).run h0 os hg
  exact ⟨h, e, r.size, r.toList h0⟩

/-- **C30**.  The places of objects with different indices are different, and the place of an object
depends on its index only. -/
theorem places_distinct (h : RH α) (h0 : 0 < h.rs) (i j : Nat) (hp : (i / h.rs, i % h.rs) = (j / h.rs, j % h.rs)) :
    i = j := by
  injection hp with h1 h2
  rw [(rc_split h.rs i h0).1, (rc_split h.rs j h0).1, h1, h2]

/-- **C30**.  A new object does not change the others: each index below the size still gives the same
object after any number of creations. -/
theorem objects_stable (rs : Nat) (h0 : 0 < rs) (os : List (Op α)) (hg : AllGood rs [] os) (h : RH α)
    (hr : (RH.empty rs).run os = .ok h) (xs : List α) (i : Nat) (hi : i < h.size) :
    (xs.foldl RH.newObj h).at_ i = h.at_ i := by
  obtain ⟨h', e, r⟩ := (rep_empty (α := α) rs).run h0 os hg
  rw [hr] at e
  cases e
  generalize runList [] os = l at r
  have key : ∀ (xs : List α) (h : RH α) (l : List α), Rep rs h l → i < l.length →
      (xs.foldl RH.newObj h).at_ i = l[i]? := by
    intro xs
    induction xs with
    | nil => intro h l r hi; exact r.at_ h0 hi
    | cons x xs ih =>
      intro h l r hi
      have := ih _ _ (r.newObj h0 x) (by simp; omega)
      rw [List.getElem?_append_left hi] at this
      exact this
  rw [r.size] at hi
  rw [key xs h l r hi, r.at_ h0 hi]

/-- `last` is the place of the last object, after any history that ends with a creation. -/
theorem last_is_newest (rs : Nat) (h0 : 0 < rs) (os : List (Op α)) (hg : AllGood rs [] os) (h : RH α)
    (hr : (RH.empty rs).run os = .ok h) (x : α) :
    ∃ r c, (h.newObj x).last = .ok (some (r, c)) ∧ (h.newObj x).cell r c = some x ∧ r * rs + c = h.size := by
  obtain ⟨h', e, r⟩ := (rep_empty (α := α) rs).run h0 os hg
  rw [hr] at e
  cases e
  obtain ⟨g, r0, c0, e, hh⟩ := r.hole h0
  have e : h.newObj x = g.store r0 c0 x := by rw [RH.newObj, e]
  refine ⟨r0, c0, ?_, ?_, by rw [hh.place, r.size]⟩
  · rw [e]
    simp [RH.last, RH.store, hh.cur, hh.col]
  · rw [e]
    simp [RH.store]

/-- An insertion or a deletion behind the end is refused. -/
theorem behind_end_refused (h : RH α) (i : Nat) (x : α) :
    (h.size < i → h.insert i x = .error .throw) ∧ (h.size ≤ i → h.delete i = .error .throw) := by
  constructor
  · intro hi
    rw [RH.insert, if_neg (by omega), if_pos hi]
  · intro hi
    rw [RH.delete, if_pos hi]

/-- **C30 refuted** for deletion: with two objects in a row, deleting the first of three objects loses
the third and keeps the second twice. -/
theorem delete_loses_refuted :
    ((RH.empty 2 : RH Nat).run [.new 1, .new 2, .new 3, .delete 0]).toOption.map RH.toList =
      some [some 2, some 2] ∧
    runList [] [Op.new 1, .new 2, .new 3, .delete 0] = [2, 3] := by
  constructor <;> decide +kernel

/-- **C30 refuted** for deletion: deleting the last object of an earlier row writes before the row. -/
theorem delete_before_row_refuted :
    ((RH.empty 2 : RH Nat).run [.new 1, .new 2, .new 3, .delete 1]).toOption.isNone ∧
    ((RH.empty 2 : RH Nat).run [.new 1, .new 2, .new 3]).toOption.map (fun h => (h.delete 1).toOption.isNone) =
      some true := by
  constructor <;> decide +kernel

/-- **C30 refuted** for deletion: deleting the last object when its row is full is undefined for every
heap that was filled by creations only. -/
theorem delete_full_row_refuted (rs : Nat) (h0 : 0 < rs) (os : List (Op α)) (hg : AllGood rs [] os) (h : RH α)
    (hr : (RH.empty rs).run os = .ok h) (hfull : h.col = rs) (r : Nat) (hcur : h.cur = some r) :
    h.delete (h.size - 1) = .error .ub := by
  obtain ⟨h', e, rep⟩ := (rep_empty (α := α) rs).run h0 os hg
  rw [hr] at e
  cases e
  obtain ⟨p1, _, p3⟩ := rep.pos r hcur
  have hsz := rep.size
  have hs : h.size - 1 + 1 = (r + 1) * rs + 0 := by rw [Nat.add_mul]; omega
  rw [RH.delete, if_neg (by omega), RH.movePrevious, rep.rs_eq, hs, rc_div h0, rc_mod h0, hcur]
  simp only
  rw [if_neg (by omega), RH.copy]
  by_cases hrow : r + 1 < h.rows
  · rw [if_neg (by simp [hrow]), if_neg (by omega), if_neg (by omega)]
    rfl
  · rw [if_pos (by simp [hrow])]
    rfl

/-- After the only object was deleted, `last` is a pointer before the row, not null. -/
theorem last_after_delete_refuted :
    ((RH.empty 2 : RH Nat).run [.new 1, .delete 0]).toOption.map (fun h => (h.last matches .error .ub)) =
      some true := by decide +kernel

/-- A history that inserts across rows, deletes, clears and reuses the rows. -/
example : AllGood 3 ([] : List Nat) [.new 1, .new 2, .new 3, .new 4, .insert 1 9, .delete 3, .insert 0 8, .new 7, .new 6,
    .clear, .new 5, .delete 0, .new 4] := by
  simp [AllGood, Good, onList]
example : ((RH.empty 3 : RH Nat).run [.new 1, .new 2, .new 3, .new 4, .new 5, .new 6, .new 7, .insert 1 9]).toOption.map
    RH.toList = some [some 1, some 9, some 2, some 3, some 4, some 5, some 6, some 7] := by decide +kernel
example : ((RH.empty 2 : RH Nat).run [.new 1, .new 2]).toOption.map (fun h => (h.col, h.cur)) = some (2, some 0) := by
  decide +kernel

end Verif.RowHeap.Props
