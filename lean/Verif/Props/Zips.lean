import Verif.Proof.Zips
/-!
# C134: walking several sequences at once

`Rows` (in `Spec/Zips.lean`) says which rows there are; `walk` is a `for` loop over the container.
-/

namespace Verif.Zips

variable {α : Type}

/-- The loop over sequences, of any number and of any lengths, comes to its end, and its body sees the rows:
one for each position that all the sequences have, with the items at that position, in the order of the
sequences. -/
theorem rows_partial (cols : List (List α)) (ne : cols ≠ []) :
    ∃ rows, Rows cols rows ∧ ∃ N, ∀ fuel, N ≤ fuel → ∃ z, walk fuel (zip cols) = some (rows, z) := by
  obtain ⟨n, hn⟩ := common_exists cols ne
  refine ⟨rowsOf (start cols) n, rows_rowsOf hn, n + 2, fun fuel hf => ?_⟩
  obtain ⟨z, h, _⟩ := walk_rows hn fuel hf
  exact ⟨z, h⟩

/-- There is only one such list of rows. -/
theorem rows_unique {cols : List (List α)} {r1 r2 : List (List (Option α))} (h1 : Rows cols r1)
    (h2 : Rows cols r2) : r1 = r2 := by
  have hl := common_unique h1.count h2.count
  apply List.ext_getElem hl
  intro k hk1 hk2
  have w1 := h1.width _ (List.getElem_mem hk1)
  have w2 := h2.width _ (List.getElem_mem hk2)
  apply List.ext_getElem (w1.trans w2.symm)
  intro j hj1 hj2
  have hj : j < cols.length := by omega
  obtain ⟨x, e1, e2⟩ := h1.item k j _ (List.getElem?_eq_getElem hj) hk1
  obtain ⟨y, e3, e4⟩ := h2.item k j _ (List.getElem?_eq_getElem hj) hk2
  rw [e1] at e3
  cases e3
  simp [hk1, hj1] at e2
  simp [hk2, hj2] at e4
  rw [e2, e4]

example : ([[1, 2, 3], [4, 5]] : List (List Nat)) ≠ [] := by decide
example : (walk 9 (zip [[1, 2, 3], [4, 5], [6, 7, 8]])).map (·.1) =
    some [[some 1, some 4, some 6], [some 2, some 5, some 7]] := by decide

/-- Sequences of one length, like the references, the entities and the rows of a table that is written: the
body sees every item of each, with those at the same position of the others. -/
theorem same_length {cols : List (List α)} {n : Nat} (ne : cols ≠ []) (h : ∀ c ∈ cols, c.length = n)
    {rows : List (List (Option α))} (R : Rows cols rows) :
    rows.length = n ∧ ∀ (j : Nat) (c : List α), cols[j]? = some c → rows.map (fun r => r[j]?) = c.map fun x => some (some x) := by
  have hn : Common cols n := by
    intro k
    constructor
    · intro hk c hc; rw [h c hc]; exact hk
    · intro hk
      obtain ⟨c, hc⟩ := List.exists_mem_of_ne_nil _ ne
      have := hk c hc
      rw [h c hc] at this
      exact this
  have hl := common_unique R.count hn
  refine ⟨hl, fun j c hc => ?_⟩
  have hcl := h c (List.mem_of_getElem? hc)
  apply List.ext_getElem (by simp [hl, hcl])
  intro k hk1 hk2
  have hk : k < rows.length := by simpa using hk1
  obtain ⟨x, e1, e2⟩ := R.item k j c hc hk
  have hkc : k < c.length := by omega
  simp [hk] at e2
  simp only [List.getElem_map, e2]
  rw [List.getElem?_eq_getElem hkc] at e1
  cases e1
  rfl

example : ∀ c ∈ ([[1, 2], [4, 5]] : List (List Nat)), c.length = 2 := by decide

/-- Taking a row apart: every variable is given the item at its position and no other is changed. -/
theorem tied (store : Nat → Option α) (vs : List Nat) (xs : List (Option α)) (apart : vs.Nodup)
    (all : xs.length = vs.length) :
    (∀ (j v : Nat) (x : Option α), vs[j]? = some v → xs[j]? = some x → tie store vs xs v = x) ∧
      ∀ a, a ∉ vs → tie store vs xs a = store a :=
  ⟨tie_item vs store xs apart all, fun a h => tie_other store xs a h⟩

example : [3, 1].Nodup ∧ ([some 7, some 8] : List (Option Nat)).length = [3, 1].length := by decide

/-- A second loop over the same container does not see the rows: it sees the first one and ends, for all
sequences that have two rows or more. -/
theorem again_refuted {cols : List (List α)} (ne : cols ≠ []) {rows : List (List (Option α))}
    (R : Rows cols rows) (two : 1 < rows.length) :
    ∃ N, ∀ fuel, N ≤ fuel → ∃ z z' first, walk fuel (zip cols) = some (rows, z) ∧
      walk fuel z = some ([first], z') ∧ rows.head? = some first ∧ [first] ≠ rows := by
  have hn := R.count
  refine ⟨rows.length + 2, fun fuel hf => ?_⟩
  obtain ⟨z, h1, h2, h3, h4, h5⟩ := walk_rows hn fuel hf
  have e := rows_unique (rows_rowsOf hn) R
  have hact : z.first.active = true := by rw [h2]; exact h3.2 (by omega)
  obtain ⟨f, rfl⟩ : ∃ f, fuel = f + 2 := ⟨fuel - 2, by omega⟩
  obtain ⟨cs', h6, _⟩ := loop_end h5 z.first hact f
  refine ⟨z, ⟨cs', z.first⟩, z.first.value, by rw [h1, e], by simp [walk, h6], ?_, ?_⟩
  · obtain ⟨m, hm⟩ : ∃ m, rows.length = m + 1 := ⟨rows.length - 1, by omega⟩
    rw [← e, hm, rowsOf_succ, h2, h4 (by omega)]
    rfl
  · intro h
    rw [← h] at two
    simp at two

example : Rows [[1, 2, 3], [4, 5]] [[some 1, some 4], [some 2, some 5]] := by
  obtain ⟨n, hn⟩ := common_exists [[1, 2, 3], [4, 5]] (by decide)
  have h2 : n = 2 := by
    have h : Common [[1, 2, 3], [4, 5]] 2 := fun k => by simp; omega
    exact common_unique hn h
  subst h2
  exact rows_rowsOf hn

end Verif.Zips
