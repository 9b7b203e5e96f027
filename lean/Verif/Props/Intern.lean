import Verif.Proof.Intern

/-!
# C48: the pool of strings
-/

namespace Verif.Intern.Props

/-- **C48.**  For every history of strings, two ids are the same exactly when the strings are. -/
theorem same_id_iff (alloc : Tree → Nat) (hf : ∀ t, ∀ p ∈ t.nodes, p.1 ≠ alloc t) (ss : List Str) (i j : Nat)
    (a b : Nat) (s u : Str) (hi : (history alloc .leaf ss).2[i]? = some a) (hj : (history alloc .leaf ss).2[j]? = some b)
    (hsi : ss[i]? = some s) (hsj : ss[j]? = some u) : a = b ↔ s = u := by
  obtain ⟨g, _, _, h⟩ := history_spec alloc hf ss .leaf good_leaf
  have h1 : (a, s) ∈ (history alloc .leaf ss).1.nodes :=
    h _ (List.mem_of_getElem? (i := i) (by rw [List.getElem?_zip_eq_some]; exact ⟨hi, hsi⟩))
  have h2 : (b, u) ∈ (history alloc .leaf ss).1.nodes :=
    h _ (List.mem_of_getElem? (i := j) (by rw [List.getElem?_zip_eq_some]; exact ⟨hj, hsj⟩))
  constructor
  · intro hab
    exact (Prod.mk.inj (g.addr _ h1 _ h2 hab)).2
  · intro hsu
    subst hsu
    exact ordered_unique s _ g.ordered a b h1 h2

/-- **C48.**  Every string gets an id, and the id still denotes the string after all that was added later. -/
theorem id_denotes (alloc : Tree → Nat) (hf : ∀ t, ∀ p ∈ t.nodes, p.1 ≠ alloc t) (ss : List Str) :
    (history alloc .leaf ss).2.length = ss.length ∧
    ∀ (i a : Nat) (s : Str), (history alloc .leaf ss).2[i]? = some a → ss[i]? = some s →
      deref (history alloc .leaf ss).1 a = some s := by
  obtain ⟨g, hl, _, h⟩ := history_spec alloc hf ss .leaf good_leaf
  refine ⟨hl, ?_⟩
  intro i a s hi hsi
  exact deref_mem g (h _ (List.mem_of_getElem? (i := i) (by rw [List.getElem?_zip_eq_some]; exact ⟨hi, hsi⟩)))

/-- An allocator: one more than the largest address. -/
def next (t : Tree) : Nat := (t.nodes.map (·.1)).foldl max 0 + 1

theorem foldl_max : ∀ (l : List Nat) (m : Nat), m ≤ l.foldl max m ∧ ∀ x ∈ l, x ≤ l.foldl max m := by
  intro l
  induction l with
  | nil => intro m; exact ⟨Nat.le_refl _, by intro x hx; cases hx⟩
  | cons a l ih =>
    intro m
    have h1 := (ih (max m a)).1
    refine ⟨by simp only [List.foldl_cons]; omega, ?_⟩
    intro x hx
    simp only [List.foldl_cons]
    rcases List.mem_cons.1 hx with rfl | hx
    · omega
    · exact (ih (max m a)).2 x hx

theorem next_fresh : ∀ t : Tree, ∀ p ∈ t.nodes, p.1 ≠ next t := by
  intro t p hp
  have := (foldl_max (t.nodes.map (·.1)) 0).2 p.1 (List.mem_map.2 ⟨p, hp, rfl⟩)
  rw [next]; omega

/-- `b`, `a`, `ab`, `a`, the empty string, `b`, a string with a zero character, `a`. -/
example : (history next .leaf [[98], [97], [97, 98], [97], [], [98], [97, 0], [97]]).2 = [1, 2, 3, 2, 4, 1, 5, 2] := by
  decide

example : deref (history next .leaf [[98], [97], [97, 98], [97], [], [98], [97, 0], [97]]).1 3 = some [97, 98] := by
  decide

/-- Characters are compared as signed numbers, and a prefix is smaller. -/
example : less [-1] [97] = true ∧ less [97] [97, 0] = true ∧ less [97, 0] [97] = false ∧ less [98] [97, 98] = false := by
  decide

end Verif.Intern.Props
