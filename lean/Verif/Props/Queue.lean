import Verif.Proof.Queue

/-!
# C102: each delayed visit happens once, in the order of the steps
-/

namespace Verif.Queue.Props

open Verif.Queue

/-- The queue that `ast_walk` starts with — `include/modules/core.h:6106-6117`. -/
def start {α : Type} (root : α) : Queue α := ⟨fun s => if s = 0 then [root] else [], 0⟩

example : (Queue.empty.enque 7 0).map (fun q => (q.items 0, q.items 1, q.index)) =
    some ((start 7).items 0, (start 7).items 1, (start 7).index) := by decide

theorem start_ofStep {α : Type} (root : α) (k : Nat) (ys : List (α × Nat)) :
    (start root).items k ++ ofStep k ys = ofStep k ((root, 0) :: ys) := by
  simp only [start, ofStep, List.filter_cons]
  by_cases h : k = 0
  · subst h; simp
  · have : ((0 : Nat) == k) = false := by simp; exact fun e => h e.symm
    simp [h, this]

theorem perm_of_steps {α : Type} {xs ys : List (α × Nat)} (h : ∀ k, ofStep k xs = ofStep k ys) : xs.Perm ys := by
  classical
  refine List.perm_iff_count.2 fun a => ?_
  have key : ∀ zs : List (α × Nat), zs.count a = (ofStep a.2 zs).count a.1 := by
    intro zs
    induction zs with
    | nil => rfl
    | cons z zs ih =>
      rw [List.count_cons, ih]
      simp only [ofStep, List.filter_cons]
      by_cases h2 : z.2 = a.2
      · have e : (z.2 == a.2) = true := by simp [h2]
        simp only [e, if_true, List.map_cons, List.count_cons]
        congr 1
        by_cases h1 : z.1 = a.1
        · have : z = a := Prod.ext h1 h2
          simp [this]
        · have : ¬ z = a := fun e => h1 (by rw [e])
          simp [this, h1]
      · have e : (z.2 == a.2) = false := by simp [h2]
        have : ¬ z = a := fun e => h2 (by rw [e])
        simp [e, this]
  rw [key, key, h]

/-- Every visit that is asked for happens, and happens once; none happens that was not asked for.  The visits happen in
the order of their steps, and those of one step in the order in which they were asked for; so a visit sees all that the
visits of earlier steps did.

Partial: a visit must not ask for a visit in an earlier step (`backward_refuted`). -/
theorem visits_partial {α σ : Type} {visit : σ → α → Nat → σ × List (α × Nat)} (hf : Forward visit)
    {fuel : Nat} {root : α} {s s' : σ} {xs : List (α × Nat)} (h : run visit fuel (start root) s = some (xs, s')) :
    xs.Perm (asked visit s root xs) ∧ xs.Pairwise (fun a b => a.2 ≤ b.2) ∧
      (∀ k, ofStep k xs = ofStep k (asked visit s root xs)) ∧ s' = after visit s xs := by
  obtain ⟨h1, h2, _, h4⟩ := run_spec hf fuel (start root) s xs s' (Nat.zero_le _) (fun k hk => by cases hk)
    (fun k hk => by simp only [start]; rw [if_neg]; unfold size at hk; omega) h
  have h3 : ∀ k, ofStep k xs = ofStep k (asked visit s root xs) := by
    intro k
    rw [h1 k, start_ofStep]; rfl
  exact ⟨perm_of_steps h3, h2, h3, h4⟩

/-- A compiler with a root that asks for two visits in step 26 and one in step 18, which asks for one in step 26 itself. -/
def visitDemo (s : List Nat) (x : Nat) (_ : Nat) : List Nat × List (Nat × Nat) :=
  (s ++ [x], match x with
    | 0 => [(1, 26), (2, 18), (3, 26)]
    | 2 => [(4, 26)]
    | _ => [])

theorem visitDemo_forward : ∀ s x k, (x = 0 → k = 0) → (x = 2 → k = 18) → ∀ y ∈ (visitDemo s x k).2, k ≤ y.2 := by
  intro s x k h0 h2 y hy
  simp only [visitDemo] at hy
  split at hy
  · have := h0 rfl
    subst this; exact Nat.zero_le _
  · have := h2 rfl
    subst this
    simp at hy; subst hy; decide
  · cases hy

/-- The same with visits only where they belong; it meets the hypothesis. -/
def visitStrict (s : List Nat) (x k : Nat) : List Nat × List (Nat × Nat) :=
  if (x = 0 → k = 0) ∧ (x = 2 → k = 18) then visitDemo s x k else (s, [])

theorem visitStrict_forward : Forward visitStrict := by
  intro s x k y hy
  unfold visitStrict at hy
  split at hy
  · rename_i h; exact visitDemo_forward s x k h.1 h.2 y hy
  · cases hy

example : run visitStrict 10 (start 0) [] = some ([(0, 0), (2, 18), (1, 26), (3, 26), (4, 26)], [0, 2, 1, 3, 4]) := by
  decide
example : [(0, 0), (2, 18), (1, 26), (3, 26), (4, 26)].Perm
    (asked visitStrict [] 0 [(0, 0), (2, 18), (1, 26), (3, 26), (4, 26)]) :=
  (visits_partial visitStrict_forward (fuel := 10) (s' := [0, 2, 1, 3, 4]) (by decide)).1

/-- A visit that is asked for in an earlier step never happens: the queue does not go back. -/
theorem backward_refuted : ∃ (visit : Unit → Nat → Nat → Unit × List (Nat × Nat)) (xs : List (Nat × Nat)),
    run visit 10 (start 0) () = some (xs, ()) ∧ (2, 18) ∈ asked visit () 0 xs ∧ (2, 18) ∉ xs :=
  ⟨fun _ x _ => ((), match x with | 0 => [(1, 26)] | 1 => [(2, 18)] | _ => []), [(0, 0), (1, 26)],
    by decide, by decide, by decide⟩

end Verif.Queue.Props
