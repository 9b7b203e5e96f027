import Verif.Spec.Queue
/-!
# Lemmas about the queue of delayed visits
-/

namespace Verif.Queue

theorem ofStep_append {α : Type} (s : Nat) (xs ys : List (α × Nat)) :
    ofStep s (xs ++ ys) = ofStep s xs ++ ofStep s ys := by simp [ofStep]

theorem enqueAll_some {α : Type} : ∀ (xs : List (α × Nat)) (q q' : Queue α), q.enqueAll xs = some q' →
    q'.index = q.index ∧ (∀ s, q'.items s = q.items s ++ ofStep s xs) ∧ ∀ x ∈ xs, x.2 < size
  | [], q, q', h => by
    simp only [Queue.enqueAll, Option.some.injEq] at h
    subst h; simp [ofStep]
  | x :: xs, q, q', h => by
    rw [Queue.enqueAll.eq_def] at h
    simp only at h
    split at h
    · cases h
    · rename_i q1 h1
      simp only [Queue.enque] at h1
      split at h1
      · rename_i hx
        simp only [Option.some.injEq] at h1
        obtain ⟨e1, e2, e3⟩ := enqueAll_some xs q1 q' h
        subst h1
        refine ⟨e1, ?_, ?_⟩
        · intro s
          rw [e2 s]
          simp only [ofStep, List.filter_cons]
          by_cases hs : s = x.2
          · subst hs; simp
          · have : (x.2 == s) = false := by simp; exact fun h => hs h.symm
            simp [hs, this]
        · intro y hy
          rcases List.mem_cons.1 hy with rfl | hy
          · exact hx
          · exact e3 y hy
      · cases h1

theorem enqueAll_ok {α : Type} : ∀ (xs : List (α × Nat)) (q : Queue α), (∀ x ∈ xs, x.2 < size) →
    ∃ q', q.enqueAll xs = some q'
  | [], q, _ => ⟨q, rfl⟩
  | x :: xs, q, h => by
    have hx := h x (List.mem_cons_self ..)
    rw [Queue.enqueAll.eq_def]
    simp only [Queue.enque, if_pos hx]
    exact enqueAll_ok xs _ fun y hy => h y (List.mem_cons_of_mem _ hy)

theorem dequeFrom_none {α : Type} : ∀ (n : Nat) (q : Queue α), Queue.dequeFrom n q = none →
    ∀ s, q.index ≤ s → s < q.index + n → q.items s = []
  | 0, _, _, s, h1, h2 => by omega
  | n + 1, q, h, s, h1, h2 => by
    rw [Queue.dequeFrom.eq_def] at h
    simp only at h
    split at h
    · cases h
    · rename_i he
      by_cases hs : s = q.index
      · rw [hs]; exact he
      · exact dequeFrom_none n _ h s (by simp only; omega) (by simp only; omega)

theorem dequeFrom_some {α : Type} : ∀ (n : Nat) (q q' : Queue α) (x : α), Queue.dequeFrom n q = some (x, q') →
    q.index ≤ q'.index ∧ q'.index < q.index + n ∧ (∀ s, q.index ≤ s → s < q'.index → q.items s = []) ∧
    q.items q'.index = x :: q'.items q'.index ∧ ∀ s, s ≠ q'.index → q'.items s = q.items s
  | 0, _, _, _, h => by cases h
  | n + 1, q, q', x, h => by
    rw [Queue.dequeFrom.eq_def] at h
    simp only at h
    split at h
    · rename_i y ys he
      simp only [Option.some.injEq, Prod.mk.injEq] at h
      obtain ⟨rfl, rfl⟩ := h
      refine ⟨Nat.le_refl _, by simp only; omega, fun s h1 h2 => by simp only at h2; omega, ?_, ?_⟩
      · simp only [if_pos]; exact he
      · intro s hs; simp only at hs; simp only [if_neg hs]
    · rename_i he
      obtain ⟨a, b, c, d, e⟩ := dequeFrom_some n _ q' x h
      simp only at a b c d e
      refine ⟨by omega, by omega, ?_, d, e⟩
      intro s h1 h2
      by_cases hs : s = q.index
      · rw [hs]; exact he
      · exact c s (by omega) h2

/-- What is in the queue from the index on. -/
def Clean {α : Type} (q : Queue α) : Prop := ∀ s, s < q.index → q.items s = []

theorem run_spec {α σ : Type} {visit : σ → α → Nat → σ × List (α × Nat)} (hf : Forward visit) :
    ∀ (fuel : Nat) (q : Queue α) (s : σ) (xs : List (α × Nat)) (s' : σ), q.index ≤ size → Clean q →
      (∀ k, size ≤ k → q.items k = []) → run visit fuel q s = some (xs, s') →
      (∀ k, ofStep k xs = q.items k ++ ofStep k (delayed visit s xs)) ∧
      xs.Pairwise (fun a b => a.2 ≤ b.2) ∧ (∀ x ∈ xs, q.index ≤ x.2) ∧ s' = after visit s xs
  | 0, _, _, _, _, _, _, _, h => by cases h
  | fuel + 1, q, s, xs, s', hi, hc, hb, h => by
    rw [run.eq_def] at h
    simp only at h
    split at h
    · rename_i hd
      simp only [Option.some.injEq, Prod.mk.injEq] at h
      obtain ⟨rfl, rfl⟩ := h
      refine ⟨?_, List.Pairwise.nil, by simp, rfl⟩
      intro k
      have hk : q.items k = [] := by
        by_cases h1 : k < q.index
        · exact hc k h1
        · by_cases h2 : k < size
          · exact dequeFrom_none _ q hd k (by omega) (by omega)
          · exact hb k (by omega)
      simp [ofStep, delayed, hk]
    · rename_i x q1 hd
      split at h
      · cases h
      · rename_i q2 h2
        split at h
        · cases h
        · rename_i ys t hr
          simp only [Option.some.injEq, Prod.mk.injEq] at h
          obtain ⟨rfl, rfl⟩ := h
          obtain ⟨d1, d2, d3, d4, d5⟩ := dequeFrom_some _ q q1 x hd
          obtain ⟨e1, e2, e3⟩ := enqueAll_some _ q1 q2 h2
          have hlt : q1.index < size := by omega
          have clean1 : ∀ k, k < q1.index → q1.items k = [] := by
            intro k hk
            rw [d5 k (by omega)]
            by_cases h1 : k < q.index
            · exact hc k h1
            · exact d3 k (by omega) hk
          have off : ∀ k, k < q1.index → ofStep k (visit s x q1.index).2 = [] := by
            intro k hk
            simp only [ofStep, List.map_eq_nil_iff, List.filter_eq_nil_iff]
            intro y hy
            have := hf s x q1.index y hy
            simp; omega
          have high : ∀ k, size ≤ k → ofStep k (visit s x q1.index).2 = [] := by
            intro k hk
            simp only [ofStep, List.map_eq_nil_iff, List.filter_eq_nil_iff]
            intro y hy
            have := e3 y hy
            simp; omega
          have hc2 : Clean q2 := by
            intro k hk
            rw [e1] at hk
            rw [e2 k, clean1 k hk, off k hk]; rfl
          have hb2 : ∀ k, size ≤ k → q2.items k = [] := by
            intro k hk
            rw [e2 k, d5 k (by omega), hb k hk, high k hk]; rfl
          obtain ⟨r1, r2, r3, r4⟩ := run_spec hf fuel q2 _ ys t (by omega) hc2 hb2 hr
          refine ⟨?_, ?_, ?_, r4⟩
          · intro k
            simp only [delayed, ofStep_append]
            have : ofStep k ((x, q1.index) :: ys) = ofStep k [(x, q1.index)] ++ ofStep k ys := by
              rw [← ofStep_append]; rfl
            rw [this, r1 k, e2 k]
            by_cases hk : k = q1.index
            · subst hk
              rw [d4]
              simp [ofStep]
            · rw [d5 k hk]
              have : (q1.index == k) = false := by simp; exact fun h => hk h.symm
              simp [ofStep, this]
          · refine List.Pairwise.cons ?_ r2
            intro y hy
            have := r3 y hy
            simp only; omega
          · intro y hy
            rcases List.mem_cons.1 hy with rfl | hy
            · exact d1
            · have := r3 y hy; omega

end Verif.Queue
