import Verif.Proof.SVector

/-! # C29: the small vector behaves as a sequence -/

namespace Verif.SVector.Props

variable {α : Type}

/-- **C29**.  After any history of operations, with any inline capacity, the vector holds exactly what
a sequence would hold after the same operations: the same size, and the same elements by indexing and
by iteration.  No operation writes outside of its cells.  (Sizes stay below 2⁶³.) -/
theorem vector_is_sequence (n : Nat) (hn : 0 < n) (os : List (Op α))
    (hb : (os.map added).sum ≤ 2 ^ 63) :
    ∃ v, (SV.empty n).run n os = .ok v ∧ v.size = (runList [] os).length ∧
      v.toList = (runList [] os).map some ∧
      ∀ i, i < v.size → v.at_ i = (runList [] os)[i]? := by
  obtain ⟨v, h1, h2⟩ := (holds_empty (α := α) n).run hn os (by simpa using hb)
  refine ⟨v, h1, h2.p, h2.toList, ?_⟩
  intro i hi
  exact h2.at_lt (by rw [SV.size, h2.p] at hi; exact hi)

/-- **C29**.  The operations that are refused are those that a sequence refuses: `pop_back` of an empty
vector and `insert` behind the end. -/
theorem vector_refuses (n : Nat) (hn : 0 < n) (os : List (Op α)) (o : Op α)
    (hb : (os.map added).sum + added o ≤ 2 ^ 63) (v : SV α) (h : (SV.empty n).run n os = .ok v) :
    v.step n o = .error .throw ↔ onList (runList [] os) o = none := by
  obtain ⟨v', h1, h2⟩ := (holds_empty (α := α) n).run hn os (by simp; omega)
  rw [h] at h1
  injection h1 with h1
  subst h1
  have hlen : ∀ (os : List (Op α)) (l : List α), (runList l os).length ≤ l.length + (os.map added).sum := by
    intro os
    induction os with
    | nil => intro l; simp [runList]
    | cons o os ih =>
      intro l
      rw [runList, List.map_cons, List.sum_cons]
      have := ih ((onList l o).getD l)
      cases ho : onList l o with
      | none => rw [ho] at this; simp at this ⊢; omega
      | some l' =>
        rw [ho] at this
        have := onList_length l l' o ho
        simp at *; omega
  have hl := hlen os []
  have hs := h2.step hn o (by simp at hl; omega)
  cases ho : onList (runList [] os) o with
  | none => rw [ho] at hs; simpa using hs
  | some l' =>
    rw [ho] at hs
    obtain ⟨v', h1, _⟩ := hs
    simp [h1]

/-- **C29 refuted** for pushing an element of the vector itself: when the push is the one that moves
the elements, the reference that was passed is read after its target is gone. -/
theorem push_own_refuted : ∃ v : SV Nat,
    (SV.empty 2).run 2 [.push 1, .push 2] = .ok v ∧ v.at_ 0 = some 1 ∧ v.pushOwn 2 0 = .error .ub := by
  exact ⟨_, rfl, rfl, rfl⟩

/-- Pushing an element of the vector itself is fine while there is room. -/
theorem push_own_partial (n : Nat) (hn : 0 < n) (os : List (Op α)) (hb : (os.map added).sum ≤ 2 ^ 63)
    (v : SV α) (h : (SV.empty n).run n os = .ok v) (i : Nat) (hi : i < (runList [] os).length)
    (hroom : match v.store with | .arr _ => v.p < n | .buf b => v.p < b.length) :
    ∃ v', v.pushOwn n i = .ok v' ∧ v'.toList = (runList [] os ++ [(runList [] os)[i]]).map some := by
  obtain ⟨v0, h1, h2⟩ := (holds_empty (α := α) n).run hn os (by simpa using hb)
  rw [h] at h1
  injection h1 with h1
  subst h1
  have ha := h2.at_lt hi
  rw [List.getElem?_eq_getElem hi] at ha
  rw [SV.pushOwn, ha]
  simp only
  obtain ⟨v', k1, k2⟩ := h2.push hn (runList [] os)[i]
  cases hs : v.store with
  | arr c =>
    rw [hs] at hroom; simp only at hroom ⊢; rw [if_pos hroom]; exact ⟨v', k1, k2.toList⟩
  | buf b =>
    rw [hs] at hroom; simp only at hroom ⊢; rw [if_neg (by omega)]; exact ⟨v', k1, k2.toList⟩

example : ((SV.empty 2 : SV Nat).run 2 [.push 1, .push 2, .push 3]).toOption.map
    (fun v => decide (v.p < 4)) = some true := by decide +kernel

/-- A history that crosses from the array to the heap, grows there and shrinks again. -/
example : ((SV.empty 2 : SV Nat).run 2 [.push 1, .pop, .pop, .push 2, .insert [3, 4, 5] 0, .push 6,
    .insert [7] 9, .insert [8, 9] 1, .truncate 5, .push 0]).toOption.map (·.toList)
    = some [some 3, some 8, some 9, some 4, some 5, some 0] := by decide +kernel

end Verif.SVector.Props
