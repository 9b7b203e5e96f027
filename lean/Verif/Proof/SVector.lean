import Verif.Spec.SVector
import Verif.Props.Bits

/-! # Helper lemmas for the small vector -/

namespace Verif.SVector

variable {α : Type}

/-- The vector holds the list `l`. -/
structure Holds (n : Nat) (v : SV α) (l : List α) : Prop where
  p : v.p = l.length
  cells : v.cells.take v.p = l.map some
  room : match v.store with
    | .arr c => c.length = n + 1 ∧ v.p ≤ n
    | .buf c => v.p ≤ c.length ∧ 0 < c.length

theorem Holds.le {n : Nat} {v : SV α} {l : List α} (h : Holds n v l) : v.p ≤ v.cells.length := by
  have := h.room
  rw [SV.cells]
  split <;> rename_i hs <;> rw [hs] at this <;> simp only at this <;> omega

theorem Holds.at_lt {n : Nat} {v : SV α} {l : List α} (h : Holds n v l) {i : Nat} (hi : i < l.length) :
    v.at_ i = l[i]? := by
  have h1 : v.cells[i]? = (l.map some)[i]? := by
    rw [← h.cells, List.getElem?_take, if_pos (by rw [h.p]; exact hi)]
  rw [SV.at_, h1]
  simp [hi]

theorem Holds.toList {n : Nat} {v : SV α} {l : List α} (h : Holds n v l) : v.toList = l.map some := by
  rw [SV.toList]
  apply List.ext_getElem?
  intro i
  by_cases hi : i < l.length
  · rw [List.getElem?_map, List.getElem?_map, List.getElem?_range (by rw [SV.size, h.p]; exact hi)]
    simp [h.at_lt hi, hi]
  · rw [List.getElem?_eq_none (by simp [SV.size, h.p]; omega), List.getElem?_eq_none (by simp; omega)]

theorem holds_empty (n : Nat) : Holds n (SV.empty n : SV α) [] :=
  ⟨rfl, rfl, ⟨by simp, Nat.zero_le n⟩⟩

theorem write_ok {cells vs : List (Option α)} {i : Nat} (h : i + vs.length ≤ cells.length) :
    ∃ c, write cells i vs = .ok c ∧ c.length = cells.length ∧
      ∀ j, c[j]? = if i ≤ j ∧ j < i + vs.length then vs[j - i]? else cells[j]? := by
  refine ⟨cells.take i ++ vs ++ cells.drop (i + vs.length), by rw [write, if_pos h], ?_, ?_⟩
  · simp; omega
  · intro j
    by_cases h1 : i ≤ j
    · by_cases h2 : j < i + vs.length
      · rw [if_pos ⟨h1, h2⟩, List.append_assoc, List.getElem?_append_right (by simp; omega),
          List.getElem?_append_left (by simp; omega)]
        congr 1
        simp; omega
      · rw [if_neg (by omega), List.getElem?_append_right (by simp; omega), List.getElem?_drop]
        congr 1
        simp; omega
    · rw [if_neg (by omega), List.append_assoc, List.getElem?_append_left (by simp; omega),
        List.getElem?_take, if_pos (by omega)]

theorem holds_of {n : Nat} {v : SV α} {l : List α} (hp : v.p = l.length)
    (hc : ∀ j, j < l.length → v.cells[j]? = some l[j]?)
    (hr : match v.store with
      | .arr c => c.length = n + 1 ∧ v.p ≤ n
      | .buf c => v.p ≤ c.length ∧ 0 < c.length) : Holds n v l := by
  refine ⟨hp, ?_, hr⟩
  apply List.ext_getElem?
  intro j
  by_cases hj : j < l.length
  · rw [List.getElem?_take, if_pos (by omega), hc j hj]
    simp [hj]
  · rw [List.getElem?_take, if_neg (by omega), List.getElem?_eq_none (by simp; omega)]

theorem Holds.cell {n : Nat} {v : SV α} {l : List α} (h : Holds n v l) {j : Nat} (hj : j < l.length) :
    v.cells[j]? = some l[j]? := by
  have : (v.cells.take v.p)[j]? = (l.map some)[j]? := by rw [h.cells]
  rw [List.getElem?_take, if_pos (by rw [h.p]; exact hj)] at this
  rw [this]
  simp [hj]

theorem Holds.push {n : Nat} (hn : 0 < n) {v : SV α} {l : List α} (h : Holds n v l) (x : α) :
    ∃ v', v.push n x = .ok v' ∧ Holds n v' (l ++ [x]) := by
  have hr := h.room
  have hc := fun j hj => h.cell (j := j) hj
  have hp := h.p
  rw [SV.push]
  rw [SV.cells] at hc
  cases hst : v.store with
  | arr c =>
    rw [hst] at hr hc
    simp only at hr hc ⊢
    by_cases hlt : v.p < n
    · rw [if_pos hlt]
      obtain ⟨c', h1, h2, h3⟩ := write_ok (cells := c) (vs := [some x]) (i := v.p) (by simp; omega)
      rw [h1]
      refine ⟨_, rfl, holds_of (by simp [hp]) ?_ ⟨by omega, by simp only; omega⟩⟩
      intro j hj
      rw [SV.cells]
      simp only [h3]
      simp only [List.length_append, List.length_cons, List.length_nil] at hj
      by_cases hjl : j < l.length
      · rw [if_neg (by simp; omega), hc j hjl, List.getElem?_append_left hjl]
      · have : j = l.length := by omega
        subst this
        rw [if_pos (by simp; omega), hp]
        simp
    · rw [if_neg hlt]
      have hpn : v.p = n := by omega
      obtain ⟨b, h1, h2, h3⟩ := write_ok (cells := List.replicate (n * 2) (none : Option α))
        (vs := c.take n) (i := 0) (by simp; omega)
      rw [h1]
      simp only
      obtain ⟨b', k1, k2, k3⟩ := write_ok (cells := b) (vs := [some x]) (i := n)
        (by rw [h2]; simp; omega)
      rw [k1]
      simp at h2
      refine ⟨_, rfl, holds_of (by simp; omega) ?_ ⟨by simp only; omega, by omega⟩⟩
      intro j hj
      rw [SV.cells]
      simp only [k3]
      simp only [List.length_append, List.length_cons, List.length_nil] at hj
      by_cases hjl : j < l.length
      · rw [if_neg (by simp; omega), h3, if_pos (by simp; omega), List.getElem?_take,
          if_pos (by omega), Nat.sub_zero, hc j hjl, List.getElem?_append_left hjl]
      · have : j = l.length := by omega
        subst this
        rw [if_pos (by simp; omega)]
        have e : l.length - n = 0 := by omega
        rw [e]
        simp
  | buf b =>
    rw [hst] at hr hc
    simp only at hr hc ⊢
    by_cases hlt : b.length ≤ v.p
    · rw [if_pos hlt]
      have hpn : v.p = b.length := by omega
      obtain ⟨b1, h1, h2, h3⟩ := write_ok (cells := List.replicate (b.length * 2) (none : Option α))
        (vs := b.take v.p) (i := 0) (by simp; omega)
      rw [h1]
      simp only
      obtain ⟨b2, k1, k2, k3⟩ := write_ok (cells := b1) (vs := [some x]) (i := b.length)
        (by rw [h2]; simp; omega)
      rw [k1]
      simp at h2
      refine ⟨_, rfl, holds_of (by simp; omega) ?_ ⟨by simp only; omega, by omega⟩⟩
      intro j hj
      rw [SV.cells]
      simp only [k3]
      simp only [List.length_append, List.length_cons, List.length_nil] at hj
      by_cases hjl : j < l.length
      · rw [if_neg (by simp; omega), h3, if_pos (by simp; omega), List.getElem?_take,
          if_pos (by omega), Nat.sub_zero, hc j hjl, List.getElem?_append_left hjl]
      · have : j = l.length := by omega
        subst this
        rw [if_pos (by simp; omega)]
        have e : l.length - b.length = 0 := by omega
        rw [e]
        simp
    · rw [if_neg hlt]
      obtain ⟨c', h1, h2, h3⟩ := write_ok (cells := b) (vs := [some x]) (i := v.p) (by simp; omega)
      rw [h1]
      refine ⟨_, rfl, holds_of (by simp [hp]) ?_ ⟨by simp only; omega, by omega⟩⟩
      intro j hj
      rw [SV.cells]
      simp only [h3]
      simp only [List.length_append, List.length_cons, List.length_nil] at hj
      by_cases hjl : j < l.length
      · rw [if_neg (by simp; omega), hc j hjl, List.getElem?_append_left hjl]
      · have : j = l.length := by omega
        subst this
        rw [if_pos (by simp; omega), hp]
        simp

theorem Holds.truncate {n : Nat} {v : SV α} {l : List α} (h : Holds n v l) (m : Nat) :
    Holds n (v.truncate m) (l.take m) := by
  rw [SV.truncate]
  have hp := h.p
  split
  · rename_i hm
    rw [SV.size] at hm
    refine holds_of (by simp; omega) ?_ ?_
    · intro j hj
      simp only [List.length_take] at hj
      have := h.cell (j := j) (by omega)
      rw [SV.cells] at this ⊢
      simp only
      rw [this, List.getElem?_take, if_pos (by omega)]
    · have hr := h.room
      cases hst : v.store with
      | arr c => rw [hst] at hr; simp only at hr ⊢; omega
      | buf c => rw [hst] at hr; simp only at hr ⊢; omega
  · rename_i hm
    rw [SV.size] at hm
    rw [List.take_of_length_le (by omega)]
    exact h

theorem Holds.clear {n : Nat} {v : SV α} {l : List α} (h : Holds n v l) : Holds n v.clear [] := by
  refine holds_of rfl (by intro j hj; cases hj) ?_
  have hr := h.room
  rw [SV.clear]
  cases hst : v.store with
  | arr c => rw [hst] at hr; simp only at hr ⊢; omega
  | buf c => rw [hst] at hr; simp only at hr ⊢; omega

theorem moveIn_ok {cells : List (Option α)} {p index : Nat} {vs l : List α} (hp : p = l.length)
    (hc : ∀ j, j < l.length → cells[j]? = some l[j]?) (hi : index ≤ p)
    (hroom : p + vs.length ≤ cells.length) :
    ∃ c, moveIn cells p index vs = .ok c ∧ c.length = cells.length ∧
      ∀ j, j < (l.take index ++ vs ++ l.drop index).length →
        c[j]? = some (l.take index ++ vs ++ l.drop index)[j]? := by
  have hlen : ((cells.take p).drop index).length = p - index := by simp; omega
  obtain ⟨c1, h1, h2, h3⟩ := write_ok (cells := cells) (vs := (cells.take p).drop index)
    (i := index + vs.length) (by rw [hlen]; omega)
  obtain ⟨c2, k1, k2, k3⟩ := write_ok (cells := c1) (vs := vs.map some) (i := index)
    (by rw [h2]; simp; omega)
  refine ⟨c2, by rw [moveIn, h1]; exact k1, by omega, ?_⟩
  intro j hj
  simp at hj
  rw [k3]
  by_cases j1 : j < index
  · rw [if_neg (by omega), h3, if_neg (by omega), hc j (by omega), List.append_assoc,
      List.getElem?_append_left (by simp; omega), List.getElem?_take, if_pos j1]
  · by_cases j2 : j < index + vs.length
    · rw [if_pos (by simp; omega), List.append_assoc, List.getElem?_append_right (by simp; omega),
        List.getElem?_append_left (by simp; omega)]
      simp only [List.length_take]
      rw [show min index l.length = index by omega]
      simp [show j - index < vs.length by omega]
    · rw [if_neg (by simp; omega), h3, if_pos (by rw [hlen]; omega), List.getElem?_drop,
        List.getElem?_take, if_pos (by omega), hc _ (by omega),
        List.getElem?_append_right (by simp; omega), List.getElem?_drop]
      congr 2
      simp; omega

theorem grown_ok {size newSize : Nat} (h : newSize ≤ 2 ^ 63) : ∃ r, grown size newSize = .ok r ∧ newSize ≤ r := by
  obtain ⟨r, _, h1, _, h3, _⟩ := Verif.Bits.alignd_doubles (BitVec.ofNat 64 size) (BitVec.ofNat 64 newSize)
    (by rw [BitVec.toNat_ofNat, Nat.mod_eq_of_lt (by omega)]; exact h) 63 (Nat.le_refl _)
  rw [BitVec.toNat_ofNat, Nat.mod_eq_of_lt (by omega)] at h3
  exact ⟨r.toNat, by rw [grown, h1], h3⟩

theorem moveOut_ok {cells : List (Option α)} {p index : Nat} {vs l : List α} (hp : p = l.length)
    (hc : ∀ j, j < l.length → cells[j]? = some l[j]?) (hi : index ≤ p) (hpc : p ≤ cells.length)
    (hb : p + vs.length ≤ 2 ^ 63) :
    ∃ c, moveOut cells p index vs = .ok c ∧ p + vs.length ≤ c.length ∧
      ∀ j, j < (l.take index ++ vs ++ l.drop index).length →
        c[j]? = some (l.take index ++ vs ++ l.drop index)[j]? := by
  obtain ⟨r, hg, hr⟩ := grown_ok (size := p) hb
  have hlen : ((cells.take p).drop index).length = p - index := by simp; omega
  have hlen' : (cells.take index).length = index := by simp; omega
  obtain ⟨c0, g1, g2, g3⟩ := write_ok (cells := List.replicate r (none : Option α))
    (vs := cells.take index) (i := 0) (by rw [hlen']; simp; omega)
  rw [List.length_replicate] at g2
  obtain ⟨c1, h1, h2, h3⟩ := write_ok (cells := c0) (vs := vs.map some) (i := index)
    (by rw [g2]; simp; omega)
  obtain ⟨c2, k1, k2, k3⟩ := write_ok (cells := c1) (vs := (cells.take p).drop index)
    (i := index + vs.length) (by rw [hlen]; omega)
  refine ⟨c2, by rw [moveOut, hg]; simp only [g1, h1]; exact k1, by omega, ?_⟩
  intro j hj
  simp at hj
  rw [k3]
  by_cases j1 : j < index
  · rw [if_neg (by omega), h3, if_neg (by omega), g3, if_pos (by rw [hlen']; omega), Nat.sub_zero,
      List.getElem?_take, if_pos j1, hc j (by omega), List.append_assoc,
      List.getElem?_append_left (by simp; omega), List.getElem?_take, if_pos j1]
  · by_cases j2 : j < index + vs.length
    · rw [if_neg (by omega), h3, if_pos (by simp; omega), List.append_assoc,
        List.getElem?_append_right (by simp; omega), List.getElem?_append_left (by simp; omega)]
      simp only [List.length_take]
      rw [show min index l.length = index by omega]
      simp [show j - index < vs.length by omega]
    · rw [if_pos (by rw [hlen]; omega), List.getElem?_drop,
        List.getElem?_take, if_pos (by omega), hc _ (by omega),
        List.getElem?_append_right (by simp; omega), List.getElem?_drop]
      congr 2
      simp; omega

theorem Holds.insert {n : Nat} {v : SV α} {l : List α} (h : Holds n v l) (vs : List α) (i : Nat)
    (hi : i ≤ l.length) (hb : l.length + vs.length ≤ 2 ^ 63) :
    ∃ v', v.insert n vs i = .ok v' ∧ Holds n v' (l.take i ++ vs ++ l.drop i) := by
  have hr := h.room
  have hc := fun j hj => h.cell (j := j) hj
  have hp := h.p
  have hl : (l.take i ++ vs ++ l.drop i).length = v.p + vs.length := by simp; omega
  rw [SV.insert, SV.size, if_neg (by omega)]
  rw [SV.cells] at hc
  cases hst : v.store with
  | arr c =>
    rw [hst] at hr hc
    simp only at hr hc ⊢
    split
    · obtain ⟨c', h1, h2, h3⟩ := moveIn_ok (vs := vs) (index := i) hp hc (by omega) (by omega)
      rw [h1]
      exact ⟨_, rfl, holds_of hl.symm h3 ⟨by omega, by omega⟩⟩
    · obtain ⟨c', h1, h2, h3⟩ := moveOut_ok (vs := vs) (index := i) hp hc (by omega) (by omega) (by omega)
      rw [h1]
      exact ⟨_, rfl, holds_of hl.symm h3 ⟨h2, by omega⟩⟩
  | buf b =>
    rw [hst] at hr hc
    simp only at hr hc ⊢
    split
    · obtain ⟨c', h1, h2, h3⟩ := moveIn_ok (vs := vs) (index := i) hp hc (by omega) (by omega)
      rw [h1]
      exact ⟨_, rfl, holds_of hl.symm h3 ⟨by simp only; omega, by omega⟩⟩
    · obtain ⟨c', h1, h2, h3⟩ := moveOut_ok (vs := vs) (index := i) hp hc (by omega) (by omega) (by omega)
      rw [h1]
      exact ⟨_, rfl, holds_of hl.symm h3 ⟨h2, by omega⟩⟩

theorem Holds.step {n : Nat} (hn : 0 < n) {v : SV α} {l : List α} (h : Holds n v l) (o : Op α)
    (hb : l.length + added o ≤ 2 ^ 63) :
    match onList l o with
    | some l' => ∃ v', v.step n o = .ok v' ∧ Holds n v' l'
    | none => v.step n o = .error .throw := by
  cases o with
  | push x => exact h.push hn x
  | pop =>
    simp only [onList, SV.step, SV.pop, SV.size, h.p]
    by_cases hl : l = []
    · subst hl; simp
    · rw [if_neg hl]
      have : l.length ≠ 0 := by simp [hl]
      rw [if_neg this]
      refine ⟨_, rfl, ?_⟩
      rw [List.dropLast_eq_take]
      exact h.truncate _
  | insert vs i =>
    simp only [onList, SV.step]
    by_cases hi : i ≤ l.length
    · rw [if_pos hi]
      exact h.insert vs i hi (by simpa [added] using hb)
    · rw [if_neg hi]
      show v.insert n vs i = _
      rw [SV.insert, SV.size, h.p, if_pos (by omega)]
  | truncate m => exact ⟨_, rfl, h.truncate m⟩
  | clear => exact ⟨_, rfl, h.clear⟩

theorem onList_length (l l' : List α) (o : Op α) (h : onList l o = some l') :
    l'.length ≤ l.length + added o := by
  cases o with
  | push x => cases h; simp [added]
  | pop =>
    simp only [onList] at h
    split at h
    · cases h
    · cases h; simp [added]
  | insert vs i =>
    simp only [onList] at h
    split at h
    · cases h; simp [added]; omega
    · cases h
  | truncate m => cases h; simp [added]; omega
  | clear => cases h; simp [added]

theorem Holds.run {n : Nat} (hn : 0 < n) : ∀ (os : List (Op α)) {v : SV α} {l : List α}, Holds n v l →
    l.length + (os.map added).sum ≤ 2 ^ 63 → ∃ v', v.run n os = .ok v' ∧ Holds n v' (runList l os)
  | [], v, l, h, _ => ⟨v, rfl, h⟩
  | o :: os, v, l, h, hb => by
    rw [List.map_cons, List.sum_cons] at hb
    have hs := h.step hn o (by omega)
    rw [SV.run, runList]
    cases ho : onList l o with
    | none =>
      rw [ho] at hs
      simp only at hs
      rw [hs]
      exact h.run hn os (by omega)
    | some l' =>
      rw [ho] at hs
      obtain ⟨v', h1, h2⟩ := hs
      have := onList_length l l' o ho
      rw [h1]
      exact h2.run hn os (by omega)

end Verif.SVector
