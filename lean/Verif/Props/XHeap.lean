import Verif.Model.XHeap
import Verif.Props.Bits

/-! # C31: the heap for small objects -/

namespace Verif.XHeap.Props

open Verif.Bits

/-- Two blocks have no byte in common. -/
def Disjoint (a b : Block) : Prop := a.buf ≠ b.buf ∨ a.off + a.len ≤ b.off ∨ b.off + b.len ≤ a.off

/-! ## Helper lemmas -/

theorem alignf_four (size : BitVec 64) (h : size.toNat ≤ 2 ^ 63) :
    4 ∣ (alignf size 4#64).toNat ∧ size.toNat ≤ (alignf size 4#64).toNat ∧
    (size.toNat ≠ 0 → (alignf size 4#64).toNat ≠ 0) ∧ (alignf size 4#64).toNat < size.toNat + 4 := by
  have := alignf_ceil size 2 (by decide) (by omega)
  obtain ⟨h1, h2, h3⟩ := this
  refine ⟨h1, h2, by have : size.toNat ≤ (alignf size 4#64).toNat := h2; omega, ?_⟩
  have := h3 ((size.toNat + 3) / 4 * 4) ⟨(size.toNat + 3) / 4, by omega⟩ (by omega)
  have e : BitVec.ofNat 64 (2 ^ 2) = 4#64 := rfl
  rw [e] at this
  omega

/-- The slots of the current row that are in use. -/
def inUse (c : Class) (r : Row) (i : Nat) : Prop :=
  i < r.objs ∨ (capacity c.idx - c.bytes ≤ i ∧ i < capacity c.idx)

/-- What is true of a row collection and the blocks that were given out. -/
structure ClassOk (c : Class) (bs : List (Block × Bool)) : Prop where
  fits : ∀ r rest, c.rows = r :: rest → r.objs + c.bytes ≤ capacity c.idx
  slots : ∀ r rest, c.rows = r :: rest → ∀ b ∈ bs, b.1.buf = r.buf →
    ∃ i, inUse c r i ∧ b.1.off = i * (4 * (c.idx + 1)) ∧ b.1.len = 4 * (c.idx + 1)

/-- What is true of the heap. -/
structure Inv (h : Heap) (bs : List (Block × Bool)) : Prop where
  next : ∀ b ∈ bs, b.1.buf < h.next
  count : h.classes.length = 32
  idx : ∀ (k : Nat) (c : Class), h.classes[k]? = some c → c.idx = k
  classes : ∀ c ∈ h.classes, ClassOk c bs
  pairwise : bs.Pairwise (fun a b => Disjoint a.1 b.1)
  freed : h.freed.Perm (List.range h.next)
  destroyed : h.destroyed.Perm ((bs.filter (·.2)).map (fun b => (b.1.buf, b.1.off)))

theorem inv_empty : Inv Heap.empty [] := by
  refine ⟨by simp, by simp [Heap.empty], ?_, ?_, List.Pairwise.nil, ?_, ?_⟩
  · intro k c h
    simp only [Heap.empty, List.getElem?_map] at h
    cases hr : (List.range 32)[k]? with
    | none => rw [hr] at h; cases h
    | some j =>
      rw [hr] at h
      cases h
      exact (List.getElem?_eq_some_iff.mp hr).2 ▸ by simp
  · intro c hc
    simp only [Heap.empty, List.mem_map] at hc
    obtain ⟨k, _, rfl⟩ := hc
    exact ⟨(by intro r rest h; cases h), (by intro r rest h; cases h)⟩
  · decide
  · decide

theorem cap_pos {k : Nat} (h : k < 32) : 0 < capacity k := by
  rw [capacity, rowSize]
  exact Nat.div_pos (by omega) (by omega)

theorem cap_fits (k i : Nat) (h : i < capacity k) : i * (4 * (k + 1)) + 4 * (k + 1) ≤ rowSize := by
  have h1 : capacity k * (4 * (k + 1)) ≤ rowSize := Nat.div_mul_le_self _ _
  have h2 : (i + 1) * (4 * (k + 1)) ≤ capacity k * (4 * (k + 1)) := Nat.mul_le_mul_right _ h
  rw [Nat.add_mul] at h2
  omega

theorem slots_disjoint {i j s : Nat} (h : i ≠ j) : i * s + s ≤ j * s ∨ j * s + s ≤ i * s := by
  rcases Nat.lt_or_gt_of_ne h with h | h
  · left
    have := Nat.mul_le_mul_right s (show i + 1 ≤ j by omega)
    rw [Nat.add_mul] at this; omega
  · right
    have := Nat.mul_le_mul_right s (show j + 1 ≤ i by omega)
    rw [Nat.add_mul] at this; omega

/-- The current row after `alloc` has found or made one. -/
theorem Class.alloc_cases (c : Class) (next s : Nat) (isObj : Bool) :
    ∃ row older bytes next',
      (((∃ rest, c.rows = row :: rest ∧ older = rest) ∧ bytes = c.bytes ∧ next' = next ∧
          c.bytes + row.objs < capacity c.idx) ∨
        (row = ⟨next, 0⟩ ∧ older = c.rows ∧ bytes = 0 ∧ next' = next + 1)) ∧
      c.alloc next s isObj =
        if isObj then (⟨c.idx, ⟨row.buf, row.objs + 1⟩ :: older, bytes⟩, next', ⟨row.buf, row.objs * s, s⟩)
        else (⟨c.idx, row :: older, bytes + 1⟩, next', ⟨row.buf, (capacity c.idx - bytes - 1) * s, s⟩) := by
  cases hr : c.rows with
  | nil =>
    refine ⟨⟨next, 0⟩, [], 0, next + 1, Or.inr ⟨rfl, rfl, rfl, rfl⟩, ?_⟩
    rw [Class.alloc, hr]
  | cons r rest =>
    by_cases hc : c.bytes + r.objs ≥ capacity c.idx
    · refine ⟨⟨next, 0⟩, r :: rest, 0, next + 1, Or.inr ⟨rfl, rfl, rfl, rfl⟩, ?_⟩
      rw [Class.alloc, hr]
      simp only [if_pos hc]
    · refine ⟨r, rest, c.bytes, next, Or.inl ⟨⟨rest, rfl, rfl⟩, rfl, rfl, by omega⟩, ?_⟩
      rw [Class.alloc, hr]
      simp only [if_neg hc]

/-- Replacing one class among several. -/
theorem flatMap_set {β : Type} [DecidableEq β] (f : Class → List β) (x : β) : ∀ (cs : List Class) (k : Nat) (c c' : Class),
    cs[k]? = some c → (f c').Perm (x :: f c) →
    ((cs.set k c').flatMap f).Perm (x :: cs.flatMap f)
  | [], k, c, c', h, _ => by cases k <;> cases h
  | d :: cs, 0, c, c', h, hp => by
    simp only [List.getElem?_cons_zero, Option.some.injEq] at h
    subst h
    simp only [List.set_cons_zero, List.flatMap_cons]
    exact hp.append_right _
  | d :: cs, k + 1, c, c', h, hp => by
    simp only [List.getElem?_cons_succ] at h
    simp only [List.set_cons_succ, List.flatMap_cons]
    have := flatMap_set f x cs k c c' h hp
    exact (this.append_left _).trans List.perm_middle

theorem flatMap_set_same {β : Type} (f : Class → List β) : ∀ (cs : List Class) (k : Nat) (c c' : Class),
    cs[k]? = some c → (f c').Perm (f c) → ((cs.set k c').flatMap f).Perm (cs.flatMap f)
  | [], k, c, c', h, _ => by cases k <;> cases h
  | d :: cs, 0, c, c', h, hp => by
    simp only [List.getElem?_cons_zero, Option.some.injEq] at h
    subst h
    simp only [List.set_cons_zero, List.flatMap_cons]
    exact hp.append_right _
  | d :: cs, k + 1, c, c', h, hp => by
    simp only [List.getElem?_cons_succ] at h
    simp only [List.set_cons_succ, List.flatMap_cons]
    exact (flatMap_set_same f cs k c c' h hp).append_left _

theorem row_buf_mem {h : Heap} {c : Class} {r : Row} (hc : c ∈ h.classes) (hr : r ∈ c.rows) :
    r.buf ∈ h.freed := by
  rw [Heap.freed]
  apply List.mem_append_left
  apply List.mem_append_right
  exact List.mem_flatMap.mpr ⟨c, hc, List.mem_map.mpr ⟨r, hr, rfl⟩⟩

theorem Inv.row_lt {h : Heap} {bs} (inv : Inv h bs) {c : Class} {r : Row} (hc : c ∈ h.classes)
    (hr : r ∈ c.rows) : r.buf < h.next := by
  have := inv.freed.mem_iff.mp (row_buf_mem hc hr)
  simpa using this

/-- Rows of different classes have different buffers. -/
theorem Inv.row_ne {h : Heap} {bs} (inv : Inv h bs) {j k : Nat} {c d : Class} {r q : Row}
    (hc : h.classes[j]? = some c) (hd : h.classes[k]? = some d) (hjk : j ≠ k) (hr : r ∈ c.rows)
    (hq : q ∈ d.rows) : r.buf ≠ q.buf := by
  have hnd : h.freed.Nodup := inv.freed.nodup_iff.mpr List.nodup_range
  rw [Heap.freed, List.nodup_append, List.nodup_append] at hnd
  have hnd := hnd.1.2.1
  have key : ∀ (cs : List Class) (j k : Nat), j < k → ∀ c d, cs[j]? = some c → cs[k]? = some d →
      (cs.flatMap (fun c => c.rows.map (·.buf))).Nodup →
      ∀ r ∈ c.rows, ∀ q ∈ d.rows, r.buf ≠ q.buf := by
    intro cs
    induction cs with
    | nil => intro j k _ c d h; cases h
    | cons e cs ih =>
      intro j k hlt c d hc hd hn r hr q hq
      cases k with
      | zero => omega
      | succ k =>
        rw [List.flatMap_cons, List.nodup_append] at hn
        cases j with
        | zero =>
          simp only [List.getElem?_cons_zero, Option.some.injEq] at hc
          simp only [List.getElem?_cons_succ] at hd
          subst hc
          exact hn.2.2 _ (List.mem_map.mpr ⟨r, hr, rfl⟩) _
            (List.mem_flatMap.mpr ⟨d, List.mem_of_getElem? hd, List.mem_map.mpr ⟨q, hq, rfl⟩⟩)
        | succ j =>
          simp only [List.getElem?_cons_succ] at hc hd
          exact ih j k (by omega) c d hc hd hn.2.1 r hr q hq
  rcases Nat.lt_or_gt_of_ne hjk with hlt | hlt
  · exact key _ _ _ hlt c d hc hd hnd r hr q hq
  · exact fun he => key _ _ _ hlt d c hd hc hnd q hq r hr he.symm

/-- Adding a block in a buffer that no current row uses keeps a row collection right. -/
theorem ClassOk.add {c : Class} {bs} (hc : ClassOk c bs) {b : Block × Bool}
    (hne : ∀ r rest, c.rows = r :: rest → b.1.buf ≠ r.buf) : ClassOk c (b :: bs) := by
  refine ⟨hc.fits, ?_⟩
  intro r rest hr b' hb' hbuf
  rw [List.mem_cons] at hb'
  rcases hb' with rfl | hb'
  · exact absurd hbuf (hne r rest hr)
  · exact hc.slots r rest hr b' hb' hbuf

theorem range_perm (xs : List Nat) (n : Nat) (h : xs.Perm (List.range n)) :
    (n :: xs).Perm (List.range (n + 1)) := by
  rw [List.range_succ]
  exact (h.cons n).trans (List.perm_append_singleton n (List.range n)).symm

theorem Inv.alloc {h : Heap} {bs} (inv : Inv h bs) (size : BitVec 64) (isObj : Bool)
    (hsz : size.toNat ≤ 2 ^ 63) (h0 : size.toNat ≠ 0) :
    ∃ h' b, h.alloc size isObj = some (h', b) ∧ Inv h' ((b, isObj) :: bs) ∧ size.toNat ≤ b.len ∧
      (b.len ≤ largeObjectSize → b.off + b.len ≤ rowSize) ∧ (largeObjectSize < b.len → b.off = 0) := by
  obtain ⟨a1, a2, a3, a4⟩ := alignf_four size hsz
  have a3 := a3 h0
  rw [Heap.alloc]
  simp only
  generalize (alignf size 4#64).toNat = s at *
  by_cases hl : s > largeObjectSize
  · rw [if_pos hl]
    have hdis : ∀ b ∈ bs, Disjoint (⟨h.next, 0, s⟩ : Block) b.1 := by
      intro b hb
      have := inv.next b hb
      exact Or.inl (by simp only; omega)
    have hok : ∀ c ∈ h.classes, ClassOk c ((⟨h.next, 0, s⟩, isObj) :: bs) := by
      intro c hc
      refine (inv.classes c hc).add ?_
      intro r rest hr he
      have := inv.row_lt hc (by rw [hr]; exact List.mem_cons_self)
      simp only at he
      omega
    have hnx : ∀ b ∈ ((⟨h.next, 0, s⟩, isObj) :: bs : List (Block × Bool)), b.1.buf < h.next + 1 := by
      intro b hb
      rw [List.mem_cons] at hb
      rcases hb with rfl | hb
      · simp
      · have := inv.next b hb; omega
    cases isObj with
    | true =>
      rw [if_pos rfl]
      refine ⟨_, _, rfl, ⟨hnx, inv.count, inv.idx, hok, List.pairwise_cons.mpr ⟨hdis, inv.pairwise⟩, ?_, ?_⟩,
        a2, fun h' => absurd h' (by simp only; omega), fun _ => rfl⟩
      · rw [Heap.freed]
        simp only
        refine List.Perm.trans ?_ (range_perm _ _ inv.freed)
        rw [Heap.freed, List.append_assoc, List.append_assoc]
        rw [List.singleton_append, List.append_assoc]
        exact List.perm_middle
      · rw [Heap.destroyed]
        simp only [List.filter_cons, ↓reduceIte, List.map_cons, List.map_append, List.map_nil]
        refine List.Perm.trans ?_ (inv.destroyed.cons _)
        rw [Heap.destroyed, List.append_assoc]
        exact List.perm_middle
    | false =>
      rw [if_neg (by simp)]
      refine ⟨_, _, rfl, ⟨hnx, inv.count, inv.idx, hok, List.pairwise_cons.mpr ⟨hdis, inv.pairwise⟩, ?_, ?_⟩,
        a2, fun h' => absurd h' (by simp only; omega), fun _ => rfl⟩
      · rw [Heap.freed]
        simp only
        refine List.Perm.trans ?_ (range_perm _ _ inv.freed)
        rw [Heap.freed, ← List.append_assoc]
        exact List.perm_append_singleton _ _
      · simpa [Heap.destroyed] using inv.destroyed
  · rw [if_neg hl, if_neg a3]
    obtain ⟨q, rfl⟩ := a1
    rw [largeObjectSize] at hl
    have hk : 4 * q / 4 - 1 = q - 1 := by omega
    rw [hk]
    have hlt : q - 1 < h.classes.length := by rw [inv.count]; omega
    have hget : h.classes[q - 1]? = some h.classes[q - 1] := List.getElem?_eq_getElem hlt
    rw [hget]
    generalize h.classes[q - 1] = c at hget
    have hidx := inv.idx _ _ hget
    have hcm := List.mem_of_getElem? hget
    have hcok := inv.classes c hcm
    simp only
    have hs : 4 * q = 4 * (c.idx + 1) := by omega
    rw [hs]
    obtain ⟨row, older, bytes, next', hcase, heq⟩ := Class.alloc_cases c h.next (4 * (c.idx + 1)) isObj
    rw [heq]
    have hcap : 0 < capacity c.idx := cap_pos (by omega)
    -- facts about the row that is used
    have hroom : bytes + row.objs < capacity c.idx := by
      rcases hcase with ⟨⟨rest, hr, rfl⟩, rfl, rfl, hlt⟩ | ⟨rfl, rfl, rfl, rfl⟩
      · exact hlt
      · simpa using hcap
    have hbufle : row.buf < next' := by
      rcases hcase with ⟨⟨rest, hr, rfl⟩, rfl, rfl, hlt⟩ | ⟨rfl, rfl, rfl, rfl⟩
      · exact inv.row_lt hcm (by rw [hr]; exact List.mem_cons_self)
      · simp
    have hnle : h.next ≤ next' := by
      rcases hcase with ⟨_, _, rfl, _⟩ | ⟨_, _, _, rfl⟩ <;> omega
    have hslots : ∀ b ∈ bs, b.1.buf = row.buf →
        ∃ i, (i < row.objs ∨ (capacity c.idx - bytes ≤ i ∧ i < capacity c.idx)) ∧
          b.1.off = i * (4 * (c.idx + 1)) ∧ b.1.len = 4 * (c.idx + 1) := by
      intro b hb hbuf
      rcases hcase with ⟨⟨rest, hr, rfl⟩, rfl, rfl, hlt⟩ | ⟨rfl, rfl, rfl, rfl⟩
      · exact hcok.slots row older hr b hb hbuf
      · have := inv.next b hb
        simp only at hbuf
        omega
    have hother : ∀ j d, h.classes[j]? = some d → j ≠ q - 1 → ∀ r rest, d.rows = r :: rest → row.buf ≠ r.buf := by
      intro j d hd hj r rest hr
      rcases hcase with ⟨⟨rest', hr', rfl⟩, rfl, rfl, hlt⟩ | ⟨rfl, rfl, rfl, rfl⟩
      · exact inv.row_ne hget hd (Ne.symm hj) (by rw [hr']; exact List.mem_cons_self)
          (by rw [hr]; exact List.mem_cons_self)
      · have := inv.row_lt (List.mem_of_getElem? hd) (r := r) (by rw [hr]; exact List.mem_cons_self)
        simp only
        omega
    have hbytes : ∃ q, q = capacity c.idx - bytes - 1 := ⟨_, rfl⟩
    cases isObj with
    | true =>
      rw [if_pos rfl]
      refine ⟨_, _, rfl, ⟨?_, ?_, ?_, ?_, ?_, ?_, ?_⟩, ?_, ?_, ?_⟩
      · intro b hb
        rw [List.mem_cons] at hb
        rcases hb with rfl | hb
        · exact hbufle
        · have := inv.next b hb; simp only; omega
      · simp [inv.count]
      · intro k d hd
        simp only [List.getElem?_set] at hd
        split at hd
        · rename_i he
          cases hd
          exact hidx.trans he
        · exact inv.idx k d hd
      · intro d hd
        obtain ⟨j, hj⟩ := List.getElem?_of_mem hd
        simp only [List.getElem?_set] at hj
        split at hj
        · · cases hj
            refine ⟨?_, ?_⟩
            · intro r rest hr
              cases hr
              simp only
              omega
            · intro r rest hr b hb hbuf
              cases hr
              simp only at hbuf ⊢
              rw [List.mem_cons] at hb
              rcases hb with rfl | hb
              · exact ⟨row.objs, Or.inl (Nat.lt_succ_self _), rfl, rfl⟩
              · obtain ⟨i, hi, h1, h2⟩ := hslots b hb hbuf
                refine ⟨i, ?_, h1, h2⟩
                rcases hi with hi | hi
                · exact Or.inl (by simp only; omega)
                · exact Or.inr hi
        · rename_i hne
          exact (inv.classes d (List.mem_of_getElem? hj)).add (hother j d hj (Ne.symm hne))
      · refine List.pairwise_cons.mpr ⟨?_, inv.pairwise⟩
        intro b hb
        by_cases hbuf : b.1.buf = row.buf
        · obtain ⟨i, hi, h1, h2⟩ := hslots b hb hbuf
          have hne : row.objs ≠ i := by omega
          rcases slots_disjoint (s := 4 * (c.idx + 1)) hne with hd | hd
          · exact Or.inr (Or.inl (by simp only; omega))
          · exact Or.inr (Or.inr (by simp only; omega))
        · exact Or.inl (fun he => hbuf he.symm)
      · rw [Heap.freed]
        simp only
        rcases hcase with ⟨⟨rest, hr, rfl⟩, rfl, rfl, hlt⟩ | ⟨rfl, rfl, rfl, rfl⟩
        · refine List.Perm.trans ?_ inv.freed
          rw [Heap.freed]
          refine List.Perm.append_right _ (List.Perm.append_left _ ?_)
          exact flatMap_set_same _ _ _ _ _ hget (by rw [hr]; exact List.Perm.refl _)
        · refine List.Perm.trans ?_ (range_perm _ _ inv.freed)
          rw [Heap.freed]
          have := flatMap_set (fun c => c.rows.map (·.buf)) h.next h.classes (q - 1) c
            ⟨c.idx, ⟨h.next, 0 + 1⟩ :: c.rows, 0⟩ hget (List.Perm.refl _)
          refine ((List.Perm.append_left _ this).append_right _).trans ?_
          exact (List.perm_middle).append_right _
      · rw [Heap.destroyed]
        simp only [List.filter_cons, ↓reduceIte, List.map_cons]
        refine List.Perm.trans ?_ (inv.destroyed.cons _)
        rw [Heap.destroyed]
        refine List.Perm.trans (List.Perm.append_left _ ?_) List.perm_middle
        refine flatMap_set Class.destroyed _ h.classes (q - 1) c _ hget ?_
        rw [Class.destroyed, Class.destroyed]
        simp only
        rcases hcase with ⟨⟨rest, hr, rfl⟩, rfl, rfl, hlt⟩ | ⟨rfl, rfl, rfl, rfl⟩
        · rw [hr, List.flatMap_cons, List.flatMap_cons, List.range_succ, List.map_append, List.append_assoc]
          refine (List.perm_middle).trans ?_
          simp [Nat.mul_comm]
        · rw [List.flatMap_cons]
          simp
      · simp only; omega
      · intro _
        exact cap_fits c.idx row.objs (by omega)
      · intro h'
        simp only [largeObjectSize] at h'
        omega
    | false =>
      rw [if_neg (by simp)]
      refine ⟨_, _, rfl, ⟨?_, ?_, ?_, ?_, ?_, ?_, ?_⟩, ?_, ?_, ?_⟩
      · intro b hb
        rw [List.mem_cons] at hb
        rcases hb with rfl | hb
        · exact hbufle
        · have := inv.next b hb; simp only; omega
      · simp [inv.count]
      · intro k d hd
        simp only [List.getElem?_set] at hd
        split at hd
        · rename_i he
          cases hd
          exact hidx.trans he
        · exact inv.idx k d hd
      · intro d hd
        obtain ⟨j, hj⟩ := List.getElem?_of_mem hd
        simp only [List.getElem?_set] at hj
        split at hj
        · · cases hj
            refine ⟨?_, ?_⟩
            · intro r rest hr
              cases hr
              simp only
              omega
            · intro r rest hr b hb hbuf
              cases hr
              simp only at hbuf ⊢
              rw [List.mem_cons] at hb
              rcases hb with rfl | hb
              · exact ⟨capacity c.idx - bytes - 1, Or.inr (by simp only; omega), rfl, rfl⟩
              · obtain ⟨i, hi, h1, h2⟩ := hslots b hb hbuf
                refine ⟨i, ?_, h1, h2⟩
                rcases hi with hi | hi
                · exact Or.inl hi
                · exact Or.inr (by simp only; omega)
        · rename_i hne
          exact (inv.classes d (List.mem_of_getElem? hj)).add (hother j d hj (Ne.symm hne))
      · refine List.pairwise_cons.mpr ⟨?_, inv.pairwise⟩
        intro b hb
        by_cases hbuf : b.1.buf = row.buf
        · obtain ⟨i, hi, h1, h2⟩ := hslots b hb hbuf
          have hne : capacity c.idx - bytes - 1 ≠ i := by omega
          rcases slots_disjoint (s := 4 * (c.idx + 1)) hne with hd | hd
          · exact Or.inr (Or.inl (by simp only; omega))
          · exact Or.inr (Or.inr (by simp only; omega))
        · exact Or.inl (fun he => hbuf he.symm)
      · rw [Heap.freed]
        simp only
        rcases hcase with ⟨⟨rest, hr, rfl⟩, rfl, rfl, hlt⟩ | ⟨rfl, rfl, rfl, rfl⟩
        · refine List.Perm.trans ?_ inv.freed
          rw [Heap.freed]
          refine List.Perm.append_right _ (List.Perm.append_left _ ?_)
          exact flatMap_set_same _ _ _ _ _ hget (by rw [hr])
        · refine List.Perm.trans ?_ (range_perm _ _ inv.freed)
          rw [Heap.freed]
          have := flatMap_set (fun c => c.rows.map (·.buf)) h.next h.classes (q - 1) c
            ⟨c.idx, ⟨h.next, 0⟩ :: c.rows, 0 + 1⟩ hget (List.Perm.refl _)
          refine ((List.Perm.append_left _ this).append_right _).trans ?_
          exact (List.perm_middle).append_right _
      · rw [Heap.destroyed]
        simp only [List.filter_cons, Bool.false_eq_true, ↓reduceIte]
        refine List.Perm.trans ?_ inv.destroyed
        rw [Heap.destroyed]
        refine List.Perm.append_left _ ?_
        refine flatMap_set_same Class.destroyed h.classes (q - 1) c _ hget ?_
        rw [Class.destroyed, Class.destroyed]
        simp only
        rcases hcase with ⟨⟨rest, hr, rfl⟩, rfl, rfl, hlt⟩ | ⟨rfl, rfl, rfl, rfl⟩
        · rw [hr]
        · rw [List.flatMap_cons]
          simp
      · simp only; omega
      · intro _
        exact cap_fits c.idx (capacity c.idx - bytes - 1) (by omega)
      · intro h'
        simp only [largeObjectSize] at h'
        omega

/-- The requests are not empty and not absurdly large. -/
def Sane (reqs : List (BitVec 64 × Bool)) : Prop := ∀ r ∈ reqs, r.1.toNat ≠ 0 ∧ r.1.toNat ≤ 2 ^ 63

theorem run_inv (reqs : List (BitVec 64 × Bool)) (hs : Sane reqs) :
    ∃ h bs, Heap.empty.run reqs = some (h, bs) ∧ Inv h bs := by
  induction reqs with
  | nil => exact ⟨_, _, rfl, inv_empty⟩
  | cons r reqs ih =>
    obtain ⟨size, isObj⟩ := r
    obtain ⟨h, bs, h1, inv⟩ := ih (fun r hr => hs r (List.mem_cons_of_mem _ hr))
    have := hs (size, isObj) List.mem_cons_self
    obtain ⟨h', b, h2, inv', _⟩ := inv.alloc size isObj this.2 this.1
    exact ⟨h', (b, isObj) :: bs, by rw [Heap.run, h1]; simp only [h2], inv'⟩

/-! ## The property -/

/-- **C31**.  Whatever is requested, every request gets a block that is large enough and inside its
buffer (1024 bytes for small blocks, the block's own buffer for large ones), and no two blocks overlap.
(Requests of zero bytes are excluded, see `zero_size_refuted`; so are those above 2⁶³ bytes.) -/
theorem blocks_disjoint_partial (reqs : List (BitVec 64 × Bool)) (hs : Sane reqs) :
    ∃ h bs, Heap.empty.run reqs = some (h, bs) ∧
      bs.map (·.2) = reqs.map (·.2) ∧
      bs.Pairwise (fun a b => Disjoint a.1 b.1) ∧
      (∀ p ∈ reqs.zip bs, p.1.1.toNat ≤ p.2.1.len) ∧
      (∀ b ∈ bs, (b.1.len ≤ 128 ∧ b.1.off + b.1.len ≤ 1024) ∨ (128 < b.1.len ∧ b.1.off = 0)) := by
  have key : ∃ h bs, Heap.empty.run reqs = some (h, bs) ∧ Inv h bs ∧
      bs.map (·.2) = reqs.map (·.2) ∧ (∀ p ∈ reqs.zip bs, p.1.1.toNat ≤ p.2.1.len) ∧
      (∀ b ∈ bs, (b.1.len ≤ 128 ∧ b.1.off + b.1.len ≤ 1024) ∨ (128 < b.1.len ∧ b.1.off = 0)) := by
    induction reqs with
    | nil => exact ⟨_, _, rfl, inv_empty, rfl, by simp, by simp⟩
    | cons r reqs ih =>
      obtain ⟨size, isObj⟩ := r
      obtain ⟨h, bs, h1, inv, h3, h4, h5⟩ := ih (fun r hr => hs r (List.mem_cons_of_mem _ hr))
      have := hs (size, isObj) List.mem_cons_self
      obtain ⟨h', b, h2, inv', k1, k2, k3⟩ := inv.alloc size isObj this.2 this.1
      refine ⟨h', (b, isObj) :: bs, by rw [Heap.run, h1]; simp only [h2], inv', by simp [h3], ?_, ?_⟩
      · intro p hp
        rw [List.zip_cons_cons, List.mem_cons] at hp
        rcases hp with rfl | hp
        · exact k1
        · exact h4 p hp
      · intro b' hb'
        rw [List.mem_cons] at hb'
        rcases hb' with rfl | hb'
        · simp only [largeObjectSize, rowSize] at k2 k3
          by_cases hlen : b.len ≤ 128
          · exact Or.inl ⟨hlen, k2 hlen⟩
          · exact Or.inr ⟨by simp only; omega, k3 (by omega)⟩
        · exact h5 b' hb'
  obtain ⟨h, bs, h1, inv, h3, h4, h5⟩ := key
  exact ⟨h, bs, h1, h3, inv.pairwise, h4, h5⟩

/-- **C31**.  When the heap goes, each object that was allocated as an object is destroyed exactly
once, nothing else is, and each buffer is freed exactly once. -/
theorem objects_destroyed_partial (reqs : List (BitVec 64 × Bool)) (hs : Sane reqs) :
    ∃ h bs, Heap.empty.run reqs = some (h, bs) ∧
      h.destroyed.Perm ((bs.filter (·.2)).map (fun b => (b.1.buf, b.1.off))) ∧
      h.freed.Nodup ∧ ∀ b ∈ bs, b.1.buf ∈ h.freed := by
  obtain ⟨h, bs, h1, inv⟩ := run_inv reqs hs
  refine ⟨h, bs, h1, inv.destroyed, inv.freed.nodup_iff.mpr List.nodup_range, ?_⟩
  intro b hb
  rw [inv.freed.mem_iff, List.mem_range]
  exact inv.next b hb

/-- **C31 refuted** for requests of zero bytes: the index of their row collection is −1. -/
theorem zero_size_refuted (h : Heap) (isObj : Bool) : h.alloc 0#64 isObj = none := by
  rw [Heap.alloc]
  rfl

/-- Objects and bytes of the same and of different sizes, some of them large. -/
example : Sane [(8#64, true), (5#64, false), (8#64, false), (200#64, true), (128#64, true), (1000#64, false)] := by
  intro r hr
  simp at hr
  rcases hr with rfl | rfl | rfl | rfl | rfl | rfl <;> decide
example : (Heap.empty.run [(8#64, false), (200#64, true), (5#64, false), (8#64, true)]).map (·.2) = some
    [(⟨0, 126 * 8, 8⟩, false), (⟨1, 0, 200⟩, true), (⟨0, 127 * 8, 8⟩, false), (⟨0, 0, 8⟩, true)] := by
  decide +kernel

/-! ## Arrays of objects -/

theorem arrays_inv (rowSize : Nat) (reqs : List Nat) :
    ∀ a bs, (Arrays.empty rowSize).run reqs = (a, bs) →
      a.rowSize = rowSize ∧ (∀ b ∈ bs, b.buf < a.next) ∧ bs.Pairwise Disjoint ∧
      bs.map (·.len) = reqs ∧ (∀ b ∈ bs, b.off + b.len ≤ max rowSize b.len) ∧
      (∀ row col size, a.current = some (row, col, size) → row < a.next ∧ size = rowSize ∧ col ≤ size ∧
        ∀ b ∈ bs, b.buf = row → b.off + b.len ≤ col) := by
  induction reqs with
  | nil =>
    intro a bs h
    cases h
    refine ⟨rfl, by simp, List.Pairwise.nil, rfl, by simp, ?_⟩
    intro row col size h
    cases h
  | cons n reqs ih =>
    intro a bs h
    rw [Arrays.run] at h
    cases hr : (Arrays.empty rowSize).run reqs with
    | mk a0 bs0 =>
      rw [hr] at h
      obtain ⟨i0, i1, i2, i3, i4, i5⟩ := ih a0 bs0 hr
      simp only at h
      have own : ∀ a', a' = (⟨a0.rowSize, a0.next + 1, a0.current⟩ : Arrays) → n ≥ rowSize →
          (a', (⟨a0.next, 0, n⟩ : Block) :: bs0) = (a, bs) →
          a.rowSize = rowSize ∧ (∀ b ∈ bs, b.buf < a.next) ∧ bs.Pairwise Disjoint ∧
          bs.map (·.len) = n :: reqs ∧ (∀ b ∈ bs, b.off + b.len ≤ max rowSize b.len) ∧
          (∀ row col size, a.current = some (row, col, size) → row < a.next ∧ size = rowSize ∧ col ≤ size ∧
            ∀ b ∈ bs, b.buf = row → b.off + b.len ≤ col) := by
        intro a' ha' hn h
        subst ha'
        cases h
        refine ⟨i0, ?_, List.pairwise_cons.mpr ⟨?_, i2⟩, by simp [i3], ?_, ?_⟩
        · intro b hb
          rw [List.mem_cons] at hb
          rcases hb with rfl | hb
          · simp
          · have := i1 b hb; simp only; omega
        · intro b hb
          have := i1 b hb
          exact Or.inl (by simp only; omega)
        · intro b hb
          rw [List.mem_cons] at hb
          rcases hb with rfl | hb
          · simp only; omega
          · exact i4 b hb
        · intro row col size hc
          obtain ⟨c1, c2, c3, c4⟩ := i5 row col size hc
          refine ⟨by simp only; omega, c2, c3, ?_⟩
          intro b hb hbuf
          rw [List.mem_cons] at hb
          rcases hb with rfl | hb
          · simp only at hbuf; omega
          · exact c4 b hb hbuf
      have fresh : n < rowSize → (a0.take (a0.next + 1) a0.next 0 a0.rowSize n).1 = a →
          (a0.take (a0.next + 1) a0.next 0 a0.rowSize n).2 :: bs0 = bs →
          a.rowSize = rowSize ∧ (∀ b ∈ bs, b.buf < a.next) ∧ bs.Pairwise Disjoint ∧
          bs.map (·.len) = n :: reqs ∧ (∀ b ∈ bs, b.off + b.len ≤ max rowSize b.len) ∧
          (∀ row col size, a.current = some (row, col, size) → row < a.next ∧ size = rowSize ∧ col ≤ size ∧
            ∀ b ∈ bs, b.buf = row → b.off + b.len ≤ col) := by
        intro hn ha hb
        subst ha
        subst hb
        refine ⟨i0, ?_, List.pairwise_cons.mpr ⟨?_, i2⟩, by simp [i3, Arrays.take], ?_, ?_⟩
        · intro b hb
          rw [List.mem_cons] at hb
          rcases hb with rfl | hb
          · simp [Arrays.take]
          · have := i1 b hb; simp only [Arrays.take]; omega
        · intro b hb
          have := i1 b hb
          exact Or.inl (by simp only [Arrays.take]; omega)
        · intro b hb
          rw [List.mem_cons] at hb
          rcases hb with rfl | hb
          · simp only [Arrays.take]; omega
          · exact i4 b hb
        · intro row col size hc
          simp only [Arrays.take, Option.some.injEq, Prod.mk.injEq] at hc
          obtain ⟨rfl, rfl, rfl⟩ := hc
          refine ⟨by simp [Arrays.take], i0, by omega, ?_⟩
          intro b hb hbuf
          rw [List.mem_cons] at hb
          rcases hb with rfl | hb
          · simp [Arrays.take]
          · have := i1 b hb; omega
      rw [Arrays.acquire] at h
      cases hc : a0.current with
      | none =>
        rw [hc] at h
        simp only at h
        split at h
        · rename_i hn
          exact own _ (by rw [hc]) (by omega) h
        · rename_i hn
          exact fresh (by omega) (congrArg Prod.fst h) (congrArg Prod.snd h)
      | some cur =>
        obtain ⟨row, col, size⟩ := cur
        obtain ⟨c1, c2, c3, c4⟩ := i5 row col size hc
        rw [hc] at h
        simp only at h
        split at h
        · split at h
          · rename_i hn
            exact own _ (by rw [hc]) (by omega) h
          · exact fresh (by omega) (congrArg Prod.fst h) (congrArg Prod.snd h)
        · rename_i hn
          have ha := congrArg Prod.fst h
          have hb := congrArg Prod.snd h
          simp only at ha hb
          subst ha
          subst hb
          refine ⟨i0, ?_, List.pairwise_cons.mpr ⟨?_, i2⟩, by simp [i3, Arrays.take], ?_, ?_⟩
          · intro b hb
            rw [List.mem_cons] at hb
            rcases hb with rfl | hb
            · simpa [Arrays.take] using c1
            · have := i1 b hb; simpa [Arrays.take] using this
          · intro b hb
            by_cases hbuf : b.buf = row
            · exact Or.inr (Or.inr (by simpa [Arrays.take] using c4 b hb hbuf))
            · exact Or.inl (by simp only [Arrays.take]; exact fun he => hbuf he.symm)
          · intro b hb
            rw [List.mem_cons] at hb
            rcases hb with rfl | hb
            · simp only [Arrays.take]; omega
            · exact i4 b hb
          · intro row' col' size' hc'
            simp only [Arrays.take, Option.some.injEq, Prod.mk.injEq] at hc'
            obtain ⟨rfl, rfl, rfl⟩ := hc'
            refine ⟨by simpa [Arrays.take] using c1, c2, by omega, ?_⟩
            intro b hb hbuf
            rw [List.mem_cons] at hb
            rcases hb with rfl | hb
            · simp [Arrays.take]
            · have := c4 b hb hbuf; omega

/-- **C31**, for arrays of objects.  Whatever sizes are requested, the arrays have exactly these sizes,
lie inside their buffers and do not overlap. -/
theorem arrays_disjoint (rowSize : Nat) (reqs : List Nat) :
    ((Arrays.empty rowSize).run reqs).2.Pairwise Disjoint ∧
    ((Arrays.empty rowSize).run reqs).2.map (·.len) = reqs ∧
    ∀ b ∈ ((Arrays.empty rowSize).run reqs).2, b.off + b.len ≤ max rowSize b.len := by
  obtain ⟨_, _, h1, h2, h3, _⟩ := arrays_inv rowSize reqs _ _ rfl
  exact ⟨h1, h2, h3⟩

example : ((Arrays.empty 10).run [3, 20, 4, 5, 0, 3]).2 = [⟨1, 4, 3⟩, ⟨2, 0, 20⟩, ⟨1, 0, 4⟩, ⟨0, 3, 5⟩, ⟨0, 3, 0⟩, ⟨0, 0, 3⟩] := by
  decide

end Verif.XHeap.Props
