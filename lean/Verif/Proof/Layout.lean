import Verif.Model.Layout

/-! Lemmas about the places of local variables. -/

namespace Verif.Layout

open Verif.Arr (unitAlign alignf)

theorem unitAlign_ge (offset size : Nat) : offset ≤ unitAlign offset size := by
  unfold unitAlign alignf; split <;> omega

theorem unitAlign_le (offset size : Nat) : unitAlign offset size ≤ offset + 7 := by
  unfold unitAlign alignf; split <;> omega

/-- The bytes that a list of items may need. -/
def weight (size : Nat → Nat) (xs : List Nat) : Nat := (xs.map fun x => size x + 7).sum

theorem weight_cons (size : Nat → Nat) (x : Nat) (xs : List Nat) :
    weight size (x :: xs) = size x + 7 + weight size xs := by simp [weight]

theorem weight_append (size : Nat → Nat) (xs ys : List Nat) :
    weight size (xs ++ ys) = weight size xs + weight size ys := by simp [weight]

theorem weight_perm {size : Nat → Nat} {xs ys : List Nat} (h : xs.Perm ys) : weight size xs = weight size ys := by
  unfold weight; exact (h.map _).sum_nat

theorem after_spec {offset size : Nat} (h : offset + (size + 7) < 65536) :
    offset + size ≤ after offset size ∧ after offset size ≤ offset + (size + 7) := by
  have h1 := unitAlign_ge offset size
  have h2 := unitAlign_le offset size
  unfold after m16
  rw [Nat.mod_eq_of_lt (by omega)]
  omega

/-- Two items do not overlap. -/
def Apart (size : Nat → Nat) (g : Offsets) (x y : Nat) : Prop := g x + size x ≤ g y ∨ g y + size y ≤ g x

theorem Apart.symm {size : Nat → Nat} {g : Offsets} {x y : Nat} (h : Apart size g x y) : Apart size g y x :=
  Or.symm h

/-- The items of a list were put between two offsets. -/
structure Placed (size : Nat → Nat) (xs : List Nat) (lo hi : Nat) (f g : Offsets) : Prop where
  frame : ∀ x, x ∉ xs → g x = f x
  range : ∀ x, x ∈ xs → lo ≤ g x ∧ g x + size x ≤ hi
  apart : ∀ x y, x ∈ xs → y ∈ xs → x ≠ y → Apart size g x y
  le : lo ≤ hi

theorem Placed.nil (size : Nat → Nat) (lo : Nat) (f : Offsets) : Placed size [] lo lo f f :=
  ⟨fun _ _ => rfl, (by intro _ h; cases h), (by intro _ _ h; cases h), Nat.le_refl _⟩

theorem Placed.perm {size : Nat → Nat} {xs ys : List Nat} {lo hi : Nat} {f g : Offsets}
    (h : Placed size xs lo hi f g) (hp : xs.Perm ys) : Placed size ys lo hi f g :=
  ⟨fun x hx => h.frame x (fun h => hx (hp.mem_iff.1 h)), fun x hx => h.range x (hp.mem_iff.2 hx),
   fun x y hx hy => h.apart x y (hp.mem_iff.2 hx) (hp.mem_iff.2 hy), h.le⟩

theorem Placed.trans {size : Nat → Nat} {xs ys : List Nat} {lo mid hi : Nat} {f g k : Offsets}
    (h1 : Placed size xs lo mid f g) (h2 : Placed size ys mid hi g k) :
    Placed size (xs ++ ys) lo hi f k := by
  have l1 := h1.le
  have l2 := h2.le
  refine ⟨?_, ?_, ?_, by omega⟩
  · intro x hx
    rw [List.mem_append] at hx
    rw [h2.frame x (fun h => hx (.inr h)), h1.frame x (fun h => hx (.inl h))]
  · intro x hx
    by_cases hy : x ∈ ys
    · have := h2.range x hy; omega
    · have h3 := h1.range x ((List.mem_append.1 hx).resolve_right hy)
      rw [h2.frame x hy]; omega
  · intro x y hx hy hne
    by_cases hx2 : x ∈ ys <;> by_cases hy2 : y ∈ ys
    · exact h2.apart x y hx2 hy2 hne
    · have h3 := h1.range y ((List.mem_append.1 hy).resolve_right hy2)
      have h4 := h2.range x hx2
      right; rw [h2.frame y hy2]; omega
    · have h3 := h1.range x ((List.mem_append.1 hx).resolve_right hx2)
      have h4 := h2.range y hy2
      left; rw [h2.frame x hx2]; omega
    · have := h1.apart x y ((List.mem_append.1 hx).resolve_right hx2) ((List.mem_append.1 hy).resolve_right hy2) hne
      unfold Apart at this ⊢
      rw [h2.frame x hx2, h2.frame y hy2]; exact this

theorem Placed.one {size : Nat → Nat} {x offset : Nat} {f : Offsets} (h : offset + (size x + 7) < 65536) :
    Placed size [x] offset (after offset (size x)) f (f.set x offset) := by
  have h1 := after_spec h
  refine ⟨?_, ?_, ?_, by omega⟩
  · intro y hy
    simp only [List.mem_singleton] at hy
    simp [Offsets.set, hy]
  · intro y hy
    simp only [List.mem_singleton] at hy
    subst hy
    simp only [Offsets.set, if_pos]; omega
  · intro y z hy hz hne
    simp only [List.mem_singleton] at hy hz
    exact absurd (hy.trans hz.symm) hne

theorem placeAll_ok (size : Nat → Nat) : ∀ (xs : List Nat) (offset : Nat) (f : Offsets), xs.Nodup →
    offset + weight size xs < 65536 →
    Placed size xs offset (placeAll size xs offset f).1 f (placeAll size xs offset f).2 ∧
      (placeAll size xs offset f).1 ≤ offset + weight size xs
  | [], offset, f, _, _ => ⟨Placed.nil _ _ _, by simp [placeAll, weight]⟩
  | x :: xs, offset, f, hn, hw => by
    rw [weight_cons] at hw
    have h1 := after_spec (offset := offset) (size := size x) (by omega)
    have hn' := List.nodup_cons.1 hn
    have ih := placeAll_ok size xs (after offset (size x)) (f.set x offset) hn'.2 (by omega)
    have hp := Placed.one (size := size) (x := x) (offset := offset) (f := f) (by omega)
    rw [placeAll, weight_cons]
    refine ⟨?_, by omega⟩
    exact hp.trans ih.1

theorem fillGap_ok (size : Nat → Nat) (first aligned : Nat) : ∀ (xs : List Nat) (offset : Nat) (f : Offsets),
    xs.Nodup → offset + weight size xs < 65536 →
    ∃ done rest, xs = done ++ rest ∧ (fillGap size first aligned xs offset f).1 = rest ∧
      Placed size done offset (fillGap size first aligned xs offset f).2.1 f
        (fillGap size first aligned xs offset f).2.2 ∧
      (fillGap size first aligned xs offset f).2.1 ≤ offset + weight size done
  | [], offset, f, _, _ => ⟨[], [], rfl, by simp [fillGap], by simpa [fillGap] using Placed.nil size offset f,
      by simp [fillGap]⟩
  | [x], offset, f, _, _ => ⟨[], [x], rfl, by simp [fillGap], by simpa [fillGap] using Placed.nil size offset f,
      by simp [fillGap]⟩
  | x :: y :: xs, offset, f, hn, hw => by
    rw [weight_cons] at hw
    have h1 := after_spec (offset := offset) (size := size x) (by omega)
    have hn' := List.nodup_cons.1 hn
    have hp := Placed.one (size := size) (x := x) (offset := offset) (f := f) (by omega)
    rw [fillGap]
    by_cases hc : unitAlign offset first = offset
    · rw [if_pos hc]
      exact ⟨[], x :: y :: xs, rfl, rfl, Placed.nil _ _ _, by simp⟩
    · rw [if_neg hc]
      simp only
      by_cases ha : after offset (size x) ≤ aligned
      · rw [if_pos ha]
        by_cases hb : after offset (size x) ≥ aligned
        · rw [if_pos hb]
          exact ⟨[x], y :: xs, rfl, rfl, hp, by simp only [weight_cons]; omega⟩
        · rw [if_neg hb]
          obtain ⟨done, rest, e1, e2, e3, e4⟩ :=
            fillGap_ok size first aligned (y :: xs) (after offset (size x)) (f.set x offset) hn'.2 (by omega)
          refine ⟨x :: done, rest, by rw [e1]; rfl, e2, ?_, by rw [weight_cons]; omega⟩
          exact hp.trans e3
      · rw [if_neg ha]
        exact ⟨[], x :: y :: xs, rfl, rfl, Placed.nil _ _ _, by simp⟩

theorem setOffsets_ok (size : Nat → Nat) (offset first : Nat) (xs : List Nat) (f : Offsets) (hn : xs.Nodup)
    (hw : offset + weight size xs < 65536) :
    Placed size xs offset (setOffsets size offset first xs f).1 f (setOffsets size offset first xs f).2 ∧
      (setOffsets size offset first xs f).1 ≤ offset + weight size xs := by
  have hr : xs.reverse.Perm xs := List.reverse_perm xs
  have hwr := weight_perm (size := size) hr
  obtain ⟨done, rest, e1, e2, e3, e4⟩ := fillGap_ok size first (m16 (unitAlign offset first)) xs.reverse offset f
    (hr.nodup_iff.2 hn) (by omega)
  have hw2 : weight size done + weight size rest = weight size xs := by rw [← weight_append, ← e1, hwr]
  have hrr : rest.reverse.Perm rest := List.reverse_perm rest
  have hnr : (done ++ rest).Nodup := by rw [← e1]; exact hr.nodup_iff.2 hn
  have hna := List.nodup_append.1 hnr
  have hwrr := weight_perm (size := size) hrr
  have h := placeAll_ok size rest.reverse (fillGap size first (m16 (unitAlign offset first)) xs.reverse offset f).2.1
    (fillGap size first (m16 (unitAlign offset first)) xs.reverse offset f).2.2 (hrr.nodup_iff.2 hna.2.1) (by omega)
  unfold setOffsets
  simp only [e2]
  refine ⟨?_, by omega⟩
  refine (e3.trans (h.1.perm hrr)).perm ?_
  rw [← e1]; exact hr

/-! ## One group -/

/-- What is fixed while a group is arranged: its items in order, the fresh index at each position, its partials. -/
structure Shape (o : List Nat) (ns : Nat → Nat) (P : List (Nat × Nat)) : Prop where
  nodup : o.Nodup
  noSkip : ∀ k, k + 1 < o.length → ns (k + 1) ≤ ns k + 1
  begins : ∀ x, x ∈ P → x.2 < o.length ∧ ns x.2 = x.1
  sorted : P.Pairwise fun x y => x.2 < y.2
  run : ∀ k, k + 1 < o.length → (∀ x, x ∈ P → x.2 ≠ k + 1) → ns (k + 1) = ns k + 1

/-- A place where sorting never moves items across. -/
def Cut (o : List Nat) (ns : Nat → Nat) (P : List (Nat × Nat)) (q : Nat) : Prop :=
  q = o.length ∨ (∃ x, x ∈ P ∧ x.2 = q) ∨
    ∃ x, x ∈ P ∧ q < x.2 ∧ ns x.2 = ns q ∧ ∀ k, q < k → k < x.2 → ns q ≤ ns k

/-- The items are those of the group, but for the order between cuts. -/
def Keeps (o : List Nat) (ns : Nat → Nat) (P : List (Nat × Nat)) (items : List Nat) : Prop :=
  items.Perm o ∧ ∀ q, Cut o ns P q → (items.take q).Perm (o.take q)

/-- A call for a partial and those that follow. -/
structure Call (o : List Nat) (ns : Nat → Nat) (P : List (Nat × Nat)) (p b : Nat) (rest : List (Nat × Nat)) :
    Prop where
  lt : b < o.length
  index : ns b = p
  cut : Cut o ns P b
  sub : ∀ x, x ∈ rest → x ∈ P ∧ b ≤ x.2
  sorted : rest.Pairwise fun x y => x.2 < y.2
  all : ∀ x, x ∈ P → b < x.2 → x ∈ rest

theorem Call.run {o : List Nat} {ns : Nat → Nat} {P : List (Nat × Nat)} {p b : Nat} {rest : List (Nat × Nat)}
    (h : Call o ns P p b rest) (hS : Shape o ns P) (e : Nat) (he : e ≤ o.length) (hr : ∀ x, x ∈ rest → e ≤ x.2) :
    ∀ k, b + k < e → ns (b + k) = p + k
  | 0, _ => by simpa using h.index
  | k + 1, hk => by
    have ih := Call.run h hS e he hr k (by omega)
    have := hS.run (b + k) (by omega) (by
      intro x hx he2
      have hxr := h.all x hx (by omega)
      have := hr x hxr
      omega)
    rw [← Nat.add_assoc, this, ih]; omega

theorem minIndex_le (p : Nat) : ∀ (done : List (Nat × Nat)) (x : Nat × Nat) (tl : List (Nat × Nat)),
    (∀ y, y ∈ done → p < y.1) → p < x.1 →
    ∃ c, (minIndex p (done ++ x :: tl)).1 = some c ∧ c ≤ x.1 ∧ ∀ y, y ∈ done → c ≤ y.1
  | [], x, tl, _, hx => by
    obtain ⟨i, b⟩ := x
    have hi : ¬ i ≤ p := by simp only at hx; omega
    simp only [List.nil_append, minIndex, hi, if_false]
    refine ⟨_, rfl, ?_, by intro y hy; cases hy⟩
    split
    · exact Nat.le_refl _
    · exact Nat.min_le_left _ _
  | (i, b) :: done, x, tl, hd, hx => by
    obtain ⟨c, c1, c2, c3⟩ := minIndex_le p done x tl (fun y hy => hd y (List.mem_cons_of_mem _ hy)) hx
    have hi : ¬ i ≤ p := by have := hd (i, b) List.mem_cons_self; simp only at this; omega
    refine ⟨min i c, by simp [minIndex, hi, c1], by omega, ?_⟩
    intro y hy
    rcases List.mem_cons.1 hy with h | h
    · subst h; exact Nat.min_le_left _ _
    · exact Nat.le_trans (Nat.min_le_right _ _) (c3 y h)

theorem minIndex_some (p : Nat) : ∀ (rest : List (Nat × Nat)) (c : Nat), (minIndex p rest).1 = some c →
    ∃ done x tl, rest = done ++ x :: tl ∧ (∀ y, y ∈ done → p < y.1) ∧ x.1 = c ∧ p < c
  | [], c, h => by simp [minIndex] at h
  | (i, b) :: rest, c, h => by
    by_cases hi : i ≤ p
    · simp [minIndex, hi] at h
    · simp only [minIndex, hi, if_false] at h
      cases hm : (minIndex p rest).1 with
      | none =>
        rw [hm] at h
        simp only [Option.some.injEq] at h
        exact ⟨[], (i, b), rest, rfl, (by intro y hy; cases hy), h, by omega⟩
      | some m =>
        rw [hm] at h
        simp only [Option.some.injEq] at h
        by_cases him : i ≤ m
        · exact ⟨[], (i, b), rest, rfl, (by intro y hy; cases hy), by simp only; omega, by omega⟩
        · obtain ⟨done, x, tl, e1, e2, e3, e4⟩ := minIndex_some p rest m hm
          refine ⟨(i, b) :: done, x, tl, by rw [e1]; rfl, ?_, by omega, by omega⟩
          intro y hy
          rcases List.mem_cons.1 hy with h | h
          · subst h; simp only; omega
          · exact e2 y h

theorem minIndex_none (p : Nat) : ∀ (rest : List (Nat × Nat)), (minIndex p rest).1 = none →
    (rest = [] ∧ (minIndex p rest).2 = none) ∨
      ∃ i b tl, rest = (i, b) :: tl ∧ i ≤ p ∧ (minIndex p rest).2 = some b
  | [], _ => .inl ⟨rfl, rfl⟩
  | (i, b) :: rest, h => by
    by_cases hi : i ≤ p
    · exact .inr ⟨i, b, rest, rfl, hi, by simp [minIndex, hi]⟩
    · simp [minIndex, hi] at h

/-- The call for one of the partials that follow. -/
theorem Call.later {o : List Nat} {ns : Nat → Nat} {P : List (Nat × Nat)} {p b : Nat} {rest : List (Nat × Nat)}
    (h : Call o ns P p b rest) (hS : Shape o ns P) {done tl : List (Nat × Nat)} {x : Nat × Nat}
    (e : rest = done ++ x :: tl) : Call o ns P x.1 x.2 tl := by
  subst e
  have hx := h.sub x (by simp)
  have hb := hS.begins x hx.1
  have hs := List.pairwise_append.1 h.sorted
  have hs2 := List.pairwise_cons.1 hs.2.1
  refine ⟨hb.1, hb.2, .inr (.inl ⟨x, hx.1, rfl⟩), ?_, hs2.2, ?_⟩
  · intro y hy
    exact ⟨(h.sub y (by simp [hy])).1, Nat.le_of_lt (hs2.1 y hy)⟩
  · intro y hy hlt
    have hm := h.all y hy (by omega)
    rcases List.mem_append.1 hm with h1 | h1
    · have := hs.2.2 y h1 x List.mem_cons_self; omega
    · rcases List.mem_cons.1 h1 with h2 | h2
      · subst h2; omega
      · exact h2

theorem Call.child {o : List Nat} {ns : Nat → Nat} {P : List (Nat × Nat)} {p b c : Nat} {rest : List (Nat × Nat)}
    (h : Call o ns P p b rest) (hS : Shape o ns P) (hm : (minIndex p rest).1 = some c) :
    p < c ∧ Call o ns P c (b + (c - p)) rest ∧
      (∀ q, b < q → q < b + (c - p) → ¬ Cut o ns P q) ∧
      (∀ done x tl, rest = done ++ x :: tl → (∀ y, y ∈ done → p < y.1) → p < x.1 →
        b + (c - p) ≤ x.2 ∧ ∀ k, b + (c - p) ≤ k → k < x.2 → c ≤ ns k) := by
  obtain ⟨done, x, tl, e1, e2, e3, e4⟩ := minIndex_some p rest c hm
  -- the first of the partials that follow
  have hfirst : ∃ i b1 tl1, rest = (i, b1) :: tl1 ∧ p < i := by
    cases done with
    | nil => exact ⟨x.1, x.2, tl, e1, by omega⟩
    | cons y done => exact ⟨y.1, y.2, done ++ x :: tl, e1, e2 y List.mem_cons_self⟩
  obtain ⟨i, b1, tl1, f1, f2⟩ := hfirst
  have hci : c ≤ i := by
    obtain ⟨c', g1, g2, _⟩ := minIndex_le p [] (i, b1) tl1 (by intro y hy; cases hy) f2
    rw [List.nil_append, ← f1, hm] at g1
    simp only [Option.some.injEq] at g1
    subst g1; exact g2
  have hx1 := h.sub (i, b1) (by rw [f1]; simp)
  have hb1 := hS.begins _ hx1.1
  simp only at hx1 hb1
  have hge1 : ∀ y, y ∈ rest → b1 ≤ y.2 := by
    intro y hy
    rw [f1] at hy
    rcases List.mem_cons.1 hy with h2 | h2
    · subst h2; exact Nat.le_refl _
    · have hs := h.sorted
      rw [f1] at hs
      exact Nat.le_of_lt ((List.pairwise_cons.1 hs).1 y h2)
  have hrun := h.run hS b1 (by omega) hge1
  have hbb : b < b1 := by
    rcases Nat.lt_or_ge b b1 with h1 | h1
    · exact h1
    · have : b1 = b := by omega
      have hi := h.index
      rw [← this] at hi
      omega
  have hi_le : i ≤ p + (b1 - b) := by
    have h1 := hS.noSkip (b1 - 1) (by omega)
    have h2 := hrun (b1 - 1 - b) (by omega)
    have h3 : b + (b1 - 1 - b) = b1 - 1 := by omega
    have h4 : b1 - 1 + 1 = b1 := by omega
    rw [h3] at h2
    rw [h4, h2] at h1
    omega
  have he1 : b + (c - p) ≤ b1 := by omega
  have hlast : ∀ done x tl, rest = done ++ x :: tl → (∀ y, y ∈ done → p < y.1) → p < x.1 →
        b + (c - p) ≤ x.2 ∧ ∀ k, b + (c - p) ≤ k → k < x.2 → c ≤ ns k := by
    intro done x tl e1 e2 e3
    have hle : c ≤ x.1 ∧ ∀ y, y ∈ done → c ≤ y.1 := by
      obtain ⟨c', g1, g2, g3⟩ := minIndex_le p done x tl e2 e3
      rw [← e1, hm] at g1
      simp only [Option.some.injEq] at g1
      subst g1; exact ⟨g2, g3⟩
    have hxb : b1 ≤ x.2 := hge1 x (by rw [e1]; simp)
    refine ⟨by omega, ?_⟩
    have hxl := hS.begins x (h.sub x (by rw [e1]; simp)).1
    have hmid : ∀ d, b1 + d < x.2 → c ≤ ns (b1 + d) := by
      intro d
      induction d with
      | zero => intro _; rw [Nat.add_zero, hb1.2]; exact hci
      | succ d ih =>
        intro hd
        have ih := ih (by omega)
        by_cases hb : ∃ y, y ∈ P ∧ y.2 = b1 + d + 1
        · obtain ⟨y, hy, hy2⟩ := hb
          have hyr := h.all y hy (by omega)
          have hs := h.sorted
          rw [e1] at hyr hs
          have hs := List.pairwise_append.1 hs
          have hyd : y ∈ done := by
            rcases List.mem_append.1 hyr with h1 | h1
            · exact h1
            · rcases List.mem_cons.1 h1 with h2 | h2
              · subst h2; omega
              · have := (List.pairwise_cons.1 hs.2.1).1 y h2; omega
          have := hle.2 y hyd
          rw [← Nat.add_assoc, ← hy2, (hS.begins y hy).2]; exact this
        · have := hS.run (b1 + d) (by omega) (fun y hy h2 => hb ⟨y, hy, h2⟩)
          rw [← Nat.add_assoc, this]; omega
    intro k hk1 hk2
    by_cases hk : k < b1
    · have := hrun (k - b) (by omega)
      rw [Nat.add_sub_cancel' (by omega)] at this
      rw [this]; omega
    · have := hmid (k - b1) (by omega)
      rwa [Nat.add_sub_cancel' (by omega)] at this
  refine ⟨e4, ⟨by omega, ?_, ?_, ?_, h.sorted, ?_⟩, ?_, hlast⟩
  · by_cases hlt : b + (c - p) < b1
    · rw [hrun _ hlt]; omega
    · have h2 : b + (c - p) = b1 := by omega
      rw [h2, hb1.2]; omega
  · by_cases hlt : b + (c - p) < b1
    · refine .inr (.inr ⟨x, (h.sub x (by rw [e1]; simp)).1, ?_, ?_, ?_⟩)
      · have := hge1 x (by rw [e1]; simp); omega
      · rw [(hS.begins x (h.sub x (by rw [e1]; simp)).1).2, hrun _ hlt]; omega
      · intro k h1 h2
        have := (hlast done x tl e1 e2 (by omega)).2 k (by omega) h2
        rw [hrun _ hlt]; omega
    · exact .inr (.inl ⟨(i, b1), hx1.1, by simp only; omega⟩)
  · intro y hy
    have := hge1 y hy
    exact ⟨(h.sub y hy).1, by omega⟩
  · intro y hy hlt
    exact h.all y hy (by omega)
  · intro q h1 h2 hcut
    have hq := hrun (q - b) (by omega)
    rw [Nat.add_sub_cancel' (by omega)] at hq
    rcases hcut with hc | ⟨y, hy, hc⟩ | ⟨y, hy, hc1, hc2, hc3⟩
    · omega
    · have := hge1 y (h.all y hy (by omega)); omega
    · have hyr := h.all y hy (by omega)
      obtain ⟨d, t, hd⟩ := List.append_of_mem hyr
      have hyb := hS.begins y hy
      by_cases hall : ∀ z, z ∈ d → p < z.1
      · obtain ⟨c', g1, g2, _⟩ := minIndex_le p d y t hall (by omega)
        rw [← hd, hm] at g1
        simp only [Option.some.injEq] at g1
        omega
      · simp only [Classical.not_forall, Nat.not_lt] at hall
        obtain ⟨z, hz, hzp⟩ := hall
        have hs := h.sorted
        rw [hd] at hs
        have hzy := (List.pairwise_append.1 hs).2.2 z hz y List.mem_cons_self
        have hzr : z ∈ rest := by rw [hd]; simp [hz]
        have hzb := hge1 z hzr
        have := hc3 z.2 (by omega) hzy
        rw [(hS.begins z (h.sub z hzr).1).2] at this
        omega

theorem nodup_take_drop {o : List Nat} (h : o.Nodup) (b n : Nat) : ((o.drop b).take n).Nodup :=
  ((List.take_sublist _ _).trans (List.drop_sublist _ _)).nodup h

/-- A range between two neighbouring cuts. -/
theorem range_perm {items o : List Nat} {b e : Nat} (hbe : b ≤ e) (h1 : (items.take b).Perm (o.take b))
    (h2 : (items.take e).Perm (o.take e)) : ((items.drop b).take (e - b)).Perm ((o.drop b).take (e - b)) := by
  have s1 : items.take e = items.take b ++ (items.drop b).take (e - b) := by
    have := List.take_add (l := items) (i := b) (j := e - b)
    rwa [Nat.add_sub_cancel' hbe] at this
  have s2 : o.take e = o.take b ++ (o.drop b).take (e - b) := by
    have := List.take_add (l := o) (i := b) (j := e - b)
    rwa [Nat.add_sub_cancel' hbe] at this
  rw [s1, s2] at h2
  exact (List.perm_append_left_iff _).1 (h2.trans (h1.symm.append_right _))

/-- `setRange` between neighbouring cuts. -/
theorem setRange_ok {size : Nat → Nat} {sort : List Nat → List Nat} (hsort : ∀ xs, (sort xs).Perm xs)
    {o : List Nat} {ns : Nat → Nat} {P : List (Nat × Nat)} (hS : Shape o ns P) {b e offset : Nat} {s : State}
    (hK : Keeps o ns P s.items) (hb : b < o.length) (hbe : b ≤ e) (he : e ≤ o.length) (hcb : Cut o ns P b)
    (hce : Cut o ns P e) (hin : ∀ q, b < q → q < e → ¬ Cut o ns P q)
    (hw : offset + weight size ((o.drop b).take (e - b)) < 65536) :
    ∃ s' new, setRange size sort b e offset s = some (s', new) ∧ Keeps o ns P s'.items ∧
      Placed size ((o.drop b).take (e - b)) offset new s.offsets s'.offsets ∧
      new ≤ offset + weight size ((o.drop b).take (e - b)) := by
  have hlen : s.items.length = o.length := hK.1.length_eq
  have hrp := range_perm hbe (hK.2 b hcb) (hK.2 e hce)
  have hsp := (hsort ((s.items.drop b).take (e - b))).trans hrp
  have hsplit : s.items = s.items.take b ++ ((s.items.drop b).take (e - b) ++ s.items.drop e) := by
    have h1 : s.items.drop b = (s.items.drop b).take (e - b) ++ s.items.drop e := by
      have := (List.take_append_drop (e - b) (s.items.drop b)).symm
      rwa [List.drop_drop, Nat.add_sub_cancel' hbe] at this
    rw [← h1, List.take_append_drop]
  have hitems : (s.items.take b ++ sort ((s.items.drop b).take (e - b)) ++ s.items.drop e).Perm s.items := by
    conv => rhs; rw [hsplit]
    rw [List.append_assoc]
    exact List.Perm.append_left _ ((hsort _).append_right _)
  unfold setRange
  rw [if_neg (by omega)]
  simp only
  have hlt : b < (s.items.take b ++ sort ((s.items.drop b).take (e - b)) ++ s.items.drop e).length := by
    rw [hitems.length_eq]; omega
  rw [List.getElem?_eq_getElem hlt]
  simp only
  have hnd : (sort ((s.items.drop b).take (e - b))).Nodup := hsp.nodup_iff.2 (nodup_take_drop hS.nodup _ _)
  have hwe := weight_perm (size := size) hsp
  have hset := fun first => setOffsets_ok size offset first (sort ((s.items.drop b).take (e - b))) s.offsets hnd
    (by omega)
  refine ⟨_, _, rfl, ⟨hitems.trans hK.1, ?_⟩, (hset _).1.perm hsp, by rw [← hwe]; exact (hset _).2⟩
  intro q hq
  refine List.Perm.trans ?_ (hK.2 q hq)
  show (List.take q (s.items.take b ++ sort ((s.items.drop b).take (e - b)) ++ s.items.drop e)).Perm _
  by_cases h1 : q ≤ b
  · rw [List.append_assoc, List.take_append_of_le_length (by rw [List.length_take]; omega), List.take_take,
      Nat.min_eq_left h1]
  · by_cases h2 : q < e
    · exact absurd hq (hin q (by omega) h2)
    · have hl : (s.items.take b ++ sort ((s.items.drop b).take (e - b))).length = e := by
        rw [List.length_append, hsp.length_eq, List.length_take, List.length_take, List.length_drop]
        omega
      rw [List.take_append, hl, List.take_of_length_le (by omega)]
      have h3 : s.items.take q = s.items.take b ++ ((s.items.drop b).take (e - b) ++ (s.items.drop e).take (q - e)) := by
        have l1 : (s.items.take b).length = b := by rw [List.length_take]; omega
        have l2 : ((s.items.drop b).take (e - b)).length = e - b := by
          rw [List.length_take, List.length_drop]; omega
        conv => lhs; rw [hsplit]
        rw [List.take_append, List.take_append, l1, l2, List.take_of_length_le (by omega),
          List.take_of_length_le (l := (s.items.drop b).take (e - b)) (by omega)]
        congr 3; omega
      rw [h3, List.append_assoc]
      exact List.Perm.append_left _ ((hsort _).append_right _)

/-- The items from a position on were put between two offsets; those in scope together do not overlap. -/
structure Good (size : Nat → Nat) (o : List Nat) (ns : Nat → Nat) (b lo hi : Nat) (f g : Offsets) : Prop where
  frame : ∀ x, x ∉ o.drop b → g x = f x
  range : ∀ x, x ∈ o.drop b → lo ≤ g x ∧ g x + size x ≤ hi
  apart : ∀ (k l x y : Nat), b ≤ k → k < l → o[k]? = some x → o[l]? = some y →
    (∀ m, k < m → m ≤ l → ns k < ns m) → Apart size g x y

theorem mem_drop_of_getElem? {o : List Nat} {b k x : Nat} (h : b ≤ k) (hx : o[k]? = some x) : x ∈ o.drop b := by
  rw [List.mem_iff_getElem?]
  exact ⟨k - b, by rw [List.getElem?_drop, Nat.add_sub_cancel' h]; exact hx⟩

theorem mem_range_of_getElem? {o : List Nat} {b e k x : Nat} (h : b ≤ k) (h2 : k < e) (hx : o[k]? = some x) :
    x ∈ (o.drop b).take (e - b) := by
  rw [List.mem_iff_getElem?]
  exact ⟨k - b, by
    rw [List.getElem?_take, if_pos (by omega), List.getElem?_drop, Nat.add_sub_cancel' h]; exact hx⟩

theorem drop_split {o : List Nat} {b e : Nat} (h : b ≤ e) : o.drop b = (o.drop b).take (e - b) ++ o.drop e := by
  have := (List.take_append_drop (e - b) (o.drop b)).symm
  rwa [List.drop_drop, Nat.add_sub_cancel' h] at this

theorem range_not_drop {o : List Nat} (hn : o.Nodup) {b e x : Nat} (h : b ≤ e) (hx : x ∈ (o.drop b).take (e - b)) :
    x ∉ o.drop e := by
  have h1 : (o.drop b).Nodup := (List.drop_sublist _ _).nodup hn
  rw [drop_split h] at h1
  exact fun hy => (List.nodup_append.1 h1).2.2 x hx x hy rfl

theorem getElem?_ne {o : List Nat} (hn : o.Nodup) {k l x y : Nat} (hkl : k < l) (hx : o[k]? = some x)
    (hy : o[l]? = some y) : x ≠ y := by
  intro h
  subst h
  have h1 := mem_range_of_getElem? (b := k) (e := l) (Nat.le_refl _) hkl hx
  exact range_not_drop hn (Nat.le_of_lt hkl) h1 (mem_drop_of_getElem? (Nat.le_refl _) hy)

theorem Good.step {size : Nat → Nat} {o : List Nat} {ns : Nat → Nat} {b e lo mid lo2 hi2 hi : Nat}
    {f g h : Offsets} (hn : o.Nodup) (hbe : b ≤ e)
    (h1 : Placed size ((o.drop b).take (e - b)) lo mid f g) (h2 : Good size o ns e lo2 hi2 g h) (hlo : lo ≤ lo2)
    (hmid : mid ≤ hi) (hhi : hi2 ≤ hi)
    (hsep : mid ≤ lo2 ∨ ∀ k, b ≤ k → k < e → ns e ≤ ns k) : Good size o ns b lo hi f h := by
  have hkeep : ∀ x, x ∈ (o.drop b).take (e - b) → h x = g x := fun x hx => h2.frame x (range_not_drop hn hbe hx)
  refine ⟨?_, ?_, ?_⟩
  · intro x hx
    rw [drop_split hbe, List.mem_append] at hx
    rw [h2.frame x (fun h => hx (.inr h)), h1.frame x (fun h => hx (.inl h))]
  · intro x hx
    rw [drop_split hbe, List.mem_append] at hx
    rcases hx with hx | hx
    · have := h1.range x hx
      rw [hkeep x hx]; omega
    · have := h2.range x hx; omega
  · intro k l x y hk hkl hx hy hco
    by_cases hke : e ≤ k
    · exact h2.apart k l x y hke hkl hx hy hco
    · have hxr := mem_range_of_getElem? (e := e) hk (by omega) hx
      by_cases hle : l < e
      · have hyr := mem_range_of_getElem? (b := b) (by omega) hle hy
        have := h1.apart x y hxr hyr (getElem?_ne hn hkl hx hy)
        unfold Apart at this ⊢
        rw [hkeep x hxr, hkeep y hyr]; exact this
      · rcases hsep with hs | hs
        · have r1 := h1.range x hxr
          have r2 := h2.range y (mem_drop_of_getElem? (by omega) hy)
          left
          rw [hkeep x hxr]; omega
        · have h3 := hs k hk (by omega)
          have h4 := hco e (by omega) (by omega)
          omega

theorem Good.again {size : Nat → Nat} {o : List Nat} {ns : Nat → Nat} {e b' lo hi hi' : Nat} {f g h : Offsets}
    (hn : o.Nodup) (he : e ≤ b') (h1 : Good size o ns e lo hi f g) (h2 : Good size o ns b' lo hi' g h)
    (hns : ∀ k, e ≤ k → k < b' → ns b' ≤ ns k) : Good size o ns e lo (max hi hi') f h := by
  have hsub : ∀ x, x ∈ o.drop b' → x ∈ o.drop e := by
    intro x hx; rw [drop_split he]; exact List.mem_append_right _ hx
  refine ⟨?_, ?_, ?_⟩
  · intro x hx
    rw [h2.frame x (fun h => hx (hsub x h)), h1.frame x hx]
  · intro x hx
    by_cases hx2 : x ∈ o.drop b'
    · have := h2.range x hx2; omega
    · have := h1.range x hx
      rw [h2.frame x hx2]; omega
  · intro k l x y hk hkl hx hy hco
    by_cases hkb : b' ≤ k
    · exact h2.apart k l x y hkb hkl hx hy hco
    · by_cases hlb : l < b'
      · have ha := h1.apart k l x y hk hkl hx hy hco
        have hxd := range_not_drop hn (b := k) (e := b') (by omega)
          (mem_range_of_getElem? (Nat.le_refl _) (by omega) hx)
        have hyd := range_not_drop hn (b := l) (e := b') (by omega)
          (mem_range_of_getElem? (Nat.le_refl _) (by omega) hy)
        unfold Apart at ha ⊢
        rw [h2.frame x hxd, h2.frame y hyd]; exact ha
      · have h3 := hns k hk (by omega)
        have h4 := hco b' (by omega) (by omega)
        omega

/-- The loop over the children. -/
theorem children_ok {size : Nat → Nat} {o : List Nat} {ns : Nat → Nat} {P : List (Nat × Nat)} {p c e lo top : Nat}
    {call : Nat → List (Nat × Nat) → State → Option (State × Nat)} {rest : List (Nat × Nat)} (hn : o.Nodup)
    (hgeo : ∀ done x tl, rest = done ++ x :: tl → (∀ y, y ∈ done → p < y.1) → p < x.1 → x.1 = c →
      e ≤ x.2 ∧ (∀ k, e ≤ k → k < x.2 → ns x.2 ≤ ns k) ∧
      ∀ s, Keeps o ns P s.items → ∃ s' r, call x.2 tl s = some (s', r) ∧ Keeps o ns P s'.items ∧ lo ≤ r ∧ r ≤ top ∧
        Good size o ns x.2 lo r s.offsets s'.offsets)
    {f : Offsets} : ∀ (done tl : List (Nat × Nat)) (s : State) (m : Nat), rest = done ++ tl →
      (∀ y, y ∈ done → p < y.1) → Keeps o ns P s.items → lo ≤ m → m ≤ top → Good size o ns e lo m f s.offsets →
      ∃ s' r, children p c call tl s m = some (s', r) ∧ Keeps o ns P s'.items ∧ lo ≤ r ∧ r ≤ top ∧
        Good size o ns e lo r f s'.offsets
  | done, [], s, m, _, _, hK, hm1, hm2, hg => ⟨s, m, rfl, hK, hm1, hm2, hg⟩
  | done, (i, b') :: tl, s, m, he, hd, hK, hm1, hm2, hg => by
    rw [children]
    by_cases hi : i ≤ p
    · rw [if_pos hi]; exact ⟨s, m, rfl, hK, hm1, hm2, hg⟩
    · rw [if_neg hi]
      have hd' : ∀ y, y ∈ done ++ [(i, b')] → p < y.1 := by
        intro y hy
        rcases List.mem_append.1 hy with h | h
        · exact hd y h
        · rw [List.mem_singleton.1 h]; simp only; omega
      have he' : rest = (done ++ [(i, b')]) ++ tl := by rw [he]; simp
      by_cases hic : i = c
      · rw [if_pos hic]
        obtain ⟨g1, g2, g3⟩ := hgeo done (i, b') tl he hd (by simp only; omega) hic
        obtain ⟨s', r, c1, c2, c3, c4, c5⟩ := g3 s hK
        simp only at c1
        rw [c1]
        simp only
        exact children_ok hn hgeo (done ++ [(i, b')]) tl s' (max m r) he' hd' c2 (by omega) (by omega)
          (hg.again hn g1 c5 g2)
      · rw [if_neg hic]
        exact children_ok hn hgeo (done ++ [(i, b')]) tl s m he' hd' hK hm1 hm2 hg

theorem Good.end_ (size : Nat → Nat) (o : List Nat) (ns : Nat → Nat) (lo : Nat) (f : Offsets) :
    Good size o ns o.length lo lo f f := by
  refine ⟨fun _ _ => rfl, ?_, ?_⟩
  · intro x hx; simp at hx
  · intro k l x y hk hkl hx hy
    have := (List.getElem?_eq_some_iff.1 hx).1; omega

theorem weight_drop (size : Nat → Nat) (o : List Nat) {b e : Nat} (h : b ≤ e) :
    weight size (o.drop b) = weight size ((o.drop b).take (e - b)) + weight size (o.drop e) := by
  rw [← weight_append, ← drop_split h]

/-- The steps that a call needs, at most. -/
def steps (n p : Nat) (rest : List (Nat × Nat)) : Nat := rest.length * (n + 2) + (n + 1 - p)

theorem arrange_ok {size : Nat → Nat} {sort : List Nat → List Nat} (hsort : ∀ xs, (sort xs).Perm xs)
    {o : List Nat} {ns : Nat → Nat} {P : List (Nat × Nat)} (hS : Shape o ns P) {N : Nat}
    (hN : ∀ k, k < o.length → ns k ≤ N) :
    ∀ (fuel p b : Nat) (rest : List (Nat × Nat)) (offset : Nat) (s : State), Call o ns P p b rest →
      Keeps o ns P s.items → offset + weight size (o.drop b) < 65536 → steps N p rest < fuel →
      ∃ s' r, arrange size sort fuel p b rest offset s = some (s', r) ∧ Keeps o ns P s'.items ∧ offset ≤ r ∧
        r ≤ offset + weight size (o.drop b) ∧ Good size o ns b offset r s.offsets s'.offsets := by
  intro fuel
  induction fuel with
  | zero => intro p b rest offset s _ _ _ hf; omega
  | succ fuel ih =>
    intro p b rest offset s hC hK hw hf
    have hlen : s.items.length = o.length := hK.1.length_eq
    have hpN : p ≤ N := by rw [← hC.index]; exact hN b hC.lt
    -- a call for a partial that follows needs fewer steps
    have hlater : ∀ done x tl, rest = done ++ x :: tl → steps N x.1 tl < fuel := by
      intro done x tl e
      have hx := hS.begins x (hC.sub x (by rw [e]; simp)).1
      have h1 : x.1 ≤ N := by rw [← hx.2]; exact hN _ hx.1
      have h2 : rest.length = done.length + (tl.length + 1) := by rw [e]; simp
      unfold steps at hf ⊢
      have h3 : (tl.length + 1) * (N + 2) ≤ rest.length * (N + 2) := Nat.mul_le_mul_right _ (by omega)
      rw [Nat.add_mul] at h3
      omega
    rw [arrange]
    cases hm : (minIndex p rest).1 with
    | some c =>
      obtain ⟨hpc, hCc, hin, hgeo⟩ := hC.child hS hm
      have hend : rangeEnd p b s.items.length (minIndex p rest) = b + (c - p) := by
        rcases h : minIndex p rest with ⟨m1, m2⟩
        rw [h] at hm
        simp only at hm
        subst hm
        rfl
      rw [hend]
      have hwd := weight_drop size o (show b ≤ b + (c - p) by omega)
      obtain ⟨s1, new, r1, r2, r3, r4⟩ := setRange_ok (size := size) hsort hS (offset := offset) hK hC.lt
        (show b ≤ b + (c - p) by omega) (by have := hCc.lt; omega) hC.cut hCc.cut hin (by omega)
      have r5 := r3.le
      have hcN : c ≤ N := by rw [← hCc.index]; exact hN _ hCc.lt
      obtain ⟨s2, r, a1, a2, a3, a4, a5⟩ := ih c (b + (c - p)) rest new s1 hCc r2 (by omega)
        (by unfold steps at hf ⊢; omega)
      rw [r1]
      simp only
      rw [a1]
      simp only
      obtain ⟨s3, r', d1, d2, d3, d4, d5⟩ := children_ok (size := size) (o := o) (ns := ns) (P := P) (p := p) (c := c)
        (e := b + (c - p)) (lo := new) (top := new + weight size (o.drop (b + (c - p))))
        (call := fun b' rest' s => arrange size sort fuel c b' rest' new s) (rest := rest) hS.nodup (by
          intro done x tl e1 e2 e3 e4
          obtain ⟨g1, g2⟩ := hgeo done x tl e1 e2 e3
          have hx := hS.begins x (hC.sub x (by rw [e1]; simp)).1
          refine ⟨g1, by intro k h1 h2; rw [hx.2, e4]; exact g2 k h1 h2, ?_⟩
          intro s hK
          have hwx := weight_drop size o g1
          have hst := hlater done x tl e1
          have hcl := hC.later hS e1
          rw [e4] at hst hcl
          obtain ⟨s', r, i1, i2, i3, i4, i5⟩ := ih c x.2 tl new s hcl hK (by omega) hst
          exact ⟨s', r, i1, i2, i3, by omega, i5⟩) (f := s1.offsets) [] rest s2 (max 0 r) rfl
          (by intro y hy; cases hy) a2 (by omega) (by omega) (by rw [Nat.zero_max]; exact a5)
      rw [d1]
      simp only
      refine ⟨s3, max new r', rfl, d2, by omega, by omega, ?_⟩
      exact Good.step hS.nodup (show b ≤ b + (c - p) by omega) r3 d5 r5 (by omega) (by omega) (.inl (Nat.le_refl _))
    | none =>
      simp only
      rcases minIndex_none p rest hm with ⟨e1, e2⟩ | ⟨i, b', tl, e1, e2, e3⟩
      · have hend : rangeEnd p b s.items.length (minIndex p rest) = o.length := by
          rcases h : minIndex p rest with ⟨m1, m2⟩
          rw [h] at hm e2
          simp only at hm e2
          subst hm; subst e2
          exact hlen
        rw [hend]
        have hwd := weight_drop size o (Nat.le_of_lt hC.lt)
        obtain ⟨s1, new, r1, r2, r3, r4⟩ := setRange_ok (size := size) hsort hS (offset := offset) hK hC.lt
          (Nat.le_of_lt hC.lt) (Nat.le_refl _) hC.cut (.inl rfl) (by
            intro q h1 h2 hcut
            rcases hcut with hc | ⟨y, hy, hc⟩ | ⟨y, hy, hc1, _⟩
            · omega
            · have := hC.all y hy (by omega); rw [e1] at this; cases this
            · have := hC.all y hy (by omega); rw [e1] at this; cases this) (by omega)
        rw [r1, e1]
        simp only
        have r5 := r3.le
        exact ⟨s1, new, rfl, r2, r5, by omega,
          Good.step hS.nodup (Nat.le_of_lt hC.lt) r3 (Good.end_ size o ns new s1.offsets) r5 (Nat.le_refl _)
            (Nat.le_refl _) (.inl (Nat.le_refl _))⟩
      · have hend : rangeEnd p b s.items.length (minIndex p rest) = b' := by
          rcases h : minIndex p rest with ⟨m1, m2⟩
          rw [h] at hm e3
          simp only at hm e3
          subst hm; subst e3
          rfl
        rw [hend]
        have hcl : Call o ns P i b' tl := hC.later hS (done := []) e1
        have hx := hC.sub (i, b') (by rw [e1]; simp)
        have hxb := hS.begins _ hx.1
        simp only at hx hxb
        have hge : ∀ y, y ∈ rest → b' ≤ y.2 := by
          intro y hy
          have hs := hC.sorted
          rw [e1] at hy hs
          rcases List.mem_cons.1 hy with h2 | h2
          · subst h2; exact Nat.le_refl _
          · exact Nat.le_of_lt ((List.pairwise_cons.1 hs).1 y h2)
        have hrun := hC.run hS b' (by omega) hge
        have hrun' : ∀ k, b ≤ k → k < b' → ns k = p + (k - b) := by
          intro k h1 h2
          have := hrun (k - b) (by omega)
          rwa [Nat.add_sub_cancel' h1] at this
        have hwd := weight_drop size o hx.2
        obtain ⟨s1, new, r1, r2, r3, r4⟩ := setRange_ok (size := size) hsort hS (offset := offset) hK hC.lt
          hx.2 (by omega) hC.cut hcl.cut (by
            intro q h1 h2 hcut
            have hq := hrun' q (by omega) h2
            rcases hcut with hc | ⟨y, hy, hc⟩ | ⟨y, hy, hc1, hc2, hc3⟩
            · omega
            · have := hge y (hC.all y hy (by omega)); omega
            · have hyr := hC.all y hy (by omega)
              have hyb := hge y hyr
              rcases Nat.lt_or_ge b' y.2 with h3 | h3
              · have := hc3 b' h2 h3; omega
              · have : y.2 = b' := by omega
                rw [this] at hc2; omega) (by omega)
        rw [r1, e1]
        simp only
        have hst := hlater [] (i, b') tl e1
        obtain ⟨s2, r, i1, i2, i3, i4, i5⟩ := ih i b' tl offset s1 hcl r2 (by omega) hst
        rw [i1]
        simp only
        have r5 := r3.le
        refine ⟨s2, max new r, rfl, i2, by omega, by omega, ?_⟩
        refine Good.step hS.nodup hx.2 r3 i5 (Nat.le_refl _) (by omega) (by omega) (.inr ?_)
        intro k h1 h2
        rw [hrun' k h1 h2, hxb.2]; omega

end Verif.Layout
