import Verif.Proof.Fields

namespace Verif.Fields

open Verif.Layout (Storage m16)
open Verif.Arr (alignf unitAlign)

/-! ## Memory -/

theorem write_get {m m1 v : Bytes} {a : Nat} (h : write m a v = some m1) :
    m1.length = m.length ∧ ∀ i, m1[i]? = if a ≤ i ∧ i < a + v.length then v[i - a]? else m[i]? := by
  simp only [write] at h
  split at h
  · rename_i hl
    simp only [Option.some.injEq] at h
    subst h
    constructor
    · simp only [List.length_append, List.length_take, List.length_drop]; omega
    · intro i
      have ht : (m.take a).length = a := by simp only [List.length_take]; omega
      by_cases h1 : i < a
      · rw [List.append_assoc, List.getElem?_append_left (by omega), List.getElem?_take_of_lt h1,
          if_neg (by omega)]
      · by_cases h2 : i < a + v.length
        · rw [List.append_assoc, List.getElem?_append_right (by omega), ht,
            List.getElem?_append_left (by omega), if_pos (by omega)]
        · rw [List.getElem?_append_right (by simp only [List.length_append]; omega), List.getElem?_drop,
            if_neg (by omega)]
          congr 1
          simp only [List.length_append, ht]; omega
  · cases h

theorem write_ok {m v : Bytes} {a : Nat} (h : a + v.length ≤ m.length) : ∃ m1, write m a v = some m1 := by
  simp only [write, h, if_true]; exact ⟨_, rfl⟩

theorem read_eq {m r : Bytes} {a n : Nat} : read m a n = some r ↔
    a + n ≤ m.length ∧ r.length = n ∧ ∀ i, i < n → r[i]? = m[a + i]? := by
  simp only [read]
  split
  · rename_i hl
    simp only [Option.some.injEq]
    constructor
    · rintro rfl
      refine ⟨hl, by simp only [List.length_take, List.length_drop]; omega, ?_⟩
      intro i hi
      rw [List.getElem?_take_of_lt hi, List.getElem?_drop]
    · rintro ⟨-, hr, hi⟩
      apply List.ext_getElem?
      intro i
      by_cases h : i < n
      · rw [List.getElem?_take_of_lt h, List.getElem?_drop, hi i h]
      · rw [List.getElem?_eq_none (by simp only [List.length_take]; omega), List.getElem?_eq_none (by omega)]
  · constructor
    · intro h; cases h
    · rintro ⟨h, -⟩; contradiction

theorem read_ok {m : Bytes} {a n : Nat} (h : a + n ≤ m.length) : ∃ r, read m a n = some r := by
  simp only [read, h, if_true]; exact ⟨_, rfl⟩

theorem read_written {m m1 v : Bytes} {a n : Nat} (h : write m a v = some m1) (hn : n ≤ v.length) :
    read m1 a n = some (v.take n) := by
  have hw := write_get h
  have hb : a + v.length ≤ m.length := by
    simp only [write] at h; split at h
    · assumption
    · cases h
  rw [read_eq]
  refine ⟨by omega, by simp only [List.length_take]; omega, ?_⟩
  intro i hi
  rw [List.getElem?_take_of_lt hi, hw.2, if_pos (by omega)]
  congr 1; omega

theorem read_other {m m1 v : Bytes} {a b n : Nat} (h : write m a v = some m1) (hd : a + v.length ≤ b ∨ b + n ≤ a) :
    read m1 b n = read m b n := by
  have hw := write_get h
  by_cases hb : b + n ≤ m.length
  · obtain ⟨r, hr⟩ := read_ok hb
    rw [hr, read_eq]
    obtain ⟨h1, h2, h3⟩ := read_eq.1 hr
    refine ⟨by omega, h2, ?_⟩
    intro i hi
    rw [h3 i hi, hw.2, if_neg (by omega)]
  · have hb1 : ¬ b + n ≤ m1.length := by omega
    simp only [read, hb, hb1, if_false]

/-- Part of what was written. -/
theorem read_part {m v : Bytes} {a b n s : Nat} (h : read m a s = some v) (hs : b + n ≤ s) :
    read m (a + b) n = read v b n := by
  obtain ⟨h1, h2, h3⟩ := read_eq.1 h
  obtain ⟨r, hr⟩ := read_ok (m := m) (a := a + b) (n := n) (by omega)
  rw [hr]
  symm
  rw [read_eq]
  obtain ⟨h4, h5, h6⟩ := read_eq.1 hr
  refine ⟨by omega, h5, ?_⟩
  intro i hi
  rw [h6 i hi, h3 (b + i) (by omega)]
  congr 1; omega

theorem zeroWords_spec : ∀ (n : Nat) (m : Bytes) (p : Nat), p + 8 * n ≤ m.length →
    ∃ m1, zeroWords m p n = some m1 ∧ m1.length = m.length ∧
      ∀ i, m1[i]? = if p ≤ i ∧ i < p + 8 * n then some 0 else m[i]?
  | 0, m, p, _ => ⟨m, rfl, rfl, fun i => by rw [if_neg (by omega)]⟩
  | n + 1, m, p, h => by
    obtain ⟨m1, h1⟩ := write_ok (m := m) (a := p) (v := List.replicate 8 0) (by simp only [List.length_replicate]; omega)
    have hw := write_get h1
    simp only [List.length_replicate] at hw
    obtain ⟨m2, h2, h3, h4⟩ := zeroWords_spec n m1 (p + 8) (by omega)
    refine ⟨m2, by simp only [zeroWords, h1, h2], by omega, ?_⟩
    intro i
    rw [h4, hw.2]
    by_cases ha : p + 8 ≤ i ∧ i < p + 8 + 8 * n
    · rw [if_pos ha, if_pos (by omega)]
    · rw [if_neg ha]
      by_cases hb : p ≤ i ∧ i < p + 8
      · rw [if_pos hb, if_pos (by omega), List.getElem?_replicate, if_pos (by omega)]
      · rw [if_neg hb, if_neg (by omega)]

theorem zeroMemory_spec (n : Nat) : ∀ (m : Bytes) (p : Nat), p + 8 * n ≤ m.length →
    ∃ m1, zeroMemory m p n = some m1 ∧ m1.length = m.length ∧
      ∀ i, m1[i]? = if p ≤ i ∧ i < p + 8 * n then some 0 else m[i]? := by
  induction n using Nat.strongRecOn with
  | _ n ih =>
    intro m p h
    rw [zeroMemory]
    split
    · exact zeroWords_spec n m p h
    · rename_i hn
      obtain ⟨m1, h1, h2, h3⟩ := zeroWords_spec 16 m p (by omega)
      obtain ⟨m2, h4, h5, h6⟩ := ih (n - 16) (by omega) m1 (p + 128) (by omega)
      refine ⟨m2, by simp only [h1, h4], by omega, ?_⟩
      intro i
      rw [h6, h3]
      by_cases ha : p + 128 ≤ i ∧ i < p + 128 + 8 * (n - 16)
      · rw [if_pos ha, if_pos (by omega)]
      · rw [if_neg ha]
        by_cases hb : p ≤ i ∧ i < p + 8 * 16
        · rw [if_pos hb, if_pos (by omega)]
        · rw [if_neg hb, if_neg (by omega)]

/-! ## Places -/

/-- An object of a class is somewhere within its base class or among its own fields. -/
theorem own_field {W : World} {sort : List Item → List Item} (hs : ∀ xs, (sort xs).Perm xs) {n h f t : Nat} {st : Bool}
    {base : Option Nat} {fields : List Nat} (hk : W.kind h = .obj st base fields) (hf : fields[f]? = some t)
    (hfit : Fits W n h) :
    ∃ o s sto b z stz, fieldOffset W sort n h f = some o ∧ fieldType W h f = some t ∧
      varSize W (sizeOf W sort n) t = some (s, sto) ∧ baseSize (sizeOf W sort n) base = some b ∧
      sizeOf W sort n h = some (z, stz) ∧ b ≤ o ∧ o + s ≤ z ∧ unitAlign o s = o := by
  obtain ⟨b, l, items, hb, hl, hz, hg, -⟩ := laid hs hk hfit
  obtain ⟨s, sto, o, h1, h2, h3, h4, h5⟩ := hg.get f t hf
  exact ⟨o, s, sto, b, l.size, l.storage, by simp only [fieldOffset, hl, h2], by simp only [fieldType, hk, hf], h1, hb,
    hz, h3, h4, h5⟩

theorem own_apart {W : World} {sort : List Item → List Item} (hs : ∀ xs, (sort xs).Perm xs) {n h f g t u : Nat} {st : Bool}
    {base : Option Nat} {fields : List Nat} (hk : W.kind h = .obj st base fields) (hf : fields[f]? = some t)
    (hg : fields[g]? = some u) (hne : f ≠ g) (hfit : Fits W n h) {o o' s s' : Nat} {sto sto' : Storage}
    (h1 : fieldOffset W sort n h f = some o) (h2 : fieldOffset W sort n h g = some o')
    (h3 : varSize W (sizeOf W sort n) t = some (s, sto)) (h4 : varSize W (sizeOf W sort n) u = some (s', sto')) :
    o + s ≤ o' ∨ o' + s' ≤ o := by
  obtain ⟨b, l, items, hb, hl, hz, hgood, -⟩ := laid hs hk hfit
  simp only [fieldOffset, hl] at h1 h2
  exact hgood.apart f g t u hne hf hg h3 h4 h1 h2

theorem struct_varSize {W : World} {size : Sizes} {t : Nat} {base : Option Nat} {fields : List Nat}
    (h : W.kind t = .obj true base fields) : varSize W size t = size t := by
  unfold varSize; simp only [h]

/-- The natural size of a leaf. -/
theorem leaf_size {W : World} {sort : List Item → List Item} {n t s : Nat} {sto : Storage} (hl : Leaf W t)
    (h : varSize W (sizeOf W sort n) t = some (s, sto)) : s = natural W t := by
  unfold varSize at h
  unfold natural
  cases hk : W.kind t with
  | prim z =>
    simp only [hk] at h ⊢
    cases n with
    | zero => simp [sizeOf] at h
    | succ n =>
      simp only [sizeOf, hk, known] at h
      split at h
      · cases h
      · simp only [Option.some.injEq, Prod.mk.injEq] at h; exact h.1.symm
  | array => simp only [hk, refSize, Option.some.injEq, Prod.mk.injEq] at h ⊢; exact h.1.symm
  | iface => simp only [hk, refSize, Option.some.injEq, Prod.mk.injEq] at h ⊢; exact h.1.symm
  | obj st base fields =>
    cases st with
    | true => simp [Leaf, isStruct, hk] at hl
    | false => simp only [hk, refSize, Option.some.injEq, Prod.mk.injEq] at h ⊢; exact h.1.symm

theorem natural_cases {W : World} (hb : Basic W) (t : Nat) :
    natural W t = 1 ∨ natural W t = 2 ∨ natural W t = 4 ∨ natural W t = 8 := by
  unfold natural
  split
  · rename_i s h; exact hb _ _ h
  · omega

theorem aligned {o s w : Nat} (h : unitAlign o s = o) (hw : w = 1 ∨ w = 2 ∨ w = 4 ∨ w = 8) (hle : w ≤ s) :
    o % w = 0 := by
  have := unitAlign_mod o s h
  rcases hw with rfl | rfl | rfl | rfl <;> omega

/-- Where a place is. -/
theorem path_place {W : World} {sort : List Item → List Item} (hs : ∀ xs, (sort xs).Perm xs) {n h u : Nat}
    {p : List Nat} (hp : Path W h p u) (hfit : Fits W n h) :
    ∃ a s sto b z stz st base fields, W.kind h = .obj st base fields ∧ resolve W sort n h p = some (a, u) ∧
      varSize W (sizeOf W sort n) u = some (s, sto) ∧ baseSize (sizeOf W sort n) base = some b ∧
      sizeOf W sort n h = some (z, stz) ∧ b ≤ a ∧ a + s ≤ z ∧ (Basic W → Leaf W u → s = natural W u ∧ a % s = 0) := by
  induction hp with
  | @last h f t st base fields hk hf =>
    obtain ⟨o, s, sto, b, z, stz, h1, h2, h3, h4, h5, h6, h7, h8⟩ := own_field hs hk hf hfit
    refine ⟨o, s, sto, b, z, stz, st, base, fields, hk, by simp only [resolve, h1, h2], h3, h4, h5, h6, h7, ?_⟩
    intro hb hl
    have := leaf_size hl h3
    refine ⟨this, ?_⟩
    exact aligned h8 (this ▸ natural_cases hb t) (Nat.le_refl _)
  | @step h f t u st base base' fields fields' g rest hk hf ht hp ih =>
    obtain ⟨o, s, sto, b, z, stz, h1, h2, h3, h4, h5, h6, h7, h8⟩ := own_field hs hk hf hfit
    obtain ⟨a, s2, sto2, b2, z2, stz2, st2, base2, fields2, i0, i1, i2, i3, i4, i5, i6, i7⟩ :=
      ih (fits_struct hk hf ht hfit)
    rw [struct_varSize ht, i4] at h3
    cases h3
    refine ⟨o + a, s2, sto2, b, z, stz, st, base, fields, hk, ?_, i2, h4, h5, by omega, by omega, ?_⟩
    · rw [resolve]
      simp only [h1, h2, isStruct, ht, if_true, i1]
    · intro hb hl
      obtain ⟨j1, j2⟩ := i7 hb hl
      refine ⟨j1, ?_⟩
      have := aligned h8 (natural_cases hb u) (by omega)
      rw [← j1] at this
      rw [Nat.add_mod, this, j2]
      simp

theorem path_head {W : World} {h u : Nat} {p : List Nat} (hp : Path W h p u) : p ≠ [] := by
  cases hp <;> simp

/-- Two places of a type that are not part of each other do not share memory. -/
theorem path_apart {W : World} {sort : List Item → List Item} (hs : ∀ xs, (sort xs).Perm xs) {n h u v : Nat}
    {p q : List Nat} (hp : Path W h p u) (hq : Path W h q v) (hfit : Fits W n h) (h1 : ¬ p <+: q) (h2 : ¬ q <+: p)
    {a c s s' : Nat} {sto sto' : Storage} (ha : resolve W sort n h p = some (a, u))
    (hc : resolve W sort n h q = some (c, v)) (hsu : varSize W (sizeOf W sort n) u = some (s, sto))
    (hsv : varSize W (sizeOf W sort n) v = some (s', sto')) : a + s ≤ c ∨ c + s' ≤ a := by
  -- the first field of a path contains its place
  have first : ∀ {h u : Nat} {f : Nat} {p : List Nat} {a s : Nat} {sto : Storage}, Path W h (f :: p) u → Fits W n h →
      resolve W sort n h (f :: p) = some (a, u) → varSize W (sizeOf W sort n) u = some (s, sto) →
      ∃ st base fields t o z stz, W.kind h = .obj st base fields ∧ fields[f]? = some t ∧
        fieldOffset W sort n h f = some o ∧ varSize W (sizeOf W sort n) t = some (z, stz) ∧ o ≤ a ∧ a + s ≤ o + z := by
    intro h u f p a s sto hp hfit hr hsz
    cases hp with
    | @last _ _ _ st base fields hk hf =>
      obtain ⟨o, s1, sto1, b, z, stz, j1, j2, j3, j4, j5, j6, j7, j8⟩ := own_field hs hk hf hfit
      simp only [resolve, j1, j2, Option.some.injEq, Prod.mk.injEq] at hr
      rw [j3] at hsz; cases hsz
      exact ⟨st, base, fields, u, o, s, sto, hk, hf, j1, j3, by omega, by omega⟩
    | @step _ _ t _ st base base' fields fields' g rest hk hf ht hp =>
      obtain ⟨o, s1, sto1, b, z, stz, j1, j2, j3, j4, j5, j6, j7, j8⟩ := own_field hs hk hf hfit
      obtain ⟨a2, s2, sto2, b2, z2, stz2, st2, base2, fields2, i0, i1, i2, i3, i4, i5, i6, i7⟩ :=
        path_place hs hp (fits_struct hk hf ht hfit)
      rw [resolve] at hr
      simp only [j1, j2, isStruct, ht, if_true, i1, Option.some.injEq, Prod.mk.injEq] at hr
      have j3' := j3
      rw [struct_varSize ht, i4] at j3'
      cases j3'
      rw [i2] at hsz; cases hsz
      exact ⟨st, base, fields, t, o, _, _, hk, hf, j1, j3, by omega, by omega⟩
  induction hp generalizing q a c v with
  | @last h f t st base fields hk hf =>
    cases q with
    | nil => exact absurd rfl (path_head hq)
    | cons g q =>
      have hne : f ≠ g := by
        rintro rfl
        exact h1 (List.cons_prefix_cons.2 ⟨rfl, List.nil_prefix⟩)
      obtain ⟨st1, ba1, fi1, t1, o1, z1, sz1, k1, k2, k3, k4, k5, k6⟩ := first (.last hk hf) hfit ha hsu
      obtain ⟨st2, ba2, fi2, t2, o2, z2, sz2, l1, l2, l3, l4, l5, l6⟩ := first hq hfit hc hsv
      rw [k1] at l1; cases l1
      have := own_apart hs k1 k2 l2 hne hfit k3 l3 k4 l4
      omega
  | @step h f t u st base base' fields fields' f2 rest hk hf ht hp ih =>
    cases q with
    | nil => exact absurd rfl (path_head hq)
    | cons g q =>
      by_cases hne : f = g
      · subst hne
        cases hq with
        | last _ _ => exact absurd (List.cons_prefix_cons.2 ⟨rfl, List.nil_prefix⟩) h2
        | @step _ _ t2 _ st2 base2 base2' fieldsA fieldsB g2 rest2 hk2 hf2 ht2 hp2 =>
          rw [hk] at hk2; cases hk2
          rw [hf] at hf2; cases hf2
          obtain ⟨o, s1, sto1, b, z, stz, j1, j2, -⟩ := own_field (sort := sort) hs hk hf hfit
          rw [resolve] at ha hc
          simp only [j1, j2, isStruct, ht, if_true] at ha hc
          cases hra : resolve W sort n t (f2 :: rest) with
          | none => simp [hra] at ha
          | some x =>
            cases hrc : resolve W sort n t (g2 :: rest2) with
            | none => simp [hrc] at hc
            | some y =>
              obtain ⟨x1, x2⟩ := x
              obtain ⟨y1, y2⟩ := y
              simp only [hra, hrc, Option.some.injEq, Prod.mk.injEq] at ha hc
              obtain ⟨ha1, rfl⟩ := ha
              obtain ⟨hc1, rfl⟩ := hc
              have := ih hp2 (fits_struct hk hf ht hfit)
                (fun hh => h1 (List.cons_prefix_cons.2 ⟨rfl, hh⟩)) (fun hh => h2 (List.cons_prefix_cons.2 ⟨rfl, hh⟩))
                hra hrc hsu hsv
              omega
      · obtain ⟨st1, ba1, fi1, t1, o1, z1, sz1, k1, k2, k3, k4, k5, k6⟩ := first (.step hk hf ht hp) hfit ha hsu
        obtain ⟨st2, ba2, fi2, t2, o2, z2, sz2, l1, l2, l3, l4, l5, l6⟩ := first hq hfit hc hsv
        rw [k1] at l1; cases l1
        have := own_apart hs k1 k2 l2 hne hfit k3 l3 k4 l4
        omega

/-! ## Base classes -/

/-- A base class of the class. -/
def Below (W : World) (d h : Nat) : Prop :=
  ∃ (st : Bool) (b : Nat) (fields : List Nat), W.kind d = .obj st (some b) fields ∧ Chain W b h

theorem chain_cases {W : World} {d h g : Nat} (hh : Chain W d h) (hg : Chain W d g) :
    h = g ∨ Below W h g ∨ Below W g h := by
  induction hh with
  | self d =>
    cases hg with
    | self => exact .inl rfl
    | up hk hc => exact .inr (.inl ⟨_, _, _, hk, hc⟩)
  | up hk hc ih =>
    cases hg with
    | self => exact .inr (.inr ⟨_, _, _, hk, hc⟩)
    | up hk2 hc2 =>
      rw [hk] at hk2; cases hk2
      exact ih hc2

theorem chain_size {W : World} {sort : List Item → List Item} (hs : ∀ xs, (sort xs).Perm xs) {n d h : Nat}
    (hc : Chain W d h) (hfit : Fits W n d) {z y : Nat} {stz sty : Storage} (hz : sizeOf W sort n d = some (z, stz))
    (hy : sizeOf W sort n h = some (y, sty)) : y ≤ z := by
  induction hc generalizing z stz with
  | self => rw [hz] at hy; cases hy; exact Nat.le_refl _
  | @up d b h st fields hk _ ih =>
    obtain ⟨bs, l, items, hb, hl, hz', hg, -⟩ := laid hs hk hfit
    rw [hz] at hz'; cases hz'
    simp only [baseSize] at hb
    split at hb
    · cases hb
    · rename_i s st hsb
      simp only [Option.some.injEq] at hb
      have := ih (fits_base hk hfit) hsb hy
      have := hg.le
      omega

theorem path_obj {W : World} {h u : Nat} {p : List Nat} (hp : Path W h p u) :
    ∃ st base fields, W.kind h = .obj st base fields := by
  cases hp <;> exact ⟨_, _, _, ‹_›⟩

/-- A place of an object of a class. -/
theorem has_place {W : World} {sort : List Item → List Item} (hs : ∀ xs, (sort xs).Perm xs) {n d t : Nat} {x : Loc}
    (hx : Has W d x t) (hfit : Fits W n d) {z : Nat} {stz : Storage} (hz : sizeOf W sort n d = some (z, stz)) :
    ∃ a s sto, resolve W sort n x.host x.path = some (a, t) ∧ varSize W (sizeOf W sort n) t = some (s, sto) ∧
      a + s ≤ z ∧ (Basic W → Leaf W t → s = natural W t ∧ a % s = 0) := by
  obtain ⟨hc, hp⟩ := hx
  obtain ⟨a, s, sto, b, y, sty, st, base, fields, -, h1, h2, -, h4, -, h6, h7⟩ := path_place hs hp (fits_chain hc hfit)
  have := chain_size hs hc hfit hz h4
  exact ⟨a, s, sto, h1, h2, by omega, h7⟩

theorem has_apart {W : World} {sort : List Item → List Item} (hs : ∀ xs, (sort xs).Perm xs) {n d t u : Nat} {x y : Loc}
    (hx : Has W d x t) (hy : Has W d y u) (hfit : Fits W n d) (hxy : Apart x y)
    {a c s s' : Nat} {sto sto' : Storage} (ha : resolve W sort n x.host x.path = some (a, t))
    (hc : resolve W sort n y.host y.path = some (c, u)) (hsu : varSize W (sizeOf W sort n) t = some (s, sto))
    (hsv : varSize W (sizeOf W sort n) u = some (s', sto')) : a + s ≤ c ∨ c + s' ≤ a := by
  -- the places of a base class lie before those of the class
  have key : ∀ {x y : Loc} {t u : Nat} {a c s s' : Nat} {sto sto' : Storage}, Has W d x t → Has W d y u →
      resolve W sort n x.host x.path = some (a, t) → resolve W sort n y.host y.path = some (c, u) →
      varSize W (sizeOf W sort n) t = some (s, sto) → varSize W (sizeOf W sort n) u = some (s', sto') →
      Below W x.host y.host → c + s' ≤ a := by
    intro x y t u a c s s' sto sto' hx hy ha hc hsu hsv hb
    obtain ⟨st, b, fields, hk, hbc⟩ := hb
    have fx := fits_chain hx.1 hfit
    have fy := fits_chain hy.1 hfit
    obtain ⟨a1, s1, sto1, b1, z1, sty1, st1, base1, fields1, k1, h1, h2, h3, h4, h5, h6, -⟩ := path_place hs hx.2 fx
    obtain ⟨a2, s2, sto2, b2, z2, sty2, st2, base2, fields2, k1', h1', h2', h3', h4', h5', h6', -⟩ := path_place hs hy.2 fy
    rw [ha] at h1; cases h1
    rw [hc] at h1'; cases h1'
    rw [hsu] at h2; cases h2
    rw [hsv] at h2'; cases h2'
    rw [hk] at k1; cases k1
    simp only [baseSize] at h3
    split at h3
    · cases h3
    · rename_i w stw hw
      simp only [Option.some.injEq] at h3
      have := chain_size hs hbc (fits_base hk fx) hw h4'
      omega
  rcases chain_cases hx.1 hy.1 with h | h | h
  · obtain ⟨hp, hq⟩ := hxy h
    have hy2 := hy.2
    rw [← h] at hy2 hc
    exact path_apart hs hx.2 hy2 (fits_chain hx.1 hfit) hp hq ha hc hsu hsv
  · right; exact key hx hy ha hc hsu hsv h
  · left; exact key hy hx hc ha hsv hsu h

/-- Two leaves of one type are the same or not part of each other. -/
theorem path_leaf {W : World} {h t u : Nat} {p q : List Nat} (hp : Path W h p t) (hq : Path W h q u)
    (hl : Leaf W t) (hpre : p <+: q) : p = q := by
  induction hp generalizing q u with
  | @last h f t st base fields hk hf =>
    cases hq with
    | @last _ g u st2 base2 fields2 _ _ =>
      obtain ⟨rfl, -⟩ := List.cons_prefix_cons.1 hpre
      rfl
    | @step _ g t2 u st2 base2 base2' fields2 fields2' g2 rest hk2 hf2 ht2 _ =>
      obtain ⟨rfl, -⟩ := List.cons_prefix_cons.1 hpre
      rw [hk] at hk2; cases hk2
      rw [hf] at hf2; cases hf2
      simp [Leaf, isStruct, ht2] at hl
  | @step h f t u st base base' fields fields' f2 rest hk hf ht _ ih =>
    cases hq with
    | last _ _ =>
      obtain ⟨-, h⟩ := List.cons_prefix_cons.1 hpre
      simp at h
    | @step _ g t2 u st2 base2 base2' fields2 fields2' g2 rest hk2 hf2 ht2 hq2 =>
      obtain ⟨rfl, hpre2⟩ := List.cons_prefix_cons.1 hpre
      rw [hk] at hk2; cases hk2
      rw [hf] at hf2; cases hf2
      rw [ih hq2 hl hpre2]

theorem leaf_apart {W : World} {d t u : Nat} {x y : Loc} (hx : Has W d x t) (hy : Has W d y u) (hlx : Leaf W t)
    (hly : Leaf W u) (hne : x ≠ y) : Apart x y := by
  intro hh
  have hy2 := hy.2
  rw [← hh] at hy2
  have : x.path ≠ y.path := by
    intro hp
    apply hne
    cases x; cases y
    simp only at hh hp
    rw [hh, hp]
  exact ⟨fun h => this (path_leaf hx.2 hy2 hlx h), fun h => this (path_leaf hy2 hx.2 hly h).symm⟩

/-- A type that fits has a size. -/
theorem fits_size {W : World} {sort : List Item → List Item} (hs : ∀ xs, (sort xs).Perm xs) {n d : Nat}
    (hfit : Fits W n d) : ∃ z stz, sizeOf W sort n d = some (z, stz) ∧ z ≤ 65528 := by
  obtain ⟨k, hr, hk⟩ := hfit
  obtain ⟨-, s, st, h1, h2⟩ := size_ok W sort hs n d k hr hk
  exact ⟨s, st, h1, by omega⟩

/-! ## Structures within structures -/

theorem path_append {W : World} {h t u : Nat} {p r : List Nat} (hp : Path W h p t) (hst : isStruct W t = true)
    (hr : Path W t r u) : Path W h (p ++ r) u := by
  induction hp with
  | @last h f t st base fields hk hf =>
    cases r with
    | nil => exact absurd rfl (path_head hr)
    | cons g r =>
      unfold isStruct at hst
      split at hst
      · rename_i base2 fields2 hkt
        exact .step hk hf hkt hr
      · cases hst
  | step hk hf ht _ ih => exact .step hk hf ht (ih hst hr)

theorem resolve_append {W : World} {sort : List Item → List Item} {n h t u : Nat} {p r : List Nat}
    (hp : Path W h p t) (hst : isStruct W t = true) (hr : Path W t r u) {a c : Nat}
    (ha : resolve W sort n h p = some (a, t)) (hc : resolve W sort n t r = some (c, u)) :
    resolve W sort n h (p ++ r) = some (a + c, u) := by
  induction hp generalizing a with
  | @last h f t st base fields hk hf =>
    cases r with
    | nil => exact absurd rfl (path_head hr)
    | cons g r =>
      simp only [List.cons_append, List.nil_append]
      rw [resolve] at ha ⊢
      split at ha
      · rename_i o t' ho ht'
        simp only [Option.some.injEq, Prod.mk.injEq] at ha
        obtain ⟨rfl, rfl⟩ := ha
        simp only [hst, if_true, hc]
      · cases ha
  | @step h f t u st base base' fields fields' f2 rest hk hf ht _ ih =>
    simp only [List.cons_append]
    rw [resolve] at ha ⊢
    have hft : fieldType W h f = some t := by simp only [fieldType, hk, hf]
    have hist : isStruct W t = true := by simp only [isStruct, ht]
    cases ho : fieldOffset W sort n h f with
    | none => simp [ho] at ha
    | some o =>
      simp only [ho, hft, hist, if_true] at ha ⊢
      cases hx : resolve W sort n t (f2 :: rest) with
      | none => simp [hx] at ha
      | some x =>
        simp only [hx, Option.some.injEq, Prod.mk.injEq] at ha
        obtain ⟨x1, x2⟩ := x
        obtain ⟨ha1, rfl⟩ := ha
        have := ih hst hr hx hc
        rw [List.cons_append] at this
        simp only [this, Option.some.injEq, Prod.mk.injEq, and_true]
        simp only at ha1
        omega

end Verif.Fields
