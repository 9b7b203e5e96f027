import Verif.Proof.Fields3

/-!
# C79: the places of the fields of an object
-/

namespace Verif.Fields

open Verif.Layout (Storage)

/-! ## Every field has a place of its own -/

/-- Whatever order the sort gives to equal fields, every field that an object has, be it declared by its class, by a
base class or within a structure, lies inside of the object and is aligned to its width; two that are not part of each
other share no byte.  Partial: the fields together must fit into 16 bits, see `offsets_wrap_refuted`. -/
theorem field_places_partial {W : World} {sort : List Item → List Item} (hs : ∀ xs, (sort xs).Perm xs) {n d : Nat}
    (hb : Basic W) (hf : Fits W n d) :
    ∃ z st, sizeOf W sort n d = some (z, st) ∧
      (∀ x t, Has W d x t → ∃ a s sto, resolve W sort n x.host x.path = some (a, t) ∧
        varSize W (sizeOf W sort n) t = some (s, sto) ∧ a + s ≤ z ∧ (Leaf W t → s = natural W t ∧ a % s = 0)) ∧
      (∀ x y t u a c s s' sto sto', Has W d x t → Has W d y u → Apart x y →
        resolve W sort n x.host x.path = some (a, t) → resolve W sort n y.host y.path = some (c, u) →
        varSize W (sizeOf W sort n) t = some (s, sto) → varSize W (sizeOf W sort n) u = some (s', sto') →
        a + s ≤ c ∨ c + s' ≤ a) := by
  obtain ⟨z, st, hz, -⟩ := fits_size (sort := sort) hs hf
  refine ⟨z, st, hz, ?_, ?_⟩
  · intro x t hx
    obtain ⟨a, s, sto, h1, h2, h3, h4⟩ := has_place hs hx hf hz
    exact ⟨a, s, sto, h1, h2, h3, h4 hb⟩
  · intro x y t u a c s s' sto sto' hx hy hxy ha hc hsu hsv
    exact has_apart hs hx hy hf hxy ha hc hsu hsv

/-- An object of a base class and one of a derived class have the fields of the base class at the same places: the
address of a field does not depend on the class of the object, only on the class that declares it, and more depth of
the computation does not change it. -/
theorem field_place_stable {W : World} {sort : List Item → List Item} (hs : ∀ xs, (sort xs).Perm xs) {n h u : Nat}
    {p : List Nat} (hp : Path W h p u) (hf : Fits W n h) :
    ∃ a, ∀ k, resolve W sort (n + k) h p = some (a, u) := by
  have up : ∀ k, Extends (sizeOf W sort n) (sizeOf W sort (n + k)) := by
    intro k
    induction k with
    | zero => exact fun t r h => h
    | succ k ih => exact fun t r h => sizeOf_succ W sort (n + k) t r (ih t r h)
  have off : ∀ k g f o, fieldOffset W sort n g f = some o → fieldOffset W sort (n + k) g f = some o := by
    intro k g f o ho
    unfold fieldOffset at ho ⊢
    split at ho
    · cases ho
    · rename_i l hl
      simp only [layoutOf_extends (up k) hl]; exact ho
  obtain ⟨a, s, sto, b, z, stz, st, base, fields, hk, hr, -⟩ := path_place (sort := sort) hs hp hf
  refine ⟨a, fun k => ?_⟩
  clear hk fields base st stz z b sto s
  induction hp generalizing a with
  | @last h f t st base fields hk hft =>
    rw [resolve] at hr ⊢
    split at hr
    · rename_i o t' ho ht
      simp only [off k h f o ho, ht]
      exact hr
    · cases hr
  | @step h f t u st base base' fields fields' g rest hk hft ht hp ih =>
    rw [resolve] at hr ⊢
    split at hr
    · rename_i o t' ho ht'
      simp only [off k h f o ho, ht']
      simp only [fieldType, hk, hft, Option.some.injEq] at ht'
      subst ht'
      simp only [isStruct, ht, if_true] at hr ⊢
      split at hr
      · rename_i a' u' hr'
        simp only [Option.some.injEq, Prod.mk.injEq] at hr
        obtain ⟨rfl, rfl⟩ := hr
        have := ih (fits_struct hk hft ht hf) a' hr'
        simp only [this]
      · cases hr
    · cases hr

/-! ## An object is a record of its fields -/

theorem lastOf_append (x : Loc) (as : List Assign) (a : Assign) :
    lastOf x (as ++ [a]) = if a.loc = x then some a.value else lastOf x as := by
  induction as with
  | nil => simp [lastOf]
  | cons b as ih =>
    simp only [List.cons_append, lastOf, ih]
    by_cases h : a.loc = x
    · simp only [h, if_true]
    · simp only [h, if_false]

theorem assignAll_append (W : World) (sort : List Item → List Item) (n : Nat) (as : List Assign) (a : Assign) (m : Bytes) :
    assignAll W sort n (as ++ [a]) m =
      (assignAll W sort n as m).bind fun m1 => setField W sort n m1 a.loc.host a.loc.path a.value := by
  induction as generalizing m with
  | nil =>
    simp only [List.nil_append, assignAll, Option.bind_some]
    split <;> simp [*]
  | cons b as ih =>
    simp only [List.cons_append, assignAll]
    split
    · rfl
    · exact ih _

/-- A new object, whatever was in its memory before, has zeros in all fields; after any assignments to fields, each
field holds what was assigned to it last, or zeros if nothing was.  Partial: see `offsets_wrap_refuted`. -/
theorem assignments_partial {W : World} {sort : List Item → List Item} (hs : ∀ xs, (sort xs).Perm xs) {n d : Nat}
    (hf : Fits W n d) (hb : Basic W) (junk : Nat → Nat) (as : List Assign)
    (has : ∀ a ∈ as, ∃ t, Has W d a.loc t ∧ Leaf W t ∧ a.value.length = natural W t) :
    ∃ m m1, newObj W sort n d junk = some m ∧ assignAll W sort n as m = some m1 ∧
      ∀ x t, Has W d x t → Leaf W t →
        getField W sort n m1 x.host x.path = some ((lastOf x as).getD (List.replicate (natural W t) 0)) := by
  obtain ⟨z, st, hz, -⟩ := fits_size (sort := sort) hs hf
  have hmod := roundUp_mod z
  obtain ⟨m, hm1, hm2, hm3⟩ := zeroMemory_spec (roundUp z / 8) ((List.range (roundUp z)).map junk) 0
    (by simp only [List.length_map, List.length_range]; omega)
  simp only [List.length_map, List.length_range] at hm2
  have hge := roundUp_ge z
  have hnew : newObj W sort n d junk = some m := by
    simp only [newObj, hz, refSize, alignf8, hm1]
  refine ⟨m, ?_⟩
  -- memory of the same length throughout
  suffices h : ∃ m1, assignAll W sort n as m = some m1 ∧ m1.length = m.length ∧
      ∀ x t, Has W d x t → Leaf W t →
        getField W sort n m1 x.host x.path = some ((lastOf x as).getD (List.replicate (natural W t) 0)) by
    obtain ⟨m1, h1, -, h3⟩ := h
    exact ⟨m1, hnew, h1, h3⟩
  obtain ⟨bs, rfl⟩ : ∃ bs : List Assign, as = bs.reverse := ⟨as.reverse, by simp⟩
  induction bs with
  | nil =>
    refine ⟨m, rfl, rfl, ?_⟩
    intro x t hx hl
    obtain ⟨a, s, sto, h1, h2, h3, h4⟩ := has_place hs hx hf hz
    simp only [getField, h1, h2, List.reverse_nil, lastOf, Option.getD_none]
    obtain ⟨rfl, -⟩ := h4 hb hl
    rw [read_eq]
    refine ⟨by omega, by simp, ?_⟩
    intro i hi
    rw [hm3, if_pos (by omega), List.getElem?_replicate, if_pos hi]
  | cons b bs ih =>
    simp only [List.reverse_cons] at has ⊢
    obtain ⟨m1, h1, h2, h3⟩ := ih (fun a ha => has a (List.mem_append_left _ ha))
    obtain ⟨t, hbt, hbl, hbv⟩ := has b (by simp)
    obtain ⟨a, s, sto, p1, p2, p3, p4⟩ := has_place hs hbt hf hz
    obtain ⟨p5, -⟩ := p4 hb hbl
    obtain ⟨m2, hw⟩ := write_ok (m := m1) (a := a) (v := b.value) (by omega)
    have hset : setField W sort n m1 b.loc.host b.loc.path b.value = some m2 := by
      simp only [setField, p1, p2, hbv, p5, if_true, hw]
    refine ⟨m2, ?_, by rw [(write_get hw).1, h2], ?_⟩
    · rw [assignAll_append, h1]; exact hset
    · intro x u hx hl
      rw [lastOf_append]
      by_cases hxb : b.loc = x
      · subst hxb
        simp only [if_true, Option.getD_some, getField, p1]
        have : u = t := by
          obtain ⟨_, _, _, q1, _⟩ := has_place hs hx hf hz
          rw [p1] at q1; cases q1; rfl
        subst this
        simp only [p2]
        rw [read_written hw (by omega)]
        rw [List.take_of_length_le (by omega)]
      · rw [if_neg hxb, ← h3 x u hx hl]
        obtain ⟨c, s', sto', q1, q2, q3, q4⟩ := has_place hs hx hf hz
        simp only [getField, q1, q2]
        have := has_apart hs hbt hx hf (leaf_apart hbt hx hbl hl hxb) p1 q1 p2 q2
        exact read_other hw (by omega)

/-- Assignment of a structure: what is read through it afterwards is what was read through the other one, and every
place that is not part of it, nor contains it, keeps its value.  Partial: see `offsets_wrap_refuted`. -/
theorem structure_copy_partial {W : World} {sort : List Item → List Item} (hs : ∀ xs, (sort xs).Perm xs) {n d e t : Nat}
    (hd : Fits W n d) (he : Fits W n e) {x y : Loc} (hx : Has W d x t) (hy : Has W e y t) (ht : isStruct W t = true)
    {m m' : Bytes} {z z' : Nat} {st st' : Storage} (hz : sizeOf W sort n d = some (z, st)) (hm : z ≤ m.length)
    (hz' : sizeOf W sort n e = some (z', st')) (hm' : z' ≤ m'.length) :
    ∃ v m1, getField W sort n m' y.host y.path = some v ∧ setField W sort n m x.host x.path v = some m1 ∧
      (∀ r u, Path W t r u → ∃ w, getField W sort n m' y.host (y.path ++ r) = some w ∧
        getField W sort n m1 x.host (x.path ++ r) = some w) ∧
      (∀ l u, Has W d l u → Apart x l →
        getField W sort n m1 l.host l.path = getField W sort n m l.host l.path) := by
  obtain ⟨a, s, sto, p1, p2, p3, -⟩ := has_place hs hx hd hz
  obtain ⟨c, s', sto', q1, q2, q3, -⟩ := has_place hs hy he hz'
  rw [p2] at q2; cases q2
  obtain ⟨v, hv⟩ := read_ok (m := m') (a := c) (n := s) (by omega)
  have hvl := (read_eq.1 hv).2.1
  obtain ⟨m1, hw⟩ := write_ok (m := m) (a := a) (v := v) (by omega)
  have hset : setField W sort n m x.host x.path v = some m1 := by simp only [setField, p1, p2, hvl, if_true, hw]
  have hget : getField W sort n m' y.host y.path = some v := by simp only [getField, q1, p2, hv]
  refine ⟨v, m1, hget, hset, ?_, ?_⟩
  · intro r u hr
    have hpx := hx.2
    have hfx := fits_chain hx.1 hd
    have hpr := path_append hpx ht hr
    have hft : Fits W n t := by
      clear hz hz' p1 p2 p3 q1 hset hget hpr hr
      generalize x.host = h at hpx hfx
      generalize x.path = p at hpx
      induction hpx with
      | last hk hf =>
        unfold isStruct at ht
        split at ht
        · rename_i hkt; exact fits_struct hk hf hkt hfx
        · cases ht
      | step hk hf hkt _ ih => exact ih hx hy ht (fits_struct hk hf hkt hfx)
    obtain ⟨b, s2, sto2, b2, z2, stz2, st2, base2, fields2, k0, k1, k2, k3, k4, k5, k6, -⟩ := path_place (sort := sort) hs hr hft
    have hts : varSize W (sizeOf W sort n) t = sizeOf W sort n t := by
      unfold isStruct at ht
      split at ht
      · rename_i hkt; exact struct_varSize hkt
      · cases ht
    rw [p2, k4] at hts
    cases hts
    have r1 := resolve_append hpx ht hr p1 k1
    have r2 := resolve_append hy.2 ht hr q1 k1
    obtain ⟨w, hw2⟩ := read_ok (m := v) (a := b) (n := s2) (by omega)
    refine ⟨w, ?_, ?_⟩
    · simp only [getField, r2, k2]; rw [read_part hv k6, hw2]
    · simp only [getField, r1, k2]
      have : read m1 a s = some v := by
        rw [read_written hw (by omega), List.take_of_length_le (by omega)]
      rw [read_part this k6, hw2]
  · intro l u hl hap
    obtain ⟨b, s2, sto2, k1, k2, k3, -⟩ := has_place hs hl hd hz
    simp only [getField, k1, k2]
    have := has_apart hs hx hl hd hap p1 k1 p2 k2
    exact read_other hw (by omega)

/-! ## Tuples -/

/-- A tuple is created: the values lie on the stack one after the other, each filled up to whole words with
whatever is there; afterwards each item of the tuple holds its value.  Here the sort has to sort: whole words are
written for structures of 3, 5, 6 or 7 bytes.  Partial: see `offsets_wrap_refuted`. -/
theorem tuple_items_partial {W : World} {sort : List Item → List Item} (hs : Sorts sort) {n d : Nat} {sb : Bool}
    {base : Option Nat} {fields : List Nat} (hk : W.kind d = .obj sb base fields) (hf : Fits W n d)
    {m : Bytes} {z : Nat} {st : Storage} (hz : sizeOf W sort n d = some (z, st)) (hm : roundUp z ≤ m.length)
    (words : List Bytes) (rest : Bytes) (hlen : words.length = fields.length)
    (hw : ∀ (i t : Nat) (v : Bytes) (s : Nat) (sto : Storage), fields[i]? = some t → words[i]? = some v →
      varSize W (sizeOf W sort n) t = some (s, sto) → v.length = roundUp s) :
    ∃ m1, tupleSet W sort n m d (words.flatten ++ rest) = some m1 ∧ m1.length = m.length ∧
      ∀ (i t : Nat) (v : Bytes), fields[i]? = some t → words[i]? = some v →
        ∃ s sto, varSize W (sizeOf W sort n) t = some (s, sto) ∧ getField W sort n m1 d [i] = some (v.take s) := by
  obtain ⟨is, i1, i2, i3⟩ := infos_spec (W := W) (sort := sort) (n := n) (h := d) fields 0 (by
    intro i t hi
    obtain ⟨o, s, sto, b, y, sty, h1, h2, h3, -⟩ := own_field (sort := sort) hs.perm hk hi hf
    exact ⟨o, s, sto, by simpa using h1, h3⟩)
  simp only [Nat.zero_add] at i3
  have key : ∀ (i : Nat) (x : Nat × Nat), is[i]? = some x → ∃ t sto, fields[i]? = some t ∧
      fieldOffset W sort n d i = some x.1 ∧ varSize W (sizeOf W sort n) t = some (x.2, sto) := by
    intro i x hx
    have hlt : i < fields.length := by
      rw [← i2]; exact (List.getElem?_eq_some_iff.1 hx).1
    obtain ⟨o, s, sto, j1, j2, j3⟩ := i3 i _ (List.getElem?_eq_getElem hlt)
    rw [hx] at j1; cases j1
    exact ⟨_, sto, List.getElem?_eq_getElem hlt, j2, j3⟩
  obtain ⟨m1, h1, h2, h3, -⟩ := setRange_spec is words m rest (by omega)
    (by
      intro i x v hx hv
      obtain ⟨t, sto, j1, j2, j3⟩ := key i x hx
      exact hw i t v x.2 sto j1 hv j3)
    (by
      intro x hx
      obtain ⟨i, hi⟩ := List.mem_iff_getElem?.1 hx
      obtain ⟨t, sto, j1, j2, j3⟩ := key i x hi
      obtain ⟨o, s, sto2, b, y, sty, g1, g2, g3, g4, g5, g6, g7, g8⟩ := own_field (sort := sort) hs.perm hk j1 hf
      rw [j2] at g1; cases g1
      rw [j3] at g3; cases g3
      rw [hz] at g5; cases g5
      have := padded_end (x := ⟨0, x.2, .value⟩) g8 g7
      simp only at this
      omega)
    (by
      intro i j x y hij hx hy
      obtain ⟨t, sto, j1, j2, j3⟩ := key i x hx
      obtain ⟨u, sto', k1, k2, k3⟩ := key j y hy
      exact padded_fields hs hk j1 k1 hij hf j2 k2 j3 k3)
  refine ⟨m1, by simp only [tupleSet, hk, i1, h1], h2, ?_⟩
  intro i t v hi hv
  obtain ⟨o, s, sto, j1, j2, j3⟩ := i3 i t hi
  refine ⟨s, sto, j3, ?_⟩
  have hft : fieldType W d i = some t := by simp only [fieldType, hk, hi]
  simp only [getField, resolve, j2, hft, j3]
  exact h3 i (o, s) v j1 hv

/-! ## Non-vacuity -/

/-- Not after, decided. -/
def beforeB (a b : Item) : Bool :=
  decide (rank a.storage < rank b.storage) || (decide (rank a.storage = rank b.storage) && decide (a.size ≤ b.size))

theorem beforeB_iff (a b : Item) : beforeB a b = true ↔ before a b := by simp [beforeB, before]

/-- An insertion into a sorted list. -/
def insertItem (a : Item) : List Item → List Item
  | [] => [a]
  | b :: bs => if beforeB a b then a :: b :: bs else b :: insertItem a bs

/-- A sort. -/
def insSort : List Item → List Item
  | [] => []
  | a :: as => insertItem a (insSort as)

theorem insertItem_perm (a : Item) : ∀ bs, (insertItem a bs).Perm (a :: bs)
  | [] => List.Perm.refl _
  | b :: bs => by
    simp only [insertItem]
    split
    · exact List.Perm.refl _
    · exact ((insertItem_perm a bs).cons b).trans (List.Perm.swap ..)

theorem insertItem_sorted (a : Item) : ∀ bs, bs.Pairwise before → (insertItem a bs).Pairwise before
  | [], _ => by simp [insertItem]
  | b :: bs, h => by
    have h' := List.pairwise_cons.1 h
    simp only [insertItem]
    split
    · rename_i hab
      rw [beforeB_iff] at hab
      refine List.pairwise_cons.2 ⟨?_, h⟩
      intro x hx
      rcases List.mem_cons.1 hx with rfl | hx
      · exact hab
      · have := h'.1 x hx
        unfold before at *; omega
    · rename_i hab
      rw [beforeB_iff] at hab
      refine List.pairwise_cons.2 ⟨?_, insertItem_sorted a bs h'.2⟩
      intro x hx
      rcases List.mem_cons.1 ((insertItem_perm a bs).mem_iff.1 hx) with rfl | hx
      · unfold before at *; omega
      · exact h'.1 x hx

theorem insSort_perm : ∀ xs, (insSort xs).Perm xs
  | [] => List.Perm.refl _
  | a :: as => (insertItem_perm a _).trans ((insSort_perm as).cons a)

theorem insSort_sorted : ∀ xs, (insSort xs).Pairwise before
  | [] => by simp [insSort]
  | a :: as => insertItem_sorted a _ (insSort_sorted as)

theorem insSort_sorts : Sorts insSort := ⟨insSort_perm, insSort_sorted⟩

/-- Types 0 to 3: `byte`, `short`, `int`, `long`; 4: `struct { byte; byte; byte }`; 5: `struct { int; string; byte }`;
6: a class with a `byte`, a structure of 3 bytes and a `long`; 7: a class derived from it with a `short`, an array, the
structure 5 and an `int`; 8: a tuple of the 3 bytes, a `string`, a `byte`, the structure 5 and a `short`. -/
def demo : World where
  kind
    | 0 => .prim 1
    | 1 => .prim 2
    | 2 => .prim 4
    | 3 => .prim 8
    | 4 => .obj true none [0, 0, 0]
    | 5 => .obj true none [2, 10, 0]
    | 6 => .obj false none [0, 4, 3]
    | 7 => .obj false (some 6) [1, 9, 5, 2]
    | 8 => .obj false none [4, 10, 0, 5, 1]
    | 9 => .array
    | _ => .obj false none []

theorem demo_basic : Basic demo := by
  intro t s h
  match t with
  | 0 => cases h; simp
  | 1 => cases h; simp
  | 2 => cases h; simp
  | 3 => cases h; simp
  | 4 => cases h
  | 5 => cases h
  | 6 => cases h
  | 7 => cases h
  | 8 => cases h
  | 9 => cases h
  | _ + 10 => cases h

theorem demo_fits : Fits demo 4 7 ∧ Fits demo 4 8 := ⟨⟨88, by decide +kernel⟩, ⟨72, by decide +kernel⟩⟩

/-- A field of the base class within a structure, and one of a structure of the class. -/
theorem demo_has : Has demo 7 ⟨6, [1, 2]⟩ 0 ∧ Has demo 7 ⟨7, [2, 1]⟩ 10 ∧ Has demo 7 ⟨7, [2]⟩ 5 ∧ Has demo 7 ⟨7, [3]⟩ 2 :=
  ⟨⟨.up (b := 6) rfl (.self 6), .step (t := 4) rfl rfl rfl (.last rfl rfl)⟩,
   ⟨.self 7, .step (t := 5) rfl rfl rfl (.last rfl rfl)⟩, ⟨.self 7, .last rfl rfl⟩, ⟨.self 7, .last rfl rfl⟩⟩

example :
    resolve demo insSort 4 6 [1, 2] = some (6, 0) ∧ resolve demo insSort 4 6 [2] = some (8, 3) ∧
    resolve demo insSort 4 7 [1] = some (16, 9) ∧ resolve demo insSort 4 7 [0] = some (24, 1) ∧
    resolve demo insSort 4 7 [3] = some (28, 2) ∧ resolve demo insSort 4 7 [2, 1] = some (32, 10) ∧
    sizeOf demo insSort 4 7 = some (48, .mixture) := by decide +kernel

example : ∃ z st, sizeOf demo insSort 4 7 = some (z, st) := by
  obtain ⟨z, st, h, -⟩ := field_places_partial insSort_perm demo_basic demo_fits.1
  exact ⟨z, st, h⟩

example : ∃ a, ∀ k, resolve demo insSort (4 + k) 7 [2, 1] = some (a, 10) :=
  field_place_stable insSort_perm demo_has.2.1.2 demo_fits.1

example (junk : Nat → Nat) : ∃ m m1, newObj demo insSort 4 7 junk = some m ∧
    assignAll demo insSort 4 [⟨⟨6, [1, 2]⟩, [7]⟩, ⟨⟨7, [3]⟩, [1, 2, 3, 4]⟩, ⟨⟨6, [1, 2]⟩, [9]⟩] m = some m1 ∧
    getField demo insSort 4 m1 6 [1, 2] = some [9] ∧ getField demo insSort 4 m1 7 [3] = some [1, 2, 3, 4] ∧
    getField demo insSort 4 m1 7 [2, 1] = some [0, 0, 0, 0, 0, 0, 0, 0] := by
  obtain ⟨m, m1, h1, h2, h3⟩ := assignments_partial insSort_perm demo_fits.1 demo_basic junk
    [⟨⟨6, [1, 2]⟩, [7]⟩, ⟨⟨7, [3]⟩, [1, 2, 3, 4]⟩, ⟨⟨6, [1, 2]⟩, [9]⟩] (by
      intro a ha
      simp only [List.mem_cons, List.not_mem_nil, or_false] at ha
      rcases ha with rfl | rfl | rfl
      · exact ⟨0, demo_has.1, rfl, rfl⟩
      · exact ⟨2, demo_has.2.2.2, rfl, rfl⟩
      · exact ⟨0, demo_has.1, rfl, rfl⟩)
  exact ⟨m, m1, h1, h2, h3 ⟨6, [1, 2]⟩ 0 demo_has.1 rfl, h3 ⟨7, [3]⟩ 2 demo_has.2.2.2 rfl,
    h3 ⟨7, [2, 1]⟩ 10 demo_has.2.1 rfl⟩

/-- The structure of the tuple is assigned to the one of the object. -/
example (m m' : Bytes) (hm : m.length = 48) (hm' : m'.length = 40) : ∃ v m1, getField demo insSort 4 m' 8 [3] = some v ∧
    setField demo insSort 4 m 7 [2] v = some m1 ∧
    (∃ w, getField demo insSort 4 m' 8 [3, 1] = some w ∧ getField demo insSort 4 m1 7 [2, 1] = some w) ∧
    getField demo insSort 4 m1 7 [3] = getField demo insSort 4 m 7 [3] := by
  obtain ⟨v, m1, h1, h2, h3, h4⟩ := structure_copy_partial insSort_perm demo_fits.1 demo_fits.2
    (x := ⟨7, [2]⟩) (y := ⟨8, [3]⟩) (t := 5) demo_has.2.2.1 ⟨.self 8, .last rfl rfl⟩ rfl (m := m) (m' := m')
    (z := 48) (z' := 32) (st := .mixture) (st' := .mixture) (by decide +kernel) (by omega) (by decide +kernel) (by omega)
  refine ⟨v, m1, h1, h2, h3 [1] 10 (.last rfl rfl), h4 ⟨7, [3]⟩ 2 demo_has.2.2.2 ?_⟩
  intro _
  decide

/-- The items of a tuple with a structure of 3 bytes. -/
example : tupleSet demo insSort 4 (List.replicate 40 255) 8
    ([1, 2, 3, 91, 92, 93, 94, 95] ++ [11, 12, 13, 14, 15, 16, 17, 18] ++ [5, 91, 92, 93, 94, 95, 96, 97] ++
      [51, 52, 53, 54, 55, 56, 57, 58, 61, 62, 63, 64, 71, 99, 99, 99] ++ [41, 42, 91, 92, 93, 94, 95, 96]) =
    some ([11, 12, 13, 14, 15, 16, 17, 18] ++ [5, 255, 41, 42] ++ [1, 2, 3, 91] ++
      [51, 52, 53, 54, 55, 56, 57, 58, 61, 62, 63, 64, 71, 99, 99, 99] ++ List.replicate 8 255) := by decide +kernel

example : ∃ m1, tupleSet demo insSort 4 (List.replicate 40 255) 8
    ([[1, 2, 3, 91, 92, 93, 94, 95], [11, 12, 13, 14, 15, 16, 17, 18], [5, 91, 92, 93, 94, 95, 96, 97],
      [51, 52, 53, 54, 55, 56, 57, 58, 61, 62, 63, 64, 71, 99, 99, 99], [41, 42, 91, 92, 93, 94, 95, 96]].flatten ++ []) =
      some m1 ∧ getField demo insSort 4 m1 8 [0] = some [1, 2, 3] := by
  obtain ⟨m1, h1, -, h3⟩ := tuple_items_partial insSort_sorts (W := demo) (n := 4) (d := 8) rfl demo_fits.2
    (m := List.replicate 40 255) (z := 32) (st := .mixture) (by decide +kernel) (by decide)
    [[1, 2, 3, 91, 92, 93, 94, 95], [11, 12, 13, 14, 15, 16, 17, 18], [5, 91, 92, 93, 94, 95, 96, 97],
      [51, 52, 53, 54, 55, 56, 57, 58, 61, 62, 63, 64, 71, 99, 99, 99], [41, 42, 91, 92, 93, 94, 95, 96]] [] rfl (by
      intro i t v s sto hi hv hs
      match i with
      | 0 => cases hi; cases hv; have : varSize demo (sizeOf demo insSort 4) 4 = some (3, .value) := by decide +kernel
             rw [this] at hs; cases hs; rfl
      | 1 => cases hi; cases hv; have : varSize demo (sizeOf demo insSort 4) 10 = some (8, .ref) := by decide +kernel
             rw [this] at hs; cases hs; rfl
      | 2 => cases hi; cases hv; have : varSize demo (sizeOf demo insSort 4) 0 = some (1, .value) := by decide +kernel
             rw [this] at hs; cases hs; rfl
      | 3 => cases hi; cases hv; have : varSize demo (sizeOf demo insSort 4) 5 = some (16, .mixture) := by decide +kernel
             rw [this] at hs; cases hs; rfl
      | 4 => cases hi; cases hv; have : varSize demo (sizeOf demo insSort 4) 1 = some (2, .value) := by decide +kernel
             rw [this] at hs; cases hs; rfl
      | i + 5 => cases hi)
  obtain ⟨s, sto, h4, h5⟩ := h3 0 4 _ rfl rfl
  have : varSize demo (sizeOf demo insSort 4) 4 = some (3, .value) := by decide +kernel
  rw [this] at h4; cases h4
  exact ⟨m1, h1, h5⟩

/-! ## Where the code is wrong -/

/-- 0: `long`; 1: a structure of 16 of them; 2: of 16 of those; 3: of 32 of those, 65536 bytes; 4: a class with two
fields of it. -/
def big : World where
  kind
    | 0 => .prim 8
    | 1 => .obj true none (List.replicate 16 0)
    | 2 => .obj true none (List.replicate 16 1)
    | 3 => .obj true none (List.replicate 32 2)
    | _ => .obj false none [3, 3]

/-- Offsets and sizes are 16 bits wide and nothing checks that they fit: an object with two structures of 65536 bytes
is 0 bytes large and both are at its beginning. -/
theorem offsets_wrap_refuted :
    Has big 4 ⟨4, [0, 1, 0, 0]⟩ 0 ∧ Has big 4 ⟨4, [1, 1, 0, 0]⟩ 0 ∧
    Apart ⟨4, [0, 1, 0, 0]⟩ ⟨4, [1, 1, 0, 0]⟩ ∧
    sizeOf big insSort 5 4 = some (0, .value) ∧
    resolve big insSort 5 4 [0, 1, 0, 0] = some (2048, 0) ∧
    resolve big insSort 5 4 [1, 1, 0, 0] = some (2048, 0) := by
  refine ⟨⟨.self 4, .step (t := 3) rfl rfl rfl (.step (t := 2) rfl rfl rfl (.step (t := 1) rfl rfl rfl (.last rfl rfl)))⟩,
    ⟨.self 4, .step (t := 3) rfl rfl rfl (.step (t := 2) rfl rfl rfl (.step (t := 1) rfl rfl rfl (.last rfl rfl)))⟩,
    fun _ => by decide, ?_, ?_, ?_⟩ <;> decide +kernel

/-- `struct S { S s; }`: the size is computed from itself without end. -/
theorem recursive_structure_refuted {W : World} {sort : List Item → List Item} {t : Nat} {base : Option Nat}
    (h : W.kind t = .obj true base [t]) (n : Nat) : sizeOf W sort n t = none := by
  induction n with
  | zero => rfl
  | succ n ih =>
    simp only [sizeOf, h, layoutOf]
    split
    · rfl
    · rename_i l hl
      split at hl
      · cases hl
      · simp [layout, gather, varSize, h, ih] at hl

example : ∃ W : World, W.kind 0 = .obj true none [0] := ⟨⟨fun _ => .obj true none [0]⟩, rfl⟩

end Verif.Fields
