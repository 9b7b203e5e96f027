import Verif.Proof.Fields2

/-! ## Tuples: whole words are written for each item -/

namespace Verif.Fields

open Verif.Layout (Storage m16)
open Verif.Arr (alignf unitAlign)

theorem widthFor_cases (n : Nat) : (n % 8 ≤ 2 ∨ n % 8 = 4 → widthFor n = n) ∧ (n % 8 = 3 → widthFor n = n + 1) ∧
    (5 ≤ n % 8 → widthFor n = roundUp n) := by
  induction n using widthFor.induct with
  | case9 n ih =>
    rw [widthFor]
    unfold roundUp at ih ⊢
    omega
  | _ => refine ⟨?_, ?_, ?_⟩ <;> simp [widthFor, roundUp]

theorem widthFor_bounds (n : Nat) : n ≤ widthFor n ∧ widthFor n ≤ roundUp n := by
  have := widthFor_cases n
  unfold roundUp at *
  omega

theorem unitSize_eq (n : Nat) : unitSize n * 8 = roundUp n := by
  simp only [unitSize, refSize, alignf8]
  have := roundUp_mod n
  omega

/-- What the storage type of an item says of its size. -/
def Shape (it : Item) : Prop :=
  (it.storage = .ref → it.size % 8 = 0 ∧ 8 ≤ it.size) ∧ (it.storage = .mixture → 8 ≤ it.size)

/-- What was written for an item does not reach the next one. -/
theorem padded_next {x y : Item} {a b : Nat} (hx : Shape x) (hy : Shape y) (hxy : before x y)
    (ha : unitAlign a x.size = a) (hb : unitAlign b y.size = b) (hab : a + x.size ≤ b) : a + widthFor x.size ≤ b := by
  have h1 := unitAlign_mod _ _ ha
  have h2 := unitAlign_mod _ _ hb
  have h3 := widthFor_cases x.size
  unfold roundUp at h3
  obtain ⟨hx1, hx2⟩ := hx
  obtain ⟨hy1, hy2⟩ := hy
  unfold before at hxy
  cases hsx : x.storage <;> cases hsy : y.storage <;>
    simp only [hsx, hsy, rank, reduceCtorEq, false_implies, true_implies] at hxy hx1 hx2 hy1 hy2 <;> omega

theorem padded_end {x : Item} {a e : Nat} (ha : unitAlign a x.size = a) (hae : a + x.size ≤ e) :
    a + widthFor x.size ≤ roundUp e := by
  have h1 := unitAlign_mod _ _ ha
  have h3 := widthFor_cases x.size
  unfold roundUp at h3 ⊢
  omega

/-- The first item ends before every later one begins. -/
theorem Placed.padded {items : List Item} {o e : Nat} {offs : List (Nat × Nat)} (h : Placed items o offs e)
    (hn : (items.map Item.field).Nodup) (hsort : items.Pairwise before) (hsh : ∀ it ∈ items, Shape it)
    {x y : Item} (hx : x ∈ items) (hy : y ∈ items) (hne : x.field ≠ y.field)
    {a b : Nat} (ha : (x.field, a) ∈ offs) (hb : (y.field, b) ∈ offs) :
    a + widthFor x.size ≤ b ∨ b + widthFor y.size ≤ a := by
  induction h with
  | nil => cases hx
  | @cons it rest o off e offs ho hp ih =>
    have hn' := List.nodup_cons.1 hn
    have hs' := List.pairwise_cons.1 hsort
    have hf := hp.fields
    have notin : ∀ z : Item, z ∈ rest → ¬ z.field = it.field := fun z hz he =>
      hn'.1 (he ▸ List.mem_map.2 ⟨z, hz, rfl⟩)
    have first : ∀ {c : Nat}, (it.field, c) ∈ (it.field, off) :: offs → c = off := by
      intro c hc
      rcases List.mem_cons.1 hc with hc | hc
      · exact (Prod.mk.inj hc).2
      · exact absurd (hf ▸ mem_fst hc) hn'.1
    have later : ∀ {z : Item} {c : Nat}, z ∈ rest → (z.field, c) ∈ (it.field, off) :: offs → (z.field, c) ∈ offs := by
      intro z c hz hc
      rcases List.mem_cons.1 hc with hc | hc
      · exact absurd (Prod.mk.inj hc).1 (notin z hz)
      · exact hc
    have hoff : unitAlign off it.size = off := by rw [ho]; exact unitAlign_idem ..
    have next : ∀ {z : Item} {c : Nat}, z ∈ rest → (z.field, c) ∈ offs → off + widthFor it.size ≤ c := by
      intro z c hz hc
      obtain ⟨c', hc', hb', -, hd⟩ := hp.get hz
      have e1 := lookup_of_mem (hf ▸ hn'.2) hc
      have e2 := lookup_of_mem (hf ▸ hn'.2) hc'
      rw [e1] at e2; cases e2
      exact padded_next (hsh it (List.mem_cons_self ..)) (hsh z (List.mem_cons_of_mem _ hz)) (hs'.1 z hz) hoff hd hb'
    rcases List.mem_cons.1 hx with rfl | hx' <;> rcases List.mem_cons.1 hy with rfl | hy'
    · exact absurd rfl hne
    · have := first ha; have := next hy' (later hy' hb); omega
    · have := first hb; have := next hx' (later hx' ha); omega
    · exact ih hn'.2 hs'.2 (fun i hi => hsh i (List.mem_cons_of_mem _ hi)) hx' hy' (later hx' ha) (later hy' hb)

/-! ### Storage types and sizes -/

theorem merge_ref_some : ∀ (items : List Item) (st : Storage), mergeStorage (some st) items = some .ref →
    st = .ref ∧ ∀ it ∈ items, it.storage = .ref
  | [], st, h => by
    simp only [mergeStorage, Option.some.injEq] at h
    exact ⟨h, by simp⟩
  | it :: rest, st, h => by
    simp only [mergeStorage] at h
    obtain ⟨h1, h2⟩ := merge_ref_some rest _ h
    split at h1
    · rename_i he
      refine ⟨h1, ?_⟩
      intro x hx
      rcases List.mem_cons.1 hx with rfl | hx
      · rw [← he, h1]
      · exact h2 x hx
    · cases h1

theorem merge_ref {items : List Item} (h : mergeStorage none items = some .ref) :
    (∀ it ∈ items, it.storage = .ref) ∧ items ≠ [] := by
  cases items with
  | nil => simp [mergeStorage] at h
  | cons it rest =>
    simp only [mergeStorage] at h
    obtain ⟨h1, h2⟩ := merge_ref_some rest _ h
    refine ⟨?_, by simp⟩
    intro x hx
    rcases List.mem_cons.1 hx with rfl | hx
    · exact h1
    · exact h2 x hx

/-- Values only stay so. -/
theorem merge_values : ∀ (items : List Item), (∀ it ∈ items, it.storage = .value) →
    mergeStorage (some .value) items = some .value
  | [], _ => rfl
  | it :: rest, h => by
    simp only [mergeStorage, h it (List.mem_cons_self ..), if_true]
    exact merge_values rest fun i hi => h i (List.mem_cons_of_mem _ hi)

/-- A mixture has an item that is not of values only. -/
theorem merge_mixture {items : List Item} (h : mergeStorage none items = some .mixture) :
    ∃ it ∈ items, it.storage ≠ .value := by
  apply Classical.byContradiction
  intro hno
  have hall : ∀ it ∈ items, it.storage = .value := by
    intro it hi
    apply Classical.byContradiction
    intro hne
    exact hno ⟨it, hi, hne⟩
  cases items with
  | nil => simp [mergeStorage] at h
  | cons it rest =>
    simp only [mergeStorage, hall it (List.mem_cons_self ..)] at h
    rw [merge_values rest fun i hi => hall i (List.mem_cons_of_mem _ hi)] at h
    cases h

theorem Placed.end_mod {items : List Item} {o e : Nat} {offs : List (Nat × Nat)} (h : Placed items o offs e)
    (hne : items ≠ []) (hall : ∀ it ∈ items, it.size % 8 = 0 ∧ 8 ≤ it.size) : e % 8 = 0 := by
  have tail : ∀ {items : List Item} {o e : Nat} {offs : List (Nat × Nat)}, Placed items o offs e → o % 8 = 0 →
      (∀ it ∈ items, it.size % 8 = 0 ∧ 8 ≤ it.size) → e % 8 = 0 := by
    intro items o e offs h
    induction h with
    | nil => exact fun h _ => h
    | @cons it rest o off e offs ho hp ih =>
      intro h0 hall
      have h1 := hall it (List.mem_cons_self ..)
      have h2 : unitAlign off it.size = off := by rw [ho]; exact unitAlign_idem ..
      have h3 := unitAlign_mod _ _ h2
      exact ih (by omega) (fun i hi => hall i (List.mem_cons_of_mem _ hi))
  cases h with
  | nil => exact absurd rfl hne
  | @cons it rest o off e offs ho hp =>
    have h1 := hall it (List.mem_cons_self ..)
    have h2 : unitAlign off it.size = off := by rw [ho]; exact unitAlign_idem ..
    have h3 := unitAlign_mod _ _ h2
    exact tail hp (by omega) (fun i hi => hall i (List.mem_cons_of_mem _ hi))

/-- The items that fit are placed without overflow, so that the size of the whole is known. -/
theorem shape_layout {sort : List Item → List Item} (hs : ∀ xs, (sort xs).Perm xs) {items : List Item}
    {b e : Nat} {offs : List (Nat × Nat)} (hsh : ∀ it ∈ items, Shape it) (hp : Placed (sort items) b offs e) :
    Shape ⟨0, e, (mergeStorage none (sort items)).getD .value⟩ := by
  have hm : ∀ it ∈ sort items, Shape it := fun it hi => hsh it ((hs items).mem_iff.1 hi)
  constructor
  · intro h
    simp only at h
    cases hms : mergeStorage none (sort items) with
    | none => simp [hms] at h
    | some st =>
      simp only [hms, Option.getD_some] at h
      subst h
      obtain ⟨h2, h3⟩ := merge_ref hms
      have hall : ∀ it ∈ sort items, it.size % 8 = 0 ∧ 8 ≤ it.size := fun it hi => (hm it hi).1 (h2 it hi)
      have := hp.end_mod h3 hall
      refine ⟨this, ?_⟩
      cases hl : sort items with
      | nil => exact absurd hl h3
      | cons it rest =>
        obtain ⟨a, -, -, hc, -⟩ := hp.get (x := it) (by rw [hl]; exact List.mem_cons_self ..)
        have := hall it (by rw [hl]; exact List.mem_cons_self ..)
        simp only
        omega
  · intro h
    simp only at h
    cases hms : mergeStorage none (sort items) with
    | none => simp [hms] at h
    | some st =>
      simp only [hms, Option.getD_some] at h
      subst h
      obtain ⟨it, hi, hne⟩ := merge_mixture hms
      obtain ⟨a, -, -, hc, -⟩ := hp.get hi
      have hsi := hm it hi
      have : 8 ≤ it.size := by
        cases hst : it.storage with
        | value => exact absurd hst hne
        | ref => exact (hsi.1 hst).2
        | mixture => exact hsi.2 hst
      simp only
      omega

/-- Only types that fit are asked for. -/
def ShapeFits (W : World) (size : Sizes) (n : Nat) : Prop :=
  ∀ (t k s : Nat) (st : Storage), room W n t = some k → k ≤ 65528 → size t = some (s, st) → Shape ⟨0, s, st⟩

theorem items_shape_step {W : World} {sort : List Item → List Item} (hs : ∀ xs, (sort xs).Perm xs) {n t k : Nat}
    {sb : Bool} {base : Option Nat} {fields : List Nat} {items : List Item} (ih : ShapeFits W (sizeOf W sort n) n)
    (hkind : W.kind t = .obj sb base fields) (hr : room W (n + 1) t = some k) (hk : k ≤ 65528)
    (hga : gather W (sizeOf W sort (n + 1)) 0 fields = some items) : ∀ it ∈ items, Shape it := by
  obtain ⟨rb, rf, -, hrf, rfl⟩ := room_obj hkind hr
  intro it hit
  obtain ⟨i, u, hu, -, hv⟩ := (gather_spec W _ fields 0 items hga).2.2.2 it hit
  obtain ⟨c, hc, hle⟩ := room_field fields rf i u hrf hu
  unfold varSize at hv
  unfold roomVar at hc
  have low : ∀ r, room W n u = some c → sizeOf W sort (n + 1) u = some r → sizeOf W sort n u = some r := by
    intro r hc hr
    obtain ⟨-, s1, st1, h1, -⟩ := size_ok W sort hs n u c hc (by omega)
    have := sizeOf_succ W sort n u _ h1
    rw [hr] at this; cases this; exact h1
  split at hv
  · simp only [Option.some.injEq, Prod.mk.injEq] at hv
    simp [Shape, ← hv.1, ← hv.2, refSize]
  · simp only [Option.some.injEq, Prod.mk.injEq] at hv
    simp [Shape, ← hv.1, ← hv.2, refSize]
  · simp only [Option.some.injEq, Prod.mk.injEq] at hv
    simp [Shape, ← hv.1, ← hv.2, refSize]
  · rename_i hku
    simp only [hku] at hc
    exact ih u c _ _ hc (by omega) (low _ hc hv)
  · rename_i hku
    simp only [hku] at hc
    exact ih u c _ _ hc (by omega) (low _ hc hv)

theorem shape_size {W : World} {sort : List Item → List Item} (hs : ∀ xs, (sort xs).Perm xs) :
    ∀ n, ShapeFits W (sizeOf W sort n) n
  | 0 => by intro t k s st h; simp [room] at h
  | n + 1 => by
    intro t k s st hr hk hz
    cases hkind : W.kind t with
    | prim z =>
      simp only [sizeOf, hkind, known] at hz
      split at hz
      · cases hz
      · cases hz; simp [Shape]
    | array => simp only [sizeOf, hkind] at hz; cases hz; simp [Shape, refSize]
    | iface => simp [sizeOf, hkind] at hz
    | obj sb base fields =>
      obtain ⟨b, l, items, hb, hl, hz', hg, hga, hpl, hst⟩ := laid hs hkind ⟨k, hr, hk⟩
      rw [hz] at hz'
      cases hz'
      rw [hst]
      exact shape_layout hs (items_shape_step hs (shape_size hs n) hkind hr hk hga) hpl

theorem items_shape {W : World} {sort : List Item → List Item} (hs : ∀ xs, (sort xs).Perm xs) {n t : Nat}
    {sb : Bool} {base : Option Nat} {fields : List Nat} {items : List Item}
    (hkind : W.kind t = .obj sb base fields) (hfit : Fits W n t)
    (hga : gather W (sizeOf W sort n) 0 fields = some items) : ∀ it ∈ items, Shape it := by
  obtain ⟨k, hr, hk⟩ := hfit
  cases n with
  | zero => simp [room] at hr
  | succ n => exact items_shape_step hs (shape_size hs n) hkind hr hk hga

/-- Where the items of a tuple are. -/
theorem padded_fields {W : World} {sort : List Item → List Item} (hs : Sorts sort) {n h f g t u : Nat} {st : Bool}
    {base : Option Nat} {fields : List Nat} (hk : W.kind h = .obj st base fields) (hf : fields[f]? = some t)
    (hg : fields[g]? = some u) (hne : f ≠ g) (hfit : Fits W n h) {o o' s s' : Nat} {sto sto' : Storage}
    (h1 : fieldOffset W sort n h f = some o) (h2 : fieldOffset W sort n h g = some o')
    (h3 : varSize W (sizeOf W sort n) t = some (s, sto)) (h4 : varSize W (sizeOf W sort n) u = some (s', sto')) :
    o + widthFor s ≤ o' ∨ o' + widthFor s' ≤ o := by
  obtain ⟨b, l, items, hb, hl, hz, hgood, hga, hpl, -⟩ := laid hs.perm hk hfit
  simp only [fieldOffset, hl] at h1 h2
  have hsh := items_shape hs.perm hk hfit hga
  obtain ⟨g1, g2, g3, g4⟩ := gather_spec W _ fields 0 items hga
  have hp := hs.perm items
  have hnd : (items.map Item.field).Nodup := by rw [g2]; exact List.nodup_range'
  have hnd' : ((sort items).map Item.field).Nodup := (hp.map _).nodup_iff.2 hnd
  have hndo := hpl.fields ▸ hnd'
  obtain ⟨s1, st1, hv1, hm1⟩ := g3 f t hf
  obtain ⟨s2, st2, hv2, hm2⟩ := g3 g u hg
  rw [h3] at hv1; rw [h4] at hv2
  cases hv1; cases hv2
  simp only [Nat.zero_add] at hm1 hm2
  obtain ⟨a, ha, -⟩ := hpl.get (hp.mem_iff.2 hm1)
  obtain ⟨c, hc, -⟩ := hpl.get (hp.mem_iff.2 hm2)
  have e1 := lookup_of_mem hndo ha
  have e2 := lookup_of_mem hndo hc
  simp only at ha hc e1 e2
  rw [e1] at h1; rw [e2] at h2
  cases h1; cases h2
  exact hpl.padded hnd' (hs.sorted items) (fun it hi => hsh it (hp.mem_iff.1 hi)) (hp.mem_iff.2 hm1) (hp.mem_iff.2 hm2)
    hne ha hc

theorem setRange_spec : ∀ (is : List (Nat × Nat)) (vs : List Bytes) (m rest : Bytes),
    is.length = vs.length → (∀ (i : Nat) (x : Nat × Nat) (v : Bytes), is[i]? = some x → vs[i]? = some v →
      v.length = roundUp x.2) → (∀ x ∈ is, x.1 + widthFor x.2 ≤ m.length) →
    (∀ (i j : Nat) (x y : Nat × Nat), i ≠ j → is[i]? = some x → is[j]? = some y →
      x.1 + widthFor x.2 ≤ y.1 ∨ y.1 + widthFor y.2 ≤ x.1) →
    ∃ m1, setRange is m (vs.flatten ++ rest) = some m1 ∧ m1.length = m.length ∧
      (∀ (i : Nat) (x : Nat × Nat) (v : Bytes), is[i]? = some x → vs[i]? = some v →
        read m1 x.1 x.2 = some (v.take x.2)) ∧
      (∀ b k, (∀ x ∈ is, x.1 + widthFor x.2 ≤ b ∨ b + k ≤ x.1) → read m1 b k = read m b k)
  | [], vs, m, rest, _, _, _, _ => ⟨m, rfl, rfl, fun i x v h => by simp at h, fun _ _ _ => rfl⟩
  | (o, s) :: is, [], m, rest, h, _, _, _ => by simp at h
  | (o, s) :: is, v :: vs, m, rest, hl, hlen, hin, hdis => by
    have hv : v.length = roundUp s := hlen 0 (o, s) v rfl rfl
    have hw := widthFor_bounds s
    have hm := hin (o, s) (List.mem_cons_self ..)
    simp only at hm
    have hread : read ((v :: vs).flatten ++ rest) 0 (widthFor s) = some (v.take (widthFor s)) := by
      rw [read_eq]
      refine ⟨?_, ?_, ?_⟩
      · simp only [List.flatten_cons, List.length_append]; omega
      · simp only [List.length_take]; omega
      · intro i hi
        rw [List.getElem?_take_of_lt hi, List.flatten_cons, List.append_assoc,
          List.getElem?_append_left (by omega)]
        congr 1; omega
    have hlt : (v.take (widthFor s)).length = widthFor s := by simp only [List.length_take]; omega
    obtain ⟨m1, hm1⟩ := write_ok (m := m) (a := o) (v := v.take (widthFor s)) (by omega)
    have hwg := write_get hm1
    have hdrop : ((v :: vs).flatten ++ rest).drop (unitSize s * 8) = vs.flatten ++ rest := by
      rw [unitSize_eq, List.flatten_cons, List.append_assoc, ← hv, List.drop_left]
    obtain ⟨m2, h1, h2, h3, h4⟩ := setRange_spec is vs m1 rest (by simpa using hl)
      (fun i x w hx hw => hlen (i + 1) x w (by simpa using hx) (by simpa using hw))
      (fun x hx => by have := hin x (List.mem_cons_of_mem _ hx); omega)
      (fun i j x y hij hx hy => hdis (i + 1) (j + 1) x y (by omega) (by simpa using hx) (by simpa using hy))
    refine ⟨m2, by rw [setRange]; simp only [hread, hm1, hdrop, h1], by omega, ?_, ?_⟩
    · intro i x w hx hw'
      cases i with
      | zero =>
        simp only [List.getElem?_cons_zero, Option.some.injEq] at hx hw'
        subst hx; subst hw'
        rw [h4 o s, read_written hm1 (by omega), List.take_take]
        · congr 2; omega
        · intro x hx
          obtain ⟨j, hj⟩ := List.mem_iff_getElem?.1 hx
          rcases hdis 0 (j + 1) (o, s) x (by omega) rfl (by simpa using hj) with h | h
          · right; simp only at h; omega
          · left; exact h
      | succ i =>
        simp only [List.getElem?_cons_succ] at hx hw'
        exact h3 i x w hx hw'
    · intro b k hb
      rw [h4 b k (fun x hx => hb x (List.mem_cons_of_mem _ hx))]
      apply read_other hm1
      rw [hlt]
      exact hb (o, s) (List.mem_cons_self ..)

theorem infos_spec {W : World} {sort : List Item → List Item} {n h : Nat} : ∀ (ts : List Nat) (k : Nat),
    (∀ (i t : Nat), ts[i]? = some t → ∃ o s sto, fieldOffset W sort n h (k + i) = some o ∧
      varSize W (sizeOf W sort n) t = some (s, sto)) →
    ∃ is, infos W sort n h k ts = some is ∧ is.length = ts.length ∧
      ∀ (i t : Nat), ts[i]? = some t → ∃ o s sto, is[i]? = some (o, s) ∧ fieldOffset W sort n h (k + i) = some o ∧
        varSize W (sizeOf W sort n) t = some (s, sto)
  | [], k, _ => ⟨[], rfl, rfl, fun i t h => by simp at h⟩
  | t :: ts, k, hall => by
    obtain ⟨o, s, sto, h1, h2⟩ := hall 0 t rfl
    obtain ⟨is, i1, i2, i3⟩ := infos_spec ts (k + 1) (fun i u hu => by
      have := hall (i + 1) u (by simpa using hu)
      rw [show k + 1 + i = k + (i + 1) by omega]; exact this)
    simp only [Nat.add_zero] at h1
    refine ⟨(o, s) :: is, by simp only [infos, h1, h2, i1], by simp [i2], ?_⟩
    intro i u hu
    cases i with
    | zero =>
      simp only [List.getElem?_cons_zero, Option.some.injEq] at hu
      subst hu
      exact ⟨o, s, sto, rfl, h1, h2⟩
    | succ i =>
      simp only [List.getElem?_cons_succ] at hu
      obtain ⟨o2, s2, sto2, j1, j2, j3⟩ := i3 i u hu
      refine ⟨o2, s2, sto2, by simpa using j1, ?_, j3⟩
      rw [show k + (i + 1) = k + 1 + i by omega]; exact j2

end Verif.Fields
