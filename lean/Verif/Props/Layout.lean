import Verif.Proof.Layout2

/-!
# C75: local variables in scope together do not share memory
-/

namespace Verif.Layout.Props

open Verif.Layout
open Verif.Arr (unitAlign alignf)

theorem range_map_get (items : List Item) :
    (List.range items.length).map (fun k => ((items[k]?.map (·.size)).getD 0) + 7) = items.map fun it => it.size + 7 := by
  apply List.ext_getElem?
  intro k
  rw [List.getElem?_map, List.getElem?_map]
  rcases Nat.lt_or_ge k items.length with h | h
  · rw [List.getElem?_range h, List.getElem?_eq_getElem h]; simp [List.getElem?_eq_getElem h]
  · have h1 : (List.range items.length)[k]? = none := by rw [List.getElem?_eq_none_iff]; simpa using h
    have h2 : items[k]? = none := by rw [List.getElem?_eq_none_iff]; exact h
    rw [h1, h2]; rfl

theorem weights {defs : List Def} {l : Layout} (h : Inv defs l) :
    weight (sizeOf l) (l.groups .ref).items + weight (sizeOf l) (l.groups .value).items +
      weight (sizeOf l) (l.groups .mixture).items = (defs.map fun d => d.size + 7).sum := by
  have hnd : ((l.groups .ref).items ++ (l.groups .value).items ++ (l.groups .mixture).items).Nodup := by
    have hdis : ∀ s t, s ≠ t → ∀ a ∈ (l.groups s).items, ∀ b ∈ (l.groups t).items, a ≠ b := by
      intro s t hst a ha b hb hab
      subst hab
      obtain ⟨i1, h1, h2⟩ := ((h.struct s).mem a).1 ha
      obtain ⟨i2, h3, h4⟩ := ((h.struct t).mem a).1 hb
      rw [h1] at h3
      simp only [Option.some.injEq] at h3
      subst h3
      exact hst (h2.symm.trans h4)
    rw [List.nodup_append, List.nodup_append]
    refine ⟨⟨sorted_nodup (h.struct _).sorted, sorted_nodup (h.struct _).sorted, hdis _ _ (by decide)⟩,
      sorted_nodup (h.struct _).sorted, ?_⟩
    intro a ha b hb
    rcases List.mem_append.1 ha with h1 | h1
    · exact hdis .ref .mixture (by decide) a h1 b hb
    · exact hdis .value .mixture (by decide) a h1 b hb
  have hp : ((l.groups .ref).items ++ (l.groups .value).items ++ (l.groups .mixture).items).Perm
      (List.range l.items.length) := by
    rw [List.perm_ext_iff_of_nodup hnd List.nodup_range]
    intro k
    rw [List.mem_append, List.mem_append, (h.struct _).mem, (h.struct _).mem, (h.struct _).mem, List.mem_range]
    constructor
    · rintro ((x | x) | x) <;> exact x.lt
    · intro hk
      have e := List.getElem?_eq_getElem hk
      cases hs : l.items[k].storage with
      | ref => exact .inl (.inl ⟨_, e, hs⟩)
      | value => exact .inl (.inr ⟨_, e, hs⟩)
      | mixture => exact .inr ⟨_, e, hs⟩
  rw [← weight_append, ← weight_append, weight_perm hp, ← h.defs]
  unfold weight sizeOf
  rw [range_map_get, List.map_map]
  rfl

theorem sizeOf_def {defs : List Def} {l : Layout} (h : Inv defs l) {a : Nat} {d : Def} (hd : defs[a]? = some d) :
    sizeOf l a = d.size := by
  rw [getElem?_toDef h.defs, Option.map_eq_some_iff] at hd
  obtain ⟨it, h1, h2⟩ := hd
  subst h2
  simp [sizeOf, h1, Item.toDef]

/-- Local variables get places in the frame of their method, and two of them that are in scope together have no byte
in common.

The full statement is this without the hypotheses `ref`, `value` and `mixture` (it is false without:
`skip_refuted`, `mixture_refuted`), and with places that are aligned (they are not: `unaligned_refuted`).  `fits`: the
variables with 7 bytes each fit in 16 bits (without, `wrap_refuted`). -/
theorem locals_partial (defs : List Def) (sort : List Nat → List Nat) (hsort : ∀ xs, (sort xs).Perm xs)
    (fits : (defs.map fun d => d.size + 7).sum + 7 < 65536) (ref : Faithful defs .ref) (value : Faithful defs .value)
    (mixture : Flat defs .mixture) :
    ∃ places units, commit sort (layoutOf defs) = some (places, units) ∧
      (∀ (a : Nat) (d : Def), defs[a]? = some d → places a + d.size ≤ units * 8) ∧
      ∀ (a b : Nat) (da db : Def), Sees defs a b → defs[a]? = some da → defs[b]? = some db →
        DisjointBytes (places a) da.size (places b) db.size := by
  have hlen : defs.length * 7 ≤ (defs.map fun d => d.size + 7).sum := by
    clear ref value mixture fits
    induction defs with
    | nil => simp
    | cons d ds ih => simp only [List.length_cons, List.map_cons, List.sum_cons]; omega
  have hI := layoutOf_inv defs (by omega)
  have hil : (layoutOf defs).items.length = defs.length := by
    have := congrArg List.length hI.defs
    simpa using this
  have hw := weights hI
  have tr := layoutOf_tight .ref defs (by omega) (.of_defs hI.defs ref)
  have tv := layoutOf_tight .value defs (by omega) (.of_defs hI.defs value)
  have tm := (layoutOf_flat .mixture defs (by omega) (.of_defs hI.defs mixture)).2
  obtain ⟨f1, n1, r1, r2, r3, r4⟩ := commitGroup_arrange (size := sizeOf (layoutOf defs)) (hI.struct .ref) tr (by decide)
    hsort (by omega) (offset := 0) (by omega) (fun _ => 0)
  obtain ⟨f2, n2, v1, v2, v3, v4⟩ := commitGroup_arrange (size := sizeOf (layoutOf defs)) (hI.struct .value) tv (by decide)
    hsort (by omega) (offset := n1) (by omega) f1
  obtain ⟨f3, n3, m1, m2, m3, m4⟩ := commitGroup_mixture (size := sizeOf (layoutOf defs)) (hI.struct .mixture) tm
    hsort (offset := n2) (by omega) f2
  have hunits : n3 ≤ m16 (unitAlign n3 8) / 8 * 8 := by
    have e : unitAlign n3 8 = (n3 + 7) / 8 * 8 := rfl
    have : (n3 + 7) / 8 * 8 < 65536 := by omega
    rw [e, m16, Nat.mod_eq_of_lt this]; omega
  -- the final place of each kind
  have hdif : ∀ s t a, Has (layoutOf defs).items s a → s ≠ t → ¬ Has (layoutOf defs).items t a := by
    rintro s t a ⟨i1, h1, h2⟩ hst ⟨i2, h3, h4⟩
    rw [h1] at h3
    simp only [Option.some.injEq] at h3
    subst h3
    exact hst (h2.symm.trans h4)
  have kr : ∀ a, Has (layoutOf defs).items .ref a → f3 a = f1 a := by
    intro a ha
    rw [m4.frame a (hdif _ _ a ha (by decide)), v4.frame a (hdif _ _ a ha (by decide))]
  have kv : ∀ a, Has (layoutOf defs).items .value a → f3 a = f2 a := by
    intro a ha
    rw [m4.frame a (hdif _ _ a ha (by decide))]
  refine ⟨f3, m16 (unitAlign n3 8) / 8, ?_, ?_, ?_⟩
  · unfold commit
    simp only [r1, v1, m1, Option.bind_eq_bind, Option.bind_some, Option.pure_def]
  · intro a d hd
    have hh : Has (layoutOf defs).items d.storage a := (has_iff_def hI.defs).2 ⟨d, hd, rfl⟩
    have hz := sizeOf_def hI hd
    cases hs : d.storage with
    | ref =>
      rw [hs] at hh
      have := r4.range a hh
      rw [kr a hh]; omega
    | value =>
      rw [hs] at hh
      have := v4.range a hh
      rw [kv a hh]; omega
    | mixture =>
      rw [hs] at hh
      have := m4.range a hh
      omega
  · intro a b da db hsee hda hdb
    have ha : Has (layoutOf defs).items da.storage a := (has_iff_def hI.defs).2 ⟨da, hda, rfl⟩
    have hb : Has (layoutOf defs).items db.storage b := (has_iff_def hI.defs).2 ⟨db, hdb, rfl⟩
    have za := sizeOf_def hI hda
    have zb := sizeOf_def hI hdb
    have hm : ∀ m, a < m → m ≤ b → ix (layoutOf defs).items a < ix (layoutOf defs).items m := by
      intro m h1 h2
      obtain ⟨dm, hdm⟩ := exists_def hI.defs (k := m) (by have := hb.lt; omega)
      rw [ix_of_def hI.defs hda, ix_of_def hI.defs hdm]
      exact hsee.2 m da dm h1 h2 hda hdm
    have hapart : f3 a + da.size ≤ f3 b ∨ f3 b + db.size ≤ f3 a := by
      rw [← za, ← zb]
      cases hsa : da.storage <;> cases hsb : db.storage <;> rw [hsa] at ha <;> rw [hsb] at hb
      · have := r4.apart a b ha hb hsee.1 hm
        unfold Apart at this
        rw [kr a ha, kr b hb]; exact this
      · have h1 := r4.range a ha
        have h2 := v4.range b hb
        rw [kr a ha, kv b hb]; omega
      · have h1 := r4.range a ha
        have h2 := m4.range b hb
        rw [kr a ha]; omega
      · have h1 := v4.range a ha
        have h2 := r4.range b hb
        rw [kv a ha, kr b hb]; omega
      · have := v4.apart a b ha hb hsee.1 hm
        unfold Apart at this
        rw [kv a ha, kv b hb]; exact this
      · have h1 := v4.range a ha
        have h2 := m4.range b hb
        rw [kv a ha]; omega
      · have h1 := m4.range a ha
        have h2 := r4.range b hb
        rw [kr b hb]; omega
      · have h1 := m4.range a ha
        have h2 := v4.range b hb
        rw [kv b hb]; omega
      · exact m4.apart a b ha hb hsee.1 hm
    intro byte hbyte
    omega

/-- When all variables are references, or all are values without references, nothing is asked of their order. -/
theorem locals_one_kind_partial (defs : List Def) (sort : List Nat → List Nat) (hsort : ∀ xs, (sort xs).Perm xs)
    (fits : (defs.map fun d => d.size + 7).sum + 7 < 65536) (s : Storage) (hs : s ≠ .mixture)
    (one : ∀ d, d ∈ defs → d.storage = s) :
    ∃ places units, commit sort (layoutOf defs) = some (places, units) ∧
      (∀ (a : Nat) (d : Def), defs[a]? = some d → places a + d.size ≤ units * 8) ∧
      ∀ (a b : Nat) (da db : Def), Sees defs a b → defs[a]? = some da → defs[b]? = some db →
        DisjointBytes (places a) da.size (places b) db.size := by
  have hf : ∀ t, Faithful defs t := by
    intro t a b da db hab h1 h2 h3 h4 h5
    refine ⟨hab, ?_⟩
    intro m da' dm hm1 hm2 hda hdm
    rw [h1] at hda
    simp only [Option.some.injEq] at hda
    subst hda
    refine h5 m dm hm1 hm2 hdm ?_
    rw [one dm (List.mem_iff_getElem?.2 ⟨_, hdm⟩), ← h3, one da (List.mem_iff_getElem?.2 ⟨_, h1⟩)]
  refine locals_partial defs sort hsort fits (hf _) (hf _) ?_
  intro a b da db _ h1 _ h3
  have := one da (List.mem_iff_getElem?.2 ⟨_, h1⟩)
  rw [h3] at this
  exact absurd this.symm hs

/-! ## Cases -/

/-- A sort: larger sizes first. -/
def insert (size : Nat → Nat) (x : Nat) : List Nat → List Nat
  | [] => [x]
  | y :: ys => if size x > size y then x :: y :: ys else y :: insert size x ys

/-- A sort: larger sizes first. -/
def sortBy (size : Nat → Nat) : List Nat → List Nat
  | [] => []
  | x :: xs => insert size x (sortBy size xs)

theorem insert_perm (size : Nat → Nat) (x : Nat) : ∀ ys, (insert size x ys).Perm (x :: ys)
  | [] => List.Perm.refl _
  | y :: ys => by
    unfold insert
    split
    · exact List.Perm.refl _
    · exact ((insert_perm size x ys).cons y).trans (List.Perm.swap x y ys)

theorem sortBy_perm (size : Nat → Nat) : ∀ xs, (sortBy size xs).Perm xs
  | [] => List.Perm.refl _
  | x :: xs => (insert_perm size x _).trans ((sortBy_perm size xs).cons x)

/-- The places as a list. -/
def placesOf (defs : List Def) : Option (List Nat × Nat) :=
  (commit (sortBy (sizeOf (layoutOf defs))) (layoutOf defs)).map fun r => ((List.range defs.length).map r.1, r.2)

/-- The index of a declaration. -/
def indexAt (defs : List Def) (k : Nat) : Nat := (defs[k]?.map (·.index)).getD 0

/-- The storage type of a declaration. -/
def storageAt (defs : List Def) (k : Nat) : Option Storage := defs[k]?.map (·.storage)

/-- Whether the scope of a variable reaches another; only declarations that `q` selects count. -/
def reaches (defs : List Def) (q : Nat → Bool) (a b : Nat) : Bool :=
  (List.range defs.length).all fun m => !(decide (a < m) && decide (m ≤ b) && q m) || decide (indexAt defs a < indexAt defs m)

/-- Two variables of a storage type, in order. -/
def bothAt (defs : List Def) (s : Storage) (a b : Nat) : Bool :=
  decide (a < b) && decide (storageAt defs a = some s) && decide (storageAt defs b = some s)

/-- All pairs. -/
def allPairs (n : Nat) (q : Nat → Nat → Bool) : Bool := (List.range n).all fun a => (List.range n).all fun b => q a b

theorem faithful_of (defs : List Def) (s : Storage)
    (h : allPairs defs.length (fun a b => !(bothAt defs s a b &&
      reaches defs (fun m => decide (storageAt defs m = some s)) a b) || reaches defs (fun _ => true) a b) = true) :
    Faithful defs s := by
  intro a b da db hab h1 h2 h3 h4 h5
  have l1 := (List.getElem?_eq_some_iff.1 h1).1
  have l2 := (List.getElem?_eq_some_iff.1 h2).1
  simp only [allPairs, List.all_eq_true, List.mem_range] at h
  have h := h a l1 b l2
  have hb : bothAt defs s a b = true := by simp [bothAt, storageAt, hab, h1, h2, h3, h4]
  have hr : reaches defs (fun m => decide (storageAt defs m = some s)) a b = true := by
    simp only [reaches, List.all_eq_true, List.mem_range, Bool.or_eq_true, Bool.not_eq_true', Bool.and_eq_false_iff,
      decide_eq_true_eq, decide_eq_false_iff_not]
    intro m hm
    have e := List.getElem?_eq_getElem hm
    by_cases c1 : a < m
    · by_cases c2 : m ≤ b
      · by_cases c3 : storageAt defs m = some s
        · right
          have := h5 m _ c1 c2 e (by simpa [storageAt, e] using c3)
          simpa [indexAt, h1, e] using this
        · exact .inl (.inr c3)
      · exact .inl (.inl (.inr c2))
    · exact .inl (.inl (.inl c1))
  rw [hb, hr] at h
  simp only [Bool.and_self, Bool.not_true, Bool.false_or] at h
  refine ⟨hab, ?_⟩
  intro m da' dm hm1 hm2 hda hdm
  simp only [reaches, List.all_eq_true, List.mem_range] at h
  have := h m (List.getElem?_eq_some_iff.1 hdm).1
  simpa [hm1, hm2, indexAt, hda, hdm] using this

theorem flat_of (defs : List Def) (s : Storage)
    (h : allPairs defs.length (fun a b => !bothAt defs s a b ||
      (List.range b).all fun m => decide (m < a) || decide (indexAt defs m < indexAt defs (m + 1))) = true) :
    Flat defs s := by
  intro a b da db hab h1 h2 h3 h4 m d d' hm1 hm2 h5 h6
  simp only [allPairs, List.all_eq_true, List.mem_range] at h
  have h := h a (List.getElem?_eq_some_iff.1 h1).1 b (List.getElem?_eq_some_iff.1 h2).1
  have hb : bothAt defs s a b = true := by simp [bothAt, storageAt, hab, h1, h2, h3, h4]
  rw [hb] at h
  simp only [Bool.not_true, Bool.false_or, List.all_eq_true, List.mem_range] at h
  have := h m hm2
  simpa [Nat.not_lt.2 hm1, indexAt, h5, h6] using this

/-- `int a; { long b; byte c; { short d; } } { long e; } long f; string g; S h; S i;`: the regions share memory. -/
def nested : List Def :=
  [⟨0, 4, .value⟩, ⟨1, 8, .value⟩, ⟨2, 1, .value⟩, ⟨3, 2, .value⟩, ⟨1, 8, .value⟩, ⟨1, 8, .value⟩, ⟨2, 8, .ref⟩,
   ⟨3, 12, .mixture⟩, ⟨4, 5, .mixture⟩]

example : placesOf nested = some ([8, 16, 12, 13, 12, 12, 0, 24, 36], 6) := by decide +kernel

/-- The hypotheses of `locals_partial` hold of a method with values, references and structs in nested regions. -/
example : (nested.map fun d => d.size + 7).sum + 7 < 65536 ∧ Faithful nested .ref ∧ Faithful nested .value ∧
    Flat nested .mixture :=
  ⟨by decide, faithful_of _ _ (by decide +kernel), faithful_of _ _ (by decide +kernel), flat_of _ _ (by decide +kernel)⟩

/-- … and `locals_partial` applies to it. -/
example : Sees nested 1 3 ∧ ¬ Sees nested 1 4 := by
  refine ⟨⟨by decide, ?_⟩, ?_⟩
  · intro m da dm h1 h2 h3 h4
    have hm : m = 2 ∨ m = 3 := by omega
    rcases hm with rfl | rfl <;> simp [nested] at h3 h4 <;> subst h3 <;> subst h4 <;> decide
  · intro h
    have := h.2 4 ⟨1, 8, .value⟩ ⟨1, 8, .value⟩ (by omega) (by omega) rfl rfl
    omega

/-! ## Where the full statement fails -/

/-- The sort of the cases. -/
def sorted (defs : List Def) : List Nat → List Nat := sortBy (sizeOf (layoutOf defs))

theorem placesOf_some {defs : List Def} {ps : List Nat} {units : Nat} (h : placesOf defs = some (ps, units)) :
    ∃ places, commit (sorted defs) (layoutOf defs) = some (places, units) ∧ (List.range defs.length).map places = ps := by
  unfold placesOf at h
  rw [Option.map_eq_some_iff] at h
  obtain ⟨⟨places, u⟩, h1, h2⟩ := h
  simp only [Prod.mk.injEq] at h2
  obtain ⟨h3, h4⟩ := h2
  subst h4
  exact ⟨places, h1, h3⟩

/-- `S a; { S b; } { S c; }` with structs of 16 bytes that hold references. -/
def structs : List Def := [⟨0, 16, .mixture⟩, ⟨1, 16, .mixture⟩, ⟨1, 16, .mixture⟩]

/-- Structs that hold references in regions: `c` is put over `a`, and `b` is put outside of the frame. -/
theorem mixture_refuted : ∃ places units, commit (sorted structs) (layoutOf structs) = some (places, units) ∧
    Sees structs 0 2 ∧ ¬ DisjointBytes (places 0) 16 (places 2) 16 ∧ units * 8 < places 1 + 16 := by
  obtain ⟨places, h1, h2⟩ := placesOf_some (defs := structs) (ps := [0, 16, 0]) (units := 2) (by decide +kernel)
  have h3 : (List.range 3).map places = [0, 16, 0] := h2
  simp only [List.range, List.range.loop, List.map_cons, List.map_nil, List.cons.injEq, and_true] at h3
  obtain ⟨e0, e1, e2⟩ := h3
  refine ⟨places, 2, h1, ⟨by omega, ?_⟩, ?_, by omega⟩
  · intro m da dm g1 g2 g3 g4
    have hm : m = 1 ∨ m = 2 := by omega
    rcases hm with rfl | rfl <;> simp [structs] at g3 g4 <;> subst g3 <;> subst g4 <;> decide
  · rw [e0, e2]
    intro h
    exact h 0 (by omega)

/-- `{ int a, b, c, d; } string o, p, q; { string r; int v; } int w;`. -/
def skips : List Def :=
  [⟨0, 4, .value⟩, ⟨1, 4, .value⟩, ⟨2, 4, .value⟩, ⟨3, 4, .value⟩, ⟨0, 8, .ref⟩, ⟨1, 8, .ref⟩, ⟨2, 8, .ref⟩,
   ⟨3, 8, .ref⟩, ⟨4, 4, .value⟩, ⟨3, 4, .value⟩]

/-- Values and references in regions, an index is skipped: items outside of the vector are read. -/
theorem skip_refuted : commit (sorted skips) (layoutOf skips) = none ∧ ¬ Faithful skips .value := by
  refine ⟨?_, ?_⟩
  · have h : placesOf skips = none := by decide +kernel
    unfold placesOf at h
    rw [Option.map_eq_none_iff] at h
    exact h
  · intro h
    have := h 3 8 ⟨3, 4, .value⟩ ⟨4, 4, .value⟩ (by omega) rfl rfl rfl rfl (by
      intro m dm h1 h2 h3 h4
      have hm : m = 4 ∨ m = 5 ∨ m = 6 ∨ m = 7 ∨ m = 8 := by omega
      rcases hm with rfl | rfl | rfl | rfl | rfl <;> simp [skips] at h3 <;> subst h3 <;> simp at h4 ⊢)
    have := this.2 4 ⟨3, 4, .value⟩ ⟨0, 8, .ref⟩ (by omega) (by omega) rfl rfl
    simp at this

/-- `byte a; { long b; }`: a variable of 8 bytes is put at the offset 1. -/
theorem unaligned_refuted : ∃ places units,
    commit (sorted [⟨0, 1, .value⟩, ⟨1, 8, .value⟩, ⟨1, 8, .value⟩])
      (layoutOf [⟨0, 1, .value⟩, ⟨1, 8, .value⟩, ⟨1, 8, .value⟩]) = some (places, units) ∧ ¬ 8 ∣ places 1 := by
  obtain ⟨places, h1, h2⟩ := placesOf_some (defs := [⟨0, 1, .value⟩, ⟨1, 8, .value⟩, ⟨1, 8, .value⟩])
    (ps := [0, 1, 1]) (units := 2) (by decide +kernel)
  have h3 : (List.range 3).map places = [0, 1, 1] := h2
  simp only [List.range, List.range.loop, List.map_cons, List.map_nil, List.cons.injEq, and_true] at h3
  obtain ⟨_, e1, _⟩ := h3
  exact ⟨places, 2, h1, by rw [e1]; decide⟩

/-- Two variables of 40000 and 30000 bytes: the frame has 4464 bytes. -/
theorem wrap_refuted : ∃ places units,
    commit (sorted [⟨0, 40000, .value⟩, ⟨1, 30000, .value⟩])
      (layoutOf [⟨0, 40000, .value⟩, ⟨1, 30000, .value⟩]) = some (places, units) ∧ units * 8 < places 0 + 40000 := by
  obtain ⟨places, h1, h2⟩ := placesOf_some (defs := [⟨0, 40000, .value⟩, ⟨1, 30000, .value⟩])
    (ps := [0, 40000]) (units := 558) (by decide +kernel)
  exact ⟨places, 558, h1, by omega⟩

end Verif.Layout.Props
