import Verif.Spec.Fields

namespace Verif.Fields

open Verif.Layout (Storage m16)
open Verif.Arr (alignf unitAlign)

/-! ## Alignment -/

theorem alignf8 (n : Nat) : alignf n 8 = roundUp n := by simp only [alignf, roundUp]; omega

theorem unitAlign_bounds (o s : Nat) : o ≤ unitAlign o s ∧ unitAlign o s ≤ roundUp o := by
  unfold unitAlign roundUp alignf
  split <;> omega

theorem unitAlign_idem (o s : Nat) : unitAlign (unitAlign o s) s = unitAlign o s := by
  unfold unitAlign alignf
  split <;> simp only <;> omega

/-- What the alignment of an offset says. -/
theorem unitAlign_mod (o s : Nat) (h : unitAlign o s = o) :
    (s = 2 → o % 2 = 0) ∧ (s = 3 ∨ s = 4 → o % 4 = 0) ∧ (s = 0 ∨ 5 ≤ s → o % 8 = 0) := by
  unfold unitAlign at h
  refine ⟨?_, ?_, ?_⟩
  · rintro rfl; simp only [alignf] at h; omega
  · rintro (rfl | rfl) <;> simp only [alignf] at h <;> omega
  · intro hs
    split at h
    · omega
    · omega
    · omega
    · omega
    · simp only [alignf] at h; omega

theorem roundUp_ge (n : Nat) : n ≤ roundUp n := by unfold roundUp; omega

theorem roundUp_mod (n : Nat) : roundUp n % 8 = 0 := by unfold roundUp; omega

theorem roundUp_le {n k : Nat} (h : n ≤ k) (hk : k % 8 = 0) : roundUp n ≤ k := by unfold roundUp; omega

theorem roundUp_mono {n k : Nat} (h : n ≤ k) : roundUp n ≤ roundUp k := by unfold roundUp; omega

/-! ## The loop without overflow -/

/-- The loop of `commit` in unbounded numbers. -/
inductive Placed : List Item → Nat → List (Nat × Nat) → Nat → Prop
  | nil {o : Nat} : Placed [] o [] o
  | cons {it : Item} {rest : List Item} {o off e : Nat} {offs : List (Nat × Nat)} :
      off = unitAlign o it.size → Placed rest (off + it.size) offs e →
      Placed (it :: rest) o ((it.field, off) :: offs) e

/-- The room of items. -/
def needs (items : List Item) : Nat := (items.map fun it => roundUp it.size).sum

theorem placed_of_place : ∀ (items : List Item) (o : Nat), roundUp o + needs items ≤ 65528 →
    Placed items o (place items o).1 (place items o).2
  | [], o, _ => .nil
  | it :: rest, o, h => by
    simp only [needs, List.map_cons, List.sum_cons] at h
    have h1 := unitAlign_bounds o it.size
    have h2 := roundUp_ge it.size
    have hm : m16 (unitAlign o it.size) = unitAlign o it.size := by
      rw [m16]; apply Nat.mod_eq_of_lt; omega
    have hm2 : m16 (unitAlign o it.size + it.size) = unitAlign o it.size + it.size := by
      rw [m16]; apply Nat.mod_eq_of_lt; omega
    simp only [place, hm, hm2]
    refine .cons rfl (placed_of_place rest _ ?_)
    have h3 := roundUp_le (n := unitAlign o it.size + it.size) (k := roundUp o + roundUp it.size) (by omega)
      (by have := roundUp_mod o; have := roundUp_mod it.size; omega)
    simp only [needs]
    omega

theorem Placed.le {items : List Item} {o e : Nat} {offs : List (Nat × Nat)} (h : Placed items o offs e) :
    o ≤ e ∧ roundUp e ≤ roundUp o + needs items := by
  induction h with
  | nil => simp [needs]
  | @cons it rest o off e offs ho _ ih =>
    have h1 := unitAlign_bounds o it.size
    have h2 := roundUp_le (n := off + it.size) (k := roundUp o + roundUp it.size)
      (by have := roundUp_ge it.size; omega)
      (by have := roundUp_mod o; have := roundUp_mod it.size; omega)
    simp only [needs, List.map_cons, List.sum_cons] at ih ⊢
    omega

theorem Placed.fields {items : List Item} {o e : Nat} {offs : List (Nat × Nat)} (h : Placed items o offs e) :
    offs.map Prod.fst = items.map Item.field := by
  induction h with
  | nil => rfl
  | cons _ _ ih => simp [ih]

/-- Each item has its place. -/
theorem Placed.get {items : List Item} {o e : Nat} {offs : List (Nat × Nat)} (h : Placed items o offs e)
    {x : Item} (hx : x ∈ items) : ∃ a, (x.field, a) ∈ offs ∧ o ≤ a ∧ a + x.size ≤ e ∧ unitAlign a x.size = a := by
  induction h with
  | nil => cases hx
  | @cons it rest o off e offs ho hp ih =>
    have h1 := unitAlign_bounds o it.size
    have h2 := hp.le
    rcases List.mem_cons.1 hx with rfl | hx
    · refine ⟨off, List.mem_cons_self .., by omega, by omega, ?_⟩
      rw [ho]; exact unitAlign_idem ..
    · obtain ⟨a, ha, hb, hc, hd⟩ := ih hx
      exact ⟨a, List.mem_cons_of_mem _ ha, by omega, hc, hd⟩

theorem mem_fst {l : List (Nat × Nat)} {k a : Nat} (h : (k, a) ∈ l) : k ∈ l.map Prod.fst :=
  List.mem_map.2 ⟨(k, a), h, rfl⟩

theorem Placed.lower {items : List Item} {o e : Nat} {offs : List (Nat × Nat)} (h : Placed items o offs e)
    {k c : Nat} (hc : (k, c) ∈ offs) : o ≤ c := by
  induction h with
  | nil => cases hc
  | @cons it rest o off e offs ho hp ih =>
    have hb2 := unitAlign_bounds o it.size
    rcases List.mem_cons.1 hc with hc | hc
    · have := (Prod.mk.inj hc).2; omega
    · have := ih hc; omega

/-- Two items do not share memory. -/
theorem Placed.apart {items : List Item} {o e : Nat} {offs : List (Nat × Nat)} (h : Placed items o offs e)
    (hn : (items.map Item.field).Nodup) {x y : Item} (hx : x ∈ items) (hy : y ∈ items) (hne : x.field ≠ y.field)
    {a b : Nat} (ha : (x.field, a) ∈ offs) (hb : (y.field, b) ∈ offs) : a + x.size ≤ b ∨ b + y.size ≤ a := by
  induction h with
  | nil => cases hx
  | @cons it rest o off e offs ho hp ih =>
    have hn' := List.nodup_cons.1 hn
    have hf := hp.fields
    have notin : ∀ z : Item, z ∈ rest → ¬ z.field = it.field := fun z hz he =>
      hn'.1 (he ▸ List.mem_map.2 ⟨z, hz, rfl⟩)
    have first : ∀ {c : Nat}, (it.field, c) ∈ (it.field, off) :: offs → c = off := by
      intro c hc
      rcases List.mem_cons.1 hc with hc | hc
      · exact (Prod.mk.inj hc).2
      · exact absurd (hf ▸ mem_fst hc) hn'.1
    have later : ∀ {z : Item} {c : Nat}, z ∈ rest → (z.field, c) ∈ (it.field, off) :: offs → (z.field, c) ∈ offs := by
      intro z c hz hc
      rcases List.mem_cons.1 hc with hc | hc
      · exact absurd (Prod.mk.inj hc).1 (notin z hz)
      · exact hc
    have uniq : ∀ {z : Item} {c : Nat}, z ∈ rest → (z.field, c) ∈ offs → off + it.size ≤ c :=
      fun hz hc => hp.lower hc
    rcases List.mem_cons.1 hx with rfl | hx <;> rcases List.mem_cons.1 hy with rfl | hy
    · exact absurd rfl hne
    · have := first ha; have := uniq hy (later hy hb); omega
    · rename_i hx'
      have := first hb; have := uniq hx' (later hx' ha); omega
    · exact ih hn'.2 hx hy (later hx ha) (later hy hb)

theorem lookup_of_mem : ∀ {l : List (Nat × Nat)} {k a : Nat}, (l.map Prod.fst).Nodup → (k, a) ∈ l →
    l.lookup k = some a
  | [], _, _, _, h => by cases h
  | (k', a') :: l, k, a, hn, h => by
    have hn' := List.nodup_cons.1 hn
    rcases List.mem_cons.1 h with h | h
    · obtain ⟨rfl, rfl⟩ := Prod.mk.inj h
      simp [List.lookup]
    · have : ¬ k = k' := fun he => hn'.1 (he ▸ mem_fst h)
      simp only [List.lookup, beq_iff_eq, this, lookup_of_mem hn'.2 h]
      split
      · rename_i hh; simp [this] at hh
      · rfl

/-! ## The items -/

theorem gather_spec (W : World) (size : Sizes) : ∀ (ts : List Nat) (k : Nat) (items : List Item),
    gather W size k ts = some items →
      items.length = ts.length ∧ items.map Item.field = List.range' k ts.length ∧
      (∀ (i t : Nat), ts[i]? = some t → ∃ s st, varSize W size t = some (s, st) ∧ ⟨k + i, s, st⟩ ∈ items) ∧
      (∀ it ∈ items, ∃ i t, ts[i]? = some t ∧ it.field = k + i ∧ varSize W size t = some (it.size, it.storage))
  | [], k, items, h => by
    simp only [gather, Option.some.injEq] at h
    subst h
    refine ⟨rfl, rfl, fun i t h => by simp at h, fun it h => by cases h⟩
  | t :: ts, k, items, h => by
    simp only [gather] at h
    split at h
    · cases h
    rename_i s st hv
    split at h
    · cases h
    rename_i rest hr
    simp only [Option.some.injEq] at h
    subst h
    obtain ⟨h1, h2, h3, h4⟩ := gather_spec W size ts (k + 1) rest hr
    refine ⟨by simp [h1], by simp [h2, List.range'_succ], ?_, ?_⟩
    · intro i u hi
      cases i with
      | zero =>
        simp only [List.getElem?_cons_zero, Option.some.injEq] at hi
        subst hi
        exact ⟨s, st, hv, List.mem_cons_self ..⟩
      | succ i =>
        simp only [List.getElem?_cons_succ] at hi
        obtain ⟨s', st', ha, hb⟩ := h3 i u hi
        refine ⟨s', st', ha, List.mem_cons_of_mem _ ?_⟩
        rw [show k + (i + 1) = k + 1 + i by omega]; exact hb
    · intro it hit
      rcases List.mem_cons.1 hit with rfl | hit
      · exact ⟨0, t, rfl, rfl, hv⟩
      · obtain ⟨i, u, ha, hb, hc⟩ := h4 it hit
        exact ⟨i + 1, u, ha, by omega, hc⟩

/-- The own fields of a laid out type. -/
structure Good (W : World) (size : Sizes) (base : Nat) (fields : List Nat) (l : Laid) : Prop where
  le : base ≤ l.size
  get : ∀ (i t : Nat), fields[i]? = some t → ∃ s st o, varSize W size t = some (s, st) ∧
    l.offsets.lookup i = some o ∧ base ≤ o ∧ o + s ≤ l.size ∧ unitAlign o s = o
  apart : ∀ (i j t u : Nat), i ≠ j → fields[i]? = some t → fields[j]? = some u →
    ∀ {s s' : Nat} {st st' : Storage} {o o' : Nat}, varSize W size t = some (s, st) →
      varSize W size u = some (s', st') → l.offsets.lookup i = some o → l.offsets.lookup j = some o' →
      o + s ≤ o' ∨ o' + s' ≤ o

theorem needs_perm {a b : List Item} (h : a.Perm b) : needs a = needs b := by
  unfold needs
  exact (h.map _).sum_nat

theorem layout_good (W : World) (sort : List Item → List Item) (hs : ∀ xs, (sort xs).Perm xs) (size : Sizes)
    (base : Nat) (fields : List Nat) (items : List Item) (hg : gather W size 0 fields = some items)
    (hb : roundUp base + needs items ≤ 65528) :
    ∃ l, layout W sort size base fields = some l ∧ Good W size base fields l ∧
      roundUp l.size ≤ roundUp base + needs items ∧ Placed (sort items) base l.offsets l.size := by
  have hp := hs items
  have hpl := placed_of_place (sort items) base (by rw [needs_perm hp]; exact hb)
  obtain ⟨h1, h2, h3, h4⟩ := gather_spec W size fields 0 items hg
  have hnd : (items.map Item.field).Nodup := by rw [h2]; exact List.nodup_range'
  have hnd' : ((sort items).map Item.field).Nodup := (hp.map _).nodup_iff.2 hnd
  have hndo := hpl.fields ▸ hnd'
  refine ⟨⟨(place (sort items) base).1, (place (sort items) base).2, (mergeStorage none (sort items)).getD .value⟩,
    by simp only [layout, hg], ⟨hpl.le.1, ?_, ?_⟩, ?_, hpl⟩
  · intro i t hi
    obtain ⟨s, st, hv, hm⟩ := h3 i t hi
    obtain ⟨a, ha, hb', hc, hd⟩ := hpl.get (hp.mem_iff.2 hm)
    simp only [Nat.zero_add] at ha hm
    exact ⟨s, st, a, hv, lookup_of_mem hndo ha, hb', hc, hd⟩
  · intro i j t u hij hi hj s s' st st' o o' hv hv' ho ho'
    obtain ⟨s1, st1, hv1, hm1⟩ := h3 i t hi
    obtain ⟨s2, st2, hv2, hm2⟩ := h3 j u hj
    rw [hv] at hv1; rw [hv'] at hv2
    cases hv1; cases hv2
    simp only [Nat.zero_add] at hm1 hm2
    obtain ⟨a, ha, -⟩ := hpl.get (hp.mem_iff.2 hm1)
    obtain ⟨b, hb', -⟩ := hpl.get (hp.mem_iff.2 hm2)
    have e1 := lookup_of_mem hndo ha
    have e2 := lookup_of_mem hndo hb'
    simp only at ha hb' e1 e2
    simp only at ho ho'
    rw [e1] at ho; rw [e2] at ho'
    cases ho; cases ho'
    have := hpl.apart hnd' (hp.mem_iff.2 hm1) (hp.mem_iff.2 hm2) hij ha hb'
    exact this
  · have := hpl.le.2
    rw [needs_perm hp] at this
    exact this

/-! ## Room and size -/

theorem total_cons {x : Option Nat} {xs : List (Option Nat)} {k : Nat} (h : total (x :: xs) = some k) :
    ∃ a b, x = some a ∧ total xs = some b ∧ k = a + b := by
  simp only [total] at h
  split at h
  · rename_i a b ha; exact ⟨a, b, rfl, ha, by simpa using h.symm⟩
  · cases h

/-- The size of a variable is within its room. -/
def SizeOk (W : World) (size : Sizes) (rm : Nat → Option Nat) : Prop :=
  ∀ t k, rm t = some k → k ≤ 65528 → k % 8 = 0 ∧ ∃ s st, size t = some (s, st) ∧ s ≤ k

theorem varSize_ok {W : World} {size : Sizes} {rm : Nat → Option Nat} (h : SizeOk W size rm) {t k : Nat}
    (hk : roomVar W rm t = some k) (hb : k ≤ 65528) :
    k % 8 = 0 ∧ ∃ s st, varSize W size t = some (s, st) ∧ s ≤ k := by
  unfold roomVar at hk
  unfold varSize
  split at hk
  · cases hk; exact ⟨rfl, 8, .ref, by simp only [*, refSize], by omega⟩
  · cases hk; exact ⟨rfl, 8, .ref, by simp only [*, refSize], by omega⟩
  · cases hk; exact ⟨rfl, 8, .ref, by simp only [*, refSize], by omega⟩
  · simp only [*]; exact h t k hk hb
  · simp only [*]; exact h t k hk hb

theorem gather_ok {W : World} {size : Sizes} {rm : Nat → Option Nat} (h : SizeOk W size rm) :
    ∀ (fields : List Nat) (n k : Nat), total (fields.map (roomVar W rm)) = some k → k ≤ 65528 →
      k % 8 = 0 ∧ ∃ items, gather W size n fields = some items ∧ needs items ≤ k
  | [], n, k, hk, _ => by
    simp only [List.map_nil, total, Option.some.injEq] at hk
    subst hk
    exact ⟨rfl, [], rfl, by simp [needs]⟩
  | t :: ts, n, k, hk, hb => by
    simp only [List.map_cons] at hk
    obtain ⟨a, b, ha, hb', rfl⟩ := total_cons hk
    obtain ⟨ha1, s, st, hv, hs⟩ := varSize_ok h ha (by omega)
    obtain ⟨hb1, items, hg, hn⟩ := gather_ok h ts (n + 1) b hb' (by omega)
    refine ⟨by omega, ⟨n, s, st⟩ :: items, by simp only [gather, hv, hg], ?_⟩
    simp only [needs, List.map_cons, List.sum_cons] at hn ⊢
    have := roundUp_le hs ha1
    omega

/-- The room of the base class. -/
def roomBase (rm : Nat → Option Nat) : Option Nat → Option Nat
  | none => some 0
  | some x => rm x

/-- What `room` says of a class or structure. -/
theorem room_obj {W : World} {n t : Nat} {st : Bool} {base : Option Nat} {fields : List Nat} {k : Nat}
    (hk : W.kind t = .obj st base fields) (h : room W (n + 1) t = some k) :
    ∃ b f, roomBase (room W n) base = some b ∧
      total (fields.map (roomVar W (room W n))) = some f ∧ k = b + f := by
  simp only [room, hk] at h
  cases base with
  | none => exact ⟨0, k, rfl, h, by omega⟩
  | some b =>
    simp only at h
    split at h
    · rename_i x y hx hy
      simp only [Option.some.injEq] at h
      exact ⟨x, y, hx, hy, h.symm⟩
    · cases h

theorem size_ok (W : World) (sort : List Item → List Item) (hs : ∀ xs, (sort xs).Perm xs) :
    ∀ n, SizeOk W (sizeOf W sort n) (room W n)
  | 0 => by intro t k h; simp [room] at h
  | n + 1 => by
    intro t k hr hk
    have ih := size_ok W sort hs n
    cases hkind : W.kind t with
    | prim s =>
      simp only [room, hkind, Option.some.injEq] at hr
      subst hr
      have := roundUp_ge s
      refine ⟨roundUp_mod s, s, .value, ?_, this⟩
      have : s ≠ 65535 := by omega
      simp only [sizeOf, hkind, known, unknownSize, this, if_false]
    | array =>
      simp only [room, hkind, Option.some.injEq] at hr
      subst hr
      exact ⟨rfl, 8, .ref, by simp only [sizeOf, hkind, refSize], by omega⟩
    | iface => simp [room, hkind] at hr
    | obj st base fields =>
      obtain ⟨b, f, hb, hf, rfl⟩ := room_obj hkind hr
      obtain ⟨hf1, items, hg, hn⟩ := gather_ok ih fields 0 f hf (by omega)
      have hbs : b % 8 = 0 ∧ ∃ s, baseSize (sizeOf W sort n) base = some s ∧ s ≤ b := by
        cases base with
        | none => simp only [roomBase, Option.some.injEq] at hb; subst hb; exact ⟨rfl, 0, rfl, by omega⟩
        | some x =>
          obtain ⟨h1, s, st, h2, h3⟩ := ih x b hb (by omega)
          exact ⟨h1, s, by simp only [baseSize, h2], h3⟩
      obtain ⟨hb1, bs, hbs, hle⟩ := hbs
      have hbs' := roundUp_le hle hb1
      obtain ⟨l, hl, -, hsz, -⟩ := layout_good W sort hs _ bs fields items hg (by omega)
      have := roundUp_ge l.size
      have hne : l.size ≠ 65535 := by omega
      refine ⟨by omega, l.size, l.storage, ?_, by omega⟩
      simp only [sizeOf, hkind, layoutOf, hbs, hl, known, unknownSize, hne, if_false]

/-! ## More fuel changes nothing -/

/-- One table of sizes answers whatever another does. -/
def Extends (a b : Sizes) : Prop := ∀ t r, a t = some r → b t = some r

theorem varSize_extends {W : World} {a b : Sizes} (h : Extends a b) {t : Nat} {r : Nat × Storage}
    (hv : varSize W a t = some r) : varSize W b t = some r := by
  unfold varSize at hv ⊢
  split at hv
  · exact hv
  · exact hv
  · exact hv
  · exact h _ _ hv
  · exact h _ _ hv

theorem gather_extends {W : World} {a b : Sizes} (h : Extends a b) : ∀ (ts : List Nat) (k : Nat) (r : List Item),
    gather W a k ts = some r → gather W b k ts = some r
  | [], _, _, hr => hr
  | t :: ts, k, r, hr => by
    simp only [gather] at hr ⊢
    split at hr
    · cases hr
    rename_i s st hv
    split at hr
    · cases hr
    rename_i rest hg
    simp only [varSize_extends h hv, gather_extends h ts (k + 1) rest hg]
    exact hr

theorem layoutOf_extends {W : World} {sort : List Item → List Item} {a b : Sizes} (h : Extends a b) {t : Nat} {l : Laid}
    (hl : layoutOf W sort a t = some l) : layoutOf W sort b t = some l := by
  unfold layoutOf at hl ⊢
  cases hk : W.kind t with
  | prim s => simp [hk] at hl
  | array => simp [hk] at hl
  | iface => simp [hk] at hl
  | obj st base fields =>
    simp only [hk] at hl ⊢
    have hb : ∀ x, baseSize a base = some x → baseSize b base = some x := by
      intro x hx
      cases base with
      | none => exact hx
      | some y =>
        simp only [baseSize] at hx ⊢
        split at hx
        · cases hx
        · rename_i s st hy
          simp only [h _ _ hy]; exact hx
    split at hl
    · cases hl
    rename_i x hx
    simp only [hb x hx]
    unfold layout at hl ⊢
    split at hl
    · cases hl
    rename_i items hg
    simp only [gather_extends h _ _ _ hg]
    exact hl

theorem sizeOf_succ (W : World) (sort : List Item → List Item) : ∀ n, Extends (sizeOf W sort n) (sizeOf W sort (n + 1))
  | 0 => by intro t r h; simp [sizeOf] at h
  | n + 1 => by
    intro t r h
    have ih := sizeOf_succ W sort n
    cases hk : W.kind t with
    | prim s => simp only [sizeOf, hk] at h ⊢; exact h
    | array => simp only [sizeOf, hk] at h ⊢; exact h
    | iface => simp [sizeOf, hk] at h
    | obj st base fields =>
      rw [sizeOf] at h ⊢
      simp only [hk] at h ⊢
      split at h
      · cases h
      · rename_i l hl
        simp only [layoutOf_extends ih hl]; exact h

theorem roomVar_mono {W : World} {a b : Nat → Option Nat} (h : ∀ t k, a t = some k → b t = some k) {t k : Nat}
    (hr : roomVar W a t = some k) : roomVar W b t = some k := by
  unfold roomVar at hr ⊢
  split at hr
  · exact hr
  · exact hr
  · exact hr
  · exact h _ _ hr
  · exact h _ _ hr

theorem total_mono {W : World} {a b : Nat → Option Nat} (h : ∀ t k, a t = some k → b t = some k) :
    ∀ (fields : List Nat) (k : Nat), total (fields.map (roomVar W a)) = some k →
      total (fields.map (roomVar W b)) = some k
  | [], _, hk => hk
  | t :: ts, k, hk => by
    simp only [List.map_cons] at hk ⊢
    obtain ⟨x, y, hx, hy, rfl⟩ := total_cons hk
    simp only [total, roomVar_mono h hx, total_mono h ts y hy]

theorem room_succ (W : World) : ∀ n t k, room W n t = some k → room W (n + 1) t = some k
  | 0, t, k, h => by simp [room] at h
  | n + 1, t, k, h => by
    have ih := room_succ W n
    cases hk : W.kind t with
    | prim s => simp only [room, hk] at h ⊢; exact h
    | array => simp only [room, hk] at h ⊢; exact h
    | iface => simp [room, hk] at h
    | obj st base fields =>
      obtain ⟨b, f, hb, hf, rfl⟩ := room_obj hk h
      rw [room]
      cases base with
      | none =>
        simp only [roomBase, Option.some.injEq] at hb
        subst hb
        simp only [hk, total_mono ih _ _ hf, Nat.zero_add]
      | some x =>
        simp only [roomBase] at hb
        simp only [hk, ih _ _ hb, total_mono ih _ _ hf]

theorem room_field {W : World} {rm : Nat → Option Nat} : ∀ (fields : List Nat) (k i t : Nat),
    total (fields.map (roomVar W rm)) = some k → fields[i]? = some t → ∃ a, roomVar W rm t = some a ∧ a ≤ k
  | [], _, i, _, _, hi => by simp at hi
  | u :: us, k, i, t, hk, hi => by
    simp only [List.map_cons] at hk
    obtain ⟨a, b, ha, hb, rfl⟩ := total_cons hk
    cases i with
    | zero =>
      simp only [List.getElem?_cons_zero, Option.some.injEq] at hi
      subst hi
      exact ⟨a, ha, by omega⟩
    | succ i =>
      simp only [List.getElem?_cons_succ] at hi
      obtain ⟨c, hc, hle⟩ := room_field us b i t hb hi
      exact ⟨c, hc, by omega⟩

theorem fits_base {W : World} {n d b : Nat} {st : Bool} {fields : List Nat} (hk : W.kind d = .obj st (some b) fields)
    (h : Fits W n d) : Fits W n b := by
  obtain ⟨k, hr, hle⟩ := h
  cases n with
  | zero => simp [room] at hr
  | succ n =>
    obtain ⟨x, y, hx, -, rfl⟩ := room_obj hk hr
    exact ⟨x, room_succ W n _ _ hx, by omega⟩

theorem fits_struct {W : World} {n d f t : Nat} {st : Bool} {base base' : Option Nat} {fields fields' : List Nat}
    (hk : W.kind d = .obj st base fields) (hf : fields[f]? = some t) (ht : W.kind t = .obj true base' fields')
    (h : Fits W n d) : Fits W n t := by
  obtain ⟨k, hr, hle⟩ := h
  cases n with
  | zero => simp [room] at hr
  | succ n =>
    obtain ⟨x, y, -, hy, rfl⟩ := room_obj hk hr
    obtain ⟨a, ha, hle'⟩ := room_field fields y f t hy hf
    simp only [roomVar, ht] at ha
    exact ⟨a, room_succ W n _ _ ha, by omega⟩

theorem fits_chain {W : World} {n d h : Nat} (hc : Chain W d h) (hf : Fits W n d) : Fits W n h := by
  induction hc with
  | self => exact hf
  | up hk _ ih => exact ih (fits_base hk hf)

/-- A class or structure that fits is laid out. -/
theorem laid {W : World} {sort : List Item → List Item} (hs : ∀ xs, (sort xs).Perm xs) {n t : Nat} {st : Bool}
    {base : Option Nat} {fields : List Nat} (hk : W.kind t = .obj st base fields) (hf : Fits W n t) :
    ∃ b l items, baseSize (sizeOf W sort n) base = some b ∧ layoutOf W sort (sizeOf W sort n) t = some l ∧
      sizeOf W sort n t = some (l.size, l.storage) ∧ Good W (sizeOf W sort n) b fields l ∧
      gather W (sizeOf W sort n) 0 fields = some items ∧ Placed (sort items) b l.offsets l.size ∧
      l.storage = (mergeStorage none (sort items)).getD .value := by
  obtain ⟨k, hr, hle⟩ := hf
  cases n with
  | zero => simp [room] at hr
  | succ n =>
    have ih := size_ok W sort hs n
    obtain ⟨b, f, hb, hf, rfl⟩ := room_obj hk hr
    have hb' : roomBase (room W (n + 1)) base = some b := by
      cases base with
      | none => exact hb
      | some x => exact room_succ W n _ _ hb
    have hf' := total_mono (room_succ W n) _ _ hf
    have ih' := size_ok W sort hs (n + 1)
    obtain ⟨hf1, items, hg, hn⟩ := gather_ok ih' fields 0 f hf' (by omega)
    have hbs : ∀ m, SizeOk W (sizeOf W sort m) (room W m) →
        roomBase (room W m) base = some b →
        b % 8 = 0 ∧ ∃ s, baseSize (sizeOf W sort m) base = some s ∧ s ≤ b := by
      intro m ihm hbm
      cases base with
      | none => simp only [roomBase, Option.some.injEq] at hbm; subst hbm; exact ⟨rfl, 0, rfl, by omega⟩
      | some x =>
        obtain ⟨h1, s, st, h2, h3⟩ := ihm x b hbm (by omega)
        exact ⟨h1, s, by simp only [baseSize, h2], h3⟩
    obtain ⟨hb1, bs, hbs1, hle1⟩ := hbs (n + 1) ih' hb'
    have hr1 := roundUp_le hle1 hb1
    obtain ⟨l, hl, hgood, hsz, hpl⟩ := layout_good W sort hs _ bs fields items hg (by omega)
    have hlo : layoutOf W sort (sizeOf W sort (n + 1)) t = some l := by
      simp only [layoutOf, hk, hbs1, hl]
    refine ⟨bs, l, items, hbs1, hlo, ?_, hgood, hg, hpl, ?_⟩
    · obtain ⟨hb2, bs2, hbs2, hle2⟩ := hbs n ih hb
      obtain ⟨hf2, items2, hg2, hn2⟩ := gather_ok ih fields 0 f hf (by omega)
      have hr2 := roundUp_le hle2 hb2
      obtain ⟨l2, hl2, -, hsz2, -⟩ := layout_good W sort hs _ bs2 fields items2 hg2 (by omega)
      have hlo2 : layoutOf W sort (sizeOf W sort n) t = some l2 := by
        simp only [layoutOf, hk, hbs2, hl2]
      have := layoutOf_extends (sizeOf_succ W sort n) hlo2
      rw [hlo] at this
      cases this
      have h5 := roundUp_ge l.size
      have hne : l.size ≠ 65535 := by omega
      simp only [sizeOf, hk, hlo2, known, unknownSize, hne, if_false]
    · simp only [layout, hg, Option.some.injEq] at hl
      subst hl; rfl

end Verif.Fields
