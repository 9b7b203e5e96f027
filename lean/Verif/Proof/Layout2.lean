import Verif.Proof.Layout
import Verif.Spec.Layout

/-! Lemmas about the groups of local variables before they get their places. -/

namespace Verif.Layout

open Verif.Arr (unitAlign alignf)

/-- The fresh index of an item. -/
def fr (items : List Item) (k : Nat) : Nat := (items[k]?.map (·.fresh)).getD 0

/-- The index of an item. -/
def ix (items : List Item) (k : Nat) : Nat := (items[k]?.map (·.index)).getD 0

/-- An item has a storage type. -/
def Has (items : List Item) (s : Storage) (k : Nat) : Prop := ∃ it, items[k]? = some it ∧ it.storage = s

theorem fr_snoc {items : List Item} {it : Item} {k : Nat} (h : k < items.length) : fr (items ++ [it]) k = fr items k := by
  simp [fr, List.getElem?_append_left h]

theorem ix_snoc {items : List Item} {it : Item} {k : Nat} (h : k < items.length) : ix (items ++ [it]) k = ix items k := by
  simp [ix, List.getElem?_append_left h]

theorem fr_last (items : List Item) (it : Item) : fr (items ++ [it]) items.length = it.fresh := by simp [fr]

theorem ix_last (items : List Item) (it : Item) : ix (items ++ [it]) items.length = it.index := by simp [ix]

theorem Has.lt {items : List Item} {s : Storage} {k : Nat} (h : Has items s k) : k < items.length := by
  obtain ⟨it, h, _⟩ := h
  exact (List.getElem?_eq_some_iff.1 h).1

theorem has_snoc {items : List Item} {it : Item} {s : Storage} {k : Nat} :
    Has (items ++ [it]) s k ↔ Has items s k ∨ (k = items.length ∧ it.storage = s) := by
  unfold Has
  rcases Nat.lt_trichotomy k items.length with h | h | h
  · rw [List.getElem?_append_left h]
    constructor
    · exact fun x => .inl x
    · rintro (x | ⟨x, _⟩)
      · exact x
      · omega
  · subst h
    simp
  · rw [List.getElem?_append_right (by omega)]
    have h1 : [it][k - items.length]? = none := by rw [List.getElem?_eq_none_iff]; simp; omega
    rw [h1]
    have h2 : items[k]? = none := by rw [List.getElem?_eq_none_iff]; omega
    rw [h2]
    simp; omega

/-- What `__find_reset_index` finds: the last item of the storage type whose index is not greater. -/
theorem findReset_spec (index : Nat) (s : Storage) : ∀ r : List Item,
    (findReset index s r = 0 ∧ ∀ k, Has r.reverse s k → index < ix r.reverse k) ∨
    ∃ k, Has r.reverse s k ∧ ix r.reverse k ≤ index ∧ (∀ m, k < m → Has r.reverse s m → index < ix r.reverse m) ∧
      findReset index s r = if ix r.reverse k = index then fr r.reverse k else m16 (fr r.reverse k + 1)
  | [] => .inl ⟨rfl, by rintro k ⟨it, h, _⟩; simp at h⟩
  | it :: older => by
    have hlen : older.reverse.length = older.length := List.length_reverse
    rw [findReset, List.reverse_cons]
    by_cases hskip : (it.index > index || it.storage != s) = true
    · rw [if_pos hskip]
      have hnew : it.storage = s → index < it.index := by
        intro h
        simpa [h] using hskip
      rcases findReset_spec index s older with ⟨h1, h2⟩ | ⟨k, h1, h2, h3, h4⟩
      · refine .inl ⟨h1, ?_⟩
        intro k hk
        rcases has_snoc.1 hk with h | ⟨h, hs⟩
        · rw [ix_snoc h.lt]; exact h2 k h
        · subst h; rw [ix_last]; exact hnew hs
      · refine .inr ⟨k, has_snoc.2 (.inl h1), ?_, ?_, ?_⟩
        · rw [ix_snoc h1.lt]; exact h2
        · intro m hm hh
          rcases has_snoc.1 hh with h | ⟨h, hs⟩
          · rw [ix_snoc h.lt]; exact h3 m hm h
          · subst h; rw [ix_last]; exact hnew hs
        · rw [ix_snoc h1.lt, fr_snoc h1.lt]; exact h4
    · rw [if_neg hskip]
      simp only [gt_iff_lt, Bool.or_eq_true, decide_eq_true_eq, bne_iff_ne, ne_eq, not_or, Nat.not_lt,
        Classical.not_not] at hskip
      refine .inr ⟨older.reverse.length, has_snoc.2 (.inr ⟨rfl, hskip.2⟩), ?_, ?_, ?_⟩
      · rw [ix_last]; exact hskip.1
      · intro m hm hh
        rcases has_snoc.1 hh with h | ⟨h, _⟩
        · have := h.lt; omega
        · omega
      · rw [ix_last, fr_last]
        by_cases he : it.index = index
        · simp [he]
        · simp [he]

/-- The structure of a group. -/
structure Struct (items : List Item) (s : Storage) (g : Group) : Prop where
  mem : ∀ k, k ∈ g.items ↔ Has items s k
  sorted : g.items.Pairwise (· < ·)
  begins : ∀ x, x ∈ g.partials → ∃ k, g.items[x.2]? = some k ∧ fr items k = x.1
  psorted : g.partials.Pairwise fun x y => x.2 < y.2
  run : ∀ (j k k' : Nat), g.items[j]? = some k → g.items[j + 1]? = some k' → (∀ x, x ∈ g.partials → x.2 ≠ j + 1) →
    fr items k' = fr items k + 1
  small : ∀ (j k : Nat), g.items[j]? = some k → fr items k ≤ j
  first : g.items ≠ [] → ∃ p rest, g.partials = (p, 0) :: rest
  scope : ∀ a b, Has items s a → Has items s b → a < b → (∀ m, a < m → m ≤ b → ix items a < ix items m) →
    fr items a < fr items b

/-- The index of a group, before a declaration with the index `i` (or with none). -/
structure Ready (items : List Item) (s : Storage) (g : Group) (ok : Nat → Prop) : Prop where
  low : g.index ≤ g.items.length
  fresh : g.isReset = false → ∃ k, g.items.getLast? = some k ∧ g.index = fr items k + 1
  scope : ∀ a, Has items s a → (∀ m, a < m → m < items.length → ix items a < ix items m) → ok (ix items a) →
    fr items a < g.index

theorem Struct.reset {items : List Item} {s : Storage} {g : Group} (h : Struct items s g) (i : Nat) :
    Struct items s (g.reset i) :=
  ⟨h.mem, h.sorted, h.begins, h.psorted, h.run, h.small, h.first, h.scope⟩

theorem Struct.index_le {items : List Item} {s : Storage} {g : Group} (h : Struct items s g) {k : Nat}
    (hk : Has items s k) : fr items k + 1 ≤ g.items.length := by
  obtain ⟨j, hj⟩ := List.mem_iff_getElem?.1 ((h.mem k).2 hk)
  have h1 := (List.getElem?_eq_some_iff.1 hj).1
  have h2 := h.small j k hj
  omega

theorem sorted_le_length : ∀ (xs : List Nat) (n : Nat), xs.Pairwise (· < ·) → (∀ k, k ∈ xs → k < n) → xs.length ≤ n
  | [], _, _, _ => Nat.zero_le _
  | x :: xs, n, hs, hn => by
    have hs' := List.pairwise_cons.1 hs
    have hx := hn x List.mem_cons_self
    have := sorted_le_length (xs.map (· - 1)) (n - 1) (by
        rw [List.pairwise_map]
        refine hs'.2.imp_of_mem ?_
        intro a b ha hb hab
        have := hs'.1 a ha
        omega) (by
        intro k hk
        obtain ⟨y, hy, rfl⟩ := List.mem_map.1 hk
        have h1 := hs'.1 y hy
        have h2 := hn y (List.mem_cons_of_mem _ hy)
        omega)
    rw [List.length_map] at this
    simp only [List.length_cons]; omega

theorem Struct.length_le {items : List Item} {s : Storage} {g : Group} (h : Struct items s g) :
    g.items.length ≤ items.length :=
  sorted_le_length _ _ h.sorted fun k hk => ((h.mem k).1 hk).lt

/-- The groups before a declaration. -/
theorem Ready.reset {items : List Item} {s : Storage} {g : Group} (h : Struct items s g) (hs : items.length < 65536)
    (i : Nat) : Ready items s (g.reset (findReset i s items.reverse)) (fun a => a < i) := by
  have hl := h.length_le
  have hf := findReset_spec i s items.reverse
  rw [List.reverse_reverse] at hf
  rcases hf with ⟨h1, h2⟩ | ⟨k, h1, h2, h3, h4⟩
  · refine ⟨by simp [Group.reset, h1], by simp [Group.reset], ?_⟩
    intro a ha _ hlt
    have := h2 a ha; omega
  · have hk := h.index_le h1
    have hm : m16 (fr items k + 1) = fr items k + 1 := by unfold m16; rw [Nat.mod_eq_of_lt]; omega
    rw [hm] at h4
    refine ⟨?_, by simp [Group.reset], ?_⟩
    · show findReset i s items.reverse ≤ _
      rw [h4]; show _ ≤ g.items.length; split <;> omega
    · intro a ha hopen hlt
      show fr items a < findReset i s items.reverse
      rw [h4]
      rcases Nat.lt_trichotomy a k with hak | hak | hak
      · have := h.scope a k ha h1 hak (fun m hm1 hm2 => hopen m hm1 (by have := h1.lt; omega))
        split <;> omega
      · subst hak
        rw [if_neg (by omega)]; omega
      · have := h3 a hak ha; omega

theorem getLast?_eq_getElem? (xs : List Nat) : xs.getLast? = xs[xs.length - 1]? := List.getLast?_eq_getElem?

/-- A variable of the storage type is appended. -/
theorem Struct.append {items : List Item} {s : Storage} {g : Group} (h : Struct items s g) {i z : Nat}
    (hr : Ready items s g (fun a => a < i)) :
    Struct (items ++ [⟨i, z, s, g.index⟩]) s (g.append items.length) := by
  have hlt : ∀ (j k : Nat), g.items[j]? = some k → k < items.length := fun j k hj =>
    ((h.mem k).1 (List.mem_iff_getElem?.2 ⟨j, hj⟩)).lt
  have hget : ∀ (j k : Nat), (g.items ++ [items.length])[j]? = some k →
      g.items[j]? = some k ∨ (j = g.items.length ∧ k = items.length) := by
    intro j k hj
    rcases Nat.lt_trichotomy j g.items.length with h1 | h1 | h1
    · rw [List.getElem?_append_left h1] at hj; exact .inl hj
    · subst h1; simp at hj; exact .inr ⟨rfl, hj.symm⟩
    · have : (g.items ++ [items.length])[j]? = none := by rw [List.getElem?_eq_none_iff]; simp; omega
      rw [this] at hj; cases hj
  have hold : ∀ x, x ∈ g.partials → ∃ k, (g.items ++ [items.length])[x.2]? = some k ∧
      fr (items ++ [⟨i, z, s, g.index⟩]) k = x.1 := by
    intro x hx
    obtain ⟨k, h1, h2⟩ := h.begins x hx
    refine ⟨k, ?_, ?_⟩
    · rw [List.getElem?_append_left (List.getElem?_eq_some_iff.1 h1).1]; exact h1
    · rw [fr_snoc (hlt _ _ h1)]; exact h2
  have hnew : (g.items ++ [items.length])[g.items.length]? = some items.length := by simp
  refine ⟨?_, ?_, ?_, ?_, ?_, ?_, ?_, ?_⟩
  · intro k
    show k ∈ g.items ++ [items.length] ↔ _
    rw [has_snoc, List.mem_append, h.mem k, List.mem_singleton]
    simp
  · show (g.items ++ [items.length]).Pairwise (· < ·)
    rw [List.pairwise_append]
    refine ⟨h.sorted, by simp, ?_⟩
    intro a ha b hb
    rw [List.mem_singleton.1 hb]
    exact ((h.mem a).1 ha).lt
  · intro x hx
    simp only [Group.append] at hx
    by_cases hi : g.isReset = true
    · rw [if_pos hi] at hx
      rcases List.mem_append.1 hx with h1 | h1
      · exact hold x h1
      · rw [List.mem_singleton.1 h1]
        exact ⟨items.length, hnew, fr_last _ _⟩
    · rw [if_neg hi] at hx
      exact hold x hx
  · simp only [Group.append]
    split
    · rw [List.pairwise_append]
      refine ⟨h.psorted, by simp, ?_⟩
      intro a ha b hb
      rw [List.mem_singleton.1 hb]
      obtain ⟨k, h1, _⟩ := h.begins a ha
      exact (List.getElem?_eq_some_iff.1 h1).1
    · exact h.psorted
  · intro j k k' hj hj' hx
    have hx' : ∀ x, x ∈ g.partials → x.2 ≠ j + 1 := by
      intro x hxm
      refine hx x ?_
      simp only [Group.append]; split
      · exact List.mem_append_left _ hxm
      · exact hxm
    rcases hget _ _ hj' with h1 | ⟨h1, h2⟩
    · rcases hget _ _ hj with h3 | ⟨h3, _⟩
      · rw [fr_snoc (hlt _ _ h1), fr_snoc (hlt _ _ h3)]
        exact h.run j k k' h3 h1 hx'
      · have := (List.getElem?_eq_some_iff.1 h1).1; omega
    · have hreset : g.isReset = false := by
        cases hi : g.isReset with
        | false => rfl
        | true =>
          exfalso
          refine hx (g.index, g.items.length) ?_ h1.symm
          simp [Group.append, hi]
      obtain ⟨last, l1, l2⟩ := hr.fresh hreset
      rw [getLast?_eq_getElem?] at l1
      have h3 : g.items.length - 1 = j := by omega
      rw [h3] at l1
      have h4 : k = last := by
        rcases hget _ _ hj with h5 | ⟨h5, _⟩
        · rw [l1] at h5; simpa using h5.symm
        · omega
      subst h4; subst h2
      rw [fr_last, fr_snoc (hlt _ _ l1)]
      exact l2
  · intro j k hj
    rcases hget _ _ hj with h1 | ⟨h1, h2⟩
    · rw [fr_snoc (hlt _ _ h1)]; exact h.small j k h1
    · subst h2; rw [fr_last]; have := hr.low; simp only; omega
  · intro _
    by_cases he : g.items = []
    · have hreset : g.isReset = true := by
        cases hi : g.isReset with
        | true => rfl
        | false => obtain ⟨last, l1, _⟩ := hr.fresh hi; rw [he] at l1; cases l1
      have hp : g.partials = [] := by
        cases hpp : g.partials with
        | nil => rfl
        | cons x xs =>
          obtain ⟨k, h1, _⟩ := h.begins x (by rw [hpp]; simp)
          rw [he] at h1; simp at h1
      exact ⟨g.index, [], by simp [Group.append, hreset, hp, he]⟩
    · obtain ⟨p, rest, hpr⟩ := h.first he
      simp only [Group.append]
      split
      · exact ⟨p, rest ++ [(g.index, g.items.length)], by rw [hpr]; rfl⟩
      · exact ⟨p, rest, hpr⟩
  · intro a b ha hb hab hm
    rcases has_snoc.1 ha with h1 | ⟨h1, _⟩
    · rcases has_snoc.1 hb with h2 | ⟨h2, _⟩
      · rw [fr_snoc h1.lt, fr_snoc h2.lt]
        refine h.scope a b h1 h2 hab ?_
        intro m hm1 hm2
        have := hm m hm1 hm2
        rwa [ix_snoc h1.lt, ix_snoc (by have := h2.lt; omega)] at this
      · subst h2
        rw [fr_last, fr_snoc h1.lt]
        refine hr.scope a h1 ?_ ?_
        · intro m hm1 hm2
          have := hm m hm1 (by omega)
          rwa [ix_snoc h1.lt, ix_snoc hm2] at this
        · have := hm items.length hab (Nat.le_refl _)
          rwa [ix_snoc h1.lt, ix_last] at this
    · have := hb.lt
      simp at this; omega

/-- A variable of another storage type is appended. -/
theorem Struct.other {items : List Item} {s : Storage} {g : Group} (h : Struct items s g) {it : Item}
    (hs : it.storage ≠ s) : Struct (items ++ [it]) s g := by
  have hlt : ∀ (j k : Nat), g.items[j]? = some k → k < items.length := fun j k hj =>
    ((h.mem k).1 (List.mem_iff_getElem?.2 ⟨j, hj⟩)).lt
  have hh : ∀ k, Has (items ++ [it]) s k ↔ Has items s k := by
    intro k
    rw [has_snoc]
    constructor
    · rintro (x | ⟨_, x⟩)
      · exact x
      · exact absurd x hs
    · exact .inl
  refine ⟨?_, h.sorted, ?_, h.psorted, ?_, ?_, h.first, ?_⟩
  · intro k; rw [hh, h.mem]
  · intro x hx
    obtain ⟨k, h1, h2⟩ := h.begins x hx
    exact ⟨k, h1, by rw [fr_snoc (hlt _ _ h1)]; exact h2⟩
  · intro j k k' h1 h2 hx
    rw [fr_snoc (hlt _ _ h1), fr_snoc (hlt _ _ h2)]
    exact h.run j k k' h1 h2 hx
  · intro j k h1
    rw [fr_snoc (hlt _ _ h1)]; exact h.small j k h1
  · intro a b ha hb hab hm
    rw [hh] at ha hb
    rw [fr_snoc ha.lt, fr_snoc hb.lt]
    refine h.scope a b ha hb hab ?_
    intro m hm1 hm2
    have := hm m hm1 hm2
    rwa [ix_snoc ha.lt, ix_snoc (by have := hb.lt; omega)] at this

/-- The index of the group after a variable of the storage type. -/
theorem Ready.append {items : List Item} {s : Storage} {g : Group} {i z : Nat} (h : Struct items s g)
    (hs : items.length + 1 < 65536) (hr : Ready items s g (fun a => a < i)) :
    Ready (items ++ [⟨i, z, s, g.index⟩]) s (g.append items.length) (fun _ => True) := by
  have h1 := hr.low
  have h2 := h.length_le
  have hm : m16 (g.index + 1) = g.index + 1 := by unfold m16; rw [Nat.mod_eq_of_lt]; omega
  refine ⟨?_, ?_, ?_⟩
  · simp only [Group.append, hm, List.length_append, List.length_singleton]; omega
  · intro _
    refine ⟨items.length, by simp [Group.append], ?_⟩
    simp only [Group.append, hm]
    rw [fr_last]
  · intro a ha hopen _
    simp only [Group.append, hm]
    rcases has_snoc.1 ha with h3 | ⟨h3, _⟩
    · rw [fr_snoc h3.lt]
      refine Nat.lt_succ_of_lt (hr.scope a h3 ?_ ?_)
      · intro m hm1 hm2
        have := hopen m hm1 (by simp; omega)
        rwa [ix_snoc h3.lt, ix_snoc hm2] at this
      · have := hopen items.length h3.lt (by simp)
        rwa [ix_snoc h3.lt, ix_last] at this
    · subst h3; rw [fr_last]; simp only; omega

/-- The index of the group after a variable of another storage type. -/
theorem Ready.other {items : List Item} {s : Storage} {g : Group} {it : Item} (h : Struct items s g)
    (hs : it.storage ≠ s) (hr : Ready items s g (fun a => a < it.index)) :
    Ready (items ++ [it]) s g (fun _ => True) := by
  refine ⟨hr.low, ?_, ?_⟩
  · intro hi
    obtain ⟨k, h1, h2⟩ := hr.fresh hi
    refine ⟨k, h1, ?_⟩
    rw [fr_snoc]; exact h2
    rw [getLast?_eq_getElem?] at h1
    exact ((h.mem k).1 (List.mem_iff_getElem?.2 ⟨_, h1⟩)).lt
  · intro a ha hopen _
    rcases has_snoc.1 ha with h3 | ⟨_, h3⟩
    · rw [fr_snoc h3.lt]
      refine hr.scope a h3 ?_ ?_
      · intro m hm1 hm2
        have := hopen m hm1 (by simp; omega)
        rwa [ix_snoc h3.lt, ix_snoc hm2] at this
      · have := hopen items.length h3.lt (by simp)
        rwa [ix_snoc h3.lt, ix_last] at this
    · exact absurd h3 hs

/-- What is known of an item, without the fresh index. -/
def Item.toDef (it : Item) : Def := ⟨it.index, it.size, it.storage⟩

/-- What holds of the layout after the declarations. -/
structure Inv (defs : List Def) (l : Layout) : Prop where
  defs : l.items.map Item.toDef = defs
  struct : ∀ s, Struct l.items s (l.groups s)
  ready : ∀ s, Ready l.items s (l.groups s) (fun _ => True)

theorem Inv.empty : Inv [] Layout.empty := by
  refine ⟨rfl, ?_, ?_⟩
  · intro s
    refine ⟨?_, List.Pairwise.nil, ?_, List.Pairwise.nil, ?_, ?_, ?_, ?_⟩
    · intro k; constructor
      · intro h; cases h
      · rintro ⟨it, h, _⟩; simp [Layout.empty] at h
    · intro x hx; cases hx
    · intro j k k' h; simp [Layout.empty] at h
    · intro j k h; simp [Layout.empty] at h
    · intro h; exact absurd rfl h
    · rintro a b ⟨it, h, _⟩; simp [Layout.empty] at h
  · intro s
    refine ⟨Nat.le_refl _, by simp [Layout.empty], ?_⟩
    rintro a ⟨it, h, _⟩; simp [Layout.empty] at h

theorem resetGroups_cases (l : Layout) (i : Nat) (s : Storage) :
    (resetGroups l i s = (l.groups s).reset (findReset i s l.items.reverse) ∧
      ∃ last, l.items.getLast? = some last ∧ i ≤ last.index) ∨
    (resetGroups l i s = l.groups s ∧ ∀ last, l.items.getLast? = some last → last.index < i) := by
  unfold resetGroups
  cases h : l.items.getLast? with
  | none => exact .inr ⟨rfl, by intro _ h; cases h⟩
  | some last =>
    simp only
    by_cases hi : i ≤ last.index
    · rw [if_pos hi]; exact .inl ⟨rfl, last, rfl, hi⟩
    · rw [if_neg hi]
      refine .inr ⟨rfl, ?_⟩
      intro x hx
      simp only [Option.some.injEq] at hx
      subst hx; omega

/-- The groups before a declaration. -/
theorem Inv.resetGroups {defs : List Def} {l : Layout} (h : Inv defs l) (hs : l.items.length < 65536) (i : Nat)
    (s : Storage) : Struct l.items s (resetGroups l i s) ∧ Ready l.items s (resetGroups l i s) (fun a => a < i) := by
  have hweak : Ready l.items s (l.groups s) (fun a => a < i) :=
    ⟨(h.ready s).low, (h.ready s).fresh, fun a ha ho _ => (h.ready s).scope a ha ho trivial⟩
  rcases resetGroups_cases l i s with ⟨e, _⟩ | ⟨e, _⟩
  · rw [e]; exact ⟨(h.struct s).reset _, Ready.reset (h.struct s) hs i⟩
  · rw [e]; exact ⟨h.struct s, hweak⟩

theorem Inv.append {defs : List Def} {l : Layout} (h : Inv defs l) (d : Def) (hs : defs.length + 1 < 65536) :
    Inv (defs ++ [d]) (l.append d) := by
  have hl : l.items.length = defs.length := by rw [← h.defs]; simp
  refine ⟨?_, ?_, ?_⟩
  · simp [Layout.append, h.defs, Item.toDef]
  · intro s
    obtain ⟨h1, h2⟩ := h.resetGroups (by omega) d.index s
    simp only [Layout.append]
    split
    · rename_i he; subst he; exact h1.append h2
    · rename_i he; exact h1.other (fun x => he x.symm)
  · intro s
    obtain ⟨h1, h2⟩ := h.resetGroups (by omega) d.index s
    simp only [Layout.append]
    split
    · rename_i he; subst he; exact Ready.append h1 (by omega) h2
    · rename_i he; exact Ready.other h1 (fun x => he x.symm) h2

theorem layoutOf_snoc (defs : List Def) (d : Def) : layoutOf (defs ++ [d]) = (layoutOf defs).append d := by
  simp [layoutOf]

/-- Induction on the last declaration. -/
theorem snoc_induction {α : Type} {motive : List α → Prop} (nil : motive [])
    (snoc : ∀ xs x, motive xs → motive (xs ++ [x])) (xs : List α) : motive xs := by
  have h : ∀ r : List α, motive r.reverse := by
    intro r
    induction r with
    | nil => exact nil
    | cons x r ih => rw [List.reverse_cons]; exact snoc _ _ ih
  have := h xs.reverse
  rwa [List.reverse_reverse] at this

theorem layoutOf_inv (defs : List Def) (hs : defs.length < 65536) : Inv defs (layoutOf defs) := by
  revert hs
  refine snoc_induction (motive := fun defs => defs.length < 65536 → Inv defs (layoutOf defs)) ?_ ?_ defs
  · intro _; exact Inv.empty
  · intro defs d ih hs
    rw [List.length_append, List.length_singleton] at hs
    rw [layoutOf_snoc]
    exact (ih (by omega)).append d hs

/-! ## No index is skipped -/

/-- `Faithful`, of items. -/
def FaithfulItems (items : List Item) (s : Storage) : Prop :=
  ∀ a b, Has items s a → Has items s b → a < b →
    (∀ m, a < m → m ≤ b → Has items s m → ix items a < ix items m) → ∀ m, a < m → m ≤ b → ix items a < ix items m

theorem FaithfulItems.prefix {items : List Item} {it : Item} {s : Storage} (h : FaithfulItems (items ++ [it]) s) :
    FaithfulItems items s := by
  intro a b ha hb hab hm m hm1 hm2
  have hbl := hb.lt
  have := h a b (has_snoc.2 (.inl ha)) (has_snoc.2 (.inl hb)) hab (by
    intro m hm1 hm2 hh
    rw [ix_snoc ha.lt, ix_snoc (by omega)]
    rcases has_snoc.1 hh with h1 | ⟨h1, _⟩
    · exact hm m hm1 hm2 h1
    · omega) m hm1 hm2
  rwa [ix_snoc ha.lt, ix_snoc (by omega)] at this

theorem getElem?_toDef {items : List Item} {defs : List Def} (h : items.map Item.toDef = defs) (k : Nat) :
    defs[k]? = items[k]?.map Item.toDef := by rw [← h, List.getElem?_map]

theorem ix_of_def {items : List Item} {defs : List Def} (h : items.map Item.toDef = defs) {k : Nat} {d : Def}
    (hd : defs[k]? = some d) : ix items k = d.index := by
  rw [getElem?_toDef h, Option.map_eq_some_iff] at hd
  obtain ⟨it, h1, h2⟩ := hd
  subst h2
  simp [ix, h1, Item.toDef]

theorem has_iff_def {items : List Item} {defs : List Def} (h : items.map Item.toDef = defs) {k : Nat} {s : Storage} :
    Has items s k ↔ ∃ d, defs[k]? = some d ∧ d.storage = s := by
  rw [getElem?_toDef h]
  constructor
  · rintro ⟨it, h1, h2⟩
    exact ⟨it.toDef, by rw [h1]; rfl, h2⟩
  · rintro ⟨d, h1, h2⟩
    rw [Option.map_eq_some_iff] at h1
    obtain ⟨it, h3, h4⟩ := h1
    subst h4
    exact ⟨it, h3, h2⟩

theorem exists_def {items : List Item} {defs : List Def} (h : items.map Item.toDef = defs) {k : Nat}
    (hk : k < items.length) : ∃ d, defs[k]? = some d := by
  rw [getElem?_toDef h, List.getElem?_eq_getElem hk]; exact ⟨_, rfl⟩

theorem FaithfulItems.of_defs {items : List Item} {defs : List Def} {s : Storage} (h : items.map Item.toDef = defs)
    (hf : Faithful defs s) : FaithfulItems items s := by
  intro a b ha hb hab hm m hm1 hm2
  obtain ⟨da, a1, a2⟩ := (has_iff_def h).1 ha
  obtain ⟨db, b1, b2⟩ := (has_iff_def h).1 hb
  obtain ⟨dm, m1⟩ := exists_def h (k := m) (by have := hb.lt; omega)
  have hs := hf a b da db hab a1 b1 a2 b2 (by
    intro m dm hm1 hm2 hd hds
    have := hm m hm1 hm2 ((has_iff_def h).2 ⟨dm, hd, hds⟩)
    rwa [ix_of_def h a1, ix_of_def h hd] at this)
  have := hs.2 m da dm hm1 hm2 a1 m1
  rwa [ix_of_def h a1, ix_of_def h m1]

/-- No index is skipped. -/
structure Tight (items : List Item) (g : Group) : Prop where
  skip : ∀ (j k k' : Nat), g.items[j]? = some k → g.items[j + 1]? = some k' → fr items k' ≤ fr items k + 1
  bound : ∀ k, g.items.getLast? = some k → g.index ≤ fr items k + 1

theorem last_greatest {items : List Item} {s : Storage} {g : Group} (h : Struct items s g) {last k : Nat}
    (hl : g.items.getLast? = some last) (hk : Has items s k) : k ≤ last := by
  obtain ⟨j, hj⟩ := List.mem_iff_getElem?.1 ((h.mem k).2 hk)
  rw [getLast?_eq_getElem?] at hl
  obtain ⟨h1, h2⟩ := List.getElem?_eq_some_iff.1 hj
  obtain ⟨h3, h4⟩ := List.getElem?_eq_some_iff.1 hl
  rcases Nat.lt_or_ge j (g.items.length - 1) with h5 | h5
  · have := List.pairwise_iff_getElem.1 h.sorted j (g.items.length - 1) h1 h3 h5
    omega
  · have : j = g.items.length - 1 := by omega
    subst this; omega

theorem has_last {items : List Item} {s : Storage} {g : Group} (h : Struct items s g) {last : Nat}
    (hl : g.items.getLast? = some last) : Has items s last := by
  rw [getLast?_eq_getElem?] at hl
  exact (h.mem last).1 (List.mem_iff_getElem?.2 ⟨_, hl⟩)

theorem Tight.reset {items : List Item} {s : Storage} {g : Group} (h : Struct items s g) (hs : items.length < 65536)
    (hf : FaithfulItems items s) (ht : Tight items g) (i : Nat) :
    Tight items (g.reset (findReset i s items.reverse)) := by
  refine ⟨ht.skip, ?_⟩
  intro last hl
  have hl : g.items.getLast? = some last := hl
  have hll := has_last h hl
  show findReset i s items.reverse ≤ _
  have hfr := findReset_spec i s items.reverse
  rw [List.reverse_reverse] at hfr
  have hlen := h.length_le
  rcases hfr with ⟨h1, h2⟩ | ⟨k, h1, h2, h3, h4⟩
  · omega
  · have hk := h.index_le h1
    have hm : m16 (fr items k + 1) = fr items k + 1 := by unfold m16; rw [Nat.mod_eq_of_lt]; omega
    rw [hm] at h4
    have hle := last_greatest h hl h1
    rcases Nat.lt_or_ge k last with h5 | h5
    · have := h.scope k last h1 hll h5 (hf k last h1 hll h5 (by
        intro m hm1 hm2 hh
        have := h3 m hm1 hh; omega))
      rw [h4]; split <;> omega
    · have : k = last := by omega
      subst this
      rw [h4]; split <;> omega

theorem Tight.append {items : List Item} {s : Storage} {g : Group} (h : Struct items s g) (hs : items.length + 1 < 65536)
    {i z : Nat} (hr : Ready items s g (fun a => a < i)) (ht : Tight items g) :
    Tight (items ++ [⟨i, z, s, g.index⟩]) (g.append items.length) := by
  have hlt : ∀ (j k : Nat), g.items[j]? = some k → k < items.length := fun j k hj =>
    ((h.mem k).1 (List.mem_iff_getElem?.2 ⟨j, hj⟩)).lt
  have h1 := hr.low
  have h2 := h.length_le
  have hm : m16 (g.index + 1) = g.index + 1 := by unfold m16; rw [Nat.mod_eq_of_lt]; omega
  refine ⟨?_, ?_⟩
  · intro j k k' hj hj'
    simp only [Group.append] at hj hj'
    rcases Nat.lt_trichotomy (j + 1) g.items.length with h3 | h3 | h3
    · rw [List.getElem?_append_left h3] at hj'
      rw [List.getElem?_append_left (by omega)] at hj
      rw [fr_snoc (hlt _ _ hj), fr_snoc (hlt _ _ hj')]
      exact ht.skip j k k' hj hj'
    · rw [h3] at hj'
      simp only [List.getElem?_concat_length, Option.some.injEq] at hj'
      subst hj'
      rw [List.getElem?_append_left (by omega)] at hj
      rw [fr_last, fr_snoc (hlt _ _ hj)]
      refine ht.bound k ?_
      rw [getLast?_eq_getElem?, ← hj]
      congr 1; omega
    · have : (g.items ++ [items.length])[j + 1]? = none := by rw [List.getElem?_eq_none_iff]; simp; omega
      rw [this] at hj'; cases hj'
  · intro k hk
    simp only [Group.append, List.getLast?_append, List.getLast?_singleton, Option.some_or, Option.some.injEq] at hk
    subst hk
    rw [fr_last]
    simp only [Group.append, hm]; omega

theorem Tight.other {items : List Item} {s : Storage} {g : Group} (h : Struct items s g) {it : Item}
    (ht : Tight items g) : Tight (items ++ [it]) g := by
  have hlt : ∀ (j k : Nat), g.items[j]? = some k → k < items.length := fun j k hj =>
    ((h.mem k).1 (List.mem_iff_getElem?.2 ⟨j, hj⟩)).lt
  refine ⟨?_, ?_⟩
  · intro j k k' h1 h2
    rw [fr_snoc (hlt _ _ h1), fr_snoc (hlt _ _ h2)]; exact ht.skip j k k' h1 h2
  · intro k hk
    rw [fr_snoc (has_last h hk).lt]; exact ht.bound k hk

theorem layoutOf_tight (s : Storage) (defs : List Def) (hs : defs.length < 65536)
    (hf : FaithfulItems (layoutOf defs).items s) : Tight (layoutOf defs).items ((layoutOf defs).groups s) := by
  revert hs hf
  refine snoc_induction (motive := fun defs => defs.length < 65536 → FaithfulItems (layoutOf defs).items s →
    Tight (layoutOf defs).items ((layoutOf defs).groups s)) ?_ ?_ defs
  · intro _ _
    refine ⟨?_, ?_⟩
    · intro j k k' h; simp [layoutOf, Layout.empty] at h
    · intro k h; simp [layoutOf, Layout.empty] at h
  · intro defs d ih hs hf
    rw [List.length_append, List.length_singleton] at hs
    have hI := layoutOf_inv defs (by omega)
    have hl : (layoutOf defs).items.length = defs.length := by
      have := congrArg List.length hI.defs
      simpa using this
    rw [layoutOf_snoc] at hf ⊢
    have hf' : FaithfulItems (layoutOf defs).items s := FaithfulItems.prefix hf
    have ht := ih (by omega) hf'
    obtain ⟨h1, h2⟩ := hI.resetGroups (by omega) d.index s
    have ht' : Tight (layoutOf defs).items (resetGroups (layoutOf defs) d.index s) := by
      rcases resetGroups_cases (layoutOf defs) d.index s with ⟨e, _⟩ | ⟨e, _⟩
      · rw [e]; exact Tight.reset (hI.struct s) (by omega) hf' ht d.index
      · rw [e]; exact ht
    simp only [Layout.append]
    split
    · rename_i he; subst he; exact Tight.append h1 (by omega) h2 ht'
    · exact Tight.other h1 ht'

/-! ## A flat group has one partial -/

/-- `Flat`, of items. -/
def FlatItems (items : List Item) (s : Storage) : Prop :=
  ∀ a b, Has items s a → Has items s b → a < b → ∀ m, a ≤ m → m < b → ix items m < ix items (m + 1)

theorem FlatItems.of_defs {items : List Item} {defs : List Def} {s : Storage} (h : items.map Item.toDef = defs)
    (hf : Flat defs s) : FlatItems items s := by
  intro a b ha hb hab m hm1 hm2
  obtain ⟨da, a1, a2⟩ := (has_iff_def h).1 ha
  obtain ⟨db, b1, b2⟩ := (has_iff_def h).1 hb
  have hbl := hb.lt
  obtain ⟨d, m1⟩ := exists_def h (k := m) (by omega)
  obtain ⟨d', m2⟩ := exists_def h (k := m + 1) (by omega)
  rw [ix_of_def h m1, ix_of_def h m2]
  exact hf a b da db hab a1 b1 a2 b2 m d d' hm1 hm2 m1 m2

theorem FlatItems.prefix {items : List Item} {it : Item} {s : Storage} (h : FlatItems (items ++ [it]) s) :
    FlatItems items s := by
  intro a b ha hb hab m hm1 hm2
  have hbl := hb.lt
  have := h a b (has_snoc.2 (.inl ha)) (has_snoc.2 (.inl hb)) hab m hm1 hm2
  rwa [ix_snoc (by omega), ix_snoc (by omega)] at this

/-- As long as the declarations are nested, the group is not reset. -/
def Fixed (items : List Item) (s : Storage) (g : Group) : Prop :=
  ∀ a, Has items s a → (∀ m, a ≤ m → m + 1 < items.length → ix items m < ix items (m + 1)) → g.isReset = false

theorem ix_getLast {items : List Item} {last : Item} (h : items.getLast? = some last) :
    ix items (items.length - 1) = last.index := by
  rw [List.getLast?_eq_getElem?] at h
  simp [ix, h]

theorem layoutOf_flat (s : Storage) (defs : List Def) (hs : defs.length < 65536)
    (hf : FlatItems (layoutOf defs).items s) :
    Fixed (layoutOf defs).items s ((layoutOf defs).groups s) ∧ ((layoutOf defs).groups s).partials.length ≤ 1 := by
  revert hs hf
  refine snoc_induction (motive := fun defs => defs.length < 65536 → FlatItems (layoutOf defs).items s →
    Fixed (layoutOf defs).items s ((layoutOf defs).groups s) ∧
      ((layoutOf defs).groups s).partials.length ≤ 1) ?_ ?_ defs
  · intro _ _
    refine ⟨?_, by simp [layoutOf, Layout.empty]⟩
    rintro a ⟨it, h, _⟩; simp [layoutOf, Layout.empty] at h
  · intro defs d ih hs hf
    rw [List.length_append, List.length_singleton] at hs
    have hI := layoutOf_inv defs (by omega)
    have hl : (layoutOf defs).items.length = defs.length := by
      have := congrArg List.length hI.defs
      simpa using this
    rw [layoutOf_snoc] at hf ⊢
    obtain ⟨ih1, ih2⟩ := ih (by omega) (FlatItems.prefix hf)
    obtain ⟨h1, h2⟩ := hI.resetGroups (by omega) d.index s
    have hp : (resetGroups (layoutOf defs) d.index s).partials = ((layoutOf defs).groups s).partials := by
      rcases resetGroups_cases (layoutOf defs) d.index s with ⟨e, _⟩ | ⟨e, _⟩ <;> rw [e] <;> rfl
    have hfix : ∀ a, Has (layoutOf defs).items s a →
        (∀ m, a ≤ m → m + 1 < (layoutOf defs).items.length →
          ix (layoutOf defs).items m < ix (layoutOf defs).items (m + 1)) →
        ix (layoutOf defs).items ((layoutOf defs).items.length - 1) < d.index →
        (resetGroups (layoutOf defs) d.index s).isReset = false := by
      intro a ha hm hlast
      rcases resetGroups_cases (layoutOf defs) d.index s with ⟨_, last, l1, l2⟩ | ⟨e, _⟩
      · rw [ix_getLast l1] at hlast; omega
      · rw [e]; exact ih1 a ha hm
    -- the conditions on the list with the new item
    have hfix' : ∀ (it : Item), it.index = d.index → ∀ a, Has (layoutOf defs).items s a →
        (∀ m, a ≤ m → m + 1 < ((layoutOf defs).items ++ [it]).length →
          ix ((layoutOf defs).items ++ [it]) m < ix ((layoutOf defs).items ++ [it]) (m + 1)) →
        (resetGroups (layoutOf defs) d.index s).isReset = false := by
      intro it hit a ha hm
      have hal := ha.lt
      refine hfix a ha ?_ ?_
      · intro m hm1 hm2
        have := hm m hm1 (by simp; omega)
        rwa [ix_snoc (by omega), ix_snoc (by omega)] at this
      · have := hm ((layoutOf defs).items.length - 1) (by omega) (by simp; omega)
        have hsucc : (layoutOf defs).items.length - 1 + 1 = (layoutOf defs).items.length := by omega
        rwa [hsucc, ix_last, ix_snoc (by omega), hit] at this
    by_cases he : s = d.storage
    · subst he
      simp only [Layout.append, if_true] at hf ⊢
      refine ⟨?_, ?_⟩
      · intro a _ _; rfl
      · simp only [Group.append, hp]
        by_cases hne : (resetGroups (layoutOf defs) d.index d.storage).items = []
        · have hpn : ((layoutOf defs).groups d.storage).partials = [] := by
            rw [← hp]
            cases hpp : (resetGroups (layoutOf defs) d.index d.storage).partials with
            | nil => rfl
            | cons x xs =>
              obtain ⟨k, h3, _⟩ := h1.begins x (by rw [hpp]; simp)
              rw [hne] at h3; simp at h3
          rw [hpn]; split <;> simp
        · obtain ⟨a, ha⟩ := List.exists_mem_of_ne_nil _ hne
          have ha := (h1.mem a).1 ha
          have hr := hfix' _ rfl a ha (by
            intro m hm1 hm2
            refine hf a (layoutOf defs).items.length (has_snoc.2 (.inl ha)) (has_snoc.2 (.inr ⟨rfl, rfl⟩)) ha.lt m hm1 ?_
            simpa using hm2)
          rw [hr]
          simpa using ih2
    · simp only [Layout.append, if_neg he] at hf ⊢
      refine ⟨?_, by rw [hp]; exact ih2⟩
      intro a ha hm
      rcases has_snoc.1 ha with h3 | ⟨_, h3⟩
      · exact hfix' _ rfl a h3 hm
      · exact absurd h3.symm he

/-! ## The places of one group -/

/-- The identities of one storage type were put between two offsets. -/
structure GroupPlaced (items : List Item) (size : Nat → Nat) (s : Storage) (lo hi : Nat) (f g : Offsets) : Prop where
  frame : ∀ a, ¬ Has items s a → g a = f a
  range : ∀ a, Has items s a → lo ≤ g a ∧ g a + size a ≤ hi
  apart : ∀ a b, Has items s a → Has items s b → a < b → (∀ m, a < m → m ≤ b → ix items a < ix items m) →
    Apart size g a b

theorem sorted_nodup {xs : List Nat} (h : xs.Pairwise (· < ·)) : xs.Nodup :=
  h.imp fun hab => Nat.ne_of_lt hab

/-- The fresh index at a position. -/
def nsOf (items : List Item) (g : Group) (j : Nat) : Nat := fr items ((g.items[j]?).getD 0)

theorem nsOf_eq {items : List Item} {g : Group} {j k : Nat} (h : g.items[j]? = some k) : nsOf items g j = fr items k := by
  simp [nsOf, h]

theorem Struct.shape {items : List Item} {s : Storage} {g : Group} (h : Struct items s g) (ht : Tight items g) :
    Shape g.items (nsOf items g) g.partials := by
  refine ⟨sorted_nodup h.sorted, ?_, ?_, h.psorted, ?_⟩
  · intro k hk
    have e1 := List.getElem?_eq_getElem (l := g.items) (i := k) (by omega)
    have e2 := List.getElem?_eq_getElem hk
    rw [nsOf_eq e1, nsOf_eq e2]
    exact ht.skip k _ _ e1 e2
  · intro x hx
    obtain ⟨k, h1, h2⟩ := h.begins x hx
    exact ⟨(List.getElem?_eq_some_iff.1 h1).1, by rw [nsOf_eq h1]; exact h2⟩
  · intro k hk hx
    have e1 := List.getElem?_eq_getElem (l := g.items) (i := k) (by omega)
    have e2 := List.getElem?_eq_getElem hk
    rw [nsOf_eq e1, nsOf_eq e2]
    exact h.run k _ _ e1 e2 hx

theorem commitGroup_arrange {items : List Item} {s : Storage} {g : Group} (h : Struct items s g) (ht : Tight items g)
    (hs : s ≠ .mixture) {size : Nat → Nat} {sort : List Nat → List Nat} (hsort : ∀ xs, (sort xs).Perm xs)
    (hlen : items.length < 65536) {offset : Nat} (hw : offset + weight size g.items < 65536) (f : Offsets) :
    ∃ f' new, commitGroup size sort s g offset f = some (f', new) ∧ offset ≤ new ∧
      new ≤ offset + weight size g.items ∧ GroupPlaced items size s offset new f f' := by
  unfold commitGroup
  by_cases hne : g.items = []
  · rw [if_pos hne]
    have hno : ∀ a, ¬ Has items s a := by
      intro a ha
      have := (h.mem a).2 ha
      rw [hne] at this; cases this
    exact ⟨f, offset, rfl, Nat.le_refl _, by omega, fun _ _ => rfl, fun a ha => absurd ha (hno a),
      fun a _ ha => absurd ha (hno a)⟩
  · rw [if_neg hne]
    obtain ⟨p, rest, hp⟩ := h.first hne
    have hS := h.shape ht
    have hb := hS.begins (p, 0) (by rw [hp]; simp)
    have hps := h.psorted
    rw [hp] at hps
    have hps' := List.pairwise_cons.1 hps
    have hC : Call g.items (nsOf items g) g.partials p 0 rest := by
      refine ⟨hb.1, hb.2, .inr (.inl ⟨(p, 0), by rw [hp]; simp, rfl⟩), ?_, hps'.2, ?_⟩
      · intro x hx; exact ⟨by rw [hp]; simp [hx], Nat.zero_le _⟩
      · intro x hx hlt
        rw [hp] at hx
        rcases List.mem_cons.1 hx with h1 | h1
        · subst h1; simp at hlt
        · exact h1
    have hN : ∀ k, k < g.items.length → nsOf items g k ≤ g.items.length := by
      intro k hk
      have e1 := List.getElem?_eq_getElem hk
      rw [nsOf_eq e1]
      have h1 := h.small k _ e1
      have h2 := h.length_le
      omega
    obtain ⟨s', r, a1, _, a3, a4, a5⟩ := arrange_ok (size := size) hsort hS hN (enough g) p 0 rest offset ⟨g.items, f⟩ hC
      ⟨List.Perm.refl _, fun _ _ => List.Perm.refl _⟩ (by simpa using hw) (by
        unfold steps enough
        rw [hp]
        simp only [List.length_cons]
        have : (rest.length + 1 + 2) * (g.items.length + 2) =
          rest.length * (g.items.length + 2) + 3 * (g.items.length + 2) := by rw [Nat.add_assoc, Nat.add_mul]
        omega)
    rw [List.drop_zero] at a4
    have hres : (match g.partials with
        | [] => none
        | (p, b) :: rest =>
          let r := match s with
            | .mixture => arrangeMixture size sort (enough g) p b rest offset ⟨g.items, f⟩
            | _ => arrange size sort (enough g) p b rest offset ⟨g.items, f⟩
          match r with
          | none => none
          | some (s, new) => some (s.offsets, new)) = some (s'.offsets, r) := by
      rw [hp]
      simp only
      cases s with
      | mixture => exact absurd rfl hs
      | ref => rw [a1]
      | value => rw [a1]
    refine ⟨s'.offsets, r, hres, a3, a4, ?_, ?_, ?_⟩
    · intro a ha
      exact a5.frame a (by rw [List.drop_zero, h.mem]; exact ha)
    · intro a ha
      exact a5.range a (by rw [List.drop_zero, h.mem]; exact ha)
    · intro a b ha hb hab hm
      obtain ⟨j, hj⟩ := List.mem_iff_getElem?.1 ((h.mem a).2 ha)
      obtain ⟨k, hk⟩ := List.mem_iff_getElem?.1 ((h.mem b).2 hb)
      have hmono : ∀ (i i' x x' : Nat), g.items[i]? = some x → g.items[i']? = some x' → i < i' → x < x' := by
        intro i i' x x' h1 h2 h3
        obtain ⟨h4, h5⟩ := List.getElem?_eq_some_iff.1 h1
        obtain ⟨h6, h7⟩ := List.getElem?_eq_some_iff.1 h2
        have := List.pairwise_iff_getElem.1 h.sorted i i' h4 h6 h3
        omega
      have hjk : j < k := by
        rcases Nat.lt_trichotomy j k with h1 | h1 | h1
        · exact h1
        · subst h1; rw [hj] at hk; simp at hk; omega
        · have := hmono k j b a hk hj h1; omega
      refine a5.apart j k a b (Nat.zero_le _) hjk hj hk ?_
      intro m hm1 hm2
      have hkl := (List.getElem?_eq_some_iff.1 hk).1
      have e := List.getElem?_eq_getElem (l := g.items) (i := m) (by omega)
      rw [nsOf_eq hj, nsOf_eq e]
      have h1 := hmono j m a _ hj e hm1
      have h2 : g.items[m]'(by omega) ≤ b := by
        rcases Nat.lt_or_ge m k with h3 | h3
        · exact Nat.le_of_lt (hmono m k _ b e hk h3)
        · have : m = k := by omega
          subst this
          rw [hk] at e; simp at e; omega
      exact h.scope a _ ha ((h.mem _).1 (List.mem_iff_getElem?.2 ⟨m, e⟩)) h1
        (fun m' h3 h4 => hm m' h3 (by omega))

theorem commitGroup_mixture {items : List Item} {g : Group} (h : Struct items .mixture g)
    (hone : g.partials.length ≤ 1) {size : Nat → Nat} {sort : List Nat → List Nat} (hsort : ∀ xs, (sort xs).Perm xs)
    {offset : Nat} (hw : offset + weight size g.items < 65536) (f : Offsets) :
    ∃ f' new, commitGroup size sort .mixture g offset f = some (f', new) ∧ offset ≤ new ∧
      new ≤ offset + weight size g.items ∧ GroupPlaced items size .mixture offset new f f' := by
  unfold commitGroup
  by_cases hne : g.items = []
  · rw [if_pos hne]
    have hno : ∀ a, ¬ Has items .mixture a := by
      intro a ha
      have := (h.mem a).2 ha
      rw [hne] at this; cases this
    exact ⟨f, offset, rfl, Nat.le_refl _, by omega, fun _ _ => rfl, fun a ha => absurd ha (hno a),
      fun a _ ha => absurd ha (hno a)⟩
  · rw [if_neg hne]
    obtain ⟨p, rest, hp⟩ := h.first hne
    have hrest : rest = [] := by
      rw [hp] at hone
      simp only [List.length_cons] at hone
      exact List.eq_nil_of_length_eq_zero (by omega)
    subst hrest
    rw [hp]
    have hfuel : enough g = 3 * g.items.length + 4 + 1 + 1 := by simp only [enough, hp, List.length_singleton]; omega
    simp only [hfuel]
    rw [arrangeMixture, collect]
    simp only [minIndex, rangeEnd, Nat.not_lt_zero, false_or, gt_iff_lt, Nat.lt_irrefl, if_false,
      List.drop_zero, Nat.sub_zero, List.take_length, List.nil_append]
    have hperm := hsort g.items
    have hlt : ∀ first, Placed size (sort g.items) offset (setOffsets size offset first (sort g.items) f).1 f
        (setOffsets size offset first (sort g.items) f).2 ∧
        (setOffsets size offset first (sort g.items) f).1 ≤ offset + weight size (sort g.items) := fun first =>
      setOffsets_ok size offset first (sort g.items) f (hperm.nodup_iff.2 (sorted_nodup h.sorted))
        (by rw [weight_perm hperm]; exact hw)
    cases hsi : sort g.items with
    | nil =>
      rw [hsi] at hperm
      exact absurd hperm.symm.eq_nil hne
    | cons first more =>
      obtain ⟨h1, h2⟩ := hlt (size first)
      rw [weight_perm hperm] at h2
      have h1 := h1.perm hperm
      rw [hsi] at h1 h2
      refine ⟨_, _, rfl, h1.le, h2, ?_, ?_, ?_⟩
      · intro a ha; exact h1.frame a (by rw [h.mem]; exact ha)
      · intro a ha; exact h1.range a (by rw [h.mem]; exact ha)
      · intro a b ha hb hab _
        exact h1.apart a b ((h.mem a).2 ha) ((h.mem b).2 hb) (by omega)

end Verif.Layout
