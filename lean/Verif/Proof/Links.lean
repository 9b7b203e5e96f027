import Verif.Spec.Links
/-! # Proofs about trees of linked nodes -/

namespace Verif.Links

variable {α : Type}

/-! ## The trees of the user -/

/-- What holds of the trees after any calls. -/
structure Sound (F : Forest α) : Prop where
  nodup : ∀ p, (F.kids p).Nodup
  one : ∀ p q c, c ∈ F.kids p → c ∈ F.kids q → p = q
  bound : ∀ p c, c ∈ F.kids p → c < F.count ∧ p < F.count
  rootFree : ∀ r, r ∈ F.roots → F.Free r
  rootBound : ∀ r, r ∈ F.roots → r < F.count
  rank : ∃ r : Nat → Nat, ∀ p c, c ∈ F.kids p → r c < r p

theorem sound_empty (v : α) : Sound (Forest.empty v) :=
  ⟨fun _ => List.nodup_nil, fun _ _ _ h => (by cases h), fun _ _ h => (by cases h),
   fun _ h => (by cases h), fun _ h => (by cases h), ⟨fun _ => 0, fun _ _ h => (by cases h)⟩⟩

theorem make_kids {F : Forest α} (S : Sound F) (v : α) (p : Nat) : (F.make v).kids p = F.kids p := by
  show upd F.kids F.count [] p = _
  unfold upd
  split
  · rename_i e
    cases hk : F.kids p with
    | nil => rfl
    | cons c l => exact absurd (S.bound p c (by simp [hk])).2 (by omega)
  · rfl

theorem sound_make {F : Forest α} (S : Sound F) (v : α) : Sound (F.make v) := by
  refine ⟨?_, ?_, ?_, ?_, ?_, ?_⟩
  · intro p; rw [make_kids S]; exact S.nodup p
  · intro p q c; rw [make_kids S, make_kids S]; exact S.one p q c
  · intro p c h; rw [make_kids S] at h
    have := S.bound p c h
    show c < F.count + 1 ∧ p < F.count + 1
    omega
  · intro r hr p; rw [make_kids S]; exact S.rootFree r hr p
  · intro r hr; have := S.rootBound r hr; show r < F.count + 1; omega
  · obtain ⟨r, hr⟩ := S.rank
    exact ⟨r, fun p c h => hr p c (by rwa [make_kids S] at h)⟩

theorem new_free {F : Forest α} (S : Sound F) (v : α) : (F.make v).Free F.count := by
  intro p h
  rw [make_kids S] at h
  exact absurd (S.bound _ _ h).1 (by omega)

theorem under_new {F : Forest α} (S : Sound F) (v : α) {x : Nat} (h : Under (F.make v) F.count x) :
    x = F.count := by
  induction h with
  | self => rfl
  | kid hu hc ih =>
    subst ih
    rw [make_kids S] at hc
    exact absurd (S.bound _ _ hc).2 (by omega)

theorem under_trans {F : Forest α} {a b c : Nat} (h : Under F a b) (g : Under F b c) : Under F a c := by
  induction g with
  | self => exact h
  | kid _ hc ih => exact .kid ih hc

theorem sound_put {F : Forest α} (S : Sound F) {n p : Nat} {l : List Nat} (hn : n < F.count)
    (hp : p < F.count) (hf : F.Free n) (hu : ¬ Under F n p) (hl : l.Nodup)
    (hm : ∀ x, x ∈ l ↔ x = n ∨ x ∈ F.kids p) :
    Sound { F.setKids p l with roots := F.roots.filter (· ≠ n) } := by
  have hk : ∀ q, ({ F.setKids p l with roots := F.roots.filter (· ≠ n) } : Forest α).kids q =
      if q = p then l else F.kids q := fun q => rfl
  have hmem : ∀ q c, c ∈ (if q = p then l else F.kids q) → (q = p ∧ c = n) ∨ c ∈ F.kids q := by
    intro q c h
    by_cases e : q = p
    · subst e
      rw [if_pos rfl] at h
      rcases (hm c).1 h with h | h
      · exact .inl ⟨rfl, h⟩
      · exact .inr h
    · rw [if_neg e] at h; exact .inr h
  refine ⟨?_, ?_, ?_, ?_, ?_, ?_⟩
  · intro q; rw [hk]; split
    · exact hl
    · exact S.nodup q
  · intro q r c h1 h2
    rw [hk] at h1 h2
    rcases hmem _ _ h1 with ⟨a, b⟩ | a <;> rcases hmem _ _ h2 with ⟨c', d⟩ | c'
    · rw [a, c']
    · exact absurd (b ▸ c') (hf r)
    · exact absurd (d ▸ a) (hf q)
    · exact S.one _ _ _ a c'
  · intro q c h
    rw [hk] at h
    rcases hmem _ _ h with ⟨a, b⟩ | a
    · subst a; subst b; exact ⟨hn, hp⟩
    · exact S.bound _ _ a
  · intro r hr q h
    rw [hk] at h
    have hr' : r ∈ F.roots ∧ r ≠ n := by simpa using hr
    rcases hmem _ _ h with ⟨_, b⟩ | a
    · exact hr'.2 b
    · exact S.rootFree r hr'.1 q a
  · intro r hr
    have hr' : r ∈ F.roots ∧ r ≠ n := by simpa using hr
    exact S.rootBound r hr'.1
  · obtain ⟨r, hr⟩ := S.rank
    classical
    refine ⟨fun x => if Under F n x then r x else r x + r n + 1, ?_⟩
    intro q c h
    rw [hk] at h
    dsimp only
    rcases hmem _ _ h with ⟨a, b⟩ | a
    · subst a; subst b
      rw [if_pos (Under.self), if_neg hu]; omega
    · have hlt := hr _ _ a
      by_cases hq : Under F n q
      · rw [if_pos (Under.kid hq a), if_pos hq]; exact hlt
      · rw [if_neg hq]
        split <;> omega

theorem sound_less {F : Forest α} (S : Sound F) {p : Nat} {l : List Nat} (hl : l.Sublist (F.kids p)) :
    Sound (F.setKids p l) := by
  have hk : ∀ q, (F.setKids p l).kids q = if q = p then l else F.kids q := fun q => rfl
  have hmem : ∀ q c, c ∈ (if q = p then l else F.kids q) → c ∈ F.kids q := by
    intro q c h
    by_cases e : q = p
    · subst e; rw [if_pos rfl] at h; exact hl.subset h
    · rwa [if_neg e] at h
  refine ⟨?_, ?_, ?_, ?_, ?_, ?_⟩
  · intro q; rw [hk]; split
    · exact hl.nodup (S.nodup p)
    · exact S.nodup q
  · intro q r c h1 h2
    rw [hk] at h1 h2
    exact S.one _ _ _ (hmem _ _ h1) (hmem _ _ h2)
  · intro q c h; rw [hk] at h; exact S.bound _ _ (hmem _ _ h)
  · intro r hr q h; rw [hk] at h; exact S.rootFree r hr q (hmem _ _ h)
  · exact S.rootBound
  · obtain ⟨r, hr⟩ := S.rank
    exact ⟨r, fun q c h => hr _ _ (hmem _ _ (by rwa [hk] at h))⟩

theorem mem_insertAfter {m n : Nat} {l : List Nat} (hm : m ∈ l) (x : Nat) :
    x ∈ insertAfter m n l ↔ x = n ∨ x ∈ l := by
  induction l with
  | nil => cases hm
  | cons y ys ih =>
    unfold insertAfter
    by_cases e : y = m
    · rw [if_pos e]; simp only [List.mem_cons]
      constructor
      · rintro (h | h | h)
        · exact .inr (.inl h)
        · exact .inl h
        · exact .inr (.inr h)
      · rintro (h | h | h)
        · exact .inr (.inl h)
        · exact .inl h
        · exact .inr (.inr h)
    · rw [if_neg e]
      have hm' : m ∈ ys := by
        rcases List.mem_cons.1 hm with h | h
        · exact absurd h.symm e
        · exact h
      simp only [List.mem_cons, ih hm']
      constructor
      · rintro (h | h | h)
        · exact .inr (.inl h)
        · exact .inl h
        · exact .inr (.inr h)
      · rintro (h | h | h)
        · exact .inr (.inl h)
        · exact .inl h
        · exact .inr (.inr h)

theorem nodup_insertAfter {m n : Nat} {l : List Nat} (hm : m ∈ l) (hl : l.Nodup) (hn : n ∉ l) :
    (insertAfter m n l).Nodup := by
  induction l with
  | nil => cases hm
  | cons y ys ih =>
    have hy := List.nodup_cons.1 hl
    have hn' : n ≠ y ∧ n ∉ ys := by simpa using hn
    unfold insertAfter
    by_cases e : y = m
    · rw [if_pos e]
      refine List.nodup_cons.2 ⟨?_, List.nodup_cons.2 ⟨hn'.2, hy.2⟩⟩
      intro h
      rcases List.mem_cons.1 h with h | h
      · exact hn'.1 h.symm
      · exact hy.1 h
    · rw [if_neg e]
      have hm' : m ∈ ys := by
        rcases List.mem_cons.1 hm with h | h
        · exact absurd h.symm e
        · exact h
      refine List.nodup_cons.2 ⟨?_, ih hm' hy.2 hn'.2⟩
      rw [mem_insertAfter hm']
      rintro (h | h)
      · exact hn'.1 h.symm
      · exact hy.1 h

/-! ## Chains -/

theorem Chain.frame {h h' : Heap α} {o : Option Nat} {l : List Nat} (c : Chain h o l)
    (e : ∀ x, x ∈ l → (h'.cell x).next = (h.cell x).next) : Chain h' o l := by
  induction c with
  | nil => exact .nil
  | @cons n l c ih =>
    refine .cons ?_
    rw [e n (by simp)]
    exact ih fun x hx => e x (by simp [hx])

theorem Chain.after {h h' : Heap α} {o : Option Nat} {l : List Nat} {m n : Nat} (c : Chain h o l)
    (hm : m ∈ l) (hl : l.Nodup) (_hn : n ∉ l)
    (e : ∀ x, x ∈ l → x ≠ m → (h'.cell x).next = (h.cell x).next)
    (em : (h'.cell m).next = some n) (en : (h'.cell n).next = (h.cell m).next) :
    Chain h' o (insertAfter m n l) := by
  induction c with
  | nil => cases hm
  | @cons y ys c ih =>
    have hy := List.nodup_cons.1 hl
    have hn' : n ≠ y ∧ n ∉ ys := by simpa using _hn
    unfold insertAfter
    by_cases ey : y = m
    · rw [if_pos ey]
      subst ey
      refine .cons ?_
      rw [em]
      refine .cons ?_
      rw [en]
      exact c.frame fun x hx => e x (by simp [hx]) (fun h => hy.1 (h ▸ hx))
    · rw [if_neg ey]
      have hm' : m ∈ ys := by
        rcases List.mem_cons.1 hm with h | h
        · exact absurd h.symm ey
        · exact h
      refine .cons ?_
      rw [e y (by simp) ey]
      exact ih hm' hy.2 hn'.2 (fun x hx hne => e x (by simp [hx]) hne)

/-- Two memories that differ at most in where the nodes of `l` lead on to. -/
structure Near (h h' : Heap α) (l : List Nat) : Prop where
  top : h'.top = h.top
  value : ∀ x, (h'.cell x).value = (h.cell x).value
  first : ∀ x, (h'.cell x).first = (h.cell x).first
  parent : ∀ x, (h'.cell x).parent = (h.cell x).parent
  next : ∀ x, x ∉ l → (h'.cell x).next = (h.cell x).next

theorem Near.rfl {h : Heap α} {l : List Nat} : Near h h l :=
  ⟨Eq.refl _, fun _ => Eq.refl _, fun _ => Eq.refl _, fun _ => Eq.refl _, fun _ _ => Eq.refl _⟩

theorem set_cell (h : Heap α) (n x : Nat) (f : Node α → Node α) :
    (h.set n f).cell x = if x = n then f (h.cell n) else h.cell x := rfl

theorem filter_ne_id {n : Nat} {l : List Nat} (h : n ∉ l) : l.filter (· ≠ n) = l := by
  rw [List.filter_eq_self]
  intro a ha
  simp only [decide_eq_true_eq, ne_eq]
  intro e; exact h (e ▸ ha)

theorem filter_cons_self {n : Nat} {l : List Nat} (h : n ∉ l) : (n :: l).filter (· ≠ n) = l := by
  rw [List.filter_cons]
  simpa using filter_ne_id h

theorem filter_cons_ne {n y : Nat} {l : List Nat} (h : y ≠ n) :
    (y :: l).filter (· ≠ n) = y :: l.filter (· ≠ n) := by
  rw [List.filter_cons]
  simp [h]

theorem unlink_chain {h : Heap α} {n : Nat} : ∀ (l : List Nat) (child : Nat),
    Chain h (h.cell child).next l → n ≠ child → (child :: l).Nodup →
    ∃ h', Near h h' (child :: l) ∧ Chain h' (h'.cell child).next (l.filter (· ≠ n)) ∧
      ∀ fuel, l.length < fuel → unlinkFrom h n fuel child = some (h', decide (n ∈ l)) := by
  intro l
  induction l with
  | nil =>
    intro child c hne _
    refine ⟨h, .rfl, ?_, ?_⟩
    · simpa using c
    · intro fuel hf
      cases fuel with
      | zero => cases hf
      | succ k =>
        cases hc : (h.cell child).next with
        | none => unfold unlinkFrom; rw [hc]; simp
        | some s => rw [hc] at c; cases c
  | cons y ys ih =>
    intro child c hne hd
    have hd1 := List.nodup_cons.1 hd
    have hd2 := List.nodup_cons.1 hd1.2
    have hcy : child ≠ y := fun e => hd1.1 (by simp [e])
    cases hc : (h.cell child).next with
    | none => rw [hc] at c; cases c
    | some s =>
      rw [hc] at c
      cases c with
      | cons c' =>
        by_cases ey : y = n
        · subst ey
          refine ⟨h.set child fun c => { c with next := (h.cell y).next }, ?_, ?_, ?_⟩
          · refine ⟨rfl, ?_, ?_, ?_, ?_⟩
            · intro x; rw [set_cell]; split
              · rename_i e; rw [e]
              · rfl
            · intro x; rw [set_cell]; split
              · rename_i e; rw [e]
              · rfl
            · intro x; rw [set_cell]; split
              · rename_i e; rw [e]
              · rfl
            · intro x hx; rw [set_cell, if_neg (fun e => hx (by simp [e]))]
          · rw [filter_cons_self hd2.1, set_cell, if_pos rfl]
            exact c'.frame fun x hx => by
              rw [set_cell, if_neg (fun e => hd1.1 (by simp [← e, hx]))]
          · intro fuel hf
            cases fuel with
            | zero => cases hf
            | succ k => unfold unlinkFrom; rw [hc]; dsimp only; rw [if_pos rfl]; simp
        · obtain ⟨h', near, ch, hu⟩ := ih y c' (fun e => ey e.symm) hd1.2
          refine ⟨h', ?_, ?_, ?_⟩
          · exact ⟨near.top, near.value, near.first, near.parent,
              fun x hx => near.next x (fun hm => hx (List.mem_cons_of_mem _ hm))⟩
          · rw [near.next child (fun hm => hd1.1 hm), hc, filter_cons_ne ey]
            exact .cons ch
          · intro fuel hf
            cases fuel with
            | zero => cases hf
            | succ k =>
              unfold unlinkFrom; rw [hc]; dsimp only; rw [if_neg ey]
              rw [hu k (by simpa using hf)]
              have : (n ∈ y :: ys) ↔ n ∈ ys := by
                simp only [List.mem_cons]
                exact ⟨fun o => o.elim (fun e => absurd e.symm ey) id, .inr⟩
              simp [this]

theorem find_chain {h : Heap α} (pred : Nat → Bool) {o : Option Nat} {l : List Nat} (c : Chain h o l) :
    ∀ fuel, l.length < fuel → findFrom h pred fuel o = some (l.find? pred) := by
  induction c with
  | nil =>
    intro fuel hf
    cases fuel with
    | zero => cases hf
    | succ k => rfl
  | @cons n l c ih =>
    intro fuel hf
    cases fuel with
    | zero => cases hf
    | succ k =>
      unfold findFrom
      cases hp : pred n with
      | true => simp [hp]
      | false => simp [hp, ih k (by simpa using hf)]

/-! ## Memory that holds trees -/

theorem kids_none {F : Forest α} (S : Sound F) {p : Nat} (hp : ¬ p < F.count) : F.kids p = [] := by
  cases hk : F.kids p with
  | nil => rfl
  | cons c l => exact absurd (S.bound p c (by simp [hk])).2 hp

theorem holds_make {h : Heap α} {F : Forest α} (H : Holds h F) (S : Sound F) (v : α) :
    Holds (h.alloc v).1 (F.make v) := by
  have hc : ∀ x, (h.alloc v).1.cell x = if x = F.count then ⟨v, none, none, none⟩ else h.cell x := by
    intro x; show (if x = h.top then _ else _) = _; rw [H.count]
  refine ⟨?_, ?_, ?_, ?_, ?_⟩
  · show h.top + 1 = F.count + 1; rw [H.count]
  · intro n hn
    rw [hc]
    show _ = upd F.value F.count v n
    unfold upd
    by_cases e : n = F.count
    · rw [if_pos e, if_pos e]
    · rw [if_neg e, if_neg e]
      have : n < F.count + 1 := hn
      exact H.value n (by omega)
  · intro p hp
    rw [make_kids S, hc]
    by_cases e : p = F.count
    · rw [if_pos e, kids_none S (by omega)]; exact .nil
    · rw [if_neg e]
      have : p < F.count + 1 := hp
      refine (H.kids p (by omega)).frame fun x hx => ?_
      rw [hc, if_neg]
      have := (S.bound _ _ hx).1
      omega
  · intro p c hk
    rw [make_kids S] at hk
    have := (S.bound _ _ hk).1
    rw [hc, if_neg (by omega)]
    exact H.parent p c hk
  · intro r hr
    have := S.rootBound r hr
    rw [hc, if_neg (by omega)]
    exact H.root r hr

theorem appendChild_cell (h : Heap α) {p n : Nat} (hne : p ≠ n) (x : Nat) :
    (appendChild h p n).cell x =
      if x = p then { h.cell p with first := some n }
      else if x = n then { h.cell n with parent := some p, next := (h.cell p).first } else h.cell x := by
  unfold appendChild
  dsimp only
  rw [set_cell]
  split
  · rw [set_cell, if_neg hne, set_cell, if_neg hne]
  · rw [set_cell]
    split
    · rw [set_cell, if_pos rfl, set_cell, if_neg hne]
    · rw [set_cell]; split
      · contradiction
      · rfl

theorem appendSibling_cell (h : Heap α) {p n : Nat} (hne : p ≠ n) (x : Nat) :
    (appendSibling h p n).cell x =
      if x = p then { h.cell p with next := some n }
      else if x = n then { h.cell n with parent := (h.cell p).parent, next := (h.cell p).next }
      else h.cell x := by
  unfold appendSibling
  dsimp only
  rw [set_cell]
  split
  · rw [set_cell, if_neg hne, set_cell, if_neg hne]
  · rw [set_cell]
    split
    · rw [set_cell, if_pos rfl, set_cell, if_neg hne]
    · rw [set_cell]; split
      · contradiction
      · rfl

theorem kids_put (F : Forest α) (p : Nat) (l rs : List Nat) (q : Nat) :
    ({ F.setKids p l with roots := rs } : Forest α).kids q = if q = p then l else F.kids q := rfl

theorem holds_child {h : Heap α} {F : Forest α} (H : Holds h F) {n p : Nat} (_hn : n < F.count)
    (hp : p < F.count) (hf : F.Free n) (hu : ¬ Under F n p) :
    Holds (appendChild h p n) { F.setKids p (n :: F.kids p) with roots := F.roots.filter (· ≠ n) } := by
  have hne : p ≠ n := fun e => hu (e ▸ .self)
  have hc := appendChild_cell h hne
  have hnext : ∀ x, x ≠ n → ((appendChild h p n).cell x).next = (h.cell x).next := by
    intro x hx; rw [hc]; split
    · rename_i e; rw [e]
    · first | rfl | rw [if_neg hx]
  refine ⟨H.count, ?_, ?_, ?_, ?_⟩
  · intro x hx
    refine Eq.trans ?_ (H.value x hx)
    rw [hc]; split
    · rename_i e; rw [e]
    · split
      · rename_i e; rw [e]
      · rfl
  · intro q hq
    rw [kids_put]
    have fr : ∀ r, r < F.count → Chain (appendChild h p n) (h.cell r).first (F.kids r) := fun r hr =>
      (H.kids r hr).frame fun x hx => hnext x (fun e => hf r (e ▸ hx))
    by_cases e : q = p
    · subst e
      rw [if_pos rfl, hc, if_pos rfl]
      refine .cons ?_
      rw [hc, if_neg (fun e => hne e.symm), if_pos rfl]
      exact fr q hq
    · rw [if_neg e]
      have : ((appendChild h p n).cell q).first = (h.cell q).first := by
        rw [hc, if_neg e]; split
        · rename_i e; rw [e]
        · rfl
      rw [this]
      exact fr q hq
  · intro q c hk
    rw [kids_put] at hk
    by_cases ec : c = n
    · subst ec
      rw [hc, if_neg (fun e => hne e.symm), if_pos rfl]
      by_cases e : q = p
      · rw [e]
      · rw [if_neg e] at hk; exact absurd hk (hf q)
    · have hk' : c ∈ F.kids q := by
        by_cases e : q = p
        · subst e
          rw [if_pos rfl] at hk
          rcases List.mem_cons.1 hk with h | h
          · exact absurd h ec
          · exact h
        · rwa [if_neg e] at hk
      rw [← H.parent q c hk', hc]; split
      · rename_i e; rw [e]
      · first | rfl | rw [if_neg ec]
  · intro r hr
    have hr' : r ∈ F.roots ∧ r ≠ n := by simpa using hr
    rw [← H.root r hr'.1, hc]; split
    · rename_i e; rw [e]
    · first | rfl | rw [if_neg hr'.2]

theorem holds_sibling {h : Heap α} {F : Forest α} (H : Holds h F) (S : Sound F) {m n p : Nat}
    (hm : m ∈ F.kids p) (hf : F.Free n) :
    Holds (appendSibling h m n)
      { F.setKids p (insertAfter m n (F.kids p)) with roots := F.roots.filter (· ≠ n) } := by
  have hne : m ≠ n := fun e => hf p (e ▸ hm)
  have hc := appendSibling_cell h hne
  refine ⟨H.count, ?_, ?_, ?_, ?_⟩
  · intro x hx
    refine Eq.trans ?_ (H.value x hx)
    rw [hc]; split
    · rename_i e; rw [e]
    · split
      · rename_i e; rw [e]
      · rfl
  · intro q hq
    rw [kids_put]
    have hfirst : ((appendSibling h m n).cell q).first = (h.cell q).first := by
      rw [hc]; split
      · rename_i e; rw [e]
      · split
        · rename_i e; rw [e]
        · rfl
    rw [hfirst]
    by_cases e : q = p
    · subst e
      rw [if_pos rfl]
      refine (H.kids q hq).after hm (S.nodup q) (hf q) ?_ ?_ ?_
      · intro x hx hxm
        have hxn : x ≠ n := fun e => hf q (e ▸ hx)
        rw [hc, if_neg hxm, if_neg hxn]
      · rw [hc, if_pos rfl]
      · rw [hc, if_neg (fun e => hne e.symm), if_pos rfl]
    · rw [if_neg e]
      refine (H.kids q hq).frame fun x hx => ?_
      have hxm : x ≠ m := fun em => e (S.one _ _ _ (em ▸ hx) hm)
      have hxn : x ≠ n := fun e => hf q (e ▸ hx)
      rw [hc, if_neg hxm, if_neg hxn]
  · intro q c hk
    rw [kids_put] at hk
    by_cases ec : c = n
    · subst ec
      rw [hc, if_neg (fun e => hne e.symm), if_pos rfl]
      by_cases e : q = p
      · rw [e]; exact H.parent p m hm
      · rw [if_neg e] at hk; exact absurd hk (hf q)
    · have hk' : c ∈ F.kids q := by
        by_cases e : q = p
        · subst e
          rw [if_pos rfl, mem_insertAfter hm] at hk
          exact hk.elim (fun h => absurd h ec) id
        · rwa [if_neg e] at hk
      rw [← H.parent q c hk', hc]; split
      · rename_i e; rw [e]
      · first | rfl | rw [if_neg ec]
  · intro r hr
    have hr' : r ∈ F.roots ∧ r ≠ n := by simpa using hr
    rw [← H.root r hr'.1, hc]; split
    · rename_i e; rw [e]
    · first | rfl | rw [if_neg hr'.2]

theorem holds_remove {h : Heap α} {F : Forest α} (H : Holds h F) (S : Sound F) {p : Nat} (n : Nat)
    (hp : p < F.count) : ∃ h', Holds h' (F.setKids p ((F.kids p).filter (· ≠ n))) ∧
      ∀ fuel, (F.kids p).length < fuel → removeChild h fuel p n = some (h', decide (n ∈ F.kids p)) := by
  have ch := H.kids p hp
  have hk : ∀ (l : List Nat) (q : Nat), (F.setKids p l).kids q = if q = p then l else F.kids q := fun _ _ => rfl
  cases hkp : F.kids p with
  | nil =>
    rw [hkp] at ch
    cases hfi : (h.cell p).first with
    | some f => rw [hfi] at ch; cases ch
    | none =>
      refine ⟨h, ?_, ?_⟩
      · have : F.setKids p (([] : List Nat).filter (· ≠ n)) = F := by
          show { F with kids := upd F.kids p [] } = F
          have : upd F.kids p [] = F.kids := by
            funext q; unfold upd; split
            · rename_i e; rw [e, hkp]
            · rfl
          rw [this]
        rw [this]; exact H
      · intro fuel _
        unfold removeChild; rw [hfi]; simp
  | cons f l =>
    rw [hkp] at ch
    cases hfi : (h.cell p).first with
    | none => rw [hfi] at ch; cases ch
    | some f' =>
      rw [hfi] at ch
      have hd := S.nodup p
      rw [hkp] at hd
      cases ch with
      | cons ch =>
        have hd1 := List.nodup_cons.1 hd
        by_cases e : n = f
        · subst e
          refine ⟨h.set p fun c => { c with first := (h.cell n).next }, ?_, ?_⟩
          · rw [filter_cons_self hd1.1]
            have hc := set_cell h p
            refine ⟨H.count, ?_, ?_, ?_, ?_⟩
            · intro x hx
              refine Eq.trans ?_ (H.value x hx)
              rw [set_cell]; split
              · rename_i e; rw [e]
              · rfl
            · intro q hq
              rw [hk]
              have fr : ∀ {o : Option Nat} {l : List Nat}, Chain h o l → Chain (h.set p fun c => { c with first := (h.cell n).next }) o l := fun c =>
                c.frame fun x _ => by
                  rw [set_cell]; split
                  · rename_i e; rw [e]
                  · rfl
              by_cases eq : q = p
              · rw [if_pos eq, set_cell, if_pos eq]; exact fr ch
              · rw [if_neg eq, set_cell, if_neg eq]; exact fr (H.kids q hq)
            · intro q c hc
              rw [hk] at hc
              have hc' : c ∈ F.kids q := by
                by_cases eq : q = p
                · rw [if_pos eq] at hc; rw [eq, hkp]; exact List.mem_cons_of_mem _ hc
                · rwa [if_neg eq] at hc
              rw [← H.parent q c hc', set_cell]; split
              · rename_i e; rw [e]
              · rfl
            · intro r hr
              rw [← H.root r hr, set_cell]; split
              · rename_i e; rw [e]
              · rfl
          · intro fuel _
            unfold removeChild; rw [hfi]; dsimp only; rw [if_pos rfl]; simp
        · obtain ⟨h', near, ch', hu⟩ := unlink_chain (n := n) l f ch e hd
          refine ⟨h', ?_, ?_⟩
          · rw [filter_cons_ne (fun x => e x.symm)]
            refine ⟨near.top.trans H.count, ?_, ?_, ?_, ?_⟩
            · intro x hx; rw [near.value]; exact H.value x hx
            · intro q hq
              rw [hk, near.first]
              by_cases eq : q = p
              · rw [if_pos eq, eq, hfi]; exact .cons ch'
              · rw [if_neg eq]
                refine (H.kids q hq).frame fun x hx => near.next x ?_
                intro hm
                exact eq (S.one q p x hx (by rw [hkp]; exact hm))
            · intro q c hc
              rw [hk] at hc
              have hc' : c ∈ F.kids q := by
                by_cases eq : q = p
                · rw [if_pos eq] at hc; rw [eq, hkp]
                  rcases List.mem_cons.1 hc with h | h
                  · simp [h]
                  · exact List.mem_cons_of_mem _ (List.mem_filter.1 h).1
                · rwa [if_neg eq] at hc
              rw [near.parent]; exact H.parent q c hc'
            · intro r hr; rw [near.parent]; exact H.root r hr
          · intro fuel hf
            unfold removeChild; rw [hfi]; dsimp only; rw [if_neg e]
            rw [hu fuel (by simp at hf; omega)]
            have : (n ∈ f :: l) ↔ n ∈ l := by
              simp only [List.mem_cons]
              exact ⟨fun o => o.elim (fun x => absurd x e) id, .inr⟩
            simp [this]

theorem findChild_eq [DecidableEq α] {h : Heap α} {F : Forest α} (H : Holds h F) (S : Sound F) {p : Nat}
    (v : α) (hp : p < F.count) (fuel : Nat) (hf : (F.kids p).length < fuel) :
    findChild h fuel p v = some ((F.kids p).find? fun c => F.value c = v) := by
  unfold findChild
  rw [find_chain _ (H.kids p hp) fuel hf]
  congr 1
  have : ∀ l : List Nat, (∀ c ∈ l, c < F.count) →
      l.find? (fun n => decide ((h.cell n).value = v)) = l.find? (fun c => decide (F.value c = v)) := by
    intro l
    induction l with
    | nil => intro _; rfl
    | cons y ys ih =>
      intro hl
      rw [List.find?_cons, List.find?_cons, H.value y (hl y (by simp)), ih fun c hc => hl c (by simp [hc])]
  exact this _ fun c hc => (S.bound p c hc).1

/-! ## Calls -/

theorem roots_filter {F : Forest α} (S : Sound F) : F.roots.filter (· ≠ F.count) = F.roots := by
  refine filter_ne_id fun h => ?_
  have := S.rootBound _ h
  omega

theorem setKids_roots {F : Forest α} (S : Sound F) (v : α) (p : Nat) (l : List Nat) :
    ({ (F.make v).setKids p l with roots := (F.make v).roots.filter (· ≠ F.count) } : Forest α) =
      (F.make v).setKids p l := by
  have : (F.make v).roots.filter (· ≠ F.count) = (F.make v).roots := roots_filter S
  rw [this]; rfl

theorem new_child {h : Heap α} {F : Forest α} (H : Holds h F) (S : Sound F) {p : Nat} (v : α)
    (hp : p < F.count) :
    Holds (appendNew h p v).1 ((F.make v).setKids p (F.count :: F.kids p)) ∧
      Sound ((F.make v).setKids p (F.count :: F.kids p)) ∧ (appendNew h p v).2 = F.count := by
  have S1 := sound_make S v
  have hu : ¬ Under (F.make v) F.count p := fun hu => by have := under_new S v hu; omega
  have hn : F.count < (F.make v).count := Nat.lt_succ_self _
  have hp' : p < (F.make v).count := Nat.lt_succ_of_lt hp
  have hk := make_kids S v p
  refine ⟨?_, ?_, H.count⟩
  · have := holds_child (holds_make H S v) hn hp' (new_free S v) hu
    rw [setKids_roots S, hk] at this
    show Holds (appendChild (h.alloc v).1 p h.top) _
    rw [H.count]
    exact this
  · have := sound_put S1 (l := F.count :: F.kids p) hn hp' (new_free S v) hu
      (List.nodup_cons.2 ⟨fun hm => by have := (S.bound _ _ hm).1; omega, S.nodup p⟩)
      (fun x => by rw [hk]; exact List.mem_cons)
    rwa [setKids_roots S] at this

theorem new_sibling {h : Heap α} {F : Forest α} (H : Holds h F) (S : Sound F) {m p : Nat} (v : α)
    (hm : m ∈ F.kids p) :
    Holds (siblingNew h m v).1 ((F.make v).setKids p (insertAfter m F.count (F.kids p))) ∧
      Sound ((F.make v).setKids p (insertAfter m F.count (F.kids p))) ∧
      (siblingNew h m v).2 = F.count := by
  have S1 := sound_make S v
  have hp := (S.bound _ _ hm).2
  have hu : ¬ Under (F.make v) F.count p := fun hu => by have := under_new S v hu; omega
  have hn : F.count < (F.make v).count := Nat.lt_succ_self _
  have hp' : p < (F.make v).count := Nat.lt_succ_of_lt hp
  have hk := make_kids S v p
  refine ⟨?_, ?_, H.count⟩
  · have := holds_sibling (n := F.count) (holds_make H S v) S1 (m := m) (p := p) (by rw [hk]; exact hm) (new_free S v)
    rw [setKids_roots S, hk] at this
    show Holds (appendSibling (h.alloc v).1 m h.top) _
    rw [H.count]
    exact this
  · have := sound_put S1 (l := insertAfter m F.count (F.kids p)) hn hp' (new_free S v) hu
      (nodup_insertAfter hm (S.nodup p) (fun hm => by have := (S.bound _ _ hm).1; omega))
      (fun x => by rw [hk]; exact mem_insertAfter hm x)
    rwa [setKids_roots S] at this

theorem find_none_of {F : Forest α} [DecidableEq α] {v : α} {l : List Nat} (h : ∀ c ∈ l, F.value c ≠ v) :
    (l.find? fun c => decide (F.value c = v)) = none := by
  rw [List.find?_eq_none]
  intro x hx
  simpa using h x hx

theorem step_holds [DecidableEq α] {h : Heap α} {F G : Forest α} {op : Op α} {r : Res} (H : Holds h F)
    (S : Sound F) (st : Step F op G r) :
    Sound G ∧ ∃ h', Holds h' G ∧ ∃ N, ∀ fuel, N ≤ fuel → step fuel h op = some (h', r) := by
  cases st with
  | root v =>
    have S1 := sound_make S v
    have H1 := holds_make H S v
    refine ⟨⟨S1.nodup, S1.one, S1.bound, ?_, ?_, S1.rank⟩, (h.alloc v).1, ⟨H1.count, H1.value, H1.kids, H1.parent, ?_⟩, 0, ?_⟩
    · intro r hr
      rcases List.mem_cons.1 hr with e | hr
      · subst e; exact new_free S v
      · exact S1.rootFree r hr
    · intro r hr
      rcases List.mem_cons.1 hr with e | hr
      · subst e; exact Nat.lt_succ_self _
      · exact S1.rootBound r hr
    · intro r hr
      rcases List.mem_cons.1 hr with e | hr
      · subst e
        show (if F.count = h.top then _ else _ : Node α).parent = none
        rw [if_pos H.count.symm]
      · exact H1.root r hr
    · intro fuel _
      show some ((h.alloc v).1, Res.node h.top) = _
      rw [H.count]
  | @child p v hp =>
    obtain ⟨h1, h2, h3⟩ := new_child H S v hp
    refine ⟨h2, _, h1, 0, fun fuel _ => ?_⟩
    show some ((appendNew h p v).1, Res.node (appendNew h p v).2) = _
    rw [h3]
  | @sibling m p v hm =>
    obtain ⟨h1, h2, h3⟩ := new_sibling H S v hm
    refine ⟨h2, _, h1, 0, fun fuel _ => ?_⟩
    show some ((siblingNew h m v).1, Res.node (siblingNew h m v).2) = _
    rw [h3]
  | @attach p n hp hn hf hu =>
    exact ⟨sound_put S hn hp hf hu (List.nodup_cons.2 ⟨hf p, S.nodup p⟩) (fun x => List.mem_cons),
      _, holds_child H hn hp hf hu, 0, fun _ _ => rfl⟩
  | @attachSibling m n p hm hn hf hu =>
    exact ⟨sound_put S hn (S.bound _ _ hm).2 hf hu (nodup_insertAfter hm (S.nodup p) (hf p))
      (fun x => mem_insertAfter hm x), _, holds_sibling H S hm hf, 0, fun _ _ => rfl⟩
  | @found p n v hp hfi =>
    refine ⟨S, h, H, (F.kids p).length + 1, fun fuel hf => ?_⟩
    show (findOrAppend h fuel p v).map _ = _
    unfold findOrAppend
    rw [findChild_eq H S v hp fuel hf, hfi]; rfl
  | @added p v hp ha =>
    obtain ⟨h1, h2, h3⟩ := new_child H S v hp
    refine ⟨h2, _, h1, (F.kids p).length + 1, fun fuel hf => ?_⟩
    show (findOrAppend h fuel p v).map _ = _
    unfold findOrAppend
    rw [findChild_eq H S v hp fuel hf, find_none_of ha]
    show some ((appendNew h p v).1, Res.node (appendNew h p v).2) = _
    rw [h3]
  | @remove p n hp =>
    obtain ⟨h', H', hr⟩ := holds_remove H S n hp
    refine ⟨sound_less S List.filter_sublist, h', H', (F.kids p).length + 1, fun fuel hf => ?_⟩
    show (removeChild h fuel p n).map _ = _
    rw [hr fuel hf]; rfl
  | @removeValue p n v hp hfi =>
    obtain ⟨h', H', hr⟩ := holds_remove H S n hp
    refine ⟨sound_less S List.filter_sublist, h', H', (F.kids p).length + 1, fun fuel hf => ?_⟩
    show (Links.removeValue h fuel p v).map _ = _
    unfold Links.removeValue
    rw [findChild_eq H S v hp fuel hf, hfi]
    dsimp only
    rw [hr fuel hf]; rfl
  | @removeNone p v hp ha =>
    refine ⟨S, h, H, (F.kids p).length + 1, fun fuel hf => ?_⟩
    show (Links.removeValue h fuel p v).map _ = _
    unfold Links.removeValue
    rw [findChild_eq H S v hp fuel hf, find_none_of ha]; rfl
  | @removeSelf p n hk =>
    have hp := (S.bound _ _ hk).2
    obtain ⟨h', H', hr⟩ := holds_remove H S n hp
    refine ⟨sound_less S List.filter_sublist, h', H', (F.kids p).length + 1, fun fuel hf => ?_⟩
    unfold step
    dsimp only
    unfold Links.removeSelf
    rw [H.parent p n hk]
    dsimp only
    rw [hr fuel hf]
  | @removeRoot n hn =>
    refine ⟨S, h, H, 0, fun fuel _ => ?_⟩
    unfold step
    dsimp only
    unfold Links.removeSelf
    rw [H.root n hn]

theorem steps_hold [DecidableEq α] {F G : Forest α} {ops : List (Op α)} {rs : List Res}
    (st : Steps F ops G rs) : ∀ {h : Heap α}, Holds h F → Sound F →
    Sound G ∧ ∃ h', Holds h' G ∧ ∃ N, ∀ fuel, N ≤ fuel → run fuel h ops = some (h', rs) := by
  induction st with
  | nil F => intro h H S; exact ⟨S, h, H, 0, fun _ _ => rfl⟩
  | cons s1 _ ih =>
    intro h H S
    obtain ⟨S1, h1, H1, N1, r1⟩ := step_holds H S s1
    obtain ⟨S2, h2, H2, N2, r2⟩ := ih H1 S1
    refine ⟨S2, h2, H2, max N1 N2, fun fuel hf => ?_⟩
    unfold run
    rw [r1 fuel (Nat.le_trans (Nat.le_max_left _ _) hf)]
    dsimp only
    rw [r2 fuel (Nat.le_trans (Nat.le_max_right _ _) hf)]

theorem holds_start (v : α) (any : Nat → Node α) : Holds (start any) (Forest.empty v) :=
  ⟨rfl, fun _ h => (by cases h), fun _ h => (by cases h), fun _ _ h => (by cases h), fun _ h => (by cases h)⟩

/-! ## Walking -/

theorem tree_exists {F : Forest α} {r : Nat → Nat} (hr : ∀ p c, c ∈ F.kids p → r c < r p) :
    ∀ k n, r n < k → ∃ T : Tree, T.id = n ∧ T.Fits F := by
  intro k
  induction k with
  | zero => intro n h; cases h
  | succ k ih =>
    intro n hn
    have : ∀ l : List Nat, (∀ c ∈ l, r c < k) → ∃ ts : List Tree, ids ts = l ∧ AllFit F ts := by
      intro l
      induction l with
      | nil => intro _; exact ⟨[], by unfold ids; rfl, by unfold AllFit; trivial⟩
      | cons c cs ihl =>
        intro hl
        obtain ⟨t, h1, h2⟩ := ih c (hl c (by simp))
        obtain ⟨ts, h3, h4⟩ := ihl fun c hc => hl c (by simp [hc])
        exact ⟨t :: ts, by unfold ids; rw [h1, h3], by unfold AllFit; exact ⟨h2, h4⟩⟩
    obtain ⟨ts, h1, h2⟩ := this (F.kids n) fun c hc => by have := hr n c hc; omega
    exact ⟨.node n ts, rfl, by unfold Tree.Fits; exact ⟨h1.symm, h2⟩⟩

mutual
theorem tree_unique {F : Forest α} : ∀ (T U : Tree), T.Fits F → U.Fits F → T.id = U.id → T = U
  | .node n ts, .node m us => by
    intro h1 h2 e
    unfold Tree.Fits at h1 h2
    have e : n = m := e
    subst e
    rw [trees_unique ts us h1.2 h2.2 (h1.1.symm.trans h2.1)]
theorem trees_unique {F : Forest α} : ∀ (ts us : List Tree), AllFit F ts → AllFit F us → ids ts = ids us → ts = us
  | [], [] => fun _ _ _ => rfl
  | [], u :: us => by intro _ _ e; unfold ids at e; cases e
  | t :: ts, [] => by intro _ _ e; unfold ids at e; cases e
  | t :: ts, u :: us => by
    intro h1 h2 e
    unfold AllFit at h1 h2
    unfold ids at e
    injection e with e1 e2
    rw [tree_unique t u h1.1 h2.1 e1, trees_unique ts us h1.2 h2.2 e2]
end

mutual
/-- Rounds enough for a tree. -/
def Tree.rounds : Tree → Nat
  | .node _ ts => roundss ts + 1
/-- Rounds enough for some trees. -/
def roundss : List Tree → Nat
  | [] => 1
  | t :: ts => max t.rounds (roundss ts) + 1
end

/-- Every node has a number below the count. -/
theorem fits_bound {F : Forest α} (S : Sound F) {n : Nat} {ts : List Tree} (h : (Tree.node n ts).Fits F)
    (t : Tree) (ht : t ∈ ts) : t.id < F.count := by
  unfold Tree.Fits at h
  have : t.id ∈ ids ts := by
    clear h
    induction ts with
    | nil => cases ht
    | cons u us ih =>
      unfold ids
      rcases List.mem_cons.1 ht with e | e
      · simp [e]
      · exact List.mem_cons_of_mem _ (ih e)
  exact (S.bound n _ (h.1 ▸ this)).1

theorem ids_lt {F : Forest α} (S : Sound F) {n : Nat} {ts : List Tree} (h : F.kids n = ids ts) :
    ∀ c ∈ ids ts, c < F.count := fun c hc => (S.bound n c (h ▸ hc)).1

theorem walkFrom_trees {h : Heap α} {F : Forest α} (H : Holds h F) (S : Sound F) (pred : Nat → Bool) :
    ∀ (fuel : Nat) (ts : List Tree) (o : Option Nat), AllFit F ts → Chain h o (ids ts) →
      (∀ c ∈ ids ts, c < F.count) → roundss ts ≤ fuel →
      walkFrom h pred fuel o = some (pruneds pred ts) := by
  intro fuel
  induction fuel with
  | zero =>
    intro ts o _ _ _ hr
    cases ts with
    | nil => unfold roundss at hr; omega
    | cons t ts => unfold roundss at hr; omega
  | succ k ih =>
    intro ts o hf hc hb hr
    cases ts with
    | nil => unfold ids at hc; cases hc; unfold walkFrom pruneds; rfl
    | cons t ts =>
      cases t with
      | node n us =>
        unfold ids at hc hb
        unfold AllFit at hf
        unfold roundss at hr
        have hr1 : roundss us + 1 ≤ k := by
          have : Tree.rounds (.node n us) = roundss us + 1 := by unfold Tree.rounds; rfl
          omega
        have hr2 : roundss ts ≤ k := by omega
        have hn : n < F.count := hb n (by simp [Tree.id])
        cases hc with
        | cons hc =>
          have hc : Chain h (h.cell n).next (ids ts) := hc
          have hfu := hf.1
          unfold Tree.Fits at hfu
          have hcu := H.kids n hn
          rw [hfu.1] at hcu
          have e1 := ih us _ hfu.2 hcu (ids_lt S hfu.1) (by omega)
          have e2 := ih ts _ hf.2 hc (fun c h => hb c (by simp [h])) hr2
          show walkFrom h pred (k + 1) (some n) = _
          unfold walkFrom pruneds Tree.pruned
          cases hp : pred n with
          | true => simp [e1, e2]
          | false => simp [e2]

theorem visit_walk (h : Heap α) : ∀ (fuel : Nat) (o : Option Nat),
    visit h fuel o = walkFrom h (fun _ => true) fuel o := by
  intro fuel
  induction fuel with
  | zero => intro o; rfl
  | succ k ih =>
    intro o
    cases o with
    | none => rfl
    | some n =>
      unfold visit walkFrom
      rw [ih, ih]; simp

mutual
theorem pruned_all : ∀ T : Tree, T.pruned (fun _ => true) = T.all
  | .node n ts => by unfold Tree.pruned Tree.all; rw [pruneds_all ts]; simp
theorem pruneds_all : ∀ ts : List Tree, pruneds (fun _ => true) ts = alls ts
  | [] => by unfold pruneds alls; rfl
  | t :: ts => by unfold pruneds alls; rw [pruned_all t, pruneds_all ts]
end

theorem isLeaf_iff {h : Heap α} {F : Forest α} (H : Holds h F) {n : Nat} (hn : n < F.count) :
    isLeaf h n = (F.kids n).isEmpty := by
  have c := H.kids n hn
  unfold isLeaf
  generalize (h.cell n).first = o at c ⊢
  generalize F.kids n = l at c ⊢
  cases c <;> rfl

mutual
theorem leaves_tree {h : Heap α} {F : Forest α} (H : Holds h F) (S : Sound F) : ∀ T : Tree, T.Fits F → T.id < F.count →
    T.all.filter (isLeaf h) = T.leaves
  | .node n [], hf, hn => by
    unfold Tree.Fits ids at hf
    unfold Tree.all alls Tree.leaves
    rw [List.filter_cons, isLeaf_iff H (n := n) hn, show F.kids n = [] from hf.1]; rfl
  | .node n (t :: ts), hf, hn => by
    have hfit := hf
    unfold Tree.Fits at hf
    have hl : isLeaf h n = false := by
      rw [isLeaf_iff H (n := n) hn, show F.kids n = _ from hf.1]; unfold ids; rfl
    unfold Tree.all Tree.leaves
    rw [List.filter_cons, hl]
    have := leaves_trees H S (t :: ts) hf.2 (fits_bound S hfit)
    rw [show leavess (t :: ts) = t.leaves ++ leavess ts by rw [leavess]] at this
    simpa using this
theorem leaves_trees {h : Heap α} {F : Forest α} (H : Holds h F) (S : Sound F) : ∀ ts : List Tree, AllFit F ts →
    (∀ t ∈ ts, t.id < F.count) → (alls ts).filter (isLeaf h) = leavess ts
  | [], _, _ => by unfold alls leavess; rfl
  | t :: ts, hf, hb => by
    unfold AllFit at hf
    unfold alls leavess
    rw [List.filter_append, leaves_tree H S t hf.1 (hb t (by simp)),
      leaves_trees H S ts hf.2 fun t ht => hb t (by simp [ht])]
end

mutual
theorem all_bound_tree {F : Forest α} (S : Sound F) : ∀ T : Tree, T.id < F.count → T.Fits F →
    ∀ x ∈ T.all, x < F.count
  | .node n ts, hn, hf => by
    intro x hx
    unfold Tree.Fits at hf
    unfold Tree.all at hx
    rcases List.mem_cons.1 hx with e | hx
    · rw [e]; exact hn
    · exact all_bound S ts (ids_lt S hf.1) hf.2 x hx
theorem all_bound {F : Forest α} (S : Sound F) : ∀ ts : List Tree, (∀ c ∈ ids ts, c < F.count) → AllFit F ts →
    ∀ x ∈ alls ts, x < F.count
  | [], _, _ => by intro x hx; unfold alls at hx; cases hx
  | t :: ts, hb, hf => by
    intro x hx
    unfold alls at hx
    unfold AllFit at hf
    unfold ids at hb
    rcases List.mem_append.1 hx with hx | hx
    · exact all_bound_tree S t (hb _ (by simp)) hf.1 x hx
    · exact all_bound S ts (fun c hc => hb c (by simp [hc])) hf.2 x hx
end

theorem height_depth {h : Heap α} {F : Forest α} (H : Holds h F) {n k : Nat} (d : Depth F n k) :
    ∀ fuel, k < fuel → height h fuel n = some k := by
  induction d with
  | root hr =>
    intro fuel hf
    cases fuel with
    | zero => cases hf
    | succ f => unfold height; rw [H.root _ hr]
  | @kid p c k _ hc ih =>
    intro fuel hf
    cases fuel with
    | zero => cases hf
    | succ f => unfold height; rw [H.parent _ _ hc]; dsimp only; rw [ih f (by omega)]; rfl

theorem under_rank {F : Forest α} {r : Nat → Nat} (hr : ∀ p c, c ∈ F.kids p → r c < r p) {a b : Nat}
    (h : Under F a b) : r b ≤ r a := by
  induction h with
  | self => exact Nat.le_refl _
  | kid _ hc ih => have := hr _ _ hc; omega

end Verif.Links
