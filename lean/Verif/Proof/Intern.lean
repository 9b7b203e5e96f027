import Verif.Model.Intern

/-!
# Lemmas about the pool of strings
-/

namespace Verif.Intern

theorem compareStr_nil_nil : compareStr [] [] = 0 := rfl

theorem less_nil (b : Str) : less [] b = true ↔ b ≠ [] := by
  cases b with
  | nil => simp [less, compareStr, compareN]
  | cons b bs => simp [less, compareStr, compareN]

theorem less_nil_right (a : Str) : less a [] = false := by
  cases a with
  | nil => rfl
  | cons a as => simp [less, compareStr, compareN]; omega

theorem compareStr_cons (a b : Int) (as bs : Str) : compareStr (a :: as) (b :: bs)
    = if a = b then compareStr as bs else if a < b then -1 else 1 := by
  have hmin : min (a :: as).length (b :: bs).length = min as.length bs.length + 1 := by
    simp only [List.length_cons]; omega
  simp only [compareStr]
  rw [hmin, compareN]
  by_cases h : a = b
  · rw [if_pos h, if_pos h]
    simp only [List.length_cons]
    split
    · rfl
    · omega
  · rw [if_neg h, if_neg h]
    by_cases h2 : a < b
    · rw [if_pos h2]; rfl
    · rw [if_neg h2]; rfl

theorem less_cons (a b : Int) (as bs : Str) :
    less (a :: as) (b :: bs) = true ↔ a < b ∨ (a = b ∧ less as bs = true) := by
  simp only [less, decide_eq_true_eq]
  rw [compareStr_cons]
  by_cases h : a = b
  · rw [if_pos h]
    constructor
    · intro h1; exact Or.inr ⟨h, h1⟩
    · intro h1
      rcases h1 with h1 | h1
      · omega
      · exact h1.2
  · rw [if_neg h]
    by_cases h2 : a < b
    · rw [if_pos h2]; exact ⟨fun _ => Or.inl h2, fun _ => by omega⟩
    · rw [if_neg h2]
      constructor
      · intro h1; omega
      · intro h1
        rcases h1 with h1 | h1
        · omega
        · exact absurd h1.1 h

theorem less_irrefl : ∀ a : Str, less a a = false := by
  intro a
  induction a with
  | nil => rfl
  | cons x a ih =>
    cases h : less (x :: a) (x :: a) with
    | false => rfl
    | true =>
      rcases (less_cons ..).1 h with h1 | h1
      · omega
      · rw [ih] at h1; cases h1.2

theorem less_trans : ∀ a b c : Str, less a b = true → less b c = true → less a c = true := by
  intro a
  induction a with
  | nil =>
    intro b c h1 h2
    rw [less_nil]
    intro hc; subst hc
    rw [less_nil_right] at h2; cases h2
  | cons x a ih =>
    intro b c h1 h2
    cases b with
    | nil => rw [less_nil_right] at h1; cases h1
    | cons y b =>
      cases c with
      | nil => rw [less_nil_right] at h2; cases h2
      | cons z c =>
        rw [less_cons] at h1 h2 ⊢
        rcases h1 with h1 | ⟨h1, h1'⟩ <;> rcases h2 with h2 | ⟨h2, h2'⟩
        · left; omega
        · left; omega
        · left; omega
        · exact Or.inr ⟨by omega, ih b c h1' h2'⟩

theorem less_total : ∀ a b : Str, less a b = false → less b a = false → a = b := by
  intro a
  induction a with
  | nil =>
    intro b h1 _
    cases b with
    | nil => rfl
    | cons y b => rw [(less_nil _).2 (by simp)] at h1; cases h1
  | cons x a ih =>
    intro b h1 h2
    cases b with
    | nil => rw [(less_nil _).2 (by simp)] at h2; cases h2
    | cons y b =>
      have h1' : ¬ (x < y ∨ (x = y ∧ less a b = true)) := by
        rw [← less_cons, h1]; simp
      have h2' : ¬ (y < x ∨ (y = x ∧ less b a = true)) := by
        rw [← less_cons, h2]; simp
      have hxy : x = y := by omega
      subst hxy
      have := ih b (by cases h : less a b with
          | false => rfl
          | true => exact absurd (Or.inr ⟨rfl, h⟩) h1')
        (by cases h : less b a with
          | false => rfl
          | true => exact absurd (Or.inr ⟨rfl, h⟩) h2')
      rw [this]

/-- The tree is in order. -/
def Ordered : Tree → Prop
  | .leaf => True
  | .node l _ x r => Ordered l ∧ Ordered r ∧ (∀ p ∈ l.nodes, less p.2 x = true) ∧ (∀ p ∈ r.nodes, less x p.2 = true)

theorem not_less_of_less {a b : Str} (h : less a b = true) : less b a = false := by
  cases h2 : less b a with
  | false => rfl
  | true => have := less_trans _ _ _ h h2; rw [less_irrefl] at this; cases this

theorem search_spec (k : Str) : ∀ (t : Tree) (best : Option (Nat × Str)), Ordered t →
    (∀ b x, best = some (b, x) → less k x = false ∧ ∀ p ∈ t.nodes, less x p.2 = true) →
    (∀ a, (a, k) ∈ t.nodes → search k t best = some a) ∧
    ((∀ a, (a, k) ∉ t.nodes) → search k t best = match best with
      | none => none
      | some (b, x) => if less x k then none else some b) := by
  intro t
  induction t with
  | leaf =>
    intro best _ _
    refine ⟨(by intro a h; cases h), ?_⟩
    intro _
    rcases best with _ | ⟨b, x⟩ <;> rfl
  | node l a x r ihl ihr =>
    intro best ho hb
    obtain ⟨hl, hr, hlx, hxr⟩ := ho
    have hnodes : (Tree.node l a x r).nodes = l.nodes ++ (a, x) :: r.nodes := rfl
    cases hk : less k x with
    | true =>
      have hs : search k (.node l a x r) best = search k l best := by rw [search, hk]; rfl
      have hb' : ∀ b y, best = some (b, y) → less k y = false ∧ ∀ p ∈ l.nodes, less y p.2 = true := by
        intro b y hby
        refine ⟨(hb b y hby).1, fun p hp => (hb b y hby).2 p ?_⟩
        rw [hnodes]; exact List.mem_append_left _ hp
      obtain ⟨i1, i2⟩ := ihl best hl hb'
      rw [hs]
      constructor
      · intro c hc
        rw [hnodes] at hc
        rcases List.mem_append.1 hc with hc | hc
        · exact i1 c hc
        · rcases List.mem_cons.1 hc with hc | hc
          · cases hc; rw [less_irrefl] at hk; cases hk
          · have h1 := hxr _ hc
            have := less_trans _ _ _ hk h1
            rw [less_irrefl] at this; cases this
      · intro hno
        exact i2 (fun c hc => hno c (by rw [hnodes]; exact List.mem_append_left _ hc))
    | false =>
      have hs : search k (.node l a x r) best = search k r (some (a, x)) := by rw [search, hk]; rfl
      obtain ⟨i1, i2⟩ := ihr (some (a, x)) hr (by intro b y hby; cases hby; exact ⟨hk, hxr⟩)
      rw [hs]
      constructor
      · intro c hc
        rw [hnodes] at hc
        rcases List.mem_append.1 hc with hc | hc
        · have h1 := hlx _ hc
          simp only at h1
          rw [hk] at h1; cases h1
        · rcases List.mem_cons.1 hc with hc | hc
          · cases hc
            have hno : ∀ c, (c, k) ∉ r.nodes := by
              intro c hc
              have := hxr _ hc
              simp only at this
              rw [less_irrefl] at this; cases this
            rw [i2 hno]; simp [less_irrefl]
          · exact i1 c hc
      · intro hno
        have hno' : ∀ c, (c, k) ∉ r.nodes := fun c hc =>
          hno c (by rw [hnodes]; exact List.mem_append_right _ (List.mem_cons_of_mem _ hc))
        have hne : k ≠ x := by
          intro he; subst he
          exact hno a (by rw [hnodes]; exact List.mem_append_right _ (List.mem_cons_self ..))
        have hxk : less x k = true := by
          cases h : less x k with
          | true => rfl
          | false => exact absurd (less_total _ _ hk h) hne
        rw [i2 hno']
        simp only [hxk, if_true]
        rcases best with _ | ⟨b, y⟩
        · rfl
        · have h1 := (hb b y rfl).2 (a, x) (by rw [hnodes]; exact List.mem_append_right _ (List.mem_cons_self ..))
          have h2 := less_trans _ _ _ h1 hxk
          simp only [h2, if_true]

theorem place_nodes (k : Str) (a : Nat) : ∀ (t : Tree) (p : Nat × Str),
    p ∈ (place k a t).nodes ↔ p = (a, k) ∨ p ∈ t.nodes := by
  intro t
  induction t with
  | leaf => intro p; simp [place, Tree.nodes]
  | node l b x r ihl ihr =>
    intro p
    rw [place]
    split
    · simp only [Tree.nodes, List.mem_append, List.mem_cons]
      rw [ihl]
      constructor
      · rintro ((h | h) | h | h) <;> simp [h]
      · rintro (h | h | h | h) <;> simp [h]
    · simp only [Tree.nodes, List.mem_append, List.mem_cons]
      rw [ihr]
      constructor
      · rintro (h | h | h | h) <;> simp [h]
      · rintro (h | h | h | h) <;> simp [h]

theorem place_ordered (k : Str) (a : Nat) : ∀ (t : Tree), Ordered t → (∀ b, (b, k) ∉ t.nodes) →
    Ordered (place k a t) := by
  intro t
  induction t with
  | leaf =>
    intro _ _
    exact ⟨trivial, trivial, (by intro p hp; cases hp), (by intro p hp; cases hp)⟩
  | node l b x r ihl ihr =>
    intro ho hno
    obtain ⟨hl, hr, hlx, hxr⟩ := ho
    rw [place]
    have hnol : ∀ c, (c, k) ∉ l.nodes := fun c hc => hno c (List.mem_append_left _ hc)
    have hnor : ∀ c, (c, k) ∉ r.nodes := fun c hc => hno c (List.mem_append_right _ (List.mem_cons_of_mem _ hc))
    have hne : k ≠ x := by
      intro he; subst he
      exact hno b (List.mem_append_right _ (List.mem_cons_self ..))
    cases hk : less k x with
    | true =>
      rw [if_pos rfl]
      refine ⟨ihl hl hnol, hr, ?_, hxr⟩
      intro p hp
      rcases (place_nodes k a l p).1 hp with rfl | hp
      · exact hk
      · exact hlx p hp
    | false =>
      rw [if_neg (by simp)]
      refine ⟨hl, ihr hr hnor, hlx, ?_⟩
      intro p hp
      rcases (place_nodes k a r p).1 hp with rfl | hp
      · cases h : less x k with
        | true => rfl
        | false => exact absurd (less_total _ _ hk h) hne
      · exact hxr p hp

/-- The pool is in order, and its nodes have different addresses. -/
structure Good (t : Tree) : Prop where
  ordered : Ordered t
  addr : ∀ p ∈ t.nodes, ∀ q ∈ t.nodes, p.1 = q.1 → p = q

theorem ordered_unique (k : Str) (t : Tree) (h : Ordered t) (a b : Nat) (ha : (a, k) ∈ t.nodes)
    (hb : (b, k) ∈ t.nodes) : a = b := by
  have h1 := (search_spec k t none h (by intro b x hx; cases hx)).1
  have h2 := h1 a ha
  rw [h1 b hb] at h2
  exact (Option.some.inj h2).symm

/-- What `to_sid` does. -/
theorem toSid_spec (alloc : Tree → Nat) (hf : ∀ t, ∀ p ∈ t.nodes, p.1 ≠ alloc t) (t : Tree) (h : Good t) (s : Str) :
    Good (toSid alloc t s).1 ∧ ((toSid alloc t s).2, s) ∈ (toSid alloc t s).1.nodes ∧
    (∀ p ∈ t.nodes, p ∈ (toSid alloc t s).1.nodes) ∧
    (∀ p ∈ (toSid alloc t s).1.nodes, p ∈ t.nodes ∨ p = ((toSid alloc t s).2, s)) := by
  have hs := search_spec s t none h.ordered (by intro b x hx; cases hx)
  by_cases hin : ∃ a, (a, s) ∈ t.nodes
  · obtain ⟨a, ha⟩ := hin
    have he : toSid alloc t s = (t, a) := by rw [toSid, hs.1 a ha]
    rw [he]
    exact ⟨h, ha, fun p hp => hp, fun p hp => Or.inl hp⟩
  · have hno : ∀ a, (a, s) ∉ t.nodes := fun a ha => hin ⟨a, ha⟩
    have he : toSid alloc t s = (place s (alloc t) t, alloc t) := by rw [toSid, hs.2 hno]
    rw [he]
    refine ⟨⟨place_ordered s _ t h.ordered hno, ?_⟩, (place_nodes ..).2 (Or.inl rfl),
      fun p hp => (place_nodes ..).2 (Or.inr hp), fun p hp => ((place_nodes ..).1 hp).symm⟩
    intro p hp q hq hpq
    rcases (place_nodes ..).1 hp with rfl | hp' <;> rcases (place_nodes ..).1 hq with rfl | hq'
    · rfl
    · exact absurd hpq.symm (hf t q hq')
    · exact absurd hpq (hf t p hp')
    · exact h.addr p hp' q hq' hpq

theorem history_spec (alloc : Tree → Nat) (hf : ∀ t, ∀ p ∈ t.nodes, p.1 ≠ alloc t) :
    ∀ (ss : List Str) (t : Tree), Good t →
    Good (history alloc t ss).1 ∧ (history alloc t ss).2.length = ss.length ∧
    (∀ p ∈ t.nodes, p ∈ (history alloc t ss).1.nodes) ∧
    (∀ p ∈ ((history alloc t ss).2).zip ss, p ∈ (history alloc t ss).1.nodes) := by
  intro ss
  induction ss with
  | nil => intro t h; exact ⟨h, rfl, fun p hp => hp, by intro p hp; cases hp⟩
  | cons s ss ih =>
    intro t h
    obtain ⟨g1, g2, g3, _⟩ := toSid_spec alloc hf t h s
    obtain ⟨i1, i2, i3, i4⟩ := ih _ g1
    rw [history]
    refine ⟨i1, by simp [i2], fun p hp => i3 p (g3 p hp), ?_⟩
    intro p hp
    simp only [List.zip_cons_cons] at hp
    rcases List.mem_cons.1 hp with rfl | hp
    · exact i3 _ g2
    · exact i4 p hp

theorem good_leaf : Good .leaf := ⟨trivial, by intro p hp; cases hp⟩

theorem deref_mem {t : Tree} (h : Good t) {a : Nat} {s : Str} (hm : (a, s) ∈ t.nodes) : deref t a = some s := by
  rw [deref]
  cases hq : t.nodes.find? (fun p => p.1 == a) with
  | none =>
    rw [List.find?_eq_none] at hq
    exact absurd (by simp) (hq _ hm)
  | some q =>
    have h1 := List.find?_some hq
    have h2 := List.mem_of_find?_eq_some hq
    simp only [beq_iff_eq] at h1
    have := h.addr q h2 (a, s) hm h1
    rw [this]; rfl

end Verif.Intern
