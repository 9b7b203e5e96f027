import Verif.Spec.DotNames

/-! Lemmas about names with dots. -/

namespace Verif.DotNames

theorem pieces_ne (t : Text) : pieces t ≠ [] := by
  cases t with
  | nil => simp [pieces]
  | cons c cs =>
    rw [pieces]
    split
    · simp
    · cases pieces cs <;> simp

theorem pieces_dotless : ∀ (t : Text), ∀ p ∈ pieces t, '.' ∉ p
  | [], p, h => by simp [pieces] at h; simp [h]
  | c :: cs, p, h => by
    rw [pieces] at h
    split at h
    · rcases List.mem_cons.1 h with rfl | h
      · simp
      · exact pieces_dotless cs p h
    · rename_i hc
      have ih := pieces_dotless cs
      cases hp : pieces cs with
      | nil => exact absurd hp (pieces_ne cs)
      | cons q qs =>
        rw [hp] at h ih
        rcases List.mem_cons.1 h with rfl | h
        · have := ih q (by simp)
          simp [this, Ne.symm hc]
        · exact ih p (by simp [h])

theorem pieces_append : ∀ a b : Text, pieces (a ++ '.' :: b) = pieces a ++ pieces b
  | [], b => by simp [pieces]
  | c :: cs, b => by
    rw [List.cons_append, pieces, pieces, pieces_append cs b]
    split
    · rfl
    · cases hp : pieces cs with
      | nil => exact absurd hp (pieces_ne cs)
      | cons q qs => rfl

theorem pieces_single : ∀ t : Text, '.' ∉ t → pieces t = [t]
  | [], _ => rfl
  | c :: cs, h => by
    simp only [List.mem_cons, not_or] at h
    rw [pieces, if_neg (Ne.symm h.1), pieces_single cs h.2]

theorem pieces_join : ∀ ps : List Text, ps ≠ [] → (∀ p ∈ ps, '.' ∉ p) → pieces (joinDots ps) = ps
  | [], h, _ => absurd rfl h
  | [p], _, h => by rw [joinDots]; exact pieces_single p (h p (by simp))
  | p :: q :: ps, _, h => by
    rw [joinDots, pieces_append, pieces_single p (h p (by simp)), pieces_join (q :: ps) (by simp) fun r hr => h r (by simp [List.mem_cons.1 hr])]
    rfl

theorem join_dotted : ∀ ps : List Text, joinDots ps = dotted ps
  | [] => rfl
  | [p] => by simp [joinDots, dotted]
  | p :: q :: ps => by
    rw [joinDots, join_dotted (q :: ps)]
    simp [dotted]

theorem join_pieces : ∀ t : Text, joinDots (pieces t) = t
  | [] => rfl
  | c :: cs => by
    rw [pieces]
    have ih := join_pieces cs
    cases hp : pieces cs with
    | nil => exact absurd hp (pieces_ne cs)
    | cons q qs =>
      rw [hp] at ih
      split
      · rename_i hc
        rw [joinDots, ih, hc]; rfl
      · cases qs with
        | nil => simp only [joinDots] at ih ⊢; rw [ih]
        | cons r rs => simp only [joinDots] at ih ⊢; rw [← ih]; rfl

theorem splitLoop_eq : ∀ (t cur : Text), splitLoop cur t = match pieces t with | [] => [] | p :: ps => (cur ++ p) :: ps
  | [], cur => by simp [splitLoop, pieces]
  | c :: cs, cur => by
    rw [splitLoop, pieces]
    split
    · rw [splitLoop_eq cs []]
      cases hp : pieces cs with
      | nil => exact absurd hp (pieces_ne cs)
      | cons q qs => simp
    · rw [splitLoop_eq cs (cur ++ [c])]
      cases hp : pieces cs with
      | nil => exact absurd hp (pieces_ne cs)
      | cons q qs => simp

theorem split_eq {t : Text} (h : t ≠ []) : split t = pieces t := by
  unfold split
  cases t with
  | nil => exact absurd rfl h
  | cons c cs =>
    simp only [List.isEmpty_cons, Bool.false_eq_true, if_false]
    rw [splitLoop_eq]
    cases hp : pieces (c :: cs) with
    | nil => exact absurd hp (pieces_ne _)
    | cons q qs => simp

/-! ## The cache -/

/-- The cache knows each name by its text; all names satisfy `P`. -/
def Inv (P : Name → Prop) (s : St) : Prop :=
  (∀ (i : Nat) (x : Name), s.objs[i]? = some x → P x ∧ s.cache.lookup x.text = some i) ∧
    ∀ (t : Text) (i : Nat), s.cache.lookup t = some i → ∃ x, s.objs[i]? = some x ∧ x.text = t

theorem prefix_get {l l' : List Name} (h : l <+: l') {i : Nat} {x : Name} (hi : l[i]? = some x) : l'[i]? = some x := by
  obtain ⟨r, rfl⟩ := h
  rw [List.getElem?_append_left (List.getElem?_eq_some_iff.1 hi).1]
  exact hi

theorem fromCache_inv {P : Name → Prop} {s : St} (h : Inv P s) {key : Text} {load : Name} (hk : load.text = key) (hP : P load) :
    Inv P (fromCache s key load).2 ∧ s.objs <+: (fromCache s key load).2.objs ∧
      ∃ x, (fromCache s key load).2.objs[(fromCache s key load).1]? = some x ∧ x.text = key ∧ P x := by
  unfold fromCache
  cases hl : s.cache.lookup key with
  | some i =>
    obtain ⟨x, hx, ht⟩ := h.2 key i hl
    exact ⟨h, List.prefix_refl _, x, hx, ht, (h.1 i x hx).1⟩
  | none =>
    refine ⟨⟨?_, ?_⟩, List.prefix_append _ _, load, by simp, hk, hP⟩
    · intro i x hi
      dsimp only at hi ⊢
      rw [List.lookup_cons]
      by_cases hlt : i < s.objs.length
      · rw [List.getElem?_append_left hlt] at hi
        obtain ⟨h1, h2⟩ := h.1 i x hi
        have : (x.text == key) = false := by
          cases hb : x.text == key with
          | false => rfl
          | true =>
            have := eq_of_beq hb
            rw [this, hl] at h2
            cases h2
        simp [this, h1, h2]
      · rw [List.getElem?_append_right (by omega)] at hi
        have hi0 : i - s.objs.length = 0 := by
          have := (List.getElem?_eq_some_iff.1 hi).1
          simp at this
          omega
        rw [hi0] at hi
        simp only [List.getElem?_cons_zero, Option.some.injEq] at hi
        subst hi
        rw [hk]
        have : i = s.objs.length := by omega
        simp [hP, this]
    · intro t i hi
      dsimp only at hi ⊢
      rw [List.lookup_cons] at hi
      cases hb : t == key with
      | true =>
        simp only [hb] at hi
        cases hi
        exact ⟨load, by simp, by rw [hk]; exact (eq_of_beq hb).symm⟩
      | false =>
        simp only [hb] at hi
        obtain ⟨x, hx, ht⟩ := h.2 t i hi
        exact ⟨x, prefix_get (List.prefix_append _ _) hx, ht⟩

/-- What each operation keeps, and that what is returned is a name. -/
def Good (P : Name → Prop) (s : St) (r : Option Nat × St) : Prop := Inv P r.2 ∧ s.objs <+: r.2.objs

theorem good_from {P : Name → Prop} {s : St} (h : Inv P s) {key : Text} {load : Name} (hk : load.text = key) (hP : P load) :
    Good P s (some (fromCache s key load).1, (fromCache s key load).2) :=
  ⟨(fromCache_inv h hk hP).1, (fromCache_inv h hk hP).2.1⟩

theorem good_refl {P : Name → Prop} {s : St} (h : Inv P s) (a : Option Nat) : Good P s (a, s) := ⟨h, List.prefix_refl _⟩

theorem combine_good {P : Name → Prop} {s : St} (h : Inv P s)
    (hP : ∀ x y : Name, P x → P y → P { text := x.text ++ '.' :: y.text, parts := x.parts ++ y.parts }) (a b : Option Nat) :
    Good P s (combine s a b) := by
  unfold combine
  cases a with
  | none => exact good_refl h _
  | some a =>
    cases b with
    | none => exact good_refl h _
    | some b =>
      dsimp only
      cases ha : s.objs[a]? with
      | none => exact good_refl h _
      | some x =>
        cases hb : s.objs[b]? with
        | none => exact good_refl h _
        | some y => exact good_from h rfl (hP x y (h.1 a x ha).1 (h.1 b y hb).1)

theorem parent_good {P : Name → Prop} {s : St} (h : Inv P s)
    (hP : ∀ x : Name, P x → 2 ≤ x.parts.length → P { text := joinDots x.parts.dropLast, parts := x.parts.dropLast }) (a : Option Nat) :
    Good P s (getParent s a) := by
  unfold getParent
  cases ha : a.bind (s.objs[·]?) with
  | none => exact good_refl h _
  | some x =>
    have hx : P x := by
      cases a with
      | none => cases ha
      | some i => exact (h.1 i x ha).1
    have hp := hP x hx
    dsimp only
    cases hps : x.parts with
    | nil => exact good_refl h _
    | cons p ps =>
      cases ps with
      | nil => exact good_refl h _
      | cons q qs =>
        rw [hps] at hp
        have hp' := hp (by simp)
        cases qs with
        | nil => exact good_from h rfl hp'
        | cons r rs => exact good_from h rfl hp'

theorem child_good {P : Name → Prop} {s : St} (h : Inv P s)
    (hP : ∀ x : Name, P x → 2 ≤ x.parts.length → P { text := joinDots x.parts.tail, parts := x.parts.tail }) (a : Option Nat) :
    Good P s (getChild s a) := by
  unfold getChild
  cases ha : a.bind (s.objs[·]?) with
  | none => exact good_refl h _
  | some x =>
    have hx : P x := by
      cases a with
      | none => cases ha
      | some i => exact (h.1 i x ha).1
    have hp := hP x hx
    dsimp only
    cases hps : x.parts with
    | nil => exact good_refl h _
    | cons p ps =>
      cases ps with
      | nil => exact good_refl h _
      | cons q qs =>
        rw [hps] at hp
        have hp' := hp (by simp)
        cases qs with
        | nil => exact good_from h rfl hp'
        | cons r rs => exact good_from h rfl hp'

/-- The parts of a name are the pieces of its text. -/
def Right (x : Name) : Prop := x.parts = pieces x.text

theorem right_combine (x y : Name) (hx : Right x) (hy : Right y) : Right { text := x.text ++ '.' :: y.text, parts := x.parts ++ y.parts } := by
  unfold Right at *
  rw [pieces_append, hx, hy]

theorem right_join (ps : List Text) (h : ps ≠ []) (hd : ∀ p ∈ ps, '.' ∉ p) : Right { text := joinDots ps, parts := ps } := by
  unfold Right
  rw [pieces_join ps h hd]

theorem right_drop (x : Name) (hx : Right x) (hl : 2 ≤ x.parts.length) : Right { text := joinDots x.parts.dropLast, parts := x.parts.dropLast } := by
  refine right_join _ ?_ ?_
  · intro h
    have := congrArg List.length h
    simp at this
    omega
  · intro p hp
    have := (List.dropLast_sublist x.parts).subset hp
    rw [hx] at this
    exact pieces_dotless _ p this

theorem right_tail (x : Name) (hx : Right x) (hl : 2 ≤ x.parts.length) : Right { text := joinDots x.parts.tail, parts := x.parts.tail } := by
  refine right_join _ ?_ ?_
  · intro h
    have := congrArg List.length h
    simp at this
    omega
  · intro p hp
    have := List.mem_of_mem_tail hp
    rw [hx] at this
    exact pieces_dotless _ p this

theorem right_single (n : Text) (h : '.' ∉ n) : Right { text := n, parts := [n] } := by
  unfold Right
  rw [pieces_single n h]

theorem good_trans {P : Name → Prop} {s s1 : St} {r : Option Nat × St} (h1 : s.objs <+: s1.objs) (h2 : Good P s1 r) : Good P s r :=
  ⟨h2.1, h1.trans h2.2⟩

/-- What a call has to bring for `P`. -/
def Brings (P : Name → Prop) : Op → Prop
  | .parse t => t ≠ [] → P { text := t, parts := split t }
  | .toMname n => P { text := n, parts := [n] }
  | .combineName _ n => P { text := n, parts := [n] }
  | .readNamespace n => P { text := n, parts := [n] }
  | .internal ps => P { text := joinDots ps, parts := ps }
  | .join ps => ps ≠ [] → P { text := joinDots ps, parts := ps }
  | _ => True

theorem step_good {P : Name → Prop} {s : St} (h : Inv P s)
    (hc : ∀ x y : Name, P x → P y → P { text := x.text ++ '.' :: y.text, parts := x.parts ++ y.parts })
    (hd : ∀ x : Name, P x → 2 ≤ x.parts.length → P { text := joinDots x.parts.dropLast, parts := x.parts.dropLast })
    (ht : ∀ x : Name, P x → 2 ≤ x.parts.length → P { text := joinDots x.parts.tail, parts := x.parts.tail })
    {op : Op} (hb : Brings P op) : Good P s (step s op) := by
  cases op with
  | parse t =>
    simp only [step]
    by_cases hne : t = []
    · subst hne
      exact good_refl h _
    · have : parse s t = some (fromCache s t { text := t, parts := split t }) := by
        unfold parse
        cases t with
        | nil => exact absurd rfl hne
        | cons c cs => rfl
      rw [this]
      exact good_from h rfl (hb hne)
  | combine a b => exact combine_good h hc a b
  | combineName a n =>
    have h1 := good_from (load := { text := n, parts := [n] }) h rfl hb
    exact good_trans h1.2 (combine_good h1.1 hc a (some (toMname s n).1))
  | toMname n => exact good_from (load := { text := n, parts := [n] }) h rfl hb
  | getParent a => exact parent_good h hd a
  | getChild a => exact child_good h ht a
  | internal ps => exact good_from (load := { text := joinDots ps, parts := ps }) h rfl hb
  | join ps =>
    simp only [step, join]
    cases ps with
    | nil => exact good_refl h _
    | cons p ps => exact good_from (load := { text := joinDots (p :: ps), parts := p :: ps }) h rfl (hb (by simp))
  | readNamespace n =>
    have h1 := good_from (load := { text := n, parts := [n] }) h rfl hb
    have h2 := good_trans h1.2 (parent_good h1.1 hd (some (toMname s n).1))
    exact h2

/-- All uses. -/
theorem step_any {s : St} (h : Inv (fun _ => True) s) (op : Op) : Good (fun _ => True) s (step s op) :=
  step_good h (fun _ _ _ _ => trivial) (fun _ _ _ => trivial) (fun _ _ _ => trivial) (by cases op <;> simp [Brings])

/-- Simple names are simple. -/
theorem step_right {s : St} (h : Inv Right s) {op : Op} (hs : Simple op) : Good Right s (step s op) := by
  refine step_good h right_combine right_drop right_tail ?_
  cases op with
  | parse t => exact fun hne => split_eq hne
  | combine a b => trivial
  | combineName a n => exact right_single n hs
  | toMname n => exact right_single n hs
  | getParent a => trivial
  | getChild a => trivial
  | internal ps => exact right_join ps hs.1 hs.2
  | join ps => exact fun hne => right_join ps hne hs
  | readNamespace n => exact right_single n hs

theorem inv_empty (P : Name → Prop) : Inv P {} := ⟨fun _ _ h => by simp at h, fun _ _ h => by simp at h⟩

theorem run_any : ∀ (ops : List Op) (s : St), Inv (fun _ => True) s → Inv (fun _ => True) (run ops s) ∧ s.objs <+: (run ops s).objs
  | [], s, h => ⟨h, List.prefix_refl _⟩
  | op :: ops, s, h => by
    have h1 := step_any h op
    have h2 := run_any ops _ h1.1
    exact ⟨h2.1, h1.2.trans h2.2⟩

theorem run_right : ∀ (ops : List Op) (s : St), Inv Right s → (∀ op ∈ ops, Simple op) → Inv Right (run ops s)
  | [], _, h, _ => h
  | op :: ops, _, h, hs => run_right ops _ (step_right h (hs op (by simp))).1 fun o ho => hs o (by simp [ho])

/-- The name that the cache gives for a text it knows. -/
theorem fromCache_known {P : Name → Prop} {s : St} (h : Inv P s) {i : Nat} {x : Name} (hi : s.objs[i]? = some x) (load : Name) :
    fromCache s x.text load = (i, s) := by
  unfold fromCache
  rw [(h.1 i x hi).2]

end Verif.DotNames
