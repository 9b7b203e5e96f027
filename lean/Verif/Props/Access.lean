import Verif.Spec.Access

/-! # C42: access control; C70: super types -/

namespace Verif.Access.Props

/-! ## Helper lemmas -/

theorem inside_iff (host : Ty) : ∀ t, inside host t = true ↔ Within t host
  | .top a n av => by
    simp only [inside, decide_eq_true_eq]
    constructor
    · intro h; subst h; exact .refl _
    · intro h; cases h; rfl
  | .nested n av h => by
    simp only [inside]
    split
    · rename_i e; subst e; simp only [true_iff]; exact .refl _
    · rename_i e
      rw [inside_iff host h]
      constructor
      · intro w; exact .nested w
      · intro w
        cases w with
        | refl => exact absurd rfl e
        | nested w => exact w

theorem within_assembly {t u : Ty} (h : Within t u) : t.assembly = u.assembly := by
  induction h with
  | refl => rfl
  | nested _ ih => exact ih

theorem within_trans {t u v : Ty} (h : Within t u) (h' : Within u v) : Within t v := by
  induction h with
  | refl => exact h'
  | nested _ ih => exact .nested (ih h')

/-- A type around the code is accessible to it. -/
theorem within_accessible (derives : Ty → Ty → Prop) (frm : Ty) : ∀ t, Within frm t → TypeAccessible derives frm t
  | .top a n av, h => Or.inr (within_assembly h)
  | .nested n av host, h => by
    have hw : Within frm host := within_trans h (.nested (.refl _))
    refine ⟨within_accessible derives frm host hw, ?_⟩
    cases av with
    | public_ => trivial
    | private_ => exact hw
    | internal => exact within_assembly hw
    | protected_ => exact Or.inl hw
    | protectedOrInternal => exact Or.inl (Or.inl hw)
    | protectedAndInternal => exact Or.inl hw

theorem member_sound {sup : Ty → Ty → Bool} {derives : Ty → Ty → Prop} (hs : ∀ a b, sup a b = true → derives a b)
    {frm host : Ty} {av : AV} (h : checkMember sup frm host av (host.assembly != frm.assembly) = true) :
    Open derives frm host av := by
  rw [checkMember] at h
  by_cases hc : host.assembly = frm.assembly
  · have hd : (host.assembly != frm.assembly) = false := by simp [hc]
    rw [hd] at h
    cases av <;> simp [Open, hc] at h ⊢
    · exact Or.inr ⟨frm, .refl _, hs _ _ h⟩
    · exact Or.inr ⟨frm, .refl _, hs _ _ h⟩
  · have hd : (host.assembly != frm.assembly) = true := by simp [hc]
    rw [hd] at h
    cases av <;> simp [Open] at h ⊢
    · exact Or.inr ⟨frm, .refl _, hs _ _ h⟩
    · exact Or.inl (Or.inr ⟨frm, .refl _, hs _ _ h⟩)

theorem type_sound {sup : Ty → Ty → Bool} {derives : Ty → Ty → Prop} (hs : ∀ a b, sup a b = true → derives a b)
    {frm : Ty} : ∀ t, checkType sup frm (t.assembly != frm.assembly) t = true → TypeAccessible derives frm t
  | .top a n av, h => by
    change (if (a != frm.assembly) then decide (av = .public_) else true) = true at h
    by_cases hc : a = frm.assembly
    · exact Or.inr hc.symm
    · rw [if_pos (by simp [hc])] at h
      exact Or.inl (by simpa using h)
  | .nested n av host, h => by
    change (if host = frm then true else if !checkType sup frm (host.assembly != frm.assembly) host then false
      else checkMember sup frm host av (host.assembly != frm.assembly)) = true at h
    by_cases hh : host = frm
    · subst hh
      refine ⟨within_accessible _ _ _ (.refl _), ?_⟩
      cases av with
      | public_ => trivial
      | private_ => exact .refl _
      | internal => rfl
      | protected_ => exact Or.inl (.refl _)
      | protectedOrInternal => exact Or.inl (Or.inl (.refl _))
      | protectedAndInternal => exact Or.inl (.refl _)
    · rw [if_neg hh] at h
      cases ht : checkType sup frm (host.assembly != frm.assembly) host with
      | false => rw [ht] at h; simp at h
      | true =>
        rw [ht] at h
        simp only [Bool.not_true, Bool.false_eq_true, ↓reduceIte] at h
        exact ⟨type_sound hs host ht, member_sound hs h⟩

/-! ## C42 -/

/-- **C42**, one direction, for every access value, nesting and inheritance.  What the check accepts, the
rules allow. -/
theorem access_sound {sup : Ty → Ty → Bool} {derives : Ty → Ty → Prop} (hs : ∀ a b, sup a b = true → derives a b)
    (frm host : Ty) (av : AV) (h : checkAccess sup frm host av = true) : Accessible derives frm host av := by
  rw [checkAccess] at h
  by_cases hi : inside host frm = true
  · have hw := (inside_iff host frm).mp hi
    refine ⟨within_accessible _ _ _ hw, ?_⟩
    cases av with
    | public_ => trivial
    | private_ => exact hw
    | internal => exact within_assembly hw
    | protected_ => exact Or.inl hw
    | protectedOrInternal => exact Or.inl (Or.inl hw)
    | protectedAndInternal => exact Or.inl hw
  · rw [if_neg hi] at h
    simp only at h
    cases ht : checkType sup frm (host.assembly != frm.assembly) host with
    | false => rw [ht] at h; simp at h
    | true =>
      rw [ht] at h
      simp only [Bool.not_true, Bool.false_eq_true, ↓reduceIte] at h
      exact ⟨type_sound hs host ht, member_sound hs h⟩

/-- **C42**, one direction, for types. -/
theorem type_access_sound {sup : Ty → Ty → Bool} {derives : Ty → Ty → Prop} (hs : ∀ a b, sup a b = true → derives a b)
    (frm to : Ty) (h : checkAccessType sup frm to = true) : TypeAccessible derives frm to :=
  type_sound hs to h

theorem within_top {t u : Ty} (ht : IsTop t) (h : Within t u) : t = u := by
  cases h with
  | refl => rfl
  | nested => cases ht

theorem member_complete {sup : Ty → Ty → Bool} {derives : Ty → Ty → Prop} (hs : ∀ a b, derives a b → sup a b = true)
    {frm host : Ty} (ht : IsTop frm) (hne : host ≠ frm) {av : AV} (h : Open derives frm host av) :
    checkMember sup frm host av (host.assembly != frm.assembly) = true := by
  have hw : ¬ Within frm host := fun w => hne (within_top ht w).symm
  have hp : (Within frm host ∨ ∃ d, Within frm d ∧ derives d host) → sup frm host = true := by
    rintro (w | ⟨d, w, hd⟩)
    · exact absurd w hw
    · rw [within_top ht w]; exact hs _ _ hd
  rw [checkMember]
  by_cases hc : host.assembly = frm.assembly
  · have hd : (host.assembly != frm.assembly) = false := by simp [hc]
    rw [hd]
    cases av with
    | public_ => simp
    | internal => simp
    | protectedOrInternal => simp
    | private_ => exact absurd h hw
    | protected_ => simp [hp h]
    | protectedAndInternal =>
      rcases h with w | ⟨h, _⟩
      · exact absurd w hw
      · simp [hp h]
  · have hd : (host.assembly != frm.assembly) = true := by simp [hc]
    rw [hd]
    cases av with
    | public_ => simp
    | internal => exact absurd h.symm hc
    | private_ => exact absurd h hw
    | protected_ => simp [hp h]
    | protectedOrInternal =>
      rcases h with h | h
      · simp [hp h]
      · exact absurd h.symm hc
    | protectedAndInternal =>
      rcases h with w | ⟨_, h⟩
      · exact absurd w hw
      · exact absurd h.symm hc

theorem type_complete {sup : Ty → Ty → Bool} {derives : Ty → Ty → Prop} (hs : ∀ a b, derives a b → sup a b = true)
    {frm : Ty} (ht : IsTop frm) : ∀ t, TypeAccessible derives frm t →
    checkType sup frm (t.assembly != frm.assembly) t = true
  | .top a n av, h => by
    simp only [checkType, Ty.assembly]
    by_cases hc : a = frm.assembly
    · simp [hc]
    · rcases h with h | h
      · simp [h]
      · exact absurd h.symm hc
  | .nested n av host, h => by
    change (if host = frm then true else if !checkType sup frm (host.assembly != frm.assembly) host then false
      else checkMember sup frm host av (host.assembly != frm.assembly)) = true
    by_cases hh : host = frm
    · rw [if_pos hh]
    · rw [if_neg hh, type_complete hs ht host h.1]
      simp only [Bool.not_true, Bool.false_eq_true, ↓reduceIte]
      exact member_complete hs ht hh h.2

/-- **C42**, for code in a type that is not nested: the check accepts exactly what the rules allow.
(Missing: code in nested types, see `nested_sibling_refuted` and `nested_protected_refuted`.) -/
theorem access_exact_partial {sup : Ty → Ty → Bool} {derives : Ty → Ty → Prop}
    (hs : ∀ a b, sup a b = true ↔ derives a b) (frm host : Ty) (ht : IsTop frm) (av : AV) :
    checkAccess sup frm host av = true ↔ Accessible derives frm host av := by
  refine ⟨access_sound (fun a b => (hs a b).mp) frm host av, ?_⟩
  intro h
  rw [checkAccess]
  by_cases hi : inside host frm = true
  · rw [if_pos hi]
  · rw [if_neg hi]
    simp only
    rw [type_complete (fun a b => (hs a b).mpr) ht host h.1]
    simp only [Bool.not_true, Bool.false_eq_true, ↓reduceIte]
    refine member_complete (fun a b => (hs a b).mpr) ht ?_ h.2
    intro e
    exact hi ((inside_iff host frm).mpr (e ▸ .refl _))

/-- **C42**, for types named in a type that is not nested. -/
theorem type_access_exact_partial {sup : Ty → Ty → Bool} {derives : Ty → Ty → Prop}
    (hs : ∀ a b, sup a b = true ↔ derives a b) (frm to : Ty) (ht : IsTop frm) :
    checkAccessType sup frm to = true ↔ TypeAccessible derives frm to :=
  ⟨type_sound (fun a b => (hs a b).mp) to, type_complete (fun a b => (hs a b).mpr) ht to⟩

/-- A class `A` with two nested classes: `A.B`, and the private `A.C`. -/
def exA : Ty := .top 0 1 .public_
def exB : Ty := .nested 2 .public_ exA
def exC : Ty := .nested 3 .private_ exA

/-- **C42 refuted** for nested types: code in `A.B` may not use the private class `A.C` beside it, nor
its public members, though both are inside `A`. -/
theorem nested_sibling_refuted (sup : Ty → Ty → Bool) (derives : Ty → Ty → Prop) :
    TypeAccessible derives exB exC ∧ checkAccessType sup exB exC = false ∧
    Accessible derives exB exC .public_ ∧ checkAccess sup exB exC .public_ = false := by
  have hw : Within exB exA := .nested (.refl _)
  have ht : TypeAccessible derives exB exC := ⟨Or.inl rfl, hw⟩
  refine ⟨ht, ?_, ⟨ht, trivial⟩, ?_⟩
  · simp [checkAccessType, checkType, checkMember, exB, exC, exA, Ty.assembly]
  · simp [checkAccess, inside, checkType, checkMember, exB, exC, exA, Ty.assembly]

/-- **C42 refuted** for nested types: code in a class nested in a class derived from `A` may not use a
protected member of `A`. -/
theorem nested_protected_refuted (sup : Ty → Ty → Bool) (derives : Ty → Ty → Prop)
    (hd : derives (.top 0 5 .public_) exA) (h : sup (.nested 6 .public_ (.top 0 5 .public_)) exA = false) :
    Accessible derives (.nested 6 .public_ (.top 0 5 .public_)) exA .protected_ ∧
    checkAccess sup (.nested 6 .public_ (.top 0 5 .public_)) exA .protected_ = false := by
  refine ⟨⟨Or.inl rfl, Or.inr ⟨_, .nested (.refl _), hd⟩⟩, ?_⟩
  simp [checkAccess, inside, checkType, checkMember, exA, Ty.assembly] at h ⊢
  exact h

/-- **C42 refuted** for code that is in an assembly but in no type: a private member of a type of the
assembly is open to it. -/
theorem assembly_private_refuted : checkAccessA 0 exA .private_ = true := by decide

/-- The access value that a type is declared with. -/
def declaredAccess : Ty → AV
  | .top _ _ av => av
  | .nested _ av _ => av

/-- From outside the assembly, code that is in no type is given exactly the public members of types that
are public, with all the types around them. -/
theorem assembly_cross (frm : Nat) (host : Ty) (av : AV) (hf : host.assembly ≠ frm) :
    checkAccessA frm host av = true ↔ av = .public_ ∧ ∀ t, Within host t → declaredAccess t = .public_ := by
  have hc : (host.assembly != frm) = true := by simp [hf]
  have key : ∀ u, checkTypeA true u = true ↔ ∀ t, Within u t → declaredAccess t = .public_ := by
    intro u
    induction u with
    | top a n av' =>
      constructor
      · intro hu t w
        cases w
        simpa [checkTypeA, declaredAccess] using hu
      · intro h
        have := h _ (.refl _)
        simpa [checkTypeA, declaredAccess] using this
    | nested n av' hst ih =>
      have e : checkTypeA true (.nested n av' hst) = (checkTypeA true hst && decide (av' = .public_)) := by
        simp only [checkTypeA]
        cases checkTypeA true hst <;> simp
      rw [e, Bool.and_eq_true, ih, decide_eq_true_eq]
      constructor
      · rintro ⟨h1, h2⟩ t w
        cases w with
        | refl => exact h2
        | nested w => exact h1 t w
      · intro h
        exact ⟨fun t w => h t (.nested w), h _ (.refl _)⟩
  rw [checkAccessA, hc, ← key host]
  cases checkTypeA true host <;> cases av <;> simp

/-- In its own assembly, code that is in no type is given the members of types that are not nested in
others, and of nested ones that are public or internal, with the nested types around them. -/
theorem assembly_own (host : Ty) (av : AV) :
    checkAccessA host.assembly host av = true ↔
      ∀ t, Within host t → ¬ IsTop t → declaredAccess t = .public_ ∨ declaredAccess t = .internal := by
  have hc : (host.assembly != host.assembly) = false := by simp
  have key : ∀ u, checkTypeA false u = true ↔
      ∀ t, Within u t → ¬ IsTop t → declaredAccess t = .public_ ∨ declaredAccess t = .internal := by
    intro u
    induction u with
    | top a n av' =>
      refine ⟨fun _ t w hn => ?_, fun _ => rfl⟩
      cases w
      exact absurd trivial hn
    | nested n av' hst ih =>
      have e : checkTypeA false (.nested n av' hst) =
          (checkTypeA false hst && decide (av' = .public_ ∨ av' = .internal)) := by
        simp only [checkTypeA]
        cases checkTypeA false hst <;> simp
      rw [e, Bool.and_eq_true, ih, decide_eq_true_eq]
      constructor
      · rintro ⟨h1, h2⟩ t w hn
        cases w with
        | refl => exact h2
        | nested w => exact h1 t w hn
      · intro h
        exact ⟨fun t w => h t (.nested w), h _ (.refl _) id⟩
  rw [checkAccessA, hc, ← key host]
  simp

/-- **C42**: the access value of a member declared without one is that of the language: internal for a type
that is not nested, public in an interface, private elsewhere. -/
theorem default_access (isTop inInterface : Bool) :
    accessOf none isTop inInterface =
      match isTop, inInterface with
      | true, _ => .internal
      | false, true => .public_
      | false, false => .private_ := by
  cases isTop <;> cases inInterface <;> rfl

/-! ## C70: super types -/

/-- The loop over the super types. -/
def each (supers : Typ → List Typ) (fuel : Nat) (l seen : List Typ) : List Typ :=
  l.foldl (fun acc s => if s ∈ acc then acc else collect supers fuel s (s :: acc)) seen

theorem each_cons (supers : Typ → List Typ) (fuel : Nat) (s : Typ) (l seen : List Typ) :
    each supers fuel (s :: l) seen = each supers fuel l (if s ∈ seen then seen else collect supers fuel s (s :: seen)) := rfl

theorem each_mono {supers : Typ → List Typ} {fuel : Nat}
    (hc : ∀ t seen x, x ∈ seen → x ∈ collect supers fuel t seen) :
    ∀ l seen x, x ∈ seen → x ∈ each supers fuel l seen
  | [], _, _, h => h
  | s :: l, seen, x, h => by
    rw [each_cons]
    apply each_mono hc
    split
    · exact h
    · exact hc _ _ _ (List.mem_cons_of_mem _ h)

theorem collect_mono (supers : Typ → List Typ) : ∀ fuel t seen x, x ∈ seen → x ∈ collect supers fuel t seen
  | 0, _, _, _, h => h
  | fuel + 1, t, seen, x, h => each_mono (collect_mono supers fuel) (supers t) seen x h

/-- The types of `U` that are not in `seen`. -/
def missing (U seen : List Typ) : List Typ := U.filter (fun t => decide (t ∉ seen))

theorem missing_lt {U seen : List Typ} {s : Typ} (hu : s ∈ U) (hs : s ∉ seen) :
    (missing U (s :: seen)).length < (missing U seen).length := by
  induction U with
  | nil => cases hu
  | cons a U ih =>
    have hle : (missing U (s :: seen)).length ≤ (missing U seen).length := by
      clear ih hu
      induction U with
      | nil => simp [missing]
      | cons b U ih =>
        simp only [missing, List.filter_cons, decide_eq_true_eq, List.mem_cons] at ih ⊢
        split
        · rename_i h
          rw [if_pos (fun hb => h (Or.inr hb))]
          simp only [List.length_cons]
          omega
        · split
          · simp only [List.length_cons]; omega
          · exact ih
    by_cases ha : a = s
    · subst ha
      simp only [missing, List.filter_cons, decide_eq_true_eq, List.mem_cons, true_or, not_true_eq_false,
        ↓reduceIte, hs, not_false_eq_true, List.length_cons] at hle ⊢
      omega
    · have hu' : s ∈ U := by
        rw [List.mem_cons] at hu
        rcases hu with e | h
        · exact absurd e.symm ha
        · exact h
      have := ih hu'
      simp only [missing, List.filter_cons, decide_eq_true_eq, List.mem_cons, ha, false_or] at this ⊢
      split
      · simp only [List.length_cons]; omega
      · exact this

theorem missing_mono {U a b : List Typ} (h : ∀ x ∈ a, x ∈ b) : (missing U b).length ≤ (missing U a).length := by
  induction U with
  | nil => simp [missing]
  | cons u U ih =>
    simp only [missing, List.filter_cons, decide_eq_true_eq] at ih ⊢
    by_cases hb : u ∈ b
    · rw [if_neg (by simpa using hb)]
      split
      · simp only [List.length_cons]; omega
      · exact ih
    · rw [if_pos hb, if_pos (fun ha => hb (h u ha))]
      simp only [List.length_cons]
      omega

/-- What the collection has to be. -/
def CollectOk (supers : Typ → List Typ) (U : List Typ) (fuel : Nat) : Prop :=
  ∀ t seen, t ∈ U → (missing U seen).length < fuel →
      (∀ s ∈ supers t, s ∈ collect supers fuel t seen) ∧
      (∀ x ∈ collect supers fuel t seen, x ∈ seen ∨ Reaches supers t x) ∧
      (∀ x ∈ collect supers fuel t seen, x ∉ seen → ∀ s ∈ supers x, s ∈ collect supers fuel t seen)

theorem each_spec (supers : Typ → List Typ) (U : List Typ) (fuel : Nat) (hc : CollectOk supers U fuel) :
    ∀ l seen, (∀ s ∈ l, s ∈ U) → (missing U seen).length ≤ fuel →
      (∀ s ∈ l, s ∈ each supers fuel l seen) ∧
      (∀ x ∈ each supers fuel l seen, x ∈ seen ∨ ∃ s ∈ l, x = s ∨ Reaches supers s x) ∧
      (∀ x ∈ each supers fuel l seen, x ∉ seen → ∀ s ∈ supers x, s ∈ each supers fuel l seen)
  | [], seen, _, _ =>
    ⟨(by intro s hs; cases hs), (fun x hx => Or.inl hx), (fun x hx hn => absurd hx hn)⟩
  | s :: rest, seen, hl, hf => by
    rw [each_cons]
    by_cases hs : s ∈ seen
    · rw [if_pos hs]
      obtain ⟨h1, h2, h3⟩ := each_spec supers U fuel hc rest seen (fun x hx => hl x (List.mem_cons_of_mem _ hx)) hf
      refine ⟨?_, ?_, h3⟩
      · intro x hx
        rw [List.mem_cons] at hx
        rcases hx with rfl | hx
        · exact each_mono (collect_mono supers fuel) rest seen _ hs
        · exact h1 x hx
      · intro x hx
        rcases h2 x hx with h | ⟨y, hy, h⟩
        · exact Or.inl h
        · exact Or.inr ⟨y, List.mem_cons_of_mem _ hy, h⟩
    · rw [if_neg hs]
      have hsU := hl s List.mem_cons_self
      obtain ⟨c1, c2, c3⟩ := hc s (s :: seen) hsU (by have := missing_lt hsU hs; omega)
      have hmono : ∀ x ∈ seen, x ∈ collect supers fuel s (s :: seen) := fun x hx =>
        collect_mono supers fuel s _ x (List.mem_cons_of_mem _ hx)
      obtain ⟨h1, h2, h3⟩ := each_spec supers U fuel hc rest (collect supers fuel s (s :: seen))
        (fun x hx => hl x (List.mem_cons_of_mem _ hx)) (by have := missing_mono (U := U) hmono; omega)
      refine ⟨?_, ?_, ?_⟩
      · intro x hx
        rw [List.mem_cons] at hx
        rcases hx with rfl | hx
        · exact each_mono (collect_mono supers fuel) rest _ _ (collect_mono supers fuel _ _ _ List.mem_cons_self)
        · exact h1 x hx
      · intro x hx
        rcases h2 x hx with h | ⟨y, hy, h⟩
        · rcases c2 x h with h | h
          · rw [List.mem_cons] at h
            rcases h with rfl | h
            · exact Or.inr ⟨_, List.mem_cons_self, Or.inl rfl⟩
            · exact Or.inl h
          · exact Or.inr ⟨s, List.mem_cons_self, Or.inr h⟩
        · exact Or.inr ⟨y, List.mem_cons_of_mem _ hy, h⟩
      · intro x hx hn y hy
        by_cases hxc : x ∈ collect supers fuel s (s :: seen)
        · apply each_mono (collect_mono supers fuel)
          by_cases hxs : x = s
          · subst hxs; exact c1 y hy
          · exact c3 x hxc (by simp [hxs, hn]) y hy
        · exact h3 x hx hxc y hy

/-- With fuel for all types not seen yet, the collection is closed, and contains only what can be
reached. -/
theorem collect_spec (supers : Typ → List Typ) (U : List Typ) (hU : ∀ t ∈ U, ∀ s ∈ supers t, s ∈ U) :
    ∀ fuel, CollectOk supers U fuel
  | 0 => fun _ _ _ hf => absurd hf (Nat.not_lt_zero _)
  | fuel + 1 => by
    intro t seen ht hf
    obtain ⟨h1, h2, h3⟩ := each_spec supers U fuel (collect_spec supers U hU fuel) (supers t) seen (hU t ht) (by omega)
    refine ⟨h1, ?_, h3⟩
    intro x hx
    rcases h2 x hx with h | ⟨s, hs, h⟩
    · exact Or.inl h
    · refine Or.inr ?_
      rcases h with rfl | h
      · exact .super hs
      · exact .step hs h

/-- **C70**.  The recorded super types of a type are exactly those that a chain of declared super types
leads to - also when several ways lead to one, or when the declarations go in a circle.  (`U` lists the
types of the program; with as much fuel as there are types the recursion ends by itself.) -/
theorem super_types_exact (supers : Typ → List Typ) (U : List Typ) (hU : ∀ t ∈ U, ∀ s ∈ supers t, s ∈ U)
    (t : Typ) (ht : t ∈ U) (s : Typ) :
    isSuperType supers (U.length + 1) t s = true ↔ Reaches supers t s := by
  have hf : (missing U []).length < U.length + 1 := by
    have := List.length_filter_le (fun t => decide (t ∉ ([] : List Typ))) U
    rw [missing]
    omega
  obtain ⟨h1, h2, h3⟩ := collect_spec supers U hU (U.length + 1) t [] ht hf
  rw [isSuperType, decide_eq_true_eq]
  constructor
  · intro h
    rcases h2 s h with h | h
    · cases h
    · exact h
  · intro h
    have key : ∀ {u v}, Reaches supers u v → (∀ x ∈ supers u, x ∈ collect supers (U.length + 1) t []) →
        v ∈ collect supers (U.length + 1) t [] := by
      intro u v hr
      induction hr with
      | super hs => intro hc; exact hc _ hs
      | step hu _ ih => intro hc; exact ih (h3 _ (hc _ hu) (by simp))
    exact key h h1

theorem reaches_derives {supers : Typ → List Typ}
    (ht : ∀ t s, s ∈ supers t → ∃ s' ∈ supers (.general t.toGeneral), s'.toGeneral = s.toGeneral) {t s : Typ}
    (h : Reaches supers t s) : Derives supers t.toGeneral s.toGeneral := by
  induction h with
  | super hs =>
    obtain ⟨s', h1, h2⟩ := ht _ _ hs
    exact h2 ▸ .super h1
  | step hu _ ih =>
    obtain ⟨s', h1, h2⟩ := ht _ _ hu
    exact .trans (h2 ▸ .super h1) ih

theorem derives_reaches {supers : Typ → List Typ} (hg : ∀ t, ∀ s ∈ supers t, ∃ g, s = .general g) {t s : Ty}
    (h : Derives supers t s) : Reaches supers (.general t) (.general s) := by
  have trans : ∀ {a b c}, Reaches supers a b → Reaches supers b c → Reaches supers a c := by
    intro a b c hab
    induction hab with
    | super hs => intro hbc; exact .step hs hbc
    | step hu _ ih => intro hbc; exact .step hu (ih hbc)
  induction h with
  | super hs =>
    obtain ⟨g, rfl⟩ := hg _ _ hs
    exact .super hs
  | trans _ _ ih1 ih2 => exact trans ih1 ih2

/-- **C42 and C70 together**: with the recorded super types in the place of "derives from", what the
check accepts is allowed.  (`ht`: an instance of a generic type has the super types of the generic type,
with arguments put in.) -/
theorem access_sound_supers (supers : Typ → List Typ) (U : List Typ) (hU : ∀ t ∈ U, ∀ s ∈ supers t, s ∈ U)
    (hall : ∀ t : Ty, Typ.general t ∈ U ∨ supers (.general t) = [])
    (ht : ∀ t s, s ∈ supers t → ∃ s' ∈ supers (.general t.toGeneral), s'.toGeneral = s.toGeneral)
    (frm host : Ty) (av : AV)
    (h : checkAccess (fun a b => isSuperType supers (U.length + 1) (.general a) (.general b)) frm host av = true) :
    Accessible (Derives supers) frm host av := by
  refine access_sound ?_ frm host av h
  intro a b hab
  rcases hall a with ha | ha
  · exact reaches_derives ht ((super_types_exact supers U hU _ ha _).mp hab)
  · simp [isSuperType, collect, ha] at hab

/-- **C42 and C70 together**, when no super type is an instance of a generic type, and for code in types
that are not nested: the check is exact. -/
theorem access_exact_supers_partial (supers : Typ → List Typ) (U : List Typ) (hU : ∀ t ∈ U, ∀ s ∈ supers t, s ∈ U)
    (hall : ∀ t : Ty, Typ.general t ∈ U ∨ supers (.general t) = [])
    (hg : ∀ t, ∀ s ∈ supers t, ∃ g, s = .general g)
    (ht : ∀ t s, s ∈ supers t → ∃ s' ∈ supers (.general t.toGeneral), s'.toGeneral = s.toGeneral)
    (frm host : Ty) (htop : IsTop frm) (av : AV) :
    checkAccess (fun a b => isSuperType supers (U.length + 1) (.general a) (.general b)) frm host av = true ↔
    Accessible (Derives supers) frm host av := by
  apply access_exact_partial _ frm host htop
  intro a b
  rcases hall a with ha | ha
  · rw [super_types_exact supers U hU _ ha]
    exact ⟨fun h => reaches_derives ht h, fun h => derives_reaches hg h⟩
  · constructor
    · intro hab; simp [isSuperType, collect, ha] at hab
    · intro hd
      exfalso
      have : ∀ {t s}, Derives supers t s → supers (.general t) ≠ [] := by
        intro t s h
        induction h with
        | super hs => intro e; rw [e] at hs; cases hs
        | trans _ _ ih _ => exact ih
      exact this hd ha

/-- A class derived from an instance `G<int>` of a generic class. -/
def exSupers : Typ → List Typ
  | .general (.top 0 8 .public_) => [.inst (.top 0 7 .public_) 0]
  | _ => []

/-- **C42 refuted** for generic base classes: a protected member of `G<T>` may not be used in a class
derived from `G<int>`. -/
theorem generic_base_refuted :
    Accessible (Derives exSupers) (.top 0 8 .public_) (.top 0 7 .public_) .protected_ ∧
    checkAccess (fun a b => isSuperType exSupers 3 (.general a) (.general b)) (.top 0 8 .public_) (.top 0 7 .public_)
      .protected_ = false := by
  refine ⟨⟨Or.inl rfl, Or.inr ⟨_, .refl _, ?_⟩⟩, by decide⟩
  exact Derives.super (s := .inst (.top 0 7 .public_) 0) List.mem_cons_self

/-! ## The hypotheses can be met -/

/-- `D : B, I` and `B : I`, all in one assembly. -/
def dSupers : Typ → List Typ
  | .general (.top 0 3 .public_) => [.general (.top 0 2 .public_), .general (.top 0 1 .public_)]
  | .general (.top 0 2 .public_) => [.general (.top 0 1 .public_)]
  | _ => []

example : isSuperType dSupers 4 (.general (.top 0 3 .public_)) (.general (.top 0 1 .public_)) = true := by decide
example : ∀ t ∈ [Typ.general (.top 0 3 .public_), .general (.top 0 2 .public_), .general (.top 0 1 .public_)],
    ∀ s ∈ dSupers t, s ∈ [Typ.general (.top 0 3 .public_), .general (.top 0 2 .public_), .general (.top 0 1 .public_)] := by
  decide
/-- A protected member of `B`, used in `D`; a private one; an internal one from another assembly. -/
example : checkAccess (fun a b => isSuperType dSupers 4 (.general a) (.general b)) (.top 0 3 .public_) (.top 0 2 .public_)
    .protected_ = true := by decide
example : checkAccess (fun a b => isSuperType dSupers 4 (.general a) (.general b)) (.top 0 3 .public_) (.top 0 2 .public_)
    .private_ = false := by decide
example : checkAccess (fun _ _ => false) (.top 1 3 .public_) (.top 0 2 .public_) .internal = false := by decide
example : checkAccess (fun _ _ => false) (.nested 9 .private_ exB) exA .private_ = true := by decide

end Verif.Access.Props
