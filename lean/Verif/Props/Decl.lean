import Verif.Proof.Decl3

/-!
# Checks of declarations: super types, constraints, members, modifiers

C80: a type is reported as its own base type exactly when it is one.
C81: type parameters whose constraints are circular are reported.
C82: two members that cannot stand beside each other are reported.
C83: a member that passes the check of modifiers obeys the rules of overriding and access.
-/

namespace Verif.Decl

open Spec

/-! ## C80 -/

/-- A type is reported exactly when it derives from itself, directly or through other types, in a
program of any number of types and whatever the types above it look like. -/
theorem circle_reported (p : Types) (hc : Closed p) (this : Nat) (hthis : this < p.count) :
    checkCircle p this ≠ none ↔ Derives p this this := by
  unfold checkCircle
  rw [Ne, List.find?_eq_none]
  constructor
  · intro h
    apply Classical.byContradiction
    intro hn
    apply h
    intro s hs hr
    rcases (circleFrom_iff p this hthis hc s (hc _ _ hs)).1 hr with h' | h'
    · exact hn (by have := Derives.direct (p := p) hs; rwa [h'] at this)
    · exact hn (Derives.up hs h')
  · intro hd hall
    cases hd with
    | @direct _ s hs =>
      exact hall s hs ((circleFrom_iff p _ hthis hc s (hc _ _ hs)).2 (Or.inl rfl))
    | up hs h' =>
      exact hall _ hs ((circleFrom_iff p _ hthis hc _ (hc _ _ hs)).2 (Or.inr h'))

/-- The super type named in the report is the first one, in the order of the declaration, that leads
back to the type. -/
theorem circle_named (p : Types) (hc : Closed p) (this s : Nat) (hthis : this < p.count)
    (h : checkCircle p this = some s) :
    ∃ before after, p.supers this = before ++ s :: after ∧
      (p.general s = this ∨ Derives p (p.general s) this) ∧
      ∀ x ∈ before, p.general x ≠ this ∧ ¬ Derives p (p.general x) this := by
  unfold checkCircle at h
  obtain ⟨h1, before, after, h2, h3⟩ := List.find?_eq_some_iff_append.1 h
  refine ⟨before, after, h2, ?_, fun x hx => ?_⟩
  · exact (circleFrom_iff p this hthis hc s (hc this s (by simp [h2]))).1 h1
  · have hb := h3 x hx
    have hi := circleFrom_iff p this hthis hc x (hc this x (by simp [h2, hx]))
    refine ⟨fun he => ?_, fun hd => ?_⟩
    · rw [hi.2 (Or.inl he)] at hb; simp at hb
    · rw [hi.2 (Or.inr hd)] at hb; simp at hb

/-- A type that is not reported has no way back to itself, although types above it may go in circles:
0 derives from 1, 1 from 2 and an instance (5) of 1's template. -/
def demoTypes : Types where
  count := 4
  supers := fun t => if t = 0 then [3, 1] else if t = 1 then [2] else if t = 2 then [5] else []
  general := fun t => if t = 5 then 1 else t

theorem demoTypes_closed : Closed demoTypes := by
  intro a s hs
  simp only [demoTypes] at hs ⊢
  split at hs
  · simp at hs; rcases hs with rfl | rfl <;> simp
  · split at hs
    · simp at hs; subst hs; simp
    · split at hs
      · simp at hs; subst hs; simp
      · simp at hs

example : checkCircle demoTypes 0 = none ∧ checkCircle demoTypes 1 = some 2 ∧
    checkCircle demoTypes 2 = some 5 ∧ checkCircle demoTypes 3 = none := by decide +kernel

example : Derives demoTypes 1 1 ∧ ¬ Derives demoTypes 0 0 := by
  refine ⟨(circle_reported demoTypes demoTypes_closed 1 (by decide)).1 (by decide +kernel), fun h => ?_⟩
  exact absurd ((circle_reported demoTypes demoTypes_closed 0 (by decide)).2 h) (by decide +kernel)

/-! ## C81 -/

/-- Constraints that make a type parameter depend on itself are always reported. -/
theorem constraint_cycle_reported (d : Deps) (h : Circular d) : checkDependency d ≠ none := by
  obtain ⟨a, ha⟩ := h
  unfold checkDependency
  rw [Ne, List.find?_eq_none]
  intro hall
  have hmem : a ∈ d.map (·.1) := by
    cases ha with
    | direct hb => exact (depsOf_mem d _ _ hb).1
    | through hc _ => exact (depsOf_mem d _ _ hc).1
  exact hall a hmem (by rw [walk_rejects d a ha]; rfl)

/-- Constraints are reported only when one parameter can be reached in two ways from another.  Missing:
that the constraints are then circular; they need not be (`constraint_diamond_refuted`). -/
theorem constraint_report_partial (d : Deps) (hd : ∀ a, (depsOf d a).Nodup) (a : Nat)
    (h : checkDependency d = some a) :
    ∃ x b p q, Chain d x p b ∧ Chain d x q b ∧ p ≠ q := by
  unfold checkDependency at h
  have h' := List.find?_some h
  exact reported_two_ways d hd a _ (by simpa using h')

/-- `T : U, V`, `U : W`, `V : W` is reported as circular although no parameter depends on itself. -/
theorem constraint_diamond_refuted :
    ∃ d : Deps, (∀ a, (depsOf d a).Nodup) ∧ ¬ Circular d ∧ checkDependency d ≠ none := by
  have hdeps : ∀ a, depsOf [(0, [1, 2]), (1, [3]), (2, [3])] a =
      if a = 0 then [1, 2] else if a = 1 then [3] else if a = 2 then [3] else [] := by
    intro a
    by_cases h0 : a = 0
    · subst h0; rfl
    · by_cases h1 : a = 1
      · subst h1; rfl
      · by_cases h2 : a = 2
        · subst h2; rfl
        · have e0 : (0 == a) = false := by simpa using Ne.symm h0
          have e1 : (1 == a) = false := by simpa using Ne.symm h1
          have e2 : (2 == a) = false := by simpa using Ne.symm h2
          simp [depsOf, List.find?, e0, e1, e2, h0, h1, h2]
  have up : ∀ a b, DependsOn [(0, [1, 2]), (1, [3]), (2, [3])] a b → a < b := by
    intro a b h
    induction h with
    | direct hb =>
      rw [hdeps] at hb
      split at hb
      · simp at hb; omega
      · split at hb
        · simp at hb; omega
        · split at hb
          · simp at hb; omega
          · simp at hb
    | through hc _ ih =>
      rw [hdeps] at hc
      split at hc
      · simp at hc; omega
      · split at hc
        · simp at hc; omega
        · split at hc
          · simp at hc; omega
          · simp at hc
  refine ⟨[(0, [1, 2]), (1, [3]), (2, [3])], fun a => ?_, fun ⟨a, h⟩ => ?_, by decide +kernel⟩
  · rw [hdeps]
    split
    · simp
    · split
      · simp
      · split <;> simp
  · exact absurd (up a a h) (by omega)

example : Circular [(0, [1]), (1, [2, 3]), (3, [0])] ∧
    checkDependency [(0, [1]), (1, [2, 3]), (3, [0])] = some 0 := by
  refine ⟨⟨0, ?_⟩, by decide +kernel⟩
  refine DependsOn.through (c := 1) (by decide +kernel) ?_
  refine DependsOn.through (c := 3) (by decide +kernel) ?_
  exact DependsOn.direct (by decide +kernel)

/-- A chain of constraints is not reported. -/
example : checkDependency [(0, [1]), (1, [2]), (2, [3])] = none := by decide +kernel

/-! ## C82 -/

/-- Of two members that cannot stand beside each other the later one is reported, whatever is declared
between and around them.  Missing: members that implement an interface explicitly, type parameters
inside other types (`explicit_twice_refuted`, `nested_parameter_refuted`), and the case that the
comparison reads a type as a parameter that is none (`concrete_type_read_refuted`). -/
theorem declared_twice_partial (before between after : List Member) (a b : Member)
    (hid : (before ++ a :: between ++ b :: after).Pairwise fun x y => x.id ≠ y.id)
    (hb : b.kind ≠ .type) (howner : a.owner = none) (hown : OwnParams a)
    (hcmp : ∀ x ∈ before ++ a :: between, methodEq b x ≠ .undefined) (h : Clash a b) :
    ∃ x, checkDuplicate (before ++ a :: between ++ b :: after) b = .some x := by
  have hms : before ++ a :: between ++ b :: after = before ++ a :: (between ++ b :: after) := by simp
  have hab : a.id ≠ b.id := by
    rw [List.pairwise_append] at hid
    exact hid.2.2 a (by simp) b (by simp)
  have hpre : ∀ y ∈ before, y.id ≠ b.id := fun y hy => by
    rw [List.pairwise_append] at hid
    exact hid.2.2 y (by simp [hy]) b (by simp)
  have hafter : ∀ y ∈ before ++ a :: between, y.id ≠ b.id := fun y hy => by
    rw [List.pairwise_append] at hid
    exact hid.2.2 y hy b (by simp)
  have found : ∀ k f, a.kind = k → f a = .some () →
      search (before ++ a :: between ++ b :: after) b k f ≠ .none := fun k f hk hf =>
    search_none _ before a b _ k f hms hpre hab hk h.1 h.2.1 (fun _ => howner) hf
  have hany : ∀ k, search (before ++ a :: between ++ b :: after) b k (fun _ => .some ()) ≠ .undefined :=
    fun k => searchIn_undefined b _ (by simp) _
  have hidx : search (before ++ a :: between ++ b :: after) b .property
      (fun x => if indexEq b.params x.params then .some () else .none) ≠ .undefined :=
    searchIn_undefined b _ (fun x => by split <;> simp) _
  have hmeth : b.kind = .method →
      search (before ++ a :: between ++ b :: after) b .method (fun x => methodEq b x) ≠ .undefined := by
    intro hk hu
    have hown' : b.owner = none := by rw [← h.2.1]; exact howner
    have aux : ∀ (l r : List Member), (∀ x ∈ l, methodEq b x ≠ .undefined) →
        searchIn b (fun x => methodEq b x) (l ++ r) = .undefined →
        searchIn b (fun x => methodEq b x) r = .undefined := by
      intro l r hl
      induction l with
      | nil => exact id
      | cons y l ih =>
        intro hu
        simp only [List.cons_append] at hu
        unfold searchIn at hu
        split at hu
        · simp at hu
        · split at hu
          · exact ih (fun x hx => hl x (by simp [hx])) hu
          · cases hy : methodEq b y with
            | some u => simp [hy] at hu
            | none => rw [hy] at hu; exact ih (fun x hx => hl x (by simp [hx])) hu
            | undefined => exact absurd hy (hl y (by simp))
    unfold search visible at hu
    rw [List.filter_append] at hu
    have := aux _ _ (fun x hx => hcmp x (List.mem_filter.1 hx).1) hu
    rw [List.filter_cons_of_pos (p := fun m : Member => m.kind == .method && m.name == b.name &&
      (Kind.method != .method || m.owner == none)) (by simp [hk, hown'])] at this
    simp [searchIn] at this
  have hnone : checkDuplicate (before ++ a :: between ++ b :: after) b ≠ .none := by
    intro hn
    unfold checkDuplicate at hn
    obtain ⟨hf, hn⟩ := orElse_none hn
    obtain ⟨he, hn⟩ := orElse_none hn
    obtain ⟨ht, hn⟩ := orElse_none hn
    obtain ⟨hd, hn⟩ := orElse_none hn
    cases hka : a.kind with
    | field => exact found _ _ hka rfl hf
    | event => exact found _ _ hka rfl he
    | type => exact found _ _ hka rfl ht
    | typeDef => exact found _ _ hka rfl hd
    | method =>
      cases hkb : b.kind with
      | method =>
        rw [hkb] at hn
        exact found .method (fun x => methodEq b x) hka
          (methodEq_of_same a b hown (h.2.2.1 hka hkb).1) (orElse_none hn).2
      | property => rw [hkb] at hn; exact found _ _ hka rfl (orElse_none hn).1
      | field => rw [hkb] at hn; exact found _ _ hka rfl (orElse_none hn).1
      | event => rw [hkb] at hn; exact found _ _ hka rfl (orElse_none hn).1
      | type => exact hb hkb
      | typeDef => rw [hkb] at hn; exact found _ _ hka rfl (orElse_none hn).1
    | property =>
      cases hkb : b.kind with
      | method => rw [hkb] at hn; exact found _ _ hka rfl (orElse_none hn).1
      | property =>
        rw [hkb] at hn
        exact found .property (fun x => if indexEq b.params x.params then .some () else .none) hka
          (by simp [indexEq, h.2.2.2 hka hkb]) (orElse_none hn).2
      | field => rw [hkb] at hn; exact found _ _ hka rfl (orElse_none hn).2
      | event => rw [hkb] at hn; exact found _ _ hka rfl (orElse_none hn).2
      | type => exact hb hkb
      | typeDef => rw [hkb] at hn; exact found _ _ hka rfl (orElse_none hn).2
  have hundef : checkDuplicate (before ++ a :: between ++ b :: after) b ≠ .undefined := by
    unfold checkDuplicate
    refine orElse_undefined (hany _) (orElse_undefined (hany _) (orElse_undefined (hany _)
      (orElse_undefined (hany _) ?_)))
    cases hkb : b.kind with
    | method => exact orElse_undefined (hany _) (hmeth hkb)
    | property => exact orElse_undefined (hany _) hidx
    | _ => exact orElse_undefined (hany _) (hany _)
  cases hr : checkDuplicate (before ++ a :: between ++ b :: after) b with
  | none => exact absurd hr hnone
  | undefined => exact absurd hr hundef
  | some x => exact ⟨x, rfl⟩

/-- A member that is reported as declared twice is in conflict with the one named, when the types of
parameters are plain or the method's own type parameters and the one is not a constructor where the
other is a static constructor: that one stands in the same type and, if it is of the same kind, in front
of the reported one.  Missing: `enclosing_parameter_refuted`, `static_constructor_refuted`. -/
theorem duplicate_clash_partial (ms : List Member) (b x : Member)
    (hown : ∀ y ∈ ms, OwnParams y) (hb : OwnParams b) (howner : b.owner = none)
    (hctor : ∀ y ∈ ms, y.ctor = true → b.ctor = true → y.mods.static_ = b.mods.static_)
    (h : checkDuplicate ms b = .some x) :
    Clash x b ∧ x.id ≠ b.id ∧
      ∃ before after, ms = before ++ x :: after ∧ (x.kind = b.kind → b ∉ before) := by
  have fin : ∀ k f, search ms b k f = .some x →
      (k = .method → b.kind = .method → methodEq b x = .some () ∨ f x ≠ .some ()) →
      (k = .property → b.kind = .property → x.params = b.params ∨ f x ≠ .some ()) →
      Clash x b ∧ x.id ≠ b.id ∧
        ∃ before after, ms = before ++ x :: after ∧ (x.kind = b.kind → b ∉ before) := by
    intro k f hs h1 h2
    obtain ⟨hm, hk, hn, hid, ho, hf, pre, post, hms, hpre⟩ := search_some hs
    refine ⟨⟨hn, ho, fun hx hbk => ?_, fun hx hbk => ?_⟩, hid, pre, post, hms, fun hkk hin => ?_⟩
    · rcases h1 (hk ▸ hx) hbk with h | h
      · exact ⟨same_of_methodEq x b (hown x hm) hb h, hctor x hm⟩
      · exact absurd hf h
    · rcases h2 (hk ▸ hx) hbk with h | h
      · exact h
      · exact absurd hf h
    · rcases hpre b hin with h | h | ⟨_, h⟩
      · exact h rfl
      · exact h (hkk ▸ hk)
      · exact h howner
  unfold checkDuplicate at h
  rcases orElse_some h with h | ⟨_, h⟩
  · exact fin _ _ h (by simp) (by simp)
  rcases orElse_some h with h | ⟨_, h⟩
  · exact fin _ _ h (by simp) (by simp)
  rcases orElse_some h with h | ⟨_, h⟩
  · exact fin _ _ h (by simp) (by simp)
  rcases orElse_some h with h | ⟨_, h⟩
  · exact fin _ _ h (by simp) (by simp)
  cases hkb : b.kind with
  | method =>
    rw [hkb] at h
    rcases orElse_some h with h | ⟨_, h⟩
    · exact hkb ▸ fin _ _ h (by simp) (fun _ h' => by rw [hkb] at h'; simp at h')
    · refine hkb ▸ fin _ _ h (fun _ _ => ?_) (by simp)
      exact Classical.or_iff_not_imp_left.2 fun hc => hc
  | property =>
    rw [hkb] at h
    rcases orElse_some h with h | ⟨_, h⟩
    · exact hkb ▸ fin _ _ h (fun _ h' => by rw [hkb] at h'; simp at h') (by simp)
    · refine hkb ▸ fin _ _ h (by simp) (fun _ _ => ?_)
      by_cases hp : x.params = b.params
      · exact Or.inl hp
      · refine Or.inr ?_
        simp [indexEq, Ne.symm hp]
  | _ =>
    rw [hkb] at h
    rcases orElse_some h with h | ⟨_, h⟩
    · exact hkb ▸ fin _ _ h (fun _ h' => by rw [hkb] at h'; simp at h') (by simp)
    · exact hkb ▸ fin _ _ h (by simp) (fun _ h' => by rw [hkb] at h'; simp at h')

/-- A class with two overloads of a method, a property and a second method with the signature of the
first overload: the second is reported, with the type parameter it names differently. -/
def demoMembers : List Member :=
  [ { id := 1, kind := .method, name := 10, host := 0, generics := 1,
      params := [(.param 1 0, 0), (.base 3, 0)] },
    { id := 2, kind := .method, name := 10, host := 0, params := [(.base 3, 0)] },
    { id := 3, kind := .property, name := 11, host := 0 },
    { id := 4, kind := .method, name := 10, host := 0, generics := 1,
      params := [(.param 4 0, 1), (.base 3, 0)] } ]

example : checkDuplicate demoMembers
    { id := 4, kind := .method, name := 10, host := 0, generics := 1,
      params := [(.param 4 0, 1), (.base 3, 0)] } =
    .some
      { id := 1, kind := .method, name := 10, host := 0, generics := 1,
        params := [(.param 1 0, 0), (.base 3, 0)] } := by decide +kernel

/-- The hypotheses of `declared_twice_partial` are met by that class. -/
example : ∃ x, checkDuplicate demoMembers
    { id := 4, kind := .method, name := 10, host := 0, generics := 1,
      params := [(.param 4 0, 1), (.base 3, 0)] } = .some x :=
  declared_twice_partial []
    [ { id := 2, kind := .method, name := 10, host := 0, params := [(.base 3, 0)] },
      { id := 3, kind := .property, name := 11, host := 0 } ] []
    { id := 1, kind := .method, name := 10, host := 0, generics := 1,
      params := [(.param 1 0, 0), (.base 3, 0)] } _
    (by decide) (by decide) rfl
    (fun x hx => by
      simp at hx
      rcases hx with rfl | rfl
      · exact Or.inr ⟨0, rfl⟩
      · exact Or.inl trivial)
    (by decide)
    ⟨rfl, rfl, fun _ _ => ⟨⟨rfl, rfl⟩, by simp⟩, by simp⟩

/-- Two methods that implement the same method of an interface explicitly are not reported. -/
theorem explicit_twice_refuted :
    ∃ (a b : Member), a.id ≠ b.id ∧ Clash a b ∧ OwnParams a ∧ OwnParams b ∧
      checkDuplicate [a, b] b = .none :=
  ⟨{ id := 1, kind := .method, name := 10, host := 0, owner := some 7 },
   { id := 2, kind := .method, name := 10, host := 0, owner := some 7 },
   by decide, ⟨rfl, rfl, fun _ _ => ⟨⟨rfl, rfl⟩, by simp⟩, by simp⟩, by simp [OwnParams],
   by simp [OwnParams], by decide⟩

/-- `f<T>(List<T>)` and `f<U>(List<U>)` are not reported. -/
theorem nested_parameter_refuted :
    ∃ (a b : Member), a.id ≠ b.id ∧ Clash a b ∧ a.owner = none ∧ checkDuplicate [a, b] b = .none :=
  ⟨{ id := 1, kind := .method, name := 10, host := 0, generics := 1,
     params := [(.inst 5 (.param 1 0), 0)] },
   { id := 2, kind := .method, name := 10, host := 0, generics := 1,
     params := [(.inst 5 (.param 2 0), 0)] },
   by decide, ⟨rfl, rfl, fun _ _ => ⟨⟨rfl, rfl⟩, by simp⟩, by simp⟩, rfl, by decide⟩

/-- `f<T>(int)` before `f<T>(T)`: the check of the second reads `int` as a type parameter. -/
theorem concrete_type_read_refuted :
    ∃ (a b : Member), a.id ≠ b.id ∧ ¬ Clash a b ∧ OwnParams a ∧ OwnParams b ∧
      checkDuplicate [a, b] b = .undefined :=
  ⟨{ id := 1, kind := .method, name := 10, host := 0, generics := 1, params := [(.base 3, 0)] },
   { id := 2, kind := .method, name := 10, host := 0, generics := 1, params := [(.param 2 0, 0)] },
   by decide,
   (fun h => by
     have := (h.2.2.1 rfl rfl).1.2
     simp [rename] at this),
   (fun x hx => by simp at hx; subst hx; exact Or.inl trivial),
   (fun x hx => by simp at hx; subst hx; exact Or.inr ⟨0, rfl⟩), by decide⟩

/-- In a class with the type parameter `T` the methods `f<U>(T)` and `f<U>(U)` are reported as the same
method. -/
theorem enclosing_parameter_refuted :
    ∃ (a b : Member), a.id ≠ b.id ∧ ¬ Clash a b ∧ checkDuplicate [a, b] b = .some a :=
  ⟨{ id := 1, kind := .method, name := 10, host := 0, generics := 1, params := [(.param 0 0, 0)] },
   { id := 2, kind := .method, name := 10, host := 0, generics := 1, params := [(.param 2 0, 0)] },
   by decide,
   (fun h => by
     have := (h.2.2.1 rfl rfl).1.2
     simp [rename] at this), by decide⟩

/-- A static constructor beside a constructor without parameters is reported as a second definition of
it. -/
theorem static_constructor_refuted :
    ∃ (t : Decl) (a b : Member), a.id ≠ b.id ∧ ¬ Clash a b ∧ OwnParams a ∧ OwnParams b ∧
      t.members = [a, b] ∧ checkDup t b = some (.duplicated a) :=
  ⟨{ name := 10, members :=
      [ { id := 1, kind := .method, name := 10, host := 0, ctor := true },
        { id := 2, kind := .method, name := 10, host := 0, ctor := true, mods := { static_ := true } } ] },
   { id := 1, kind := .method, name := 10, host := 0, ctor := true },
   { id := 2, kind := .method, name := 10, host := 0, ctor := true, mods := { static_ := true } },
   by decide,
   (fun h => by
     have := (h.2.2.1 rfl rfl).2 rfl rfl
     simp at this), by simp [OwnParams], by simp [OwnParams], rfl, by decide⟩

/-- A member other than a constructor or destructor does not get the name of its type. -/
theorem name_of_type (t : Decl) (m : Member) (h : checkDup t m = none) (hn : m.name = t.name) :
    m.kind = .method ∧ m.ctor = true := by
  unfold checkDup at h
  split at h
  · simp at h
  · next hc =>
    simp only [hn, beq_self_eq_true, Bool.true_and, Bool.not_eq_true', Bool.and_eq_false_iff,
      not_or, Bool.not_eq_false, beq_eq_false_iff_ne, Classical.not_not] at hc
    simpa using hc

/-! ## C83 -/

/-- What the check of modifiers accepts is exactly what the rules allow; the member that is overridden or
hidden is the one of the nearest class above that declares it.  `fuel` is at least the number of classes
above.  Missing: the warnings about hidden members, and that the overridden member is of the same kind
(`override_kind_refuted`). -/
theorem modifiers_checked_partial (ds : Decls) (ti fuel : Nat) (m : Member)
    (hhost : ∀ c, ∀ x ∈ (ds c).members, x.host = c)
    (hend : ∀ c, ¬ Above ds ti fuel c)
    (hself : ∀ n, ¬ Above ds ti n ti)
    (hdef : baseMember ds m fuel [] (ds ti).base ≠ .undefined) :
    checkModifier ds fuel ti m = none ↔
      ∃ hidden, (∀ b, hidden = some b ↔ Hides ds ti m b) ∧ ModifiersOk ds ti m hidden := by
  have hsp := baseMember_spec ds ti m fuel hend fuel 0 [] (ds ti).base rfl (by omega) (by simp)
    (by simp) hdef
  have main : ∀ hidden : Option Member, (∀ b, hidden = some b ↔ Hides ds ti m b) →
      ((match (if (ds ti).kind == .interface_ then checkInterface m
          else if m.kind == .property || m.kind == .method || m.kind == .event then
            checkVirtual ds (ds ti) m hidden
          else checkField m) with
        | some r => some r
        | none => checkHiding ds m hidden) = none ↔ ModifiersOk ds ti m hidden) := by
    intro hidden _
    unfold ModifiersOk
    rw [← checkHiding_iff]
    by_cases hk : (ds ti).kind = .interface_
    · rw [if_pos (by simpa using hk)]
      cases hc : checkInterface m with
      | some r =>
        simp only [reduceCtorEq, false_iff]
        intro h
        have := (checkInterface_iff m).2 (h.1 hk)
        rw [hc] at this
        simp at this
      | none =>
        have := (checkInterface_iff m).1 hc
        simp [hk, this]
    · rw [if_neg (by simpa using hk)]
      by_cases hm : m.kind = .method ∨ m.kind = .property ∨ m.kind = .event
      · rw [if_pos (by rcases hm with h | h | h <;> simp [h])]
        have hnf : ¬ (m.kind = .field ∨ m.kind = .typeDef ∨ m.kind = .type) := by
          rcases hm with h | h | h <;> simp [h]
        cases hc : checkVirtual ds (ds ti) m hidden with
        | some r =>
          simp only [reduceCtorEq, false_iff]
          intro h
          have := (checkVirtual_iff ds (ds ti) m hidden).2 ((h.2.1 hk).1 hm)
          rw [hc] at this
          simp at this
        | none =>
          have := (checkVirtual_iff ds (ds ti) m hidden).1 hc
          simp [hk, this, hnf]
      · rw [if_neg (by
          intro hc
          simp only [Bool.or_eq_true, beq_iff_eq] at hc
          apply hm
          rcases hc with (h | h) | h <;> simp [h])]
        have hf : m.kind = .field ∨ m.kind = .typeDef ∨ m.kind = .type := by
          cases hk' : m.kind <;> simp [hk'] at hm ⊢
        cases hc : checkField m with
        | some r =>
          simp only [reduceCtorEq, false_iff]
          intro h
          have := (checkField_iff m).2 ((h.2.1 hk).2 hf)
          rw [hc] at this
          simp at this
        | none =>
          have := (checkField_iff m).1 hc
          simp [hk, this, hm]
  cases hr : baseMember ds m fuel [] (ds ti).base with
  | undefined => exact absurd hr hdef
  | none =>
    have hno : ∀ b, (none : Option Member) = some b ↔ Hides ds ti m b := fun b => by
      refine ⟨by simp, fun ⟨n, c, h1, h2, _⟩ => ?_⟩
      rw [hsp.2 hr n c h1] at h2
      simp at h2
    simp only [checkModifier, hr]
    refine ⟨fun h => ⟨none, hno, (main none hno).1 h⟩, fun ⟨hidden, h1, h2⟩ => ?_⟩
    have : hidden = none := by
      cases hidden with
      | none => rfl
      | some b => exact absurd ((hno b).2 ((h1 b).1 rfl)) (by simp)
    subst this
    exact (main none hno).2 h2
  | some b =>
    have hb := hsp.1 b hr
    have hne : (b.host == ti) = false := by
      obtain ⟨n, c, h1, h2, _⟩ := hb
      have hin : b ∈ (ds c).members := by
        unfold checkDuplicate at h2
        rcases orElse_some h2 with h | ⟨_, h⟩
        · exact (search_some h).1
        rcases orElse_some h with h | ⟨_, h⟩
        · exact (search_some h).1
        rcases orElse_some h with h | ⟨_, h⟩
        · exact (search_some h).1
        rcases orElse_some h with h | ⟨_, h⟩
        · exact (search_some h).1
        cases hkb : m.kind with
        | _ =>
          rw [hkb] at h
          rcases orElse_some h with h | ⟨_, h⟩
          · exact (search_some h).1
          · exact (search_some h).1
      have hh := hhost c b hin
      simp only [beq_eq_false_iff_ne, ne_eq]
      intro he
      exact hself n ((hh.symm.trans he : c = ti) ▸ h1)
    have hsome : ∀ b', some b = some b' ↔ Hides ds ti m b' := fun b' => by
      refine ⟨fun h => by simp at h; subst h; exact hb, fun h => by rw [hides_det hb h]⟩
    simp only [checkModifier, hr, hne, Bool.false_eq_true, if_false]
    refine ⟨fun h => ⟨some b, hsome, (main _ hsome).1 h⟩, fun ⟨hidden, h1, h2⟩ => ?_⟩
    have : hidden = some b := (h1 b).2 hb
    subst this
    exact (main _ hsome).2 h2

/-- A method that is accepted as overriding takes the place of a member of a class above that is virtual
and not sealed, has its name and its type, and — if it is a method — its signature and its access. -/
theorem override_partial (ds : Decls) (ti fuel : Nat) (m : Member)
    (hhost : ∀ c, ∀ x ∈ (ds c).members, x.host = c) (hend : ∀ c, ¬ Above ds ti fuel c)
    (hself : ∀ n, ¬ Above ds ti n ti) (hdef : baseMember ds m fuel [] (ds ti).base ≠ .undefined)
    (hkind : (ds ti).kind ≠ .interface_) (hm : m.kind = .method) (hov : m.mods.override_ = true)
    (hown : ∀ c, ∀ x ∈ (ds c).members, OwnParams x) (hmo : OwnParams m) (howner : m.owner = none)
    (h : checkModifier ds fuel ti m = none) :
    ∃ b n c, Above ds ti n c ∧ b ∈ (ds c).members ∧ VirtualLike b ∧ b.mods.sealed_ = false ∧
      b.ty = m.ty ∧ b.name = m.name ∧ b.owner = none ∧
      (b.kind = .method → SameSignature b m ∧
        (accessOf ds b ≠ .private_ → accessOf ds m = accessOf ds b)) := by
  obtain ⟨hidden, h1, h2, h3, h4⟩ := (modifiers_checked_partial ds ti fuel m hhost hend hself hdef).1 h
  have hr := (h3 hkind).1 (Or.inl hm)
  obtain ⟨b, hb, hv, hs, ht⟩ := hr.overrides hov
  obtain ⟨n, c, ha, hd, _⟩ := (h1 b).1 hb
  have hnp := hr.notPrivate (Or.inr (Or.inr hov))
  have facts : b ∈ (ds c).members ∧ b.name = m.name ∧ b.owner = m.owner ∧
      (b.kind = .method → methodEq m b = .some ()) := by
    have fin : ∀ k f, search (ds c).members m k f = .some b →
        (k = .method → f b = .some () → methodEq m b = .some ()) →
        b ∈ (ds c).members ∧ b.name = m.name ∧ b.owner = m.owner ∧
        (b.kind = .method → methodEq m b = .some ()) := by
      intro k f hse hf
      obtain ⟨e1, e2, e3, _, e5, e6, _⟩ := search_some hse
      exact ⟨e1, e3, e5, fun hk => hf (e2 ▸ hk) e6⟩
    unfold checkDuplicate at hd
    rcases orElse_some hd with hd | ⟨_, hd⟩
    · exact fin _ _ hd (by simp)
    rcases orElse_some hd with hd | ⟨_, hd⟩
    · exact fin _ _ hd (by simp)
    rcases orElse_some hd with hd | ⟨_, hd⟩
    · exact fin _ _ hd (by simp)
    rcases orElse_some hd with hd | ⟨_, hd⟩
    · exact fin _ _ hd (by simp)
    rw [hm] at hd
    rcases orElse_some hd with hd | ⟨_, hd⟩
    · exact fin _ _ hd (by simp)
    · exact fin _ _ hd (fun _ h => h)
  refine ⟨b, n, c, ha, facts.1, hv, hs, ht, facts.2.1, by rw [facts.2.2.1, howner], fun hk => ?_⟩
  refine ⟨same_of_methodEq b m (hown c b facts.1) hmo (facts.2.2.2 hk), fun hp => ?_⟩
  exact h4 b hb (by rw [hm, hk]) hv (Or.inl hov) hp hnp

/-- Class 0 declares a virtual method, class 1 derives from it and overrides the method. -/
def demoDecls : Decls := fun t =>
  if t = 0 then
    { name := 100, members :=
      [ { id := 1, kind := .method, name := 10, host := 0, ty := .base 3, body := true,
          params := [(.base 4, 0)], mods := { virtual_ := true, access := some .public_ } } ] }
  else if t = 1 then
    { name := 101, base := some 0, members :=
      [ { id := 2, kind := .method, name := 10, host := 1, ty := .base 3, body := true,
          params := [(.base 4, 0)], mods := { override_ := true, access := some .public_ } } ] }
  else { name := 0 }

def demoOverride : Member :=
  { id := 2, kind := .method, name := 10, host := 1, ty := .base 3, body := true,
    params := [(.base 4, 0)], mods := { override_ := true, access := some .public_ } }

theorem demoDecls_above : ∀ n c, Above demoDecls 1 n c → n = 0 ∧ c = 0 := by
  intro n c h
  induction h with
  | base h => simp [demoDecls] at h; exact ⟨rfl, h.symm⟩
  | up _ h ih => simp [demoDecls, ih.2] at h

theorem demoDecls_members : ∀ c, ∀ x ∈ (demoDecls c).members, x.host = c ∧ OwnParams x := by
  intro c x hx
  unfold demoDecls at hx
  split at hx
  · next h =>
    simp at hx; subst hx; subst h
    exact ⟨rfl, fun y hy => by simp at hy; subst hy; exact Or.inl trivial⟩
  · split at hx
    · next h =>
      simp at hx; subst hx; subst h
      exact ⟨rfl, fun y hy => by simp at hy; subst hy; exact Or.inl trivial⟩
    · simp at hx

/-- The hypotheses of `override_partial` are met. -/
example : ∃ b n c, Above demoDecls 1 n c ∧ b ∈ (demoDecls c).members ∧ VirtualLike b ∧
    b.mods.sealed_ = false ∧ b.ty = demoOverride.ty ∧ b.name = demoOverride.name ∧ b.owner = none ∧
      (b.kind = .method → SameSignature b demoOverride ∧
        (accessOf demoDecls b ≠ .private_ → accessOf demoDecls demoOverride = accessOf demoDecls b)) :=
  override_partial demoDecls 1 2 demoOverride (fun c x hx => (demoDecls_members c x hx).1)
    (fun c h => by have := demoDecls_above 2 c h; omega)
    (fun n h => by have := demoDecls_above n 1 h; omega) (by decide +kernel) (by decide) rfl rfl
    (fun c x hx => (demoDecls_members c x hx).2)
    (fun y hy => by simp [demoOverride] at hy; subst hy; exact Or.inl trivial) rfl (by decide +kernel)

/-- What the checks answer for a member that overrides a private method, changes its type, is private, or
overrides nothing. -/
example :
    checkModifier demoDecls 2 1 { demoOverride with ty := .base 5 } = some .typeChanged ∧
    checkModifier demoDecls 2 1 { demoOverride with name := 11 } = some .noBaseMember ∧
    checkModifier demoDecls 2 1 { demoOverride with
      mods := { override_ := true, access := none } } = some .virtualPrivate ∧
    checkModifier demoDecls 2 1 { demoOverride with
      mods := { override_ := true, access := some .internal } } = some .accessChanged ∧
    checkModifier demoDecls 2 1 { demoOverride with
      mods := { abstract_ := true, access := some .public_ } } = some .abstractInConcrete := by
  decide +kernel

/-- A method is accepted as overriding a virtual property of the same name and type. -/
theorem override_kind_refuted :
    ∃ (ds : Decls) (ti : Nat) (m b : Member), m.kind = .method ∧ m.mods.override_ = true ∧
      checkMember ds 2 ti m = none ∧ (ds ti).base = some 0 ∧ (ds 0).members = [b] ∧
      b.kind = .property ∧ (ds 0).base = none :=
  ⟨fun t =>
    if t = 0 then
      { name := 100, members :=
        [ { id := 1, kind := .property, name := 10, host := 0, ty := .base 3, body := true,
            mods := { virtual_ := true, access := some .public_ } } ] }
    else
      { name := 101, base := some 0, members :=
        [ { id := 2, kind := .method, name := 10, host := 1, ty := .base 3, body := true,
            mods := { override_ := true, access := some .public_ } } ] },
   1,
   { id := 2, kind := .method, name := 10, host := 1, ty := .base 3, body := true,
     mods := { override_ := true, access := some .public_ } },
   { id := 1, kind := .property, name := 10, host := 0, ty := .base 3, body := true,
     mods := { virtual_ := true, access := some .public_ } },
   rfl, rfl, by decide +kernel, rfl, rfl, rfl, rfl⟩

end Verif.Decl
