import Verif.Proof.Member

/-!
# C106 — names behind a dot

A member behind a dot is the one of the nearest type that declares the name, and an expression is accepted if and only
if its names have a meaning by the rules of the language — for expressions of every shape and depth, and every tower of
classes and interfaces.  The exceptions, one by one, are at the end.
-/

namespace Verif.Member.Props

open Verif.Member Verif.Member.Spec Verif.Member.Proof

/-! ## A world with a bit of everything -/

/-- `Animal` (1), derived from `Object` (0): `string name` (name 1), `static int count` (2), `property int age` (3), a
private field (7) and two methods of the name 4. -/
def animal : List Member :=
  [⟨10, .field, 1, 8, false, false, 0⟩, ⟨11, .field, 2, 9, true, false, 0⟩, ⟨12, .property, 3, 9, false, false, 0⟩,
   ⟨99, .field, 7, 9, false, false, 0⟩, ⟨13, .method, 4, 0, false, false, 0⟩, ⟨14, .method, 4, 0, false, false, 0⟩]

/-- `Dog` (2), derived from `Animal`: `Animal friend` (5), `const int Legs` (6), its own `name` (1), a nested type (20), a
name for a type, `Alias` (21), for `Animal`, and a static property (22). -/
def dog : List Member :=
  [⟨20, .field, 5, 1, false, false, 0⟩, ⟨21, .field, 6, 9, true, true, 0⟩, ⟨22, .field, 1, 8, false, false, 0⟩,
   ⟨23, .type, 20, 1, true, false, 0⟩, ⟨24, .typeDef, 21, 1, true, false, 0⟩, ⟨25, .property, 22, 9, true, false, 0⟩]

/-- `Object` (0), `Animal` (1) and `Dog` (2); interface 4 with a property (name 30) and interface 5 above which it is. -/
def W0 : World where
  members t := match t with
    | 1 => animal
    | 2 => dog
    | 4 => [⟨30, .property, 30, 9, false, false, 0⟩]
    | _ => []
  base t := match t with
    | 1 => some 0
    | 2 => some 1
    | _ => none
  iface t := t == 4 || t == 5
  supers t := if t = 5 then [4] else []
  pick t n args := if (t = 1 ∨ t = 2) ∧ n = 4 then some ⟨100 + args.length, 2, false⟩
    else if n = 8 then some ⟨200, 2, true⟩ else none
  access _ m := m.id != 99
  accessMeth _ _ := true
  height := 10

/-- The rank of a type. -/
def rank0 (t : Nat) : Nat := match t with
  | 1 => 1
  | 2 => 2
  | 5 => 1
  | _ => 0

theorem tower0 : Tower W0 rank0 where
  base t b h := by
    match t with
    | 0 => cases h
    | 1 => cases h; decide
    | 2 => cases h; decide
    | _ + 3 => cases h
  super t s h := by
    by_cases ht : t = 5
    · subst ht
      have : s = 4 := by simpa [W0] using h
      subst this; decide
    · simp [W0, ht] at h
  below t := by unfold rank0; split <;> decide
  classes t b hi h := by
    match t with
    | 0 => cases h
    | 1 => cases h; decide
    | 2 => cases h; decide
    | _ + 3 => cases h
  ifaces t s _ h := by
    by_cases ht : t = 5
    · subst ht
      have : s = 4 := by simpa [W0] using h
      subst this; decide
    · simp [W0, ht] at h
  nodup t := by
    show (match t with | 1 => animal | 2 => dog | 4 => [_] | _ => [] : List Member).Nodup
    split <;> decide

/-- The members of the interface. -/
def pet : List Member := [⟨30, .property, 30, 9, false, false, 0⟩]

theorem members0 {t : Nat} {m : Member} (h : m ∈ W0.members t) :
    (t = 1 ∧ m ∈ animal) ∨ (t = 2 ∧ m ∈ dog) ∨ (t = 4 ∧ m ∈ pet) := by
  simp only [W0] at h
  split at h
  · exact .inl ⟨rfl, h⟩
  · exact .inr (.inl ⟨rfl, h⟩)
  · exact .inr (.inr ⟨rfl, h⟩)
  · cases h

theorem clear0 : Clear W0 2 := by
  have k1 : ∀ m ∈ animal, ∀ m' ∈ animal, m.name = m'.name → m.kind ≠ .method → m' = m := by decide
  have k2 : ∀ m ∈ dog, ∀ m' ∈ dog, m.name = m'.name → m.kind ≠ .method → m' = m := by decide
  have k3 : ∀ m ∈ pet, ∀ m' ∈ pet, m.name = m'.name → m.kind ≠ .method → m' = m := by decide
  refine clear_of ?_ ?_
  · intro t m m' h h'
    rcases members0 h with ⟨ht, h1⟩ | ⟨ht, h1⟩ | ⟨ht, h1⟩ <;> rcases members0 h' with ⟨ht', h2⟩ | ⟨ht', h2⟩ | ⟨ht', h2⟩ <;>
      first
        | exact k1 m h1 m' h2
        | exact k2 m h1 m' h2
        | exact k3 m h1 m' h2
        | (exfalso; omega)
  · intro t s s' h h'
    by_cases ht : t = 5
    · subst ht
      have : s = 4 := by simpa [W0] using h
      have : s' = 4 := by simpa [W0] using h'
      omega
    · simp [W0, ht] at h

theorem unhidden0 : Unhidden W0 2 := by
  have key : ∀ m ∈ animal ++ dog ++ pet, ∀ m' ∈ animal ++ dog ++ pet, m.name = m'.name →
      (m.id != 99) = true → (m'.id != 99) = true := by decide
  have mem : ∀ {t m}, m ∈ W0.members t → m ∈ animal ++ dog ++ pet := by
    intro t m h
    rcases members0 h with ⟨_, h⟩ | ⟨_, h⟩ | ⟨_, h⟩ <;> simp [h]
  refine unhidden_of ?_
  intro t m t' m' h h'
  exact key m (mem h) m' (mem h')

/-- In an instance method of `Dog`: `d` (name 40) is a `Dog`, `name` (1) its field; the name 41 stands for the type `Dog` and 42
for `Animal`. -/
def E0 : Env where
  W := W0
  cur := 2
  inStatic := false
  scope x := if x = 40 then some (.value 0 2) else if x = 1 then some (.member ⟨22, .field, 1, 8, false, false, 0⟩)
    else if x = 6 then some (.member ⟨21, .field, 6, 9, true, true, 0⟩)
    else if x = 3 then some (.member ⟨12, .property, 3, 9, false, false, 0⟩)
    else if x = 5 then some (.member ⟨20, .field, 5, 1, false, false, 0⟩)
    else if x = 2 then some (.member ⟨11, .field, 2, 9, true, false, 0⟩) else none
  typeNames x := if x = 41 then some 2 else if x = 42 then some 1 else none
  ret t := t

/-! ## Lookup -/

/-- What is found is what the name means: the member of the nearest type that declares it. -/
theorem found {W : World} {rank : Nat → Nat} (T : Tower W rank) {t n : Nat} {m : Member}
    (h : getMember W t n = .one m) : Has W all t n m := by
  have := get_right (n := n) (t := t) T
  rwa [h] at this

/-- Nothing is found only if no type above declares the name. -/
theorem not_found {W : World} {rank : Nat → Nat} (T : Tower W rank) {t n : Nat}
    (h : getMember W t n = .nothing) : ¬ ∃ m, Has W all t n m := by
  have := get_right (n := n) (t := t) T
  rw [h] at this
  rintro ⟨m, hm⟩
  exact this m hm

/-- A member that is the only one of its name is found, however far up it is. -/
theorem only_one_found {W : World} {rank : Nat → Nat} (T : Tower W rank) {t n : Nat} {m : Member}
    (h : Has W all t n m) (hu : ∀ m', Has W all t n m' → m' = m) : getMember W t n = .one m := by
  have hr := get_right (n := n) (t := t) T
  cases e : getMember W t n with
  | nothing => rw [e] at hr; exact absurd h (hr m)
  | one m' => rw [e] at hr; rw [hu m' hr]
  | conflict =>
    rw [e] at hr
    obtain ⟨a, b, ha, hb, hab, _⟩ := hr
    exact absurd ((hu a ha).trans (hu b hb).symm) hab

/-- The name of a `Dog` is its own, its age is that of an `Animal`; interface 5 has the property of 4. -/
example : getMember W0 2 1 = .one ⟨22, .field, 1, 8, false, false, 0⟩ ∧
    getMember W0 2 3 = .one ⟨12, .property, 3, 9, false, false, 0⟩ ∧
    getMember W0 5 30 = .one ⟨30, .property, 30, 9, false, false, 0⟩ ∧ getMember W0 2 77 = .nothing := by
  decide +kernel

example : Has W0 all 2 3 ⟨12, .property, 3, 9, false, false, 0⟩ := found tower0 (by decide +kernel)

/-! ## Expressions -/

/-- **An expression that is accepted means what the compiler takes it for**: every `e.n` in it is the one accessible
member of the nearest type that declares `n`, static exactly if `e` is a type, every call is of the method picked in the
type of its receiver.  Missing: calls behind a dot whose name is that of a variable (`shadowed_refuted`), names that two interfaces above
declare (`ambiguous_refuted`), and what the compiler does not look at (`Careful`, `static_call_refuted`,
`left_static_refuted`, `const_refuted`). -/
theorem accepted_means_partial {E : Env} {rank : Nat → Nat} (T : Tower E.W rank) (hC : Clear E.W E.cur) {e : Exp}
    {r : Node} (h : accept E e = .ok r) (hs : Unshadowed E e) (hc : Careful E false r) : Means E e r := by
  unfold accept at h
  split at h
  · cases h
  · rename_i r' hw
    split at h
    · cases h
    · rename_i hk
      injection h with h
      subst h
      exact sound T hC e false _ hw hk hs hc

/-- **An expression that has a meaning is accepted with that meaning.**  Missing: members that hide accessible ones
(`hidden_refuted`), static members by their plain names and plain properties in front of a dot (`Humble`,
`plain_static_refuted`, `left_property_refuted`, `alias_refuted`). -/
theorem meant_accepted_partial {E : Env} {rank : Nat → Nat} (T : Tower E.W rank) (hU : Unhidden E.W E.cur) {e : Exp}
    {r : Node} (h : Means E e r) (hs : Unshadowed E e) (hc : Humble E false r) : accept E e = .ok r := by
  unfold accept
  rw [walked T hU h hs]
  dsimp only
  rw [checked false h hc]

/-- An expression has at most one meaning. -/
theorem meaning_unique {E : Env} {e : Exp} {r r' : Node} (h : Means E e r) (h' : Means E e r') : r = r' :=
  means_unique h h'

/-- An expression that has a meaning is never taken for anything else, even where it should not be rejected. -/
theorem never_mistaken_partial {E : Env} {rank : Nat → Nat} (T : Tower E.W rank) (hC : Clear E.W E.cur) {e : Exp}
    {r r' : Node} (h : Means E e r) (h' : accept E e = .ok r') (hs : Unshadowed E e) (hc : Careful E false r') :
    r' = r :=
  means_unique (accepted_means_partial T hC h' hs hc) h

/-- `d.friend.age`: the friend is an `Animal`. -/
def e0 : Exp := .dot (.dot (.name 40) 5) 3

def r0 : Node :=
  .mem (some (.mem (some (.var 0 2)) ⟨20, .field, 5, 1, false, false, 0⟩)) ⟨12, .property, 3, 9, false, false, 0⟩

example : Means E0 e0 r0 := by
  refine accepted_means_partial (E := E0) tower0 clear0 rfl (by simp [e0, Unshadowed]) ?_
  simp [r0, Careful, isConstant, isAlias]

example : accept E0 e0 = .ok r0 := by
  refine meant_accepted_partial (E := E0) tower0 unhidden0 ?_ (by simp [e0, Unshadowed]) ?_
  · refine accepted_means_partial (E := E0) tower0 clear0 rfl (by simp [e0, Unshadowed]) ?_
    simp [r0, Careful, isConstant, isAlias]
  · simp [r0, Humble, isAlias]

/-- `d.speak(name, Dog.Legs)`: a call with arguments, a plain field and a constant. -/
def e1 : Exp := .call (.name 40) 4 (.cons (.name 1) (.cons (.dot (.name 41) 6) .nil))

def r1 : Node := .call (some (.var 0 2)) ⟨102, 2, false⟩
  (.cons (.mem none ⟨22, .field, 1, 8, false, false, 0⟩)
    (.cons (.mem (some (.typ 2)) ⟨21, .field, 6, 9, true, true, 0⟩) .nil))

theorem means1 : Means E0 e1 r1 := by
  refine accepted_means_partial (E := E0) tower0 clear0 rfl ?_ ?_
  · simp [e1, Unshadowed, UnshadowedAll, NoVariable, E0]
  · simp [r1, Careful, CarefulAll, isConstant, isAlias, Fits, isType]

example : accept E0 e1 = .ok r1 := by
  refine meant_accepted_partial (E := E0) tower0 unhidden0 means1 ?_ ?_
  · simp [e1, Unshadowed, UnshadowedAll, NoVariable, E0]
  · simp [r1, Humble, HumbleAll, PlainUse, isAlias]

/-! ## Where the rules are not kept -/

/-- A private member of a derived class hides an accessible one of the base class: the expression has a meaning and is
rejected.  (The field of name 1 of `Dog`, seen from a class that may not use it.) -/
theorem hidden_refuted : ∃ (E : Env) (rank : Nat → Nat) (e : Exp) (r : Node), Tower E.W rank ∧ Means E e r ∧
    Unshadowed E e ∧ Humble E false r ∧ accept E e = .error .reported := by
  let W : World := { W0 with access := fun _ m => m.id != 22 }
  have T : Tower W rank0 := ⟨tower0.base, tower0.super, tower0.below, tower0.classes, tower0.ifaces, tower0.nodup⟩
  refine ⟨{ E0 with W := W }, rank0, .dot (.name 40) 1, .mem (some (.var 0 2)) ⟨10, .field, 1, 8, false, false, 0⟩, T,
    ?_, by simp [Unshadowed], by simp [Humble, isAlias], rfl⟩
  have hno : ∀ m', ¬ Declares W (open_ W 2) 2 1 m' := by
    rintro m' ⟨hm, hn, _, ho⟩
    have key : ∀ m ∈ dog, m.name = 1 → (m.id != 22) = true → False := by decide
    exact key m' hm hn ho
  refine .dot (.local_ rfl) ?_ ?_ (.inl rfl) rfl
  · exact .base hno rfl rfl (.own ⟨by decide, rfl, by simp, rfl⟩)
  · intro m' h
    cases h with
    | own h => exact absurd h (hno m')
    | super _ hi => cases hi
    | base _ _ hb h =>
      cases hb
      cases h with
      | own h =>
        have key : ∀ m ∈ animal, m.name = 1 → m = ⟨10, .field, 1, 8, false, false, 0⟩ := by decide
        exact key m' h.1 h.2.1
      | super _ hi => cases hi
      | base hd _ _ _ => exact absurd ⟨by decide, rfl, by simp, rfl⟩ (hd ⟨10, .field, 1, 8, false, false, 0⟩)

/-- A name that two interfaces above declare is taken for the first of them without a word. -/
theorem ambiguous_refuted : ∃ (W : World) (rank : Nat → Nat) (t n : Nat) (m m' : Member), Tower W rank ∧
    Has W all t n m ∧ Has W all t n m' ∧ m ≠ m' ∧ getMember W t n = .one m := by
  let W : World :=
    { members := fun t => if t = 1 then [⟨1, .property, 5, 8, false, false, 0⟩]
        else if t = 2 then [⟨2, .property, 5, 9, false, false, 0⟩] else []
      base := fun _ => none
      iface := fun _ => true
      supers := fun t => if t = 3 then [1, 2] else []
      pick := fun _ _ _ => none
      access := fun _ _ => true
      accessMeth := fun _ _ => true
      height := 4 }
  have T : Tower W (fun t => if t = 3 then 3 else 0) := by
    refine ⟨?_, ?_, ?_, ?_, ?_, ?_⟩
    · intro t b h; cases h
    · intro t s h
      by_cases ht : t = 3
      · subst ht
        have : s = 1 ∨ s = 2 := by simpa [W] using h
        rcases this with h | h <;> subst h <;> decide
      · simp [W, ht] at h
    · intro t; show (if t = 3 then 3 else 0) < 4; split <;> decide
    · intro t b h; cases h
    · intros; rfl
    · intro t
      show (if t = 1 then [_] else if t = 2 then [_] else [] : List Member).Nodup
      split
      · decide
      · split <;> decide
  have hno : ∀ m', ¬ Declares W all 3 5 m' := by rintro m' ⟨h, _⟩; cases h
  exact ⟨W, _, 3, 5, ⟨1, .property, 5, 8, false, false, 0⟩, ⟨2, .property, 5, 9, false, false, 0⟩, T,
    .super (s := 1) hno rfl (by simp [W]) (.own ⟨by simp [W], rfl, by simp, trivial⟩),
    .super (s := 2) hno rfl (by simp [W]) (.own ⟨by simp [W], rfl, by simp, trivial⟩), by decide, by decide +kernel⟩

/-- The call `d.speak()` is taken for a call of a local variable `speak`, if there is one. -/
theorem shadowed_refuted : ∃ (E : Env) (e : Exp) (r : Node), Means E e r ∧ Careful E false r ∧
    accept E e = .ok (.apply (some (.var 0 2)) (.value 7 9) .nil) ∧
    ¬ Means E e (.apply (some (.var 0 2)) (.value 7 9) .nil) := by
  refine ⟨{ E0 with scope := fun x => if x = 40 then some (.value 0 2) else some (.value 7 9) },
    .call (.name 40) 4 .nil, .call (some (.var 0 2)) ⟨100, 2, false⟩ .nil, ?_, ?_, rfl, ?_⟩
  · exact .call (.local_ rfl) .nil rfl rfl rfl
  · simp [Careful, CarefulAll, Fits, isType]
  · intro h; cases h

/-- The compiler crashes on a name that two methods have, and on a nested type behind a dot. -/
theorem crash_refuted : accept E0 (.dot (.name 40) 4) = .error .crash ∧
    accept E0 (.dot (.name 41) 20) = .error .crash :=
  ⟨rfl, rfl⟩

/-- A method that is not static is called on a type, with no object for it, and a static one on an object. -/
theorem static_call_refuted :
    accept E0 (.call (.name 41) 4 .nil) = .ok (.call (some (.typ 2)) ⟨100, 2, false⟩ .nil) ∧
    accept E0 (.call (.name 40) 8 .nil) = .ok (.call (some (.var 0 2)) ⟨200, 2, true⟩ .nil) ∧
    (∀ r, ¬ Means E0 (.call (.name 41) 4 .nil) r) ∧ ∀ r, ¬ Means E0 (.call (.name 40) 8 .nil) r := by
  refine ⟨rfl, rfl, ?_, ?_⟩
  · intro r h
    cases h with
    | call hr has hp _ hf =>
      cases has
      have hr' := means_unique hr (.type (E := E0) (x := 41) (t := 2) rfl rfl)
      subst hr'
      cases hp
      cases hf
  · intro r h
    cases h with
    | call hr has hp _ hf =>
      cases has
      have hr' := means_unique hr (.local_ (E := E0) (x := 40) (id := 0) (t := 2) rfl)
      subst hr'
      cases hp
      cases hf

/-- The world with a field (name 50) in the type (9) of numbers. -/
def W1 : World := { W0 with members := fun t => if t = 9 then [⟨50, .field, 50, 9, false, false, 0⟩] else [] }

theorem has1 : Has W1 (open_ W1 2) 9 50 ⟨50, .field, 50, 9, false, false, 0⟩ ∧
    ∀ m', Has W1 (open_ W1 2) 9 50 m' → m' = ⟨50, .field, 50, 9, false, false, 0⟩ := by
  refine ⟨.own ⟨by simp [W1], rfl, by simp, rfl⟩, ?_⟩
  intro m' h
  cases h with
  | own h => simpa [W1] using h.1
  | base _ _ hb => cases hb
  | super _ hi => cases hi

/-- A static field is rejected by its plain name in a method that is not static; in a static method it is accepted, but
not in front of a dot. -/
theorem plain_static_refuted :
    (∃ r, Means E0 (.name 2) r) ∧ accept E0 (.name 2) = .error .reported ∧
    accept { E0 with inStatic := true } (.name 2) = .ok (.mem none ⟨11, .field, 2, 9, true, false, 0⟩) ∧
    (∃ r, Means { E0 with W := W1, inStatic := true } (.dot (.name 2) 50) r) ∧
    accept { E0 with W := W1, inStatic := true } (.dot (.name 2) 50) = .error .reported :=
  ⟨⟨.mem none ⟨11, .field, 2, 9, true, false, 0⟩, .plain rfl (.inl rfl) (by intro h; cases h)⟩, rfl, rfl,
   ⟨_, .dot (.plain rfl (.inl rfl) (fun _ => rfl)) has1.1 has1.2 (.inl rfl) rfl⟩, rfl⟩

/-- In a static method a field of an object that is not there is accepted in front of a dot, though not alone. -/
theorem left_static_refuted :
    accept { E0 with inStatic := true } (.name 5) = .error .reported ∧
    accept { E0 with inStatic := true } (.dot (.name 5) 1) =
      .ok (.mem (some (.mem none ⟨20, .field, 5, 1, false, false, 0⟩)) ⟨10, .field, 1, 8, false, false, 0⟩) ∧
    ∀ r, ¬ Means { E0 with inStatic := true } (.dot (.name 5) 1) r := by
  refine ⟨rfl, rfl, ?_⟩
  intro r h
  have hne : ∀ r, ¬ Means { E0 with inStatic := true } (.name 5) r := by
    intro r h
    cases h with
    | local_ hx => cases hx
    | plain hx _ hs => cases hx; cases hs rfl
    | type hx => cases hx
  cases h with
  | dot hr => exact hne _ hr
  | alias hr => exact hne _ hr

/-- The compiler never comes back from a property that is used by its plain name in front of a dot. -/
theorem left_property_refuted : (∃ r, Means { E0 with W := W1 } (.dot (.name 3) 50) r) ∧
    accept { E0 with W := W1 } (.dot (.name 3) 50) = .error .crash :=
  ⟨⟨_, .dot (.plain rfl (.inr rfl) (by intro h; cases h)) has1.1 has1.2 (.inl rfl) rfl⟩, rfl⟩

/-- A static member behind a name for a type behind a dot, `Dog.Alias.count`, is rejected, and a field of objects,
`Dog.Alias.name`, is accepted. -/
theorem alias_refuted :
    accept E0 (.dot (.dot (.name 41) 21) 2) = .error .reported ∧
    accept E0 (.dot (.dot (.name 41) 21) 1) =
      .ok (.mem (some (.alias (.typ 2) ⟨24, .typeDef, 21, 1, true, false, 0⟩)) ⟨10, .field, 1, 8, false, false, 0⟩) :=
  ⟨rfl, rfl⟩

/-- A constant of a class is accepted behind an object. -/
theorem const_refuted :
    accept E0 (.dot (.name 40) 6) = .ok (.mem (some (.var 0 2)) ⟨21, .field, 6, 9, true, true, 0⟩) ∧
    ¬ Means E0 (.dot (.name 40) 6) (.mem (some (.var 0 2)) ⟨21, .field, 6, 9, true, true, 0⟩) := by
  refine ⟨rfl, ?_⟩
  intro h
  cases h with
  | dot _ _ _ _ hf => cases hf

end Verif.Member.Props
