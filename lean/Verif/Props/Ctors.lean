import Verif.Proof.Ctors

/-!
# C115: constructors and initial values

`new` constructs the object as `Spec.Made` says: the base class's part first, then the initial values of the fields in the order of
declaration, then the body, each once, for every class from the root to the class of the object.  The full property is that this
holds for every program whose constructors fit the arguments, and that `new` with arguments for which the class has no constructor is
rejected.  It does not hold: a constructor of a base class is used when the class itself has none for the arguments
(`inherited_refuted`), a program with an initial value that is not constant is rejected (`value_refuted`), and the initial value 0 is
not assigned when the constructor of the base class has already changed the field (`zero_refuted`).
-/

namespace Verif.Ctors

open Spec

/-- `class A { int x = 3; A(int n) { x = x + n; print(1) } }  class B : A { int y = 5; int z = 0; B(int n, int m) : base(m) {
y = y + n; print(2) } B() : base(9) { } }  class D : B { int w = 4; }`. -/
def sample : Prog :=
  [{ fields := [some (.const 3)],
     ctors := [{ params := 1, body := fun as o => { o.set 0 0 (o.flds 0 0 + as.headD 0) with out := o.out ++ [1] } }] },
   { base := some 0, fields := [some (.const 5), some (.const 0)],
     ctors := [{ params := 2, base := some [fun as _ => as.getD 1 0],
                 body := fun as o => { o.set 1 0 (o.flds 1 0 + as.headD 0) with out := o.out ++ [2] } },
               { params := 0, base := some [fun _ _ => 9] }] },
   { base := some 1, fields := [none, some (.const 4)] }]

/-- **C115.**  When initial values are constant, every `: base` fits a constructor of the base class itself, and bodies assign only
fields of their own class and its base classes, then `new` with arguments for a constructor of the class yields exactly the object
that construction from the root down yields. -/
theorem construct_partial {P : Prog} (hB : BaseOk P) (hd : Distinct P) (hk : Constant P) (ho : OwnBase P) (hl : Local P) {c : Nat}
    {C : Class} {K : Ctor} {args : List Int} (hc : P[c]? = some C) (hK : IsCtor C args.length K) :
    ∃ o, new P c args = some o ∧ ∀ o', Made P c args {} o' ↔ o' = o := by
  obtain ⟨k, h1, h2⟩ := own_of (hd c C hc) hK
  have hlen : c < P.length := (List.getElem?_eq_some_iff.1 hc).1
  obtain ⟨o, hr, hm, _⟩ := run_made hB hd hk ho hl (P.length + 1) c k C K args {} (by omega) hc h2 hK fun _ _ _ => rfl
  refine ⟨o, ?_, fun o' => ⟨fun h => made_unique hd h hm, fun h => h ▸ hm⟩⟩
  unfold new
  rw [if_pos (compiles_ok hd hk ho), find_own hc h1]
  exact hr

/-- **C115.**  In such a program, a field that no body assigns has, in a new object, the initial value that is written for it, and 0
when there is none, in whichever class of the chain it is declared. -/
theorem initialised_partial {P : Prog} (hB : BaseOk P) (hd : Distinct P) (hk : Constant P) (ho : OwnBase P) (hl : Local P) {c : Nat}
    {C : Class} {K : Ctor} {args : List Int} (hc : P[c]? = some C) (hK : IsCtor C args.length K) {a i : Nat} {A : Class}
    (ha : Above P c a) (hA : P[a]? = some A) (hkeep : Keeps P a i) :
    ∃ o, new P c args = some o ∧ o.flds a i = match A.fields[i]? with | some (some (.const v)) => v | _ => 0 := by
  obtain ⟨o, h1, h2⟩ := construct_partial hB hd hk ho hl hc hK
  exact ⟨o, h1, (made_keeps hB hA hkeep ((h2 o).2 rfl)).1 ha⟩

/-- **C115.**  `new` is rejected when neither the class nor a base class has a constructor for the arguments. -/
theorem rejected {P : Prog} {c : Nat} {args : List Int}
    (h : ∀ (a : Nat) (A : Class), Above P c a → P[a]? = some A → ∀ K, ¬ IsCtor A args.length K) : new P c args = none := by
  unfold new findCtor
  rw [find_none _ c h]
  split <;> rfl

/-- **C115.**  No object of any class is made in a program in which a class has an initial value that is not constant. -/
theorem value_needed {P : Prog} {c : Nat} {C : Class} (hc : P[c]? = some C) (hf : some Init.other ∈ C.fields) (c' : Nat)
    (args : List Int) : new P c' args = none := by
  have hi : ∀ (fs : List (Option Init)) (i : Nat), some Init.other ∈ fs → initFields c i fs = .error .invalidValue := by
    intro fs
    induction fs with
    | nil => intro i h; cases h
    | cons f fs ih =>
      intro i h
      match f with
      | none => exact ih (i + 1) (by simpa using h)
      | some .other => rfl
      | some (.const v) => simp only [initFields]; rw [ih (i + 1) (by simpa using h)]
  have hne : C.all ≠ [] := by
    unfold Class.all
    cases h : C.ctors with
    | nil => simp
    | cons a l => simp
  obtain ⟨K, l, hal⟩ := List.exists_cons_of_ne_nil hne
  have hr : reviseOk P c C K = false := by
    unfold reviseOk revise
    rw [hi C.fields 0 hf]
    cases baseCall P C K <;> rfl
  have : compiles P = false := by
    unfold compiles
    rw [List.all_eq_false]
    refine ⟨c, List.mem_range.2 (List.getElem?_eq_some_iff.1 hc).1, ?_⟩
    simp [hc, hal, hr]
  unfold new
  rw [this]
  rfl

theorem sample_lt {c : Nat} {C : Class} (h : sample[c]? = some C) : c < 3 := (List.getElem?_eq_some_iff.1 h).1

/-- The classes of the sample satisfy the hypotheses. -/
theorem sample_base : BaseOk sample := by
  intro c C b hc hb
  match c, hc with
  | 0, hc => cases hc; cases hb
  | 1, hc => cases hc; cases hb; decide
  | 2, hc => cases hc; cases hb; decide
  | n + 3, hc => exact absurd (sample_lt hc) (by omega)

theorem sample_distinct : Distinct sample := by
  intro c C hc i j K K' hi hj hp
  match c, hc with
  | 0, hc =>
    cases hc
    have := (List.getElem?_eq_some_iff.1 hi).1
    have := (List.getElem?_eq_some_iff.1 hj).1
    simp at *
    omega
  | 1, hc =>
    cases hc
    match i, j, hi, hj with
    | 0, 0, _, _ => rfl
    | 1, 1, _, _ => rfl
    | 0, 1, hi, hj => cases hi; cases hj; cases hp
    | 1, 0, hi, hj => cases hi; cases hj; cases hp
    | i + 2, _, hi, _ => have := (List.getElem?_eq_some_iff.1 hi).1; simp at this; omega
    | _, j + 2, _, hj => have := (List.getElem?_eq_some_iff.1 hj).1; simp at this; omega
  | 2, hc => cases hc; cases hi
  | n + 3, hc => exact absurd (sample_lt hc) (by omega)

theorem sample_constant : Constant sample := by
  intro c C hc f hf x hx
  match c, hc with
  | 0, hc => cases hc; simp at hf; subst hf; cases hx; exact ⟨_, rfl⟩
  | 1, hc => cases hc; simp at hf; rcases hf with rfl | rfl <;> cases hx <;> exact ⟨_, rfl⟩
  | 2, hc => cases hc; simp at hf; rcases hf with rfl | rfl <;> cases hx; exact ⟨_, rfl⟩
  | n + 3, hc => exact absurd (sample_lt hc) (by omega)

theorem sample_own : OwnBase sample := by
  intro c C n K hc hK
  match c, hc with
  | 0, hc =>
    cases hc
    rcases hK with ⟨hm, _⟩ | ⟨he, _⟩
    · simp at hm; subst hm; rfl
    · cases he
  | 1, hc =>
    cases hc
    rcases hK with ⟨hm, _⟩ | ⟨he, _⟩
    · simp at hm
      rcases hm with rfl | rfl <;> exact ⟨_, _, rfl, .inl ⟨List.mem_cons_self, rfl⟩⟩
    · cases he
  | 2, hc =>
    cases hc
    rcases hK with ⟨hm, _⟩ | ⟨_, _, rfl⟩
    · cases hm
    · exact ⟨_, _, rfl, .inl ⟨List.mem_cons_of_mem _ List.mem_cons_self, rfl⟩⟩
  | n + 3, hc => exact absurd (sample_lt hc) (by omega)

theorem sample_local : Local sample := by
  intro c C n K hc hK a ha args o i
  match c, hc with
  | 0, hc =>
    cases hc
    rcases hK with ⟨hm, _⟩ | ⟨he, _⟩
    · simp at hm; subst hm
      exact set_other fun h => ha (h.1 ▸ .self _)
    · cases he
  | 1, hc =>
    cases hc
    rcases hK with ⟨hm, _⟩ | ⟨he, _⟩
    · simp at hm
      rcases hm with rfl | rfl
      · exact set_other fun h => ha (h.1 ▸ .self _)
      · rfl
    · cases he
  | 2, hc =>
    cases hc
    rcases hK with ⟨hm, _⟩ | ⟨_, _, rfl⟩
    · cases hm
    · rfl
  | n + 3, hc => exact absurd (sample_lt hc) (by omega)

/-- Non-vacuity: `new B(7, 2)` of the sample. -/
example : ∃ o, new sample 1 [7, 2] = some o ∧ o.flds 0 0 = 5 ∧ o.flds 1 0 = 12 ∧ o.out = [1, 2] ∧ Made sample 1 [7, 2] {} o := by
  obtain ⟨o, h1, h2⟩ := construct_partial sample_base sample_distinct sample_constant sample_own sample_local (c := 1)
    (args := [7, 2]) rfl (.inl ⟨List.mem_cons_self, rfl⟩)
  have hm := (h2 o).2 rfl
  cases h1
  exact ⟨_, rfl, by decide, by decide, by decide, hm⟩

/-- Non-vacuity: `new D()` runs the constructor that is added and the one without parameters of `B`; `w` is 4. -/
example : ∃ o, new sample 2 [] = some o ∧ o.flds 0 0 = 12 ∧ o.flds 1 0 = 5 ∧ o.flds 2 1 = 4 ∧ o.out = [1] :=
  ⟨_, rfl, by decide, by decide, by decide, by decide⟩

/-- Non-vacuity: no body of the sample assigns the second field of `D`. -/
example : ∃ o, new sample 2 [] = some o ∧ o.flds 2 1 = 4 :=
  initialised_partial sample_base sample_distinct sample_constant sample_own sample_local (c := 2) (args := []) rfl
    (.inr ⟨rfl, rfl, rfl⟩) (.self 2) rfl (by
      intro c C n K hc hK args o
      match c, hc with
      | 0, hc =>
        cases hc
        rcases hK with ⟨hm, _⟩ | ⟨he, _⟩
        · simp at hm; subst hm; simp [Obj.set]
        · cases he
      | 1, hc =>
        cases hc
        rcases hK with ⟨hm, _⟩ | ⟨he, _⟩
        · simp at hm
          rcases hm with rfl | rfl
          · simp [Obj.set]
          · rfl
        · cases he
      | 2, hc =>
        cases hc
        rcases hK with ⟨hm, _⟩ | ⟨_, _, rfl⟩
        · cases hm
        · rfl
      | n + 3, hc => exact absurd (sample_lt hc) (by omega))

/-- Non-vacuity: no class of the sample has a constructor with four parameters. -/
example : new sample 2 [1, 2, 3, 4] = none := rfl

/-- **C115 refuted.**  `class D : B { int w = 4; }` has no constructor with two parameters, but `new D(7, 2)` is accepted: the
constructor of `B` runs on the new object, and `w` does not get its initial value. -/
theorem inherited_refuted : ∃ o, new sample 2 [7, 2] = some o ∧ o.flds 2 1 = 0 ∧ o.out = [1, 2] ∧
    ∀ o', ¬ Made sample 2 [7, 2] {} o' := by
  refine ⟨_, rfl, by decide, by decide, ?_⟩
  intro o' h
  have : ∀ K C, sample[2]? = some C → ¬ IsCtor C 2 K := by
    intro K C hc hK
    cases hc
    rcases hK with ⟨hm, _⟩ | ⟨_, h0, _⟩
    · cases hm
    · cases h0
  cases h with
  | root hc hk _ _ => exact this _ _ hc hk
  | derived hc hk _ _ => exact this _ _ hc hk

/-- **C115 refuted.**  `class A { object x = new object(); }`: an initial value that is not constant makes every `new` of the program
fail. -/
theorem value_refuted : ∃ P : Prog, BaseOk P ∧ Distinct P ∧ OwnBase P ∧ Local P ∧ (∃ C, P[0]? = some C ∧ ∃ K, IsCtor C 0 K) ∧
    ∀ c args, new P c args = none := by
  have hlt : ∀ {c : Nat} {C : Class}, ([{ fields := [some Init.other] }] : Prog)[c]? = some C → c = 0 := by
    intro c C h
    have : c < 1 := (List.getElem?_eq_some_iff.1 h).1
    omega
  refine ⟨[{ fields := [some .other] }], ?_, ?_, ?_, ?_, ⟨_, rfl, _, .inr ⟨rfl, rfl, rfl⟩⟩,
    value_needed (c := 0) rfl List.mem_cons_self⟩
  · intro c C b hc hb
    cases hlt hc
    cases hc
    cases hb
  · intro c C hc i j K K' hi
    cases hlt hc
    cases hc
    cases hi
  · intro c C n K hc hK
    cases hlt hc
    cases hc
    rcases hK with ⟨hm, _⟩ | ⟨_, _, rfl⟩
    · cases hm
    · rfl
  · intro c C n K hc hK a ha args o i
    cases hlt hc
    cases hc
    rcases hK with ⟨hm, _⟩ | ⟨_, _, rfl⟩
    · cases hm
    · rfl

/-- `class A { A() { set(); } virtual void set() { } }  class B : A { int x = 0; int y = 1; override void set() { x = 7; y = 7; } }`: the
body of `A()` for an object of class `B`. -/
def virtualSample : Prog :=
  [{ ctors := [{ params := 0, body := fun _ o => (o.set 1 0 7).set 1 1 7 }] },
   { base := some 0, fields := [some (.const 0), some (.const 1)] }]

/-- **C115 refuted.**  When the constructor of the base class changes fields of the derived class, through a virtual method, the
initial value 1 is assigned afterwards and the initial value 0 is not. -/
theorem zero_refuted : ∃ o o', new virtualSample 1 [] = some o ∧ Made virtualSample 1 [] {} o' ∧ o.flds 1 1 = 1 ∧ o'.flds 1 1 = 1 ∧
    o.flds 1 0 = 7 ∧ o'.flds 1 0 = 0 :=
  ⟨_, _, rfl, .derived (C := { base := some 0, fields := [some (.const 0), some (.const 1)] }) (K := { params := 0 }) rfl
    (.inr ⟨rfl, rfl, rfl⟩) rfl
    (.root (K := { params := 0, body := fun _ o => (o.set 1 0 7).set 1 1 7 }) rfl (.inl ⟨List.mem_cons_self, rfl⟩) rfl rfl),
    by decide, by decide, by decide, by decide⟩

end Verif.Ctors
