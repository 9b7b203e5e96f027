import Verif.Spec.Vcall

/-!
# C124 — a method that is called through a virtual table runs with the types of its class

`c args` is the type of the object, `m` the method of a base class `m.owner`, or of `c` itself, that its table has; as an object of that class it has the
arguments `as`.
-/

namespace Verif.Vcall

/-- Classes 0 `Object` and 1 `Box<T>` in assembly 0; 2 `class D<T> : Box<string>`, 3 `class E : Box<int>`, 4 `class F<T> : Box<T>`,
5 `class L<U> : Object` in assembly 0 and 6 `class M<T> : Object` in assembly 1; 7 `string`, 8 `int`; 9 `class P : Object`.  The name of row 0 is
`T`, and of row 1 `U`. -/
def sample : World where
  cls n := match n with
    | 1 => { assembly := 0, params := [0], base := some (0, []) }
    | 2 => { assembly := 0, params := [0], base := some (1, [.inst 7 []]) }
    | 3 => { assembly := 0, base := some (1, [.inst 8 []]) }
    | 4 => { assembly := 0, params := [0], base := some (1, [.param 0]) }
    | 5 => { assembly := 0, params := [1], base := some (0, []) }
    | 6 => { assembly := 1, params := [0], base := some (0, []) }
    | 9 => { assembly := 0, base := some (0, []) }
    | _ => { assembly := 0 }
  name _ row := row

/-- **C124 (partial).**  On an object of a class that is not generic, a method of a class that is not generic runs with what is right. -/
theorem plain_partial (W : World) (c : Nat) (args as : List Ty) (m : Method) (hc : W.generic c = false) (ho : W.generic m.owner = false)
    (hm : m.params = []) : ∃ f, entry W c args m = some f ∧ Right W m as [] f := by
  refine ⟨⟨(W.cls m.owner).assembly, m.body, fun _ => none⟩, by rw [entry, hc, ho]; rfl, rfl, rfl, ?_, ?_⟩
  · intro n hn; simp [methodNames, hm] at hn
  · intro n hn
    have : (W.cls m.owner).params = [] := by
      simpa [World.generic] using ho
    simp [names, this] at hn

example : Has sample 9 [] 0 [] ∧ sample.generic 9 = false ∧ sample.generic 0 = false :=
  ⟨.base (bargs := []) rfl rfl .self, rfl, rfl⟩

/-- **C124 (partial).**  On an object of a generic class, a method of a class of the same assembly runs with what is right exactly when the
type parameters of the two classes that have the same name stand for the same types, and all of the other class have the name of one. -/
theorem generic_partial (W : World) (c : Nat) (args as : List Ty) (m : Method) (hc : W.generic c = true)
    (ha : (W.cls c).assembly = (W.cls m.owner).assembly) (hm : m.params = []) :
    ∃ f, entry W c args m = some f ∧
      (Right W m as [] f ↔ ∀ n ∈ names W m.owner, meaning W c args n = meaning W m.owner as n) := by
  refine ⟨⟨(W.cls c).assembly, m.body, bindings W (W.cls m.owner).assembly (W.cls c).params args⟩,
    by rw [entry, hc, hm]; rfl, ?_⟩
  constructor
  · intro h n hn
    have := h.owner n hn (by simp [methodNames, hm])
    rw [← this]
    simp only [meaning, bindings, ha]
  · intro h
    refine ⟨ha, rfl, fun n hn => by simp [methodNames, hm] at hn, fun n hn _ => ?_⟩
    rw [← h n hn]
    simp only [meaning, bindings, ha]

/-- ... so the methods of the class itself run with what is right, ... -/
theorem own_partial (W : World) (c : Nat) (args : List Ty) (m : Method) (hc : W.generic c = true) (ho : m.owner = c) (hm : m.params = []) :
    ∃ f, entry W c args m = some f ∧ Right W m args [] f := by
  subst ho
  obtain ⟨f, h1, h2⟩ := generic_partial W m.owner args args m hc rfl hm
  exact ⟨f, h1, h2.2 fun _ _ => rfl⟩

/-- ... and those of a base class that is not generic and of the same assembly. -/
theorem inherited_partial (W : World) (c : Nat) (args as : List Ty) (m : Method) (hc : W.generic c = true)
    (ho : W.generic m.owner = false) (ha : (W.cls c).assembly = (W.cls m.owner).assembly) (hm : m.params = []) :
    ∃ f, entry W c args m = some f ∧ Right W m as [] f := by
  obtain ⟨f, h1, h2⟩ := generic_partial W c args as m hc ha hm
  refine ⟨f, h1, h2.2 fun n hn => ?_⟩
  have : (W.cls m.owner).params = [] := by simpa [World.generic] using ho
  simp [names, this] at hn

example : Has sample 5 [.inst 8 []] 0 [] ∧ sample.generic 5 = true ∧ sample.generic 0 = false :=
  ⟨.base (bargs := []) rfl rfl .self, rfl, rfl⟩

/-- With `class F<T> : Box<T>` the methods of `Box` run with what is right. -/
example : Has sample 4 [.inst 8 []] 1 [.inst 8 []] ∧
    ∀ n ∈ names sample 1, meaning sample 4 [.inst 8 []] n = meaning sample 1 [.inst 8 []] n :=
  ⟨.base (bargs := [.param 0]) rfl rfl .self, fun _ _ => rfl⟩

/-- On an object of a class that is not generic and is derived from a generic class, no virtual method of that class can run. -/
theorem generic_base_refuted (W : World) (c : Nat) (args : List Ty) (m : Method) (hc : W.generic c = false)
    (ho : W.generic m.owner = true) : entry W c args m = none := by
  rw [entry, hc, ho]; rfl

example : Has sample 3 [] 1 [.inst 8 []] ∧ sample.generic 3 = false ∧ sample.generic 1 = true :=
  ⟨.base (bargs := [.inst 8 []]) rfl rfl .self, rfl, rfl⟩

/-- With `class D<T> : Box<string>`, on an object of `D<int>` a method of `Box` runs with `int` for its type parameter. -/
theorem wrong_type_refuted : ∃ (as : List Ty) (f : Frame), Has sample 2 [.inst 8 []] 1 as ∧
    entry sample 2 [.inst 8 []] ⟨1, 5, []⟩ = some f ∧ meaning sample 1 as 0 = some (.inst 7 []) ∧ f.env 0 = some (.inst 8 []) ∧
    ¬ Right sample ⟨1, 5, []⟩ as [] f := by
  refine ⟨[.inst 7 []], _, .base (bargs := [.inst 7 []]) rfl rfl .self, rfl, rfl, rfl, fun h => ?_⟩
  have := h.owner 0 (by decide) (by decide)
  rw [show meaning sample 1 [.inst 7 []] 0 = some (.inst 7 []) from rfl] at this
  injection this with this
  injection this with this
  cases this

/-- On an object of a generic class, a method of a class of another assembly — `ToString` of `Object`, for every generic class of a
program — runs with the code that is at the same place in the assembly of the object's class. -/
theorem assembly_refuted (W : World) (c : Nat) (args as : List Ty) (m : Method) (hc : W.generic c = true)
    (ha : (W.cls c).assembly ≠ (W.cls m.owner).assembly) (hm : m.params = []) :
    ∃ f, entry W c args m = some f ∧ f.assembly = (W.cls c).assembly ∧ f.offset = m.body ∧ ¬ Right W m as [] f := by
  refine ⟨⟨(W.cls c).assembly, m.body, bindings W (W.cls m.owner).assembly (W.cls c).params args⟩,
    by rw [entry, hc, hm]; rfl, rfl, rfl, fun h => ha h.assembly⟩

example : Has sample 6 [.inst 8 []] 0 [] ∧ sample.generic 6 = true ∧ (sample.cls 6).assembly ≠ (sample.cls 0).assembly :=
  ⟨.base (bargs := []) rfl rfl .self, rfl, by decide⟩

/-- The type arguments of a call of a virtual method that has type parameters do not get to it. -/
theorem generic_method_refuted (W : World) (c : Nat) (args as : List Ty) (m : Method) (margs : List Ty) (hm : m.params ≠ [])
    (hl : m.params.length = margs.length) : ∀ f, entry W c args m = some f → ¬ Right W m as margs f := by
  intro f hf h
  rw [entry] at hf
  split at hf
  · rw [if_neg (by cases hp : m.params with | nil => exact absurd hp hm | cons _ _ => simp)] at hf
    cases hf
  · split at hf
    · cases hf
    · cases hf
      obtain ⟨r, rs, hr⟩ := List.exists_cons_of_ne_nil hm
      obtain ⟨t, ts, ht⟩ : ∃ t ts, margs = t :: ts := by
        cases margs with
        | nil => rw [hr] at hl; cases hl
        | cons t ts => exact ⟨t, ts, rfl⟩
      have := h.method (W.name (W.cls m.owner).assembly r) (by simp [methodNames, hr])
      simp [methodNames, hr, ht] at this

example : ∃ f, entry sample 9 [] ⟨0, 5, [1]⟩ = some f := ⟨_, rfl⟩

end Verif.Vcall
