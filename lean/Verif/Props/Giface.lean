import Verif.Proof.Giface

/-! # C131: classes that implement generic interfaces -/

namespace Verif.Giface

open Verif.Gvirt

theorem overrideLoop_none {k : Key} {x : Entry} : ∀ {ds : List Link}, (∀ l ∈ ds, ∀ m ∈ l.1.methods, m.name ≠ k.1) →
    overrideLoop (protoAt k) x ds = .ok x
  | [], _ => rfl
  | (d, a) :: ds, h => by
    have hs : ∀ (ms : List Method) (i : Nat), (∀ m ∈ ms, m.name ≠ k.1) → searchOverride (protoAt k) d i ms = .ok none := by
      intro ms
      induction ms with
      | nil => intro i _; rfl
      | cons m ms ih =>
        intro i hm
        have : compareTo none m (protoAt k) = some false := by
          rw [compareTo]
          exact if_pos (hm m List.mem_cons_self)
        rw [searchOverride, this]
        exact ih (i + 1) (fun x hx => hm x (List.mem_cons_of_mem _ hx))
    rw [overrideLoop, hs d.methods 0 (h (d, a) List.mem_cons_self)]

/-- **C131**.  A call of a method of an interface with type arguments runs the method that implements it: that of the nearest class, starting at
the one that has the interface and going up, whose prototype is that of the interface's method after all type parameters are replaced - for all
interfaces, classes and type arguments, when each type parameter that a method of the classes mentions has one meaning (`Unambiguous`) and no
class below has a method of this name.  (Missing, and false: the refutations below.) -/
theorem implementation_partial (iface : Link) (m : Method) (ds chain : List Link) (object : Link) (rest : List Link)
    (ho : ds ++ chain = object :: rest) (hm : ∀ n, Mentions m n → meaning iface n ≠ none)
    (hu : Unambiguous iface object chain) (hd : Distinct chain) (hn : ∀ l ∈ ds, ∀ m' ∈ l.1.methods, m'.name ≠ m.name)
    (x : Entry) (hx : implements (keyAt iface.1 iface.2 m) chain = some x) :
    implementation iface m ds chain = .ok x := by
  rw [implementation, ho]
  simp only [interface_prototype hm, buildInterface_spec _ hu hd, hx]
  by_cases hv : x.method.virt = true
  · rw [if_pos hv]
    exact overrideLoop_none hn
  · rw [if_neg hv]

/-- When no class has such a method, the exception is thrown. -/
theorem missing_refused (iface : Link) (m : Method) (ds chain : List Link) (object : Link) (rest : List Link)
    (ho : ds ++ chain = object :: rest) (hm : ∀ n, Mentions m n → meaning iface n ≠ none)
    (hu : Unambiguous iface object chain) (hd : Distinct chain)
    (hx : implements (keyAt iface.1 iface.2 m) chain = none) :
    implementation iface m ds chain = .notFound := by
  rw [implementation, ho]
  simp only [interface_prototype hm, buildInterface_spec _ hu hd, hx]

/-- A class of objects that overrides the implementing method, without type parameters in the prototypes of its methods: the override runs. -/
theorem override_partial (iface : Link) (m : Method) (object : Link) (ds chain : List Link)
    (hm : ∀ n, Mentions m n → meaning iface n ≠ none)
    (hu : Unambiguous iface object chain) (hd : Distinct chain) (hp : ∀ m' ∈ object.1.methods, m'.Plain)
    (hk : (object.1.methods.map (·.key)).Nodup)
    (x : Entry) (hx : implements (keyAt iface.1 iface.2 m) chain = some x) (hv : x.method.virt = true)
    (i : Nat) (m' : Method) (hi : object.1.methods[i]? = some m') (ho : m'.over = true) (he : m'.key = keyAt iface.1 iface.2 m) :
    implementation iface m (object :: ds) chain = .ok ⟨object.1.id, i, m'⟩ := by
  have hs : ∀ (ms : List Method) (j i : Nat), (∀ y ∈ ms, y.Plain) → (ms.map (·.key)).Nodup → ms[i]? = some m' →
      searchOverride (protoOf m') object.1 j ms = .ok (some (some (object.1.entry (j + i) m'))) := by
    intro ms
    induction ms with
    | nil => intro j i _ _ h; cases h
    | cons y ms ih =>
      intro j i hpl hnd h
      rw [List.map_cons, List.nodup_cons] at hnd
      rw [searchOverride, compare_plain none (hpl y List.mem_cons_self)]
      cases i with
      | zero =>
        cases h
        simp [ho]
      | succ i =>
        have h' : ms[i]? = some m' := by simpa using h
        have hne : y.key ≠ m'.key := fun e => hnd.1 (e ▸ List.mem_map.mpr ⟨m', List.mem_of_getElem? h', rfl⟩)
        simp only [hne, decide_false]
        rw [ih (j + 1) i (fun z hz => hpl z (List.mem_cons_of_mem _ hz)) hnd.2 h']
        congr 4
        omega
  rw [implementation, List.cons_append]
  simp only [interface_prototype hm, buildInterface_spec _ hu hd, hx, hv, if_true]
  have hpr : protoAt (keyAt iface.1 iface.2 m) = protoOf m' := by rw [← he]; rfl
  obtain ⟨d, a⟩ := object
  rw [hpr, overrideLoop, hs d.methods 0 i hp hk hi]
  simp [Class.entry]

def int : Ty := .cls 1
def void : Ty := .cls 0
/-- `List<…>`. -/
def list (t : Ty) : Ty := .app (.cls 5) t

/-- `void set(t)`. -/
def set (t : Ty) (virt over : Bool) : Method := { name := 1, ret := void, params := [(0, t)], virt := virt, over := over }
/-- `interface I<T> { void set(T); }`; the name `T` is 7. -/
def exI : Class := { id := 1, typeParams := [7], methods := [set (.param 7) false false] }

/-- `class B { virtual void set(int); }`, `class C<U> : B, I<List<U>> { virtual void set(List<U>); }`; `U` is 8. -/
def exB : Class := { id := 2, methods := [set int true false] }
def exC : Class := { id := 3, typeParams := [8], methods := [set (list (.param 8)) true false] }

/-- The theorem speaks of an object of `C<int>`, used as an `I<List<int>>`. -/
example : implementation (exI, [list int]) (set (.param 7) false false) [] [(exC, [int]), (exB, [])] =
    .ok ⟨3, 0, set (list (.param 8)) true false⟩ :=
  implementation_partial (exI, [list int]) _ [] _ (exC, [int]) [(exB, [])] rfl
    (by simp [Mentions, set, mentions, meaning, exI, void, List.lookup])
    (by simp [Unambiguous, exC, exB, Mentions, set, mentions, meaning, exI, void, int, list, List.lookup])
    (by simp [Distinct, exC, exB]) (by simp) _ (by decide)

/-- And of an object of `C<int>` used as an `I<int>`, which `B` would implement. -/
example : implementation (exI, [int]) (set (.param 7) false false) [] [(exC, [int]), (exB, [])] = .ok ⟨2, 0, set int true false⟩ :=
  implementation_partial (exI, [int]) _ [] _ (exC, [int]) [(exB, [])] rfl
    (by simp [Mentions, set, mentions, meaning, exI, void, List.lookup])
    (by simp [Unambiguous, exC, exB, Mentions, set, mentions, meaning, exI, void, int, list, List.lookup])
    (by simp [Distinct, exC, exB]) (by simp) _ (by decide)

/-- `I<void>` is not implemented. -/
example : implementation (exI, [void]) (set (.param 7) false false) [] [(exC, [int]), (exB, [])] = .notFound :=
  missing_refused (exI, [void]) _ [] _ (exC, [int]) [(exB, [])] rfl
    (by simp [Mentions, set, mentions, meaning, exI, void, List.lookup])
    (by simp [Unambiguous, exC, exB, Mentions, set, mentions, meaning, exI, void, int, list, List.lookup])
    (by simp [Distinct, exC, exB]) (by decide)

/-- `class F : B { override void set(int); }`, where `B` implements `I<int>`. -/
def exF : Class := { id := 6, methods := [set int false true] }
example : implementation (exI, [int]) (set (.param 7) false false) [(exF, [])] [(exB, [])] = .ok ⟨6, 0, set int false true⟩ :=
  override_partial (exI, [int]) _ (exF, []) [] [(exB, [])]
    (by simp [Mentions, set, mentions, meaning, exI, void, List.lookup])
    (by simp [Unambiguous, exB, Mentions, set, mentions, void, int])
    (by simp [Distinct, exB]) (by simp [exF, set, Method.Plain, void, int, Ty.Closed]) (by simp [exF]) ⟨2, 0, set int true false⟩ (by decide) rfl
    0 _ rfl rfl (by decide)

/-- **C131 refuted** when the class has a type parameter with the name of the interface's: `class C<T> : I<int> { void set(int); void set(T); }`.  For
an object of `C<X>`, with any other type `X`, the call of `set` of `I<int>` runs `set(X)`, with an `int`. -/
theorem captured_refuted (X : Ty) (hX : X ≠ int) :
    let c : Class := { id := 2, typeParams := [7], methods := [set int false false, set (.param 7) false false] }
    implementation (exI, [int]) (set (.param 7) false false) [] [(c, [X])] = .ok ⟨2, 1, set (.param 7) false false⟩ ∧
    implements (keyAt exI [int] (set (.param 7) false false)) [(c, [X])] = some ⟨2, 0, set int false false⟩ ∧
    keyAt c [X] (set (.param 7) false false) ≠ keyAt exI [int] (set (.param 7) false false) := by
  refine ⟨rfl, rfl, ?_⟩
  simp [keyAt, set, exI, Ty.replace, List.lookup, hX]

/-- **C131 refuted**: `class C<T> : I<List<T>> { void set(List<T>); }`.  The method is there, but the table cannot be made: no object of `C<X>` can
be made, for any type `X`. -/
theorem nested_refuted (X : Ty) :
    let c : Class := { id := 2, typeParams := [7], methods := [set (list (.param 7)) false false] }
    implementation (exI, [list X]) (set (.param 7) false false) [] [(c, [X])] = .notFound ∧
    implements (keyAt exI [list X] (set (.param 7) false false)) [(c, [X])] = some ⟨2, 0, set (list (.param 7)) false false⟩ := by
  have hne : ∀ t : Ty, list t ≠ t := by
    intro t h
    have := congrArg sizeOf h
    simp [list] at this
  refine ⟨?_, ?_⟩
  · have h1 : ¬ Ty.app (.cls 5) X = X := hne X
    simp [implementation, getPrototype, protoParams, manager, exI, set, getType, buildInterface, searchImpl, compareTo, compareParams, List.lookup,
      list, void, h1]
  · simp [implements, declaredAt, keyAt, set, exI, Ty.replace, List.lookup, list, void]

/-- **C131 refuted** below a generic class: `interface I<T>`, `class C<U> : I<U> { void set(U); }`, `class D : C<X> { }`.  Objects of `C<X>` can be made,
but not objects of `D`, which has nothing of its own - for any type `X`. -/
theorem below_generic_refuted (X : Ty) :
    let c : Class := { id := 2, typeParams := [8], methods := [set (.param 8) false false] }
    let d : Class := { id := 3, baseArgs := [X], methods := [] }
    implementation (exI, [X]) (set (.param 7) false false) [] [(c, [X])] = .ok ⟨2, 0, set (.param 8) false false⟩ ∧
    implementation (exI, [X]) (set (.param 7) false false) [(d, [])] [(c, [X])] = .notFound ∧
    implements (keyAt exI [X] (set (.param 7) false false)) [(c, [X])] = some ⟨2, 0, set (.param 8) false false⟩ := by
  refine ⟨?_, ?_, ?_⟩
  · simp [implementation, getPrototype, protoParams, manager, managerOf, Class.generic, exI, set, getType, buildInterface, searchImpl, compareTo,
      compareParams, List.lookup, void, Class.entry]
  · simp [implementation, getPrototype, protoParams, manager, managerOf, Class.generic, exI, set, getType, buildInterface, searchImpl, compareTo,
      compareParams, List.lookup, void]
  · simp [implements, declaredAt, keyAt, set, exI, Ty.replace, List.lookup, void]

end Verif.Giface
