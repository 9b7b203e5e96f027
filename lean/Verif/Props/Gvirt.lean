import Verif.Proof.Gvirt

/-! # C130: virtual methods of generic classes -/

namespace Verif.Gvirt

/-- **C130**.  A call of a virtual method runs the method with its prototype of the class nearest to the class of the object, whatever classes
of the hierarchy are generic and whatever the type arguments are - when no method of the classes mentions a type parameter in its prototype
and the class of the called method gives its base class no type parameter.  (Missing, and false: the refutations below.) -/
theorem call_partial (caller : Option Env) (args : List Ty) (ds : List Class) (c : Class) (bases : List Class)
    (ho : ∀ x ∈ ds ++ c :: bases, Ordered x) (ht : Tidy (ds ++ c :: bases))
    (hp : ∀ x ∈ ds ++ c :: bases, ∀ m ∈ x.methods, m.Plain) (hb : ∀ t ∈ c.baseArgs, t.Closed)
    (i : Nat) (m : Method) (hi : c.methods[i]? = some m) (hv : m.virt = true) :
    ∃ e, call caller (c :: bases) i args (ds ++ c :: bases) = .ok e ∧ nearest m.key (ds ++ c :: bases) = some e := by
  refine call_sound caller args ds (k := i + virtualCount bases) ho ht hp hi ?_
  rw [offset, hi]
  simp only [hv, if_true, baseKnown_closed hb]

/-- The same for the call of a method that is itself an override, when in addition none of the base classes of its class is generic. -/
theorem call_override_partial (caller : Option Env) (args : List Ty) (ds : List Class) (c : Class) (bases : List Class)
    (ho : ∀ x ∈ ds ++ c :: bases, Ordered x) (ht : Tidy (ds ++ c :: bases))
    (hp : ∀ x ∈ ds ++ c :: bases, ∀ m ∈ x.methods, m.Plain) (hb : ∀ t ∈ c.baseArgs, t.Closed)
    (hg : ∀ x ∈ bases, x.generic = false)
    (i : Nat) (m : Method) (hi : c.methods[i]? = some m) (hv : m.over = true) :
    ∃ e, call caller (c :: bases) i args (ds ++ c :: bases) = .ok e ∧ nearest m.key (ds ++ c :: bases) = some e := by
  have ht' := tidy_suffix ds ht
  have hmem := List.mem_of_getElem? hi
  have hp' : ∀ x ∈ bases, ∀ m ∈ x.methods, m.Plain := fun x hx => hp x (List.mem_append_right _ (List.mem_cons_of_mem _ hx))
  have hnv : m.virt = false := by
    cases h : m.virt with
    | false => rfl
    | true => have := ht'.2.1 m hmem h; rw [hv] at this; cases this
  obtain ⟨b, hb', m', hm', hv', hk⟩ := ht'.2.2.2.1 m hmem hv
  obtain ⟨k, hk⟩ := searchOffset_total caller hg ht'.2.2.2.2 hp' (hk ▸ slots_of_declared hb' hm' hv')
  refine call_sound caller args ds (k := k) ho ht hp hi ?_
  rw [offset, hi]
  simp only [hnv, hv, if_true, Bool.false_eq_true, if_false, baseKnown_closed hb,
    getPrototype_plain caller (hp c (List.mem_append_right _ List.mem_cons_self) m hmem)]
  exact hk

/-- `int`, and the types of `void` methods. -/
def int : Ty := .cls 1
def void : Ty := .cls 0

/-- `class A { virtual void f(int); virtual void g(); }`, `class B<T> : A { virtual void h(); override void f(int); }`,
`class C : B<int> { override void g(); override void h(); }`. -/
def okA : Class := { id := 1, methods := [{ name := 1, ret := void, params := [(0, int)], virt := true }, { name := 2, ret := void, virt := true }] }
def okB : Class := ⟨2, [7], [], [{ name := 3, ret := void, virt := true }, { name := 1, ret := void, params := [(0, int)], over := true }]⟩
def okC : Class := { id := 3, baseArgs := [int], methods := [{ name := 2, ret := void, over := true }, { name := 3, ret := void, over := true }] }

theorem ok_ordered : ∀ x ∈ [okC] ++ okB :: [okA], Ordered x := by
  intro x hx
  simp only [List.cons_append, List.nil_append, List.mem_cons, List.not_mem_nil, or_false] at hx
  rcases hx with rfl | rfl | rfl
  · exact ⟨[], okC.methods, [], by decide, by decide, by decide, by decide⟩
  · exact ⟨okB.methods.take 1, okB.methods.drop 1, [], by decide, by decide, by decide, by decide⟩
  · exact ⟨okA.methods, [], [], by decide, by decide, by decide, by decide⟩
theorem ok_tidy : Tidy ([okC] ++ okB :: [okA]) := by
  simp [Tidy, okA, okB, okC, Method.key]
theorem ok_plain : ∀ x ∈ [okC] ++ okB :: [okA], ∀ m ∈ x.methods, m.Plain := by
  simp [okA, okB, okC, Method.Plain, int, void, Ty.Closed]

/-- The theorems speak of these classes: the call of `h` of `B<int>`, and of `f` of `B<int>`, on an object of class `C`. -/
example : ∃ e, call none (okB :: [okA]) 0 [] ([okC] ++ okB :: [okA]) = .ok e ∧ nearest (3, 0, void, []) ([okC] ++ okB :: [okA]) = some e :=
  call_partial none [] [okC] okB [okA] ok_ordered ok_tidy ok_plain (by simp [okB]) 0 { name := 3, ret := void, virt := true } rfl rfl
example : ∃ e, call none (okB :: [okA]) 1 [] ([okC] ++ okB :: [okA]) = .ok e ∧
    nearest (1, 0, void, [(0, int)]) ([okC] ++ okB :: [okA]) = some e :=
  call_override_partial none [] [okC] okB [okA] ok_ordered ok_tidy ok_plain (by simp [okB]) (by simp [okA, Class.generic]) 1
    { name := 1, ret := void, params := [(0, int)], over := true } rfl rfl
example : call none (okB :: [okA]) 0 [] [okC, okB, okA] = .ok ⟨3, 1, { name := 3, ret := void, over := true }⟩ := by decide
example : call none (okB :: [okA]) 1 [] [okC, okB, okA] =
    .ok ⟨2, 1, { name := 1, ret := void, params := [(0, int)], over := true }⟩ := by decide

/-- `class Base<T> { virtual R f(T); }`. -/
def baseT (f T : Nat) (R : Ty) : Class := { id := 1, typeParams := [T], methods := [{ name := f, ret := R, params := [(0, .param T)], virt := true }] }

/-- **C130 refuted** when the prototype mentions a type parameter: `class Sub : Base<X> { override R f(X); }` overrides the method - with `T`
replaced by `X` the prototypes are the same - but when the table of `Sub` is made, the null pointer is used.  So no object of `Sub` can be
made, for any names and types. -/
theorem type_parameter_refuted (f T : Nat) (R X : Ty) (hR : R.Closed) (hX : X.Closed) (args : List Ty) :
    let m : Method := { name := f, ret := R, params := [(0, X)], over := true }
    let sub : Class := { id := 2, baseArgs := [X], methods := [m] }
    (∀ m' ∈ (baseT f T R).methods, keyAt (baseT f T R) [X] m' = m.key) ∧ table args [sub, baseT f T R] = .crash := by
  have closed : ∀ (g : Nat → Ty) (t : Ty), t.Closed → t.replace g = t := by
    intro g t
    induction t with
    | param n => intro h; exact h.elim
    | cls n => intro _; rfl
    | app a b ha hb => intro h; rw [Ty.replace, ha h.1, hb h.2]
  refine ⟨?_, ?_⟩
  · intro m' hm'
    rw [baseT, List.mem_singleton] at hm'
    subst hm'
    simp [keyAt, baseT, Method.key, closed _ R hR, Ty.replace, List.lookup]
  · simp [table, vfunctions, managerOf, Class.generic, baseT, addMethods, getPrototype, protoParams,
      getType_closed none hR, getType_closed none hX, replaceFirst, compareTo, compareParams, getType, Class.entry]

/-- The same for `class Sub<U> : Base<U> { override R f(U); }`, and an object of `Sub<X>`. -/
theorem type_parameter_generic_refuted (f T U : Nat) (R X : Ty) (hR : R.Closed) :
    let m : Method := { name := f, ret := R, params := [(0, .param U)], over := true }
    let sub : Class := { id := 2, typeParams := [U], baseArgs := [.param U], methods := [m] }
    table [X] [sub, baseT f T R] = .crash := by
  simp [table, vfunctions, managerOf, Class.generic, baseT, addMethods, getPrototype, protoParams,
      getType_closed _ hR, replaceFirst, compareTo, compareParams, getType, Class.entry, List.lookup]

/-- `class Base { virtual void f(int); }`, `class Mid<T> : Base { override void f(T); }` and `class Last : Mid<int> { }`. -/
def exBase : Class := { id := 1, methods := [{ name := 1, ret := void, params := [(0, int)], virt := true }] }
def exMid : Class := { id := 2, typeParams := [7], methods := [{ name := 1, ret := void, params := [(0, .param 7)], over := true }] }
def exLast : Class := { id := 3, baseArgs := [int], methods := [] }

/-- **C130 refuted** below a generic class: objects of `Mid<int>` can be made and run the override, but not objects of `Last`, which has nothing
of its own. -/
theorem below_generic_refuted :
    call none [exBase] 0 [int] [exMid, exBase] = .ok ⟨2, 0, { name := 1, ret := void, params := [(0, .param 7)], over := true }⟩ ∧
    table [] [exLast, exMid, exBase] = .crash := by decide

/-- **C130 refuted** for generic methods: `class A { virtual T f<T>(T); }`, `class B : A { override T f<T>(T); }`.  No object of `B` can be made. -/
theorem generic_method_refuted (f T : Nat) (args : List Ty) :
    let a : Class := { id := 1, methods := [{ name := f, typeParams := 1, ret := .param T, params := [(0, .param T)], virt := true }] }
    let b : Class := { id := 2, methods := [{ name := f, typeParams := 1, ret := .param T, params := [(0, .param T)], over := true }] }
    (∃ v, table args [a] = .ok v) ∧ table args [b, a] = .crash := by
  refine ⟨⟨_, rfl⟩, ?_⟩
  simp [table, vfunctions, managerOf, Class.generic, addMethods, getPrototype, protoParams, getType]

/-- **C130 refuted** for calls of an override whose overridden method is in a generic class: its place is not found, whatever the types, the
object and the caller are. -/
theorem generic_base_refuted (caller : Option Env) (c : Class) (bases : List Class) (hg : ∀ b ∈ bases, b.generic = true)
    (hb : ∀ t ∈ c.baseArgs, t.Closed) (i : Nat) (m : Method) (hi : c.methods[i]? = some m) (hp : m.Plain)
    (hv : m.virt = false) (ho : m.over = true) (args : List Ty) (ds : List Class) (v : List Entry)
    (ht : table args (ds ++ c :: bases) = .ok v) :
    call caller (c :: bases) i args (ds ++ c :: bases) = .notFound := by
  have h : offset caller (c :: bases) i = .notFound := by
    rw [offset, hi]
    simp only [hv, ho, Bool.false_eq_true, if_false, if_true, getPrototype_plain caller hp, baseKnown_closed hb]
    exact searchOffset_generic caller _ hg
  rw [call, ht, h]

/-- `class G<T> { virtual void f(); }` and `class H : G<int> { override void f(); }`. -/
def exG : Class := { id := 1, typeParams := [7], methods := [{ name := 1, ret := void, virt := true }] }
def exH : Class := { id := 2, baseArgs := [int], methods := [{ name := 1, ret := void, over := true }] }

/-- The objects can be made, and a call of `f` of `G<int>` runs the override; the call of `f` of `H` is an exception. -/
example : call none [exG] 0 [] [exH, exG] = .ok ⟨2, 0, { name := 1, ret := void, over := true }⟩ ∧
    call none [exH, exG] 0 [] [exH, exG] = .notFound := by decide
example : call none [exH, exG] 0 [] ([] ++ [exH, exG]) = .notFound :=
  generic_base_refuted none exH [exG] (by decide) (by simp [exH, int, Ty.Closed]) 0 { name := 1, ret := void, over := true } rfl
    (by simp [Method.Plain, void, Ty.Closed]) rfl rfl [] []
    [⟨2, 0, { name := 1, ret := void, over := true }⟩] (by decide)

/-- **C130 refuted** for classes that hand their type parameter on: `class K<T> : G<T> { virtual void k(); }`.  Objects of `K<int>` can be made,
with a place for `k`, but whoever calls `k` uses the null pointer. -/
theorem open_base_refuted (caller : Option Env) (X : Ty) :
    let k : Class := { id := 2, typeParams := [7], baseArgs := [.param 7], methods := [{ name := 2, ret := void, virt := true }] }
    (∃ v e, table [X] [k, exG] = .ok v ∧ nearest (2, 0, void, []) [k, exG] = some e ∧ e ∈ v) ∧
    call caller [k, exG] 0 [X] [k, exG] = .crash := by
  refine ⟨⟨_, _, rfl, rfl, ?_⟩, rfl⟩
  simp [Class.entry]

end Verif.Gvirt
