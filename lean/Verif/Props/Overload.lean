import Verif.Proof.Overload2

/-!
# C78: a call means the method that the rules of overloading say
-/

namespace Verif.Overload

open Verif.Fold (VT)

/-! ## Conversions -/

/-- The test for an implicit conversion accepts exactly: the same type, `null` for a reference type, numeric
widening, and a type that is derived from, over any number of base types. -/
theorem conversions_partial {W : World} (g : W.Good) {a b : Ty} (hp : W.Plain a b) :
    compat W a b = true ↔ Converts W a b := compat_iff g hp

/-- The least value of an integer type. -/
def minInt (v : VT) : Int := if v.signed then -(2 ^ (v.bits - 1) : Nat) else 0
/-- The greatest value of an integer type. -/
def maxInt (v : VT) : Int := if v.signed then (2 ^ (v.bits - 1) : Nat) - 1 else (2 ^ v.bits : Nat) - 1

/-- A widening between integer types keeps every value. -/
theorem widening_keeps_values {a b : VT} (h : Widens a b) (hb : b.isInt = true) (z : Int)
    (hz : minInt a ≤ z ∧ z ≤ maxInt a) : a.isInt = true ∧ minInt b ≤ z ∧ z ≤ maxInt b := by
  have step : ∀ {a b : VT}, WidenStep a b → b.isInt = true →
      a.isInt = true ∧ minInt b ≤ minInt a ∧ maxInt a ≤ maxInt b := by
    intro a b h hb
    cases h <;> first | (exfalso; revert hb; decide) | decide
  have all : ∀ {a b : VT}, Widens a b → b.isInt = true →
      a.isInt = true ∧ minInt b ≤ minInt a ∧ maxInt a ≤ maxInt b := by
    intro a b h
    induction h with
    | one h => exact step h
    | trans h _ ih =>
      intro hc
      have h2 := ih hc
      have h1 := step h h2.1
      exact ⟨h1.1, by omega, by omega⟩
  have := all h hb
  exact ⟨this.1, by omega, by omega⟩

example : Widens .int16 .int64 ∧ VT.isInt .int64 = true ∧ minInt .int16 ≤ -32768 ∧ (-32768 : Int) ≤ maxInt .int16 :=
  ⟨.trans .i16 (.one .i32), by decide, by decide, by decide⟩

/-! ## Calls of methods without type parameters -/

/-- A call on a class: in the class itself, then in its base classes one after the other, the method with exactly
the parameters of the call is taken; if there is none, the only one that is applicable; if there are several, the
call is an error; if there is none, the search goes on.  There is no other outcome. -/
theorem class_call_partial {W : World} (g : W.Good) {name : Nat} {as : List Slot} {t : Ty} {k n : Nat}
    (hi : W.iface t = false) (hh : Height W (some t) k) (hn : k ≤ n)
    (hr : ∀ d, Above W (some t) d → W.Ready as (W.named name d))
    (hg : ∀ d, Above W (some t) d → ∀ m ∈ W.methods d, m.name = name → m.gparams = []) :
    ∃ x, ChosenUp W name as (some t) x ∧ getMember W ⟨name, .normal, none, some as⟩ n t = x.res := by
  cases hh with
  | @step _ k hh =>
  obtain ⟨x, h1, h2⟩ := inType_chosen g (hr t .here)
  have h2 := h2 (Or.inr (hg t .here))
  unfold callQuery at h2
  unfold getMember
  simp only [hi, Bool.false_eq_true, if_false, h2]
  cases x with
  | method m => exact ⟨.method m, .here h1 (by simp), rfl⟩
  | ambiguous => exact ⟨.ambiguous, .here h1 (by simp), rfl⟩
  | nothing =>
    obtain ⟨y, k1, k2⟩ := inBases_chosen (name := name) (as := as) g k n (W.baseOf t) [t] hh (by omega)
      (by
        intro w hw
        have : w = t := by simpa using hw
        subst this
        exact ⟨k + 1, by omega, .step hh⟩)
      (fun d hd => hr d (.up hd)) (fun d hd => hg d (.up hd))
    exact ⟨y, .up h1 k1, k2⟩

/-- The rules have one answer, when no class has two methods with the same name and the same parameters. -/
theorem class_call_unique {W : World} {name : Nat} {as : List Slot} {o : Option Ty}
    (hd : ∀ t, Above W o t → ∀ m ∈ W.named name t, ∀ m' ∈ W.named name t, m.params = m'.params → m = m')
    {x y : Answer} (hx : ChosenUp W name as o x) (hy : ChosenUp W name as o y) : x = y :=
  chosenUp_unique hd hx hy

/-- Methods with type parameters only count when no other method of the class is applicable. -/
theorem generic_methods_last {W : World} (g : W.Good) {name : Nat} {as : List Slot} {t : Ty}
    (hr : W.Ready as (W.named name t)) (ha : ∃ m ∈ W.named name t, Applicable W m as) :
    ∃ x, Chosen W as (W.named name t) x ∧ x ≠ .nothing ∧ inType W ⟨name, .normal, none, some as⟩ t = x.res := by
  obtain ⟨x, h1, h2⟩ := inType_chosen g hr
  have hx : x ≠ .nothing := by
    intro hx
    subst hx
    obtain ⟨m, hm, ha⟩ := ha
    cases h1 with
    | nothing h => exact h m hm ha
  exact ⟨x, h1, hx, h2 (Or.inl hx)⟩

/-- The order in which the methods of the classes are declared does not matter. -/
theorem order_irrelevant_partial {W : World} (g : W.Good) {name : Nat} {as : List Slot} (f : Ty → List Method)
    (hf : ∀ d, (f d).Perm (W.methods d)) (hr : ∀ d, W.Ready as (W.named name d))
    (hg : ∀ d, ∀ m ∈ W.methods d, m.name = name → m.gparams = [])
    (hd : ∀ d, ∀ m ∈ W.named name d, ∀ m' ∈ W.named name d, m.params = m'.params → m = m') (n : Nat) (t : Ty) :
    getMember { W with methods := f } ⟨name, .normal, none, some as⟩ n t =
      getMember W ⟨name, .normal, none, some as⟩ n t := by
  refine getMember_congr (W := W) (W' := { W with methods := f }) rfl rfl rfl ?_ n t
  intro d
  show (analyze { W with methods := f } _ (f d)).result = (analyze W _ (W.methods d)).result
  rw [analyze_methods]
  exact analyze_perm g (hf d) (hr d) (hg d) (hd d)

/-- A call on an interface: what is found is what the rules say in one of the interfaces above it, and nothing is
found only when none of them has an applicable method. -/
theorem interface_call_partial {W : World} (g : W.Good) {name : Nat} {as : List Slot} {t : Ty} {n : Nat} {L : List Ty}
    (hi : W.iface t = true) (ht : t ∈ L) (hL : ∀ x ∈ L, ∀ s ∈ W.supers x, s ∈ L) (hn : L.length < n)
    (hr : ∀ d, Reaches W t d → W.Ready as (W.named name d))
    (hg : ∀ d, Reaches W t d → ∀ m ∈ W.methods d, m.name = name → m.gparams = []) :
    ∃ x : Answer, getMember W ⟨name, .normal, none, some as⟩ n t = x.res ∧
      (x ≠ .nothing → ∃ d, Reaches W t d ∧ Chosen W as (W.named name d) x) ∧
      (x = .nothing → ∀ d, Reaches W t d → Chosen W as (W.named name d) .nothing) := by
  have key : ∀ d, Reaches W t d → ∃ x, Chosen W as (W.named name d) x ∧
      inType W ⟨name, .normal, none, some as⟩ d = x.res := by
    intro d hd
    obtain ⟨x, h1, h2⟩ := inType_chosen g (hr d hd)
    exact ⟨x, h1, h2 (Or.inr (hg d hd))⟩
  have hres : ∀ {x y : Answer}, x.res = y.res → x = y := by
    intro x y h
    cases x <;> cases y <;> simp_all [Answer.res]
  unfold getMember
  rw [if_pos hi]
  have hfuel : (inInterface W ⟨name, .normal, none, some as⟩ n t []).1 ≠ .outOfFuel := by
    refine inInterface_fuel hL n t [] ht ?_
    have : (unwalked L []).length ≤ L.length := by unfold unwalked; exact List.length_filter_le _ _
    omega
  by_cases hnf : (inInterface W ⟨name, .normal, none, some as⟩ n t []).1 = .notFound
  · refine ⟨.nothing, hnf, fun h => absurd rfl h, fun _ d hd => ?_⟩
    obtain ⟨x, h1, h2⟩ := key d hd
    have := inInterface_notFound hnf hd
    rw [h2] at this
    have hx : x = .nothing := hres this
    subst hx
    exact h1
  · obtain ⟨d, h1, h2⟩ := inInterface_other W ⟨name, .normal, none, some as⟩ hnf hfuel n t [] rfl
    obtain ⟨x, h3, h4⟩ := key d h1
    rw [h4] at h2
    refine ⟨x, h2.symm, fun _ => ⟨d, h1, h3⟩, ?_⟩
    intro hx
    subst hx
    exact absurd h2.symm hnf

/-! ## Calls of methods with type parameters -/

/-- Whatever a call without type arguments finds — with or without type parameters — is a method with this name of
the type or of one above it, there is one type argument for each of its type parameters, and with these the
arguments fit its parameters. -/
theorem found_is_applicable_partial {W : World} (g : W.Good) {name : Nat} {as : List Slot} {t : Ty} {n : Nat} {p : Pick}
    (ha : as ≠ [])
    (hm : ∀ d, Sees W t d → ∀ m ∈ W.methods d, m.name = name →
      (∀ q ∈ m.params, Inferable q.2 ∧ q.2.over m.gparams = true ∧ ∀ a ∈ as, Instantiated W q.2 a.2))
    (h : getMember W ⟨name, .normal, none, some as⟩ n t = .found p)
    (hp : W.PlainCall (p.method.at p.types) as) :
    ∃ d, Sees W t d ∧ p.method ∈ W.methods d ∧ p.method.name = name ∧
      p.types.length = p.method.gparams.length ∧ AllFit (Converts W) (p.method.at p.types) as := by
  obtain ⟨d, hd, h⟩ := getMember_found h
  obtain ⟨h1, h2, ⟨r, h3, h4⟩, _⟩ := inType_found rfl h
  have hq := hm d hd p.method h1 h2
  simp only at h3
  have hr : r = .equals ∨ r = .matched ∨ r = .auto := by
    rcases h4 with h | h | h | h
    · exact Or.inl h
    · exact Or.inr (Or.inr h)
    · exact Or.inr (Or.inl h)
    · subst h
      exfalso
      have : ∀ env ps bs r', r' ≠ Compare.sameName → (compareLoop W false env ps bs r').1 ≠ .sameName := by
        intro env ps
        induction ps generalizing env with
        | nil => intro bs r' hr'; cases bs <;> exact hr'
        | cons q ps ih =>
          intro bs r' hr'
          cases bs with
          | nil => exact hr'
          | cons b bs =>
            unfold compareLoop
            split
            · simp
            · simp
            · exact ih _ _ _ (by split <;> simp)
            · exact ih _ _ _ (by simp)
            · exact ih _ _ _ hr'
            · simp
      unfold compareMethod at h3
      simp only at h3
      split at h3
      · split at h3 <;> simp at h3
      · split at h3
        · simp at h3
        · have hc : (compareAll W false [] p.method.params as).1 ≠ .sameName := by
            unfold compareAll
            split
            · simp
            · exact this _ _ _ _ (by simp)
          split at h3
          · split at h3
            · exact hc (congrArg Prod.fst h3)
            · simp at h3
          · exact hc (congrArg Prod.fst h3)
  refine ⟨d, hd, h1, h2, ?_⟩
  by_cases hgp : p.method.gparams = []
  · have hov : ∀ q ∈ p.method.params, q.2.over [] = true := fun q hq' => by
      have := (hq q hq').2.1
      rwa [hgp] at this
    have hat := at_nil hov p.types
    rw [hat] at hp ⊢
    obtain ⟨r', e, _, _, h7⟩ := compareMethod_closed g hgp hov hp
    rw [h3] at e
    simp only [Prod.mk.injEq] at e
    obtain ⟨rfl, e2⟩ := e
    refine ⟨by rw [e2, hgp]; rfl, h7.1 ?_⟩
    rcases hr with h | h | h <;> simp [h]
  · obtain ⟨k1, k2⟩ := infer_sound hgp ha (fun q hq' => (hq q hq').1) (fun q hq' => (hq q hq').2.1)
      (fun q hq' a ha' => notRaw_of g ((hq q hq').2.2 a ha')) h3 hr
    exact ⟨k1, (allFit_congr g hp).1 k2⟩

/-- What `new` with arguments finds is a constructor, of the class or of one above it, and the arguments fit its
parameters.  Partial: it should be one of the class itself, see `constructor_inherited_refuted`. -/
theorem constructor_found_partial {W : World} (g : W.Good) {as : List Slot} {t : Ty} {n : Nat} {p : Pick}
    (hm : ∀ d, Sees W t d → ∀ m ∈ W.methods d, m.trait = .constructor ∨ m.name = 0 →
      m.gparams = [] ∧ (∀ q ∈ m.params, q.2.over [] = true) ∧ W.PlainCall m.params as)
    (h : findConstructor W n t (some as) = .found p) :
    ∃ d, Sees W t d ∧ p.method ∈ W.methods d ∧ p.method.trait = .constructor ∧
      AllFit (Converts W) p.method.params as := by
  obtain ⟨d, hd, h⟩ := getMember_found h
  have hsec : secondRound ⟨0, .constructor, none, some as⟩ (W.methods d) = [] := by
    unfold secondRound
    rw [List.filter_eq_nil_iff]
    intro m hmem hc
    simp only [Bool.and_eq_true, beq_iff_eq, decide_eq_true_eq] at hc
    have := (hm d hd m hmem (.inr hc.1)).1
    rw [this] at hc
    simp at hc
  have key := fold_accepted (W := W) (q := ⟨0, .constructor, none, some as⟩)
    (P := fun p => p.method ∈ W.methods d ∧ p.method.trait = .constructor ∧
      Accepted W ⟨0, .constructor, none, some as⟩ p)
    (firstRound ⟨0, .constructor, none, some as⟩ (W.methods d)) ⟨none, [], [], false⟩
    (by
      intro m hmem ts ha
      simp only [firstRound, List.mem_filter, beq_iff_eq] at hmem
      exact ⟨hmem.1, hmem.2, ha⟩) (by simp) (by simp)
  unfold inType analyze at h
  dsimp only at h
  rw [hsec, List.foldl_nil, ite_self] at h
  obtain ⟨h1, h2, r, h3, h4⟩ : p.method ∈ W.methods d ∧ p.method.trait = .constructor ∧
      Accepted W ⟨0, .constructor, none, some as⟩ p := by
    rcases result_found h with e | e
    · exact key.1 p e
    · exact key.2 p e
  refine ⟨d, hd, h1, h2, ?_⟩
  obtain ⟨k1, k2, k3⟩ := hm d hd p.method h1 (.inl h2)
  obtain ⟨r', e, e1, e2, h7⟩ := compareMethod_closed g k1 k2 k3
  rw [h3] at e
  simp only [Prod.mk.injEq] at e
  obtain ⟨rfl, -⟩ := e
  refine h7.1 ?_
  rcases h4 with h | h | h | h <;> simp [h]

/-- A call with type arguments finds a method with as many type parameters, and with these type arguments the
arguments fit its parameters. -/
theorem given_types_applicable_partial {W : World} (g : W.Good) {name : Nat} {as : List Slot} {ga : List Ty} {t : Ty}
    {n : Nat} {p : Pick} (hga : ga ≠ [])
    (hm : ∀ d, Sees W t d → ∀ m ∈ W.methods d, m.name = name →
      (∀ q ∈ m.params, q.2.arraysClosed = true ∧ q.2.over m.gparams = true ∧ ∀ a ∈ as, Instantiated W q.2 a.2))
    (h : getMember W ⟨name, .normal, some ga, some as⟩ n t = .found p)
    (hp : W.PlainCall (p.method.at ga) as) :
    ∃ d, Sees W t d ∧ p.method ∈ W.methods d ∧ p.method.name = name ∧
      p.method.gparams.length = ga.length ∧ AllFit (Converts W) (p.method.at ga) as := by
  obtain ⟨d, hd, h⟩ := getMember_found h
  obtain ⟨h1, h2, ⟨r, h3, h4⟩, h5⟩ := inType_found rfl h
  have hq := hm d hd p.method h1 h2
  have hl := h5 ga rfl hga
  simp only at h3
  have hns : r ≠ .sameName := by
    intro hr
    subst hr
    have : ∀ env ps bs r', r' ≠ Compare.sameName → (compareLoop W true env ps bs r').1 ≠ .sameName := by
      intro env ps
      induction ps generalizing env with
      | nil => intro bs r' hr'; cases bs <;> exact hr'
      | cons q ps ih =>
        intro bs r' hr'
        cases bs with
        | nil => exact hr'
        | cons b bs =>
          unfold compareLoop
          split
          · simp
          · simp
          · exact ih _ _ _ (by split <;> simp)
          · exact ih _ _ _ (by simp)
          · exact ih _ _ _ hr'
          · simp
    unfold compareMethod at h3
    simp only at h3
    split at h3
    · split at h3 <;> simp at h3
    · split at h3
      · simp at h3
      · have hc : (compareAll W true (p.method.gparams.zip ga) p.method.params as).1 ≠ .sameName := by
          unfold compareAll
          split
          · simp
          · exact this _ _ _ _ (by simp)
        split at h3
        · simp at h3
        · exact hc (congrArg Prod.fst h3)
  refine ⟨d, hd, h1, h2, hl, (allFit_congr g hp).1 ?_⟩
  refine given_sound hl (fun q hq' => (hq q hq').2.1) (fun q hq' => (hq q hq').1)
    (fun q hq' a ha' => notRaw_of g ((hq q hq').2.2 a ha')) h3 ?_
  rcases h4 with h | h | h | h
  · exact Or.inl h
  · exact Or.inr (Or.inr h)
  · exact Or.inr (Or.inl h)
  · exact absurd h hns

/-! ## A program -/

/-- Primitive types and classes of the examples: 1 `int`, 2 `long`, 3 `short`, 4 `string`, 5 `bool`, 6 `byte`,
7 and 8 enums over `int`, 9 `double`; all others are classes. -/
def demoVt : Nat → VT
  | 1 => .int32 | 2 => .int64 | 3 => .int16 | 4 => .string | 5 => .bool | 6 => .uint8
  | 7 => .int32 | 8 => .int32 | 9 => .double
  | _ => .mobject

/-- 0 is the class at the top; class 11 derives from 10 and 12 from the generic type 20 with argument `int`; 13 from
12; the interface 31 from 30. -/
def demoSupers : Ty → List Ty
  | .null => []
  | .param _ => []
  | .base 0 => []
  | .base 11 => [.base 10]
  | .base 12 => [.gen 20 (.cons (.base 1) .nil)]
  | .base 13 => [.base 12]
  | .base 31 => [.base 30]
  | .base _ => [.base 0]
  | .gen _ _ => [.base 0]
  | .arr _ _ => [.base 0]

/-- The test for super types: four steps are enough. -/
def demoSup (a b : Ty) : Bool :=
  decide (b ∈ demoSupers a ++ (demoSupers a).flatMap demoSupers ++
    ((demoSupers a).flatMap demoSupers).flatMap demoSupers ++
    (((demoSupers a).flatMap demoSupers).flatMap demoSupers).flatMap demoSupers)

/-- The base class. -/
def demoBase (t : Ty) : Option Ty := (demoSupers t).head?

def mth (id name : Nat) (gs : List Nat) (ps : List Slot) : Method := ⟨id, name, .normal, gs, ps, false⟩
def byVal (t : Ty) : Slot := (.default_, t)
def tInt : Ty := .base 1
def tLong : Ty := .base 2
def tStr : Ty := .base 4
def gen1 (t : Nat) (a : Ty) : Ty := .gen t (.cons a .nil)
def gen2 (t : Nat) (a b : Ty) : Ty := .gen t (.cons a (.cons b .nil))

/-- Class 10 has `f(long)`, `f(string)`, `f(int, int)`, `f<T>(T, T)`-like `h<T>(T, G<T>)`; class 11 has
`f(string, string)`. -/
def demoMethods : Ty → List Method
  | .base 10 => [mth 1 1 [] [byVal tLong], mth 2 1 [] [byVal tStr], mth 3 1 [] [byVal tInt, byVal tInt],
      mth 5 2 [0] [byVal (.param 0), byVal (gen1 20 (.param 0))]]
  | .base 11 => [mth 4 1 [] [byVal tStr, byVal tStr]]
  | .base 30 => [mth 6 1 [] [byVal tLong]]
  | _ => []

/-- The program of the examples. -/
def demo : World where
  vt := demoVt
  supers := demoSupers
  sup := demoSup
  methods := demoMethods
  baseOf := demoBase
  iface := fun t => t = .base 30 || t = .base 31
  isRef := fun t => match t with
    | .base c => demoVt c == .mobject || demoVt c == .string
    | .gen _ _ => true
    | .arr _ _ => true
    | _ => false
  isEnum := fun c => c == 7 || c == 8

theorem demo_vt_small {c : Nat} (h : demoVt c ≠ .mobject) : c < 10 := by
  unfold demoVt at h
  split at h <;> first | omega | exact absurd rfl h

theorem demo_supers_object {a b : Ty} (h : b ∈ demoSupers a) : demo.ObjectType b := by
  unfold demoSupers at h
  split at h <;> simp at h <;> subst h <;> first | exact rfl | trivial

/-- The rank of a type: super types have a smaller one. -/
def demoRank : Ty → Nat
  | .null => 0
  | .param _ => 0
  | .base 0 => 0
  | .base 11 => 2
  | .base 12 => 2
  | .base 13 => 3
  | .base 31 => 2
  | .base _ => 1
  | .gen _ _ => 1
  | .arr _ _ => 1

theorem demo_rank_step {a b : Ty} (h : b ∈ demoSupers a) : demoRank b < demoRank a := by
  unfold demoSupers at h
  split at h <;> simp at h <;> subst h <;> simp [demoRank]

theorem demo_rank_le (a : Ty) : demoRank a ≤ 3 := by
  unfold demoRank
  split <;> omega

theorem demo_sup_iff (a b : Ty) : demoSup a b = true ↔ Derives demo a b := by
  unfold demoSup
  simp only [decide_eq_true_eq, List.mem_append, List.mem_flatMap]
  constructor
  · rintro (((h | ⟨x, hx, h⟩) | ⟨y, ⟨x, hx, hy⟩, h⟩) | ⟨z, ⟨y, ⟨x, hx, hy⟩, hz⟩, h⟩)
    · exact .one h
    · exact .trans hx (.one h)
    · exact .trans hx (.trans hy (.one h))
    · exact .trans hx (.trans hy (.trans hz (.one h)))
  · intro h
    have r0 := demo_rank_le a
    cases h with
    | one h => exact Or.inl (Or.inl (Or.inl h))
    | trans hx h =>
      have r1 := demo_rank_step hx
      cases h with
      | one h => exact Or.inl (Or.inl (Or.inr ⟨_, hx, h⟩))
      | trans hy h =>
        have r2 := demo_rank_step hy
        cases h with
        | one h => exact Or.inl (Or.inr ⟨_, ⟨_, hx, hy⟩, h⟩)
        | trans hz h =>
          have r3 := demo_rank_step hz
          cases h with
          | one h => have := demo_rank_step h; omega
          | trans hw h => have := demo_rank_step hw; omega

theorem demo_good : demo.Good where
  sup_iff := demo_sup_iff
  supers := fun _ _ h => demo_supers_object h
  distinct := by
    intro c d h hm he hf
    have hc : c < 10 := demo_vt_small hm
    have hd : d < 10 := demo_vt_small (by show demoVt d ≠ _; rw [← (show demoVt c = demoVt d from h)]; exact hm)
    have key : ((List.range 10).all fun c => (List.range 10).all fun d =>
        decide (demoVt c ≠ demoVt d) || decide (demoVt c = .mobject) || (c == 7 || c == 8) || (d == 7 || d == 8) ||
          decide (c = d)) = true := by decide +kernel
    have key := List.all_eq_true.1 (List.all_eq_true.1 key c (List.mem_range.2 hc)) d (List.mem_range.2 hd)
    simp only [Bool.or_eq_true, decide_eq_true_eq] at key
    rcases key with (((key | key) | key) | key) | key
    · exact absurd h key
    · exact absurd key hm
    · have he : (c == 7 || c == 8) = false := he
      simp only [Bool.or_eq_false_iff] at he
      rw [he.1, he.2] at key
      simp at key
    · have hf : (d == 7 || d == 8) = false := hf
      simp only [Bool.or_eq_false_iff] at hf
      rw [hf.1, hf.2] at key
      simp at key
    · exact key

/-- Types without `null`, enums and type parameters are always plain. -/
def simpleTy : Ty → Bool
  | .null => false
  | .param _ => false
  | .base c => !(c == 7 || c == 8)
  | _ => true

theorem demo_plain {a b : Ty} (ha : simpleTy a = true) (hb : simpleTy b = true) : demo.Plain a b := by
  refine ⟨?_, ?_, ?_, ?_⟩
  · rintro rfl; simp [simpleTy] at hb
  · rintro rfl; simp [simpleTy] at ha
  · rintro n k rfl; simp [simpleTy] at ha
  · rintro c d rfl rfl _ _ _
    exact ⟨by simpa [demo, simpleTy] using ha, by simpa [demo, simpleTy] using hb⟩

theorem demo_plainCall {ps as : List Slot} (hp : ps.all (fun p => simpleTy p.2) = true)
    (ha : as.all (fun p => simpleTy p.2) = true) : demo.PlainCall ps as := by
  intro i p a h1 h2
  have h1 := List.all_eq_true.1 hp p (List.mem_of_getElem? h1)
  have h2 := List.all_eq_true.1 ha a (List.mem_of_getElem? h2)
  exact ⟨fun _ => demo_plain h1 h2, fun _ => demo_plain h2 h1⟩

/-- The conversion `int` to `long`, and from class 13 to what its base class derives from. -/
example : demo.Plain tInt tLong ∧ Converts demo tInt tLong ∧ compat demo tInt tLong = true ∧
    compat demo tLong tInt = false ∧ Converts demo (.base 13) (gen1 20 tInt) ∧
    compat demo (.base 13) (gen1 20 tInt) = true ∧ compat demo (.base 13) (gen1 20 tStr) = false :=
  ⟨demo_plain rfl rfl, .widen rfl rfl (.one .i32), by decide, by decide,
    .upcast (.trans (b := .base 12) (by decide) (.one (by decide))), by decide, by decide⟩

theorem demo_height : Height demo (some (.base 11)) 3 :=
  .step (t := .base 11) (.step (t := .base 10) (.step (t := .base 0) .top))

theorem demo_above {d : Ty} (h : Above demo (some (.base 11)) d) : d = .base 11 ∨ d = .base 10 ∨ d = .base 0 := by
  cases h with
  | here => exact Or.inl rfl
  | up h =>
    cases h with
    | here => exact Or.inr (Or.inl rfl)
    | up h =>
      cases h with
      | here => exact Or.inr (Or.inr rfl)
      | up h => cases h

theorem demo_methods_cases (d : Ty) :
    demoMethods d ∈ [demoMethods (.base 10), demoMethods (.base 11), demoMethods (.base 30), []] := by
  rw [demoMethods.eq_def d]
  split <;> simp [demoMethods]

/-- What is used of the methods with name 1. -/
def demoCheck (ms : List Method) : Bool :=
  decide (namedIn 1 ms).Nodup &&
  (namedIn 1 ms).all (fun m => m.params.all fun p => simpleTy p.2 && p.2.closed) &&
  ms.all (fun m => decide (m.name = 1 → m.gparams = [])) &&
  (namedIn 1 ms).all (fun m => (namedIn 1 ms).all fun m' => decide (m.params = m'.params → m = m'))

theorem demo_check (d : Ty) : demoCheck (demoMethods d) = true := by
  have : ∀ ms ∈ [demoMethods (.base 10), demoMethods (.base 11), demoMethods (.base 30), []], demoCheck ms = true := by
    decide +kernel
  exact this _ (demo_methods_cases d)

theorem demo_facts (d : Ty) :
    ((namedIn 1 (demoMethods d)).Nodup ∧
      (∀ m ∈ namedIn 1 (demoMethods d), ∀ p ∈ m.params, simpleTy p.2 = true ∧ p.2.closed = true)) ∧
    (∀ m ∈ demoMethods d, m.name = 1 → m.gparams = []) ∧
    (∀ m ∈ namedIn 1 (demoMethods d), ∀ m' ∈ namedIn 1 (demoMethods d), m.params = m'.params → m = m') := by
  have := demo_check d
  simp only [demoCheck, Bool.and_eq_true, List.all_eq_true, decide_eq_true_eq] at this
  exact ⟨⟨this.1.1.1, this.1.1.2⟩, this.1.2, this.2⟩

theorem demo_ready (d : Ty) {as : List Slot} (ha : as.all (fun p => simpleTy p.2) = true) :
    demo.Ready as (demo.named 1 d) where
  nodup := (demo_facts d).1.1
  closed := fun m hm p hp => ((demo_facts d).1.2 m hm p hp).2
  plain := fun m hm => demo_plainCall
    (List.all_eq_true.2 fun p hp => ((demo_facts d).1.2 m hm p hp).1) ha

/-- `f(5)` on class 11: its own `f(string, string)` does not fit, in class 10 `f(long)` is the only one that does. -/
example : (∃ x, ChosenUp demo 1 [byVal tInt] (some (.base 11)) x ∧
      getMember demo ⟨1, .normal, none, some [byVal tInt]⟩ 3 (.base 11) = x.res) ∧
    getMember demo ⟨1, .normal, none, some [byVal tInt]⟩ 3 (.base 11) = .found ⟨mth 1 1 [] [byVal tLong], []⟩ ∧
    getMember demo ⟨1, .normal, none, some [byVal tInt, byVal tInt]⟩ 3 (.base 11) =
      .found ⟨mth 3 1 [] [byVal tInt, byVal tInt], []⟩ ∧
    getMember demo ⟨1, .normal, none, some [byVal (.base 5)]⟩ 3 (.base 11) = .notFound :=
  ⟨class_call_partial demo_good rfl demo_height (by decide) (fun d _ => demo_ready d rfl)
    (fun d _ => (demo_facts d).2.1), by decide +kernel, by decide +kernel, by decide +kernel⟩

/-- Two methods that fit, none of them exactly. -/
example : getMember { demo with methods := fun _ => [mth 1 1 [] [byVal tInt], mth 2 1 [] [byVal tLong]] }
    ⟨1, .normal, none, some [byVal (.base 3)]⟩ 3 (.base 11) = .conflict := by decide +kernel

/-- The methods of class 10 the other way round. -/
example : getMember { demo with methods := fun d => (demoMethods d).reverse } ⟨1, .normal, none, some [byVal tInt]⟩ 3
      (.base 11) = .found ⟨mth 1 1 [] [byVal tLong], []⟩ := by
  rw [order_irrelevant_partial demo_good (fun d => (demoMethods d).reverse) (fun d => List.reverse_perm _)
    (fun d => demo_ready d rfl) (fun d => (demo_facts d).2.1) (fun d => (demo_facts d).2.2)]
  decide +kernel

/-- `f(string)` on class 10, which is there without type parameters. -/
example : ∃ x, Chosen demo [byVal tStr] (demo.named 1 (.base 10)) x ∧ x ≠ .nothing ∧
    inType demo ⟨1, .normal, none, some [byVal tStr]⟩ (.base 10) = x.res :=
  generic_methods_last demo_good (demo_ready _ rfl)
    ⟨mth 2 1 [] [byVal tStr], by decide +kernel, applicable_of_exact rfl⟩

/-- An interface that inherits `f(long)`. -/
example : (∃ x : Answer, getMember demo ⟨1, .normal, none, some [byVal tInt]⟩ 5 (.base 31) = x.res ∧
      (x ≠ .nothing → ∃ d, Reaches demo (.base 31) d ∧ Chosen demo [byVal tInt] (demo.named 1 d) x) ∧
      (x = .nothing → ∀ d, Reaches demo (.base 31) d → Chosen demo [byVal tInt] (demo.named 1 d) .nothing)) ∧
    getMember demo ⟨1, .normal, none, some [byVal tInt]⟩ 5 (.base 31) = .found ⟨mth 6 1 [] [byVal tLong], []⟩ :=
  ⟨interface_call_partial (L := [.base 31, .base 30, .base 0]) demo_good rfl (by decide) (by decide) (by decide)
    (fun d _ => demo_ready d rfl) (fun d _ => (demo_facts d).2.1), by decide +kernel⟩

/-- The generic method of class 10. -/
def hMethod : Method := mth 5 2 [0] [byVal (.param 0), byVal (gen1 20 (.param 0))]

theorem demo_name2 {d : Ty} : ∀ m ∈ demoMethods d, m.name = 2 → m = hMethod := by
  have : ∀ ms ∈ [demoMethods (.base 10), demoMethods (.base 11), demoMethods (.base 30), []],
      (ms.all fun m => decide (m.name = 2 → m = hMethod)) = true := by decide +kernel
  have := this _ (demo_methods_cases d)
  simpa only [List.all_eq_true, decide_eq_true_eq] using this

theorem hMethod_params : ∀ q ∈ hMethod.params, Inferable q.2 ∧ q.2.arraysClosed = true ∧ q.2.over hMethod.gparams = true := by
  intro q hq
  rcases List.mem_cons.1 hq with rfl | hq
  · exact ⟨Or.inr rfl, rfl, rfl⟩
  · rcases List.mem_cons.1 hq with rfl | hq
    · exact ⟨Or.inr rfl, rfl, rfl⟩
    · cases hq

theorem hMethod_inst {as : List Slot} (has : ∀ a ∈ as, a.2 = tInt ∨ a.2 = .base 12) :
    ∀ q ∈ hMethod.params, ∀ a ∈ as, Instantiated demo q.2 a.2 := by
  intro q hq a ha t ps c ht hc
  have hd : ∀ c, c = 1 ∨ c = 12 → ¬ Derives demo (.base c) (.base 20) := by
    intro c hcc h
    rw [← demo_sup_iff] at h
    revert h
    rcases hcc with rfl | rfl <;> decide
  have hcc : c = 1 ∨ c = 12 := by
    rcases has a ha with h | h
    · left; rw [h] at hc; injection hc with hc; exact hc.symm
    · right; rw [h] at hc; injection hc with hc; exact hc.symm
  rcases List.mem_cons.1 hq with rfl | hq
  · cases ht
  · rcases List.mem_cons.1 hq with rfl | hq
    · simp only [byVal, gen1, Ty.gen.injEq] at ht
      obtain ⟨rfl, _⟩ := ht
      exact ⟨rfl, by rcases hcc with rfl | rfl <;> decide, hd c hcc⟩
    · cases hq

/-- `h(5, x)` with an `x` of class 12, which derives from `G<int>`: the type argument is `int`. -/
example : ∃ d, Sees demo (.base 11) d ∧ hMethod ∈ demo.methods d ∧ hMethod.name = 2 ∧ 1 = hMethod.gparams.length ∧
    AllFit (Converts demo) (hMethod.at [tInt]) [byVal tInt, byVal (.base 12)] :=
  found_is_applicable_partial (p := ⟨hMethod, [tInt]⟩) (n := 3) demo_good (by decide)
    (fun d _ m hm hn q hq => by
      have := demo_name2 m hm hn
      subst this
      exact ⟨(hMethod_params q hq).1, (hMethod_params q hq).2.2, fun a ha => hMethod_inst (by
        intro a ha
        rcases List.mem_cons.1 ha with rfl | ha
        · exact Or.inl rfl
        · rcases List.mem_cons.1 ha with rfl | ha
          · exact Or.inr rfl
          · cases ha) q hq a ha⟩)
    (by decide +kernel) (demo_plainCall rfl rfl)

/-- `h<int>(5, x)`. -/
example : ∃ d, Sees demo (.base 11) d ∧ hMethod ∈ demo.methods d ∧ hMethod.name = 2 ∧
    hMethod.gparams.length = 1 ∧ AllFit (Converts demo) (hMethod.at [tInt]) [byVal tInt, byVal (.base 12)] :=
  given_types_applicable_partial (p := ⟨hMethod, []⟩) (ga := [tInt]) (n := 3) demo_good (by decide)
    (fun d _ m hm hn q hq => by
      have := demo_name2 m hm hn
      subst this
      exact ⟨(hMethod_params q hq).2.1, (hMethod_params q hq).2.2, fun a ha => hMethod_inst (by
        intro a ha
        rcases List.mem_cons.1 ha with rfl | ha
        · exact Or.inl rfl
        · rcases List.mem_cons.1 ha with rfl | ha
          · exact Or.inr rfl
          · cases ha) q hq a ha⟩)
    (by decide +kernel) (demo_plainCall rfl rfl)

/-! ## Where the code departs from the rules -/

/-- The same program with these methods in class 10. -/
def demoWith (ms : List Method) : World :=
  { demo with methods := fun t => if t = .base 10 then ms else [] }

theorem int_no_supers {a : Ty} (h : a = .null ∨ ∃ n, a = .param n) (b : Ty) : ¬ Derives demo a b := by
  intro hd
  rw [← demo_sup_iff] at hd
  rcases h with rfl | ⟨n, rfl⟩
  · simp [demoSup, demoSupers] at hd
  · simp [demoSup, demoSupers] at hd

/-- `null` is accepted where an `int` is expected. -/
theorem null_for_number_refuted :
    getMember (demoWith [mth 1 1 [] [byVal tInt]]) ⟨1, .normal, none, some [byVal .null]⟩ 3 (.base 10) =
      .found ⟨mth 1 1 [] [byVal tInt], []⟩ ∧ ¬ Converts demo .null tInt := by
  refine ⟨by decide +kernel, ?_⟩
  intro h
  cases h with
  | null h => revert h; decide
  | upcast h => exact int_no_supers (Or.inl rfl) _ h

/-- A value of one enum is accepted where another enum is expected. -/
theorem enums_mixed_refuted :
    getMember (demoWith [mth 1 1 [] [byVal (.base 8)]]) ⟨1, .normal, none, some [byVal (.base 7)]⟩ 3 (.base 10) =
      .found ⟨mth 1 1 [] [byVal (.base 8)], []⟩ ∧ ¬ Converts demo (.base 7) (.base 8) := by
  refine ⟨by decide +kernel, ?_⟩
  intro h
  cases h with
  | widen h _ _ => revert h; decide
  | upcast h =>
    rw [← demo_sup_iff] at h
    revert h; decide

/-- Inside a method with two type parameters, a value of the one is accepted where the other is expected. -/
theorem type_parameters_mixed_refuted :
    compat demo (.param 0) (.param 1) = true ∧ ¬ Converts demo (.param 0) (.param 1) := by
  refine ⟨by decide, ?_⟩
  intro h
  cases h with
  | upcast h => exact int_no_supers (Or.inr ⟨0, rfl⟩) _ h

/-- Inside a generic class, a method that expects the type parameter of the class accepts an argument of any type. -/
theorem class_type_parameter_refuted :
    getMember (demoWith [mth 1 1 [] [byVal (.param 0)]]) ⟨1, .normal, none, some [byVal tInt]⟩ 3 (.base 10) =
      .found ⟨mth 1 1 [] [byVal (.param 0)], []⟩ ∧ ¬ Converts demo tInt (.param 0) := by
  refine ⟨by decide +kernel, ?_⟩
  intro h
  cases h with
  | upcast h => exact absurd (derives_object demo_good h) (by simp [World.ObjectType])

/-- `f<T>(D<int, T>)` accepts an argument of type `D<string, long>`: only the type parameters are compared. -/
theorem fixed_argument_ignored_refuted :
    getMember (demoWith [mth 1 1 [0] [byVal (gen2 21 tInt (.param 0))]])
        ⟨1, .normal, none, some [byVal (gen2 21 tStr tLong)]⟩ 3 (.base 10) =
      .found ⟨mth 1 1 [0] [byVal (gen2 21 tInt (.param 0))], [tLong]⟩ ∧
    (gen2 21 tInt (.param 0)).subst [(0, tLong)] = gen2 21 tInt tLong ∧
    ¬ Converts demo (gen2 21 tStr tLong) (gen2 21 tInt tLong) := by
  refine ⟨by decide +kernel, rfl, ?_⟩
  intro h
  cases h with
  | upcast h =>
    rw [← demo_sup_iff] at h
    revert h; decide

/-- `f<T>(G<T>)` with an argument of a class whose base class derives from `G<int>`: the type argument is not found,
although the call is correct with `int`. -/
theorem inference_one_level_refuted :
    getMember (demoWith [mth 1 1 [0] [byVal (gen1 20 (.param 0))]]) ⟨1, .normal, none, some [byVal (.base 13)]⟩ 3
      (.base 10) = .undetermined ∧
    getMember (demoWith [mth 1 1 [0] [byVal (gen1 20 (.param 0))]]) ⟨1, .normal, some [tInt], some [byVal (.base 13)]⟩ 3
      (.base 10) = .found ⟨mth 1 1 [0] [byVal (gen1 20 (.param 0))], []⟩ := by
  constructor <;> decide +kernel

/-- `f<T>(T[])` cannot be called with an array of `int`, with or without a type argument. -/
theorem array_parameter_refuted :
    (mth 1 1 [0] [byVal (.arr (.param 0) 1)]).at [tInt] = [byVal (.arr tInt 1)] ∧
    getMember (demoWith [mth 1 1 [0] [byVal (.arr (.param 0) 1)]]) ⟨1, .normal, none, some [byVal (.arr tInt 1)]⟩ 3
      (.base 10) = .undetermined ∧
    getMember (demoWith [mth 1 1 [0] [byVal (.arr (.param 0) 1)]]) ⟨1, .normal, some [tInt], some [byVal (.arr tInt 1)]⟩ 3
      (.base 10) = .notFound := by
  refine ⟨rfl, ?_, ?_⟩ <;> decide +kernel

/-- A generic method of the class that does not fit hides the method of the base class that does: `f(5, 5)`, with
`f<T>(string, T)` in class 11 and `f(int, int)` in class 10. -/
theorem unfit_generic_hides_refuted :
    let W : World := { demo with methods := fun t =>
      if t = (.base 10) then [mth 1 1 [] [byVal tInt, byVal tInt]]
      else if t = (.base 11) then [mth 2 1 [0] [byVal tStr, byVal (.param 0)]] else [] }
    getMember W ⟨1, .normal, none, some [byVal tInt, byVal tInt]⟩ 3 (.base 11) = .undetermined ∧
    Exact (mth 1 1 [] [byVal tInt, byVal tInt]) [byVal tInt, byVal tInt] ∧
    (∀ u, ¬ AllFit (Converts demo) ((mth 2 1 [0] [byVal tStr, byVal (.param 0)]).at [u]) [byVal tInt, byVal tInt]) := by
  refine ⟨by decide +kernel, rfl, ?_⟩
  intro u h
  cases h with
  | cons h _ =>
    obtain ⟨_, h⟩ := h
    have : ¬ Converts demo tInt tStr := by
      rw [← conversions_partial demo_good (demo_plain rfl rfl)]; decide
    simp only [byVal, Ty.subst, tStr, tInt] at h
    rcases h with h | ⟨h, _⟩ | ⟨_, _, h⟩
    · simp at h
    · cases h
    · exact this h

/-- With two generic methods that fit, the one that is declared last is taken; the order decides. -/
theorem two_generic_refuted :
    let a := mth 1 1 [0] [byVal (.param 0)]
    let b := mth 2 1 [0] [byVal (gen1 20 (.param 0))]
    let c := mth 3 1 [0, 1] [byVal (.param 0), byVal (.param 1)]
    let d := mth 4 1 [0] [byVal (.param 0), byVal (.param 0)]
    getMember (demoWith [c, d]) ⟨1, .normal, none, some [byVal tInt, byVal tInt]⟩ 3 (.base 10) = .found ⟨d, [tInt]⟩ ∧
    getMember (demoWith [d, c]) ⟨1, .normal, none, some [byVal tInt, byVal tInt]⟩ 3 (.base 10) =
      .found ⟨c, [tInt, tInt]⟩ ∧
    getMember (demoWith [a, b]) ⟨1, .normal, none, some [byVal (gen1 20 tInt)]⟩ 3 (.base 10) = .found ⟨b, [tInt]⟩ ∧
    getMember (demoWith [b, a]) ⟨1, .normal, none, some [byVal (gen1 20 tInt)]⟩ 3 (.base 10) =
      .found ⟨a, [gen1 20 tInt]⟩ := by
  refine ⟨?_, ?_, ?_, ?_⟩ <;> decide +kernel

/-- A call without arguments takes a generic method without parameters, with no type argument. -/
theorem no_arguments_refuted :
    getMember (demoWith [mth 1 1 [0] []]) ⟨1, .normal, none, some []⟩ 3 (.base 10) = .found ⟨mth 1 1 [0] [], []⟩ := by
  decide +kernel

/-- `byte` does not convert to `short`, although every value fits. -/
theorem byte_to_short_refuted :
    getMember (demoWith [mth 1 1 [] [byVal (.base 3)]]) ⟨1, .normal, none, some [byVal (.base 6)]⟩ 3 (.base 10) =
      .notFound ∧ demo.vt 6 = .uint8 ∧ demo.vt 3 = .int16 ∧
    ∀ z : Int, minInt .uint8 ≤ z ∧ z ≤ maxInt .uint8 → minInt .int16 ≤ z ∧ z ≤ maxInt .int16 := by
  refine ⟨by decide +kernel, rfl, rfl, ?_⟩
  have h1 : minInt .uint8 = 0 := by decide
  have h2 : maxInt .uint8 = 255 := by decide
  have h3 : minInt .int16 = -32768 := by decide
  have h4 : maxInt .int16 = 32767 := by decide
  omega

/-- A constructor with these parameters. -/
def ctor (id : Nat) (ps : List Slot) : Method := ⟨id, 0, .constructor, [], ps, false⟩

/-- The constructors of a base class create objects of the derived class: class 11 has only a constructor without
parameters, and `new` with an `int` takes the one of class 10. -/
theorem constructor_inherited_refuted :
    let W : World := { demo with methods := fun t =>
      if t = (.base 10) then [ctor 1 [byVal tInt]] else if t = (.base 11) then [ctor 2 []] else [] }
    findConstructor W 3 (.base 11) (some [byVal tInt]) = .found ⟨ctor 1 [byVal tInt], []⟩ ∧
    ctor 1 [byVal tInt] ∉ W.methods (.base 11) := by
  constructor <;> decide +kernel

theorem derives_methods {W : World} {f : Ty → List Method} {a b : Ty} :
    Derives { W with methods := f } a b ↔ Derives W a b := by
  constructor
  · intro h
    induction h with
    | one h1 => exact .one h1
    | trans h1 _ ih => exact .trans h1 ih
  · intro h
    induction h with
    | one h1 => exact .one h1
    | trans h1 _ ih => exact .trans h1 ih

theorem demo_good_with (f : Ty → List Method) : World.Good { demo with methods := f } where
  sup_iff a b := (demo_good.sup_iff a b).trans derives_methods.symm
  supers := demo_good.supers
  distinct := demo_good.distinct

/-- `new` of class 11 with an `int`, where class 11 has the constructors `()` and `(long)` and class 10 has none. -/
example :
    let W : World := { demo with methods := fun t =>
      if t = (.base 11) then [ctor 1 [], ctor 2 [byVal tLong]] else [] }
    findConstructor W 3 (.base 11) (some [byVal tInt]) = .found ⟨ctor 2 [byVal tLong], []⟩ ∧
    ∃ d, Sees W (.base 11) d ∧ ctor 2 [byVal tLong] ∈ W.methods d ∧
      AllFit (Converts W) (ctor 2 [byVal tLong]).params [byVal tInt] := by
  intro W
  have hf : findConstructor W 3 (.base 11) (some [byVal tInt]) = .found ⟨ctor 2 [byVal tLong], []⟩ := by decide +kernel
  refine ⟨hf, ?_⟩
  have gW : W.Good := demo_good_with _
  obtain ⟨d, h1, h2, h3, h4⟩ := constructor_found_partial gW (n := 3) (p := ⟨ctor 2 [byVal tLong], []⟩) (by
    intro d _ m hm _
    simp only [W] at hm
    split at hm
    · simp only [List.mem_cons, List.not_mem_nil, or_false] at hm
      rcases hm with rfl | rfl
      · exact ⟨rfl, by simp [ctor], demo_plainCall rfl rfl⟩
      · exact ⟨rfl, by simp [ctor, byVal, tLong, Ty.over], demo_plainCall rfl rfl⟩
    · cases hm) hf
  exact ⟨d, h1, h2, h4⟩

/-- A class whose only constructor has a parameter is said to have a default constructor; one with two constructors
makes the test fail with an error. -/
theorem default_constructor_refuted :
    hasDefaultConstructor (demoWith [ctor 1 [byVal tInt]]) 3 (.base 10) = some true ∧
    hasDefaultConstructor (demoWith [ctor 1 [], ctor 2 [byVal tInt]]) 3 (.base 10) = none := by
  constructor <;> decide +kernel

/-- The static operator of the class that fits is not taken: the expression is rejected as having none.  Without one,
the expression is accepted with a null method. -/
theorem operator_overload_refuted :
    let op : Method := { mth 1 1 [] [byVal (.base 10), byVal (.base 10)] with static_ := true }
    getMember (demoWith [op]) ⟨1, .normal, none, some [byVal (.base 10), byVal (.base 10)]⟩ 3 (.base 10) = .found ⟨op, []⟩ ∧
    operatorMethod (demoWith [op]) 3 1 [.base 10, .base 10] = none ∧
    operatorMethod (demoWith []) 3 1 [.base 10, .base 10] = some none := by
  refine ⟨?_, ?_, ?_⟩ <;> decide +kernel

end Verif.Overload
