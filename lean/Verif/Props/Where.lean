import Verif.Proof.Where

/-!
# C122 — the arguments of a generic type or method meet its constraints

`argument levels` gives the arguments for the parameters of a generic and of the generic types that enclose it, the innermost first.
-/

namespace Verif.Where

open Verif.Subst

/-! ## Uses with types -/

/-- A use whose arguments are types: it is accepted exactly when every argument meets its clause.  Partial: no parameter has the name of
another of an enclosing type (`shadow_refuted`), and no constraint becomes a struct (`struct_constraint_refuted`). -/
theorem use_partial {W : World} (ctx : Ctx) {levels : List (List Nat × List Ty)} (hl : Levels levels)
    (ha : ∀ l ∈ levels, ∀ a ∈ l.2, Actual W a) (cs : List Clause) (hc : ∀ c ∈ cs, Proper W levels c) :
    ∃ reports, checkUse W ctx (getType levels) cs = some reports ∧
      (reports = [] ↔ ∀ c ∈ cs, ∀ a, argument levels c.name = some a → Meets W (argument levels) c a) := by
  induction cs with
  | nil => exact ⟨[], rfl, by simp⟩
  | cons c cs ih =>
    obtain ⟨reports, h1, h2⟩ := ih (fun x hx => hc x (List.mem_cons_of_mem _ hx))
    obtain ⟨r, a, h3, h4, h5⟩ := checkClause_actual (ctx := ctx) hl ha (hc c (by simp))
    refine ⟨r.toList ++ reports, by rw [checkUse, h3, h1]; rfl, ?_⟩
    rw [List.append_eq_nil_iff, h2]
    constructor
    · rintro ⟨b1, b2⟩ x hx y hy
      rcases List.mem_cons.1 hx with rfl | hx
      · rw [h4] at hy
        cases hy
        refine h5.1 ?_
        cases r with
        | none => rfl
        | some _ => cases b1
      · exact b2 x hx y hy
    · intro h
      refine ⟨?_, fun x hx => h x (List.mem_cons_of_mem _ hx)⟩
      rw [h5.2 (h c (by simp) a h4)]
      rfl

/-! ## Uses with type parameters -/

/-- A use in a generic method or class, whose arguments are types or type parameters of that place: when it is accepted, then with all
arguments the place itself can have, the arguments meet their clauses.  Partial: no parameter is given for one with `struct`
(`value_refuted`); the types of the clauses are without parameters; the place is in a method (`field_refuted`). -/
theorem generic_use_partial {W : World} (hs : Sane W) {ctx : Ctx} (hm : ctx.method.isSome = true) {τ : Nat → Option Ty}
    (ho : Obeys W ctx τ) {levels : List (List Nat × List Ty)} (hl : Levels levels)
    (ha : ∀ l ∈ levels, ∀ a ∈ l.2, (Closed a ∧ Actual W a) ∨ ∃ n, a = .param n ∧ (τ n).isSome = true) {cs : List Clause}
    (hc : ∀ c ∈ cs, (∀ t ∈ c.types, Over [] t) ∧ (c.isStruct = true → ∀ n, argument levels c.name ≠ some (.param n)))
    (h : checkUse W ctx (getType levels) cs = some []) :
    ∀ c ∈ cs, ∀ a, argument levels c.name = some a → Meets W τ c (replace τ a) := by
  intro c hcm a harg
  have hck := checkUse_nil h c hcm
  have hname : getType levels c.name = a := by rw [getType_argument hl, harg]; rfl
  obtain ⟨l, hl1, hl2⟩ := argument_mem harg
  obtain ⟨hov, hst⟩ := hc c hcm
  unfold checkClause at hck
  rw [hname] at hck
  cases hty : checkTypes W ctx (getType levels) a c.types with
  | none => rw [hty] at hck; cases hck
  | some r =>
    rw [hty] at hck
    cases r with
    | some r => cases hck
    | none =>
      have hfit := checkTypes_none hov hty
      obtain ⟨f1, f2, f3⟩ := checkFlags_none hck
      have hrep : ∀ t ∈ c.types, replace τ t = t := fun t ht => replace_closed τ t (over_closed t (hov t ht))
      rcases ha l hl1 a hl2 with ⟨hcl, hact⟩ | ⟨n, rfl, hn⟩
      · rw [replace_closed τ a hcl]
        refine ⟨?_, ?_, ?_, ?_⟩
        · intro t ht
          have := hfit t ht
          rw [fits_actual hact] at this
          rw [hrep t ht]
          exact Option.some.inj this
        · intro hf
          have := f1 hf
          rw [refType_actual hact] at this
          exact (isRef_iff hact).1 (Option.some.inj this)
        · intro hf
          have := f2 hf
          rw [refType_actual hact] at this
          exact (value_iff hact).1 (Option.some.inj this)
        · intro hf
          obtain ⟨b, hb, hbi⟩ := newable_actual (ctx := ctx) hact
          have := f3 hf
          rw [hb] at this
          exact hbi.1 (Option.some.inj this)
      · obtain ⟨a', ha'⟩ := Option.isSome_iff_exists.1 hn
        have hra : replace τ (.param n) = a' := by simp [replace, ha']
        obtain ⟨hact, hob⟩ := ho n a' ha'
        rw [hra]
        have hcl := clauseOf_governs hm n
        refine ⟨?_, ?_, fun hf => absurd harg (hst hf n), ?_⟩
        · intro t ht
          have := hfit t ht
          simp only [fits, hcl, Option.map_some, Option.some.injEq] at this
          cases hg : governs ctx n with
          | none => rw [hg] at this; cases this
          | some d =>
            rw [hg] at this
            obtain ⟨u, hu, huc⟩ := List.any_eq_true.1 this
            obtain ⟨hd1, hd2⟩ := hob d hg
            have hmu := hd2.converts u hu
            rw [replace_closed τ u (hd1 u hu)] at hmu
            rw [hrep t ht]
            exact hs.trans _ _ _ hmu huc
        · intro hf
          have := f1 hf
          simp only [refType, hcl, Option.map_some, Option.some.injEq] at this
          cases hg : governs ctx n with
          | none => rw [hg] at this; cases this
          | some d =>
            rw [hg] at this
            obtain ⟨hd1, hd2⟩ := hob d hg
            simp only [Bool.or_eq_true] at this
            rcases this with hcls | hany
            · exact hd2.reference hcls
            · obtain ⟨u, hu, huc⟩ := List.any_eq_true.1 hany
              simp only [Bool.and_eq_true, Bool.not_eq_true', beq_iff_eq] at huc
              have hmu := hd2.converts u hu
              rw [replace_closed τ u (hd1 u hu)] at hmu
              exact hs.up _ _ hmu huc.2 huc.1.1 huc.1.2
        · intro hf
          have := f3 hf
          simp only [newable, hcl, Option.map_some, Option.some.injEq] at this
          cases hg : governs ctx n with
          | none => rw [hg] at this; cases this
          | some d =>
            rw [hg] at this
            exact (hob d hg).2.creatable this

/-! ## The clauses -/

/-- The clauses of a generic are accepted exactly when there is one for each parameter at most, each is well formed, and the check for
circular ones (C81) finds none. -/
theorem declaration (W : World) (cs : List Clause) :
    checkDecl W cs = [] ↔ (cs.map (·.name)).Nodup ∧ (∀ c ∈ cs, WellFormed W c) ∧ Verif.Decl.checkDependency (dependencies cs) = none := by
  obtain ⟨h1, h2⟩ := declLoop_none (W := W) cs [] []
  unfold checkDecl
  cases hd : declLoop W [] cs [] with
  | mk rs d =>
    rw [hd] at h1 h2
    cases d with
    | none =>
      dsimp only
      constructor
      · intro h; have := h2 h; cases this
      · rintro ⟨b1, b2, -⟩
        exact h1.2 ⟨b1, by simp, b2⟩
    | some d =>
      simp only [List.append_eq_nil_iff]
      constructor
      · rintro ⟨b1, b2⟩
        obtain ⟨c1, -, c2⟩ := h1.1 b1
        refine ⟨c1, c2, ?_⟩
        have := h2 b1
        simp only [List.nil_append, Option.some.injEq] at this
        rw [this] at b2
        cases hx : Verif.Decl.checkDependency (dependencies cs) with
        | none => rfl
        | some x =>
          unfold dependencies at hx
          rw [hx] at b2
          cases b2
      · rintro ⟨b1, b2, b3⟩
        have hrs := h1.2 ⟨b1, by simp, b2⟩
        refine ⟨hrs, ?_⟩
        have := h2 hrs
        simp only [List.nil_append, Option.some.injEq] at this
        rw [this]
        unfold dependencies at b3
        rw [b3]
        rfl

/-! ## Where the checks are wrong -/

/-- `class S<T> where T : struct`, `class A<U> { void F() { S<U> x; } }`: accepted although nothing is known of `U`, which can be any
class. -/
theorem value_refuted (W : World) (u t : Nat) :
    checkUse W ⟨some [], []⟩ (getType [([t], [.param u])]) [⟨t, [], false, true, false⟩] = some [] := by
  simp [checkUse, checkClause, checkTypes, checkFlags, refType, clauseOf, clauseIn, getType, List.lookup]

/-- `class B<T> where T : class`, `class A<U> where U : class { B<U> x; }`: outside of a method the current method is a null pointer,
and it is used. -/
theorem field_refuted (W : World) (types : List (List Clause)) (u t : Nat) :
    checkUse W ⟨none, types⟩ (getType [([t], [.param u])]) [⟨t, [], true, false, false⟩] = none := by
  simp [checkUse, checkClause, checkTypes, checkFlags, refType, clauseOf, getType, List.lookup]

/-- `class A<T> where X : I`, with no parameter `X`: the clause itself is accepted, and every use of `A` uses a null pointer. -/
theorem unknown_refuted (W : World) (ctx : Ctx) (a : Ty) (x t i : Nat) (hx : x ≠ t) (hi : i ≠ W.objectType)
    (hk : W.kind (.basic i) = .interface) (hsd : W.isSealed (.basic i) = false) :
    checkDecl W [⟨x, [.basic i], false, false, false⟩] = [] ∧
    checkUse W ctx (getType [([t], [a])]) [⟨x, [.basic i], false, false, false⟩] = none := by
  constructor
  · rw [declaration]
    refine ⟨by simp, ?_, by (have : dependencies [⟨x, [.basic i], false, false, false⟩] = [] := rfl; rw [this]; rfl)⟩
    intro c hc
    simp only [List.mem_singleton] at hc
    subst hc
    exact ⟨by simp, by simpa using hi, by simpa using hsd, by simp, by simp, by simp, by simp⟩
  · have hb : (x == t) = false := by simpa using hx
    simp [checkUse, checkClause, checkTypes, transform, getType, List.lookup, fits, Ty.isNull, hk, hb]

/-- `where T : U`: a type parameter given for both is refused when it has no clause, although every type converts to itself. -/
theorem self_refuted (W : World) (x t u : Nat) (htu : t ≠ u) (hk : W.kind (.param x) = .unknown) :
    checkUse W ⟨some [], []⟩ (getType [([t, u], [.param x, .param x])]) [⟨t, [.param u], false, false, false⟩] = some [.noConversion] := by
  have hb : (t == u) = false := by simpa using htu
  have hb2 : (u == t) = false := by simpa using fun h => htu h.symm
  simp [checkUse, checkClause, checkTypes, transform, getType, List.lookup, fits, clauseOf, clauseIn, Ty.isNull, hk, hb, hb2]

/-- `where T : U` with a struct for both is refused. -/
theorem struct_constraint_refuted (W : World) (ctx : Ctx) (n t u : Nat) (htu : t ≠ u) (hk : W.kind (.basic n) = .struct_) :
    checkUse W ctx (getType [([t, u], [.basic n, .basic n])]) [⟨t, [.param u], false, false, false⟩] = some [.invalidType] := by
  have hb : (t == u) = false := by simpa using htu
  have hb2 : (u == t) = false := by simpa using fun h => htu h.symm
  simp [checkUse, checkClause, checkTypes, transform, getType, List.lookup, Ty.isNull, hk, hb, hb2]

/-- `class A<T> { void F<U>() where U : T; }`: in `A` itself, where `A` has no arguments, any type can be given for `U`. -/
theorem enclosing_refuted (W : World) (ctx : Ctx) (a : Ty) (u t : Nat) (htu : t ≠ u) :
    checkUse W ctx (getType [([u], [a])]) [⟨u, [.param t], false, false, false⟩] = some [] := by
  have hb : (t == u) = false := by simpa using htu
  simp [checkUse, checkClause, checkTypes, checkFlags, transform, getType, List.lookup, Ty.isNull, hb]

/-- `class A<T> { void F<T>() where T : class; }`: the argument of `A` is checked, not that of `F`. -/
theorem shadow_refuted (W : World) (ctx : Ctx) (a b : Nat) (t : Nat) (ha : W.kind (.basic a) = .class_) (hb : W.kind (.basic b) = .struct_) :
    checkUse W ctx (getType [([t], [.basic b]), ([t], [.basic a])]) [⟨t, [], true, false, false⟩] = some [] ∧
    ¬Meets W (argument [([t], [.basic b]), ([t], [.basic a])]) ⟨t, [], true, false, false⟩ (.basic b) := by
  constructor
  · simp [checkUse, checkClause, checkTypes, checkFlags, refType, World.isRef, getType, List.lookup, ha]
  · intro h
    have := h.reference rfl
    simp [Reference, hb] at this

/-- The messages are exchanged: a struct for a parameter with `class` is said to have to be a value type, and a class for one with
`struct` a reference type. -/
theorem messages_refuted (W : World) (ctx : Ctx) (a b t : Nat) (ha : W.kind (.basic a) = .struct_) (hb : W.kind (.basic b) = .class_) :
    checkUse W ctx (getType [([t], [.basic a])]) [⟨t, [], true, false, false⟩] = some [.expectValue] ∧
    checkUse W ctx (getType [([t], [.basic b])]) [⟨t, [], false, true, false⟩] = some [.expectReference] := by
  have k1 : (Kind.struct_ == Kind.class_) = false := rfl
  have k2 : (Kind.struct_ == Kind.interface) = false := rfl
  constructor <;> simp [checkUse, checkClause, checkTypes, checkFlags, refType, World.isRef, getType, List.lookup, ha, hb, k1, k2]

/-! ## Non-vacuity -/

/-- Interfaces 1 and 2, classes 3 (which implements both, and has a constructor) and 4, the struct 5, `Object` 0, `Enum` 9. -/
def demo : World where
  kind
    | .basic 0 => .class_ | .basic 9 => .class_ | .basic 1 => .interface | .basic 2 => .interface | .basic 3 => .class_ | .basic 4 => .class_
    | .basic 5 => .struct_ | .gen 7 _ _ => .interface | _ => .unknown
  compat a b := tyEq a b || (tyEq a (.basic 3) && (tyEq b (.basic 1) || tyEq b (.basic 2))) || (tyEq a (.basic 2) && tyEq b (.basic 1))
    || (tyEq a (.basic 3) && tyEq b (.gen 7 [.basic 3] .null))
  ctor t := tyEq t (.basic 3) || tyEq t (.basic 5)
  isSealed t := tyEq t (.basic 5)
  enumType := 9
  objectType := 0

/-- `class A<T, U> where T : I, Comparable<T>, new() where U : class`, used as `A<C3, C4>`. -/
example : checkUse demo ⟨none, []⟩ (getType [([20, 21], [.basic 3, .basic 4])])
    [⟨20, [.basic 1, .gen 7 [.param 20] .null], false, false, true⟩, ⟨21, [], true, false, false⟩] = some [] := by
  obtain ⟨r, h1, h2⟩ := use_partial (W := demo) ⟨none, []⟩ (levels := [([20, 21], [.basic 3, .basic 4])]) ⟨by decide, by simp⟩
    (by intro l hl a ha; simp at hl; subst hl; simp at ha; rcases ha with rfl | rfl <;> simp [Actual, Ty.isNull, demo])
    [⟨20, [.basic 1, .gen 7 [.param 20] .null], false, false, true⟩, ⟨21, [], true, false, false⟩]
    (by
      intro c hc
      simp only [List.mem_cons, List.not_mem_nil, or_false] at hc
      rcases hc with rfl | rfl
      · refine ⟨by decide, ?_⟩
        intro t ht
        simp only [List.mem_cons, List.not_mem_nil, or_false] at ht
        rcases ht with rfl | rfl
        · exact ⟨trivial, by simp [replace, demo]⟩
        · exact ⟨by simp [Over, OverAll], by simp [replace, demo]⟩
      · exact ⟨by decide, by simp⟩)
  rw [h1, h2.2]
  intro c hc a ha
  simp only [List.mem_cons, List.not_mem_nil, or_false] at hc
  rcases hc with rfl | rfl
  · simp [argument, Subst.bind, List.lookup] at ha
    subst ha
    refine ⟨?_, by simp, by simp, fun _ => ⟨.inl rfl, by decide⟩⟩
    intro t ht
    simp only [List.mem_cons, List.not_mem_nil, or_false] at ht
    rcases ht with rfl | rfl
    · decide
    · simp [replace, replaceAll, argument, Subst.bind, List.lookup, demo, tyEq, tysEq]
  · simp [argument, Subst.bind, List.lookup] at ha
    subst ha
    exact ⟨by simp, fun _ => .inl rfl, by simp, by simp⟩

theorem demo_sane : Sane demo := by
  constructor
  · intro a b c h1 h2
    simp only [demo, Bool.or_eq_true, Bool.and_eq_true, tyEq_iff] at h1 h2 ⊢
    rcases h1 with ((rfl | ⟨rfl, rfl | rfl⟩) | ⟨rfl, rfl⟩) | ⟨rfl, rfl⟩
    · exact h2
    all_goals
      rcases h2 with ((rfl | ⟨h, _⟩) | ⟨h, rfl⟩) | ⟨h, _⟩ <;> simp_all
  · intro a b h1 hk h2 h3
    simp only [demo, Bool.or_eq_true, Bool.and_eq_true, tyEq_iff] at h1
    rcases h1 with ((rfl | ⟨rfl, rfl | rfl⟩) | ⟨rfl, rfl⟩) | ⟨rfl, rfl⟩
    · exact .inl hk
    · exact .inl rfl
    · exact .inl rfl
    · exact .inr rfl
    · exact .inl rfl

/-- `class B<T> where T : I1`, used as `B<U>` in a method of `class A<U> where U : I2`, where `I2` derives from `I1`; for `A<C3>`. -/
example : Meets demo (fun _ => some (.basic 3)) ⟨20, [.basic 1], false, false, false⟩ (.basic 3) := by
  have ho : Obeys demo ⟨some [], [[⟨30, [.basic 2], false, false, false⟩]]⟩ (fun _ => some (.basic 3)) := by
    intro n a ha
    cases ha
    refine ⟨by simp [Actual, Ty.isNull, demo], ?_⟩
    intro c hc
    have : c = ⟨30, [.basic 2], false, false, false⟩ := by
      have := List.exists_of_findSome?_eq_some hc
      obtain ⟨l, hl, hf⟩ := this
      simp only [Option.toList_some, List.cons_append, List.nil_append, List.mem_cons, List.not_mem_nil, or_false] at hl
      rcases hl with rfl | rfl
      · cases hf
      · have := List.mem_of_find?_eq_some hf
        simpa using this
    subst this
    refine ⟨by simp [Closed], ?_, by simp, by simp, by simp⟩
    intro t ht
    simp only [List.mem_singleton] at ht
    subst ht
    decide
  exact generic_use_partial demo_sane (ctx := ⟨some [], [[⟨30, [.basic 2], false, false, false⟩]]⟩) rfl ho (levels := [([20], [.param 30])])
    ⟨by decide, by simp⟩ (by intro l hl a ha; simp at hl; subst hl; simp at ha; exact .inr ⟨30, ha, rfl⟩)
    (cs := [⟨20, [.basic 1], false, false, false⟩]) (by intro c hc; simp only [List.mem_singleton] at hc; subst hc; exact ⟨by simp [Over], by simp⟩)
    (by decide +kernel) _ (by simp) (.param 30) (by simp [argument, Subst.bind, List.lookup])

/-- `where T : C4, I1, U where U : class, new()`. -/
example : checkDecl demo [⟨20, [.basic 4, .basic 1, .param 21], false, false, false⟩, ⟨21, [], true, false, true⟩] = [] ∧
    checkDecl demo [⟨20, [.basic 1, .basic 4], false, false, false⟩] = [.position] ∧
    checkDecl demo [⟨20, [.param 21], false, false, false⟩, ⟨21, [.param 20], false, false, false⟩] = [.circular] := by
  decide +kernel

end Verif.Where
