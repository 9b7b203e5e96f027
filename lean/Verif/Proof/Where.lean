import Verif.Spec.Where
import Verif.Proof.Subst

/-! Lemmas about constraints of type parameters. -/

namespace Verif.Where

open Verif.Subst

/-! ## The arguments -/

theorem lookup_some_mem {α β : Type} [BEq α] [LawfulBEq α] {k : α} {v : β} : ∀ {l : List (α × β)}, l.lookup k = some v → (k, v) ∈ l
  | [], h => by cases h
  | (a, b) :: l, h => by
    rw [List.lookup_cons] at h
    by_cases hk : k = a
    · subst hk; simp at h; simp [h]
    · have hb : (k == a) = false := by simpa using hk
      rw [hb] at h
      exact List.mem_cons_of_mem _ (lookup_some_mem h)

theorem lookup_none {α β : Type} [BEq α] [LawfulBEq α] {k : α} : ∀ {l : List (α × β)}, k ∉ l.map (·.1) → l.lookup k = none
  | [], _ => rfl
  | (a, b) :: l, h => by
    simp only [List.map_cons, List.mem_cons, not_or] at h
    have hb : (k == a) = false := by simpa using h.1
    rw [List.lookup_cons, hb]
    exact lookup_none h.2

theorem lookup_reverse {α β : Type} [BEq α] [LawfulBEq α] (k : α) : ∀ (l : List (α × β)), (l.map (·.1)).Nodup →
    l.reverse.lookup k = l.lookup k
  | [], _ => rfl
  | (a, b) :: l, h => by
    simp only [List.map_cons, List.nodup_cons] at h
    rw [List.reverse_cons, List.lookup_append, lookup_reverse k l h.2, List.lookup_cons, List.lookup_cons]
    by_cases hk : k = a
    · subst hk
      rw [lookup_none h.1]
      simp
    · have hb : (k == a) = false := by simpa using hk
      rw [hb]
      simp

theorem findSome_lookup {α β γ : Type} [BEq α] [LawfulBEq α] (g : γ → List (α × β)) (k : α) : ∀ ls : List γ,
    ls.findSome? (fun l => (g l).lookup k) = (ls.flatMap g).lookup k
  | [] => rfl
  | l :: ls => by
    rw [List.findSome?_cons, List.flatMap_cons, List.lookup_append, ← findSome_lookup g k ls]
    cases (g l).lookup k <;> rfl

theorem argument_lookup (n : Nat) : ∀ ls : List (List Nat × List Ty), argument ls n = (ls.flatMap fun l => l.1.zip l.2).lookup n
  | [] => rfl
  | l :: ls => by
    rw [argument, List.flatMap_cons, List.lookup_append, ← argument_lookup n ls]
    rfl

theorem keys_levels : ∀ {ls : List (List Nat × List Ty)}, (∀ l ∈ ls, l.1.length ≤ l.2.length) →
    (ls.flatMap fun l => l.1.zip l.2).map (·.1) = ls.flatMap (·.1)
  | [], _ => rfl
  | l :: ls, h => by
    rw [List.flatMap_cons, List.flatMap_cons, List.map_append, keys_levels (fun x hx => h x (List.mem_cons_of_mem _ hx))]
    congr 1
    exact List.map_fst_zip (h l (by simp))

theorem getType_argument {levels : List (List Nat × List Ty)} (h : Levels levels) (n : Nat) :
    getType levels n = (argument levels n).getD .null := by
  unfold getType
  rw [argument_lookup, findSome_lookup (fun l : List Nat × List Ty => (l.1.zip l.2).reverse) n]
  rw [← lookup_reverse n (levels.flatMap fun l => l.1.zip l.2) (by rw [keys_levels h.2]; exact h.1), List.reverse_flatMap]
  rfl

theorem argument_mem {levels : List (List Nat × List Ty)} {n : Nat} {t : Ty} (h : argument levels n = some t) :
    ∃ l ∈ levels, t ∈ l.2 := by
  rw [argument_lookup] at h
  obtain ⟨l, h1, h2⟩ := List.mem_flatMap.1 (lookup_some_mem h)
  exact ⟨l, h1, (List.of_mem_zip h2).2⟩

theorem argument_isSome {levels : List (List Nat × List Ty)} (h : Levels levels) {n : Nat} (hn : n ∈ levels.flatMap (·.1)) :
    ∃ t, argument levels n = some t := by
  cases ha : argument levels n with
  | some t => exact ⟨t, rfl⟩
  | none =>
    exfalso
    rw [argument_lookup, List.lookup_eq_none_iff] at ha
    rw [← keys_levels h.2] at hn
    obtain ⟨p, hp, rfl⟩ := List.mem_map.1 hn
    have := ha p hp
    simp at this

mutual
theorem over_closed : ∀ t, Over [] t → Closed t
  | .param _, h => by simp [Over] at h
  | .array e _, h => over_closed e h
  | .gen _ args hst, h => ⟨overAll_closed args h.1, by rw [h.2]; trivial⟩
  | .null, h => by cases h
  | .nullType, _ => trivial
  | .basic _, _ => trivial
theorem overAll_closed : ∀ ts, OverAll [] ts → ClosedAll ts
  | [], _ => trivial
  | t :: ts, h => ⟨over_closed t h.1, overAll_closed ts h.2⟩
end

theorem transform_closed (f : Nat → Ty) {t : Ty} (h : Over [] t) : transform f t = t ∧ t.isNull = false := by
  have := transform_over (ps := []) (σ := fun _ => none) (f := f) (by intro n t h; cases h) (by intro n hn; cases hn) t h
  rw [replace_closed _ t (over_closed t h)] at this
  exact ⟨this.1, this.2⟩

theorem over_notNull {ps : List Nat} : ∀ {t : Ty}, Over ps t → t.isNull = false
  | .null, h => by cases h
  | .param _, _ => rfl
  | .array _ _, _ => rfl
  | .gen _ _ _, _ => rfl
  | .nullType, _ => rfl
  | .basic _, _ => rfl

/-! ## One clause -/

theorem isRef_iff {W : World} {t : Ty} (h : Actual W t) : W.isRef t = true ↔ Reference W t := by
  cases t with
  | nullType => exact absurd rfl h.2.2.1
  | _ => simp [World.isRef, Reference]

theorem value_iff {W : World} {t : Ty} (h : Actual W t) : W.isRef t = false ↔ Value W t := by
  have hk := h.2.2.2
  cases t with
  | nullType => exact absurd rfl h.2.2.1
  | _ =>
    simp only [World.isRef, Value]
    revert hk
    generalize W.kind _ = k
    cases k <;> simp

theorem fits_actual {W : World} {ctx : Ctx} {a : Ty} (h : Actual W a) (t : Ty) : fits W ctx a t = some (W.compat a t) := by
  cases a with
  | null => cases h.1
  | param n => exact absurd rfl (h.2.1 n)
  | _ => rfl

theorem refType_actual {W : World} {ctx : Ctx} {a : Ty} (h : Actual W a) : refType W ctx a = some (W.isRef a) := by
  cases a with
  | null => cases h.1
  | param n => exact absurd rfl (h.2.1 n)
  | _ => rfl

theorem newable_actual {W : World} {ctx : Ctx} {a : Ty} (h : Actual W a) :
    ∃ b, newable W ctx a = some b ∧ (b = true ↔ Creatable W a) := by
  cases a with
  | null => cases h.1
  | param n => exact absurd rfl (h.2.1 n)
  | _ => exact ⟨_, rfl, by simp [Creatable]⟩

theorem checkTypes_actual {W : World} {ctx : Ctx} {names : Nat → Ty} {a : Ty} (h : Actual W a) (g : Ty → Ty) : ∀ ts : List Ty,
    (∀ t ∈ ts, t.isNull = false ∧ transform names t = g t ∧ (g t).isNull = false ∧ W.kind (g t) ≠ .struct_) →
    ∃ r, checkTypes W ctx names a ts = some r ∧ (r = none ↔ ∀ t ∈ ts, W.compat a (g t) = true)
  | [], _ => ⟨none, rfl, by simp⟩
  | t :: ts, ht => by
    obtain ⟨h0, h1, h2, h3⟩ := ht t (by simp)
    obtain ⟨r, hr, hi⟩ := checkTypes_actual (ctx := ctx) h g ts (fun x hx => ht x (List.mem_cons_of_mem _ hx))
    have hk : (W.kind (g t) == Kind.struct_) = false := by simpa using h3
    rw [checkTypes, h1, h0, h2, hk]
    simp only [Bool.or_self, Bool.false_eq_true, if_false, fits_actual h]
    cases hc : W.compat a (g t) with
    | false => exact ⟨_, rfl, by simp [hc]⟩
    | true => exact ⟨r, hr, by simp [hc, hi]⟩

theorem checkFlags_actual {W : World} {ctx : Ctx} {a : Ty} (h : Actual W a) (c : Clause) :
    ∃ r, checkFlags W ctx a c = some r ∧
      (r = none ↔ (c.isClass = true → Reference W a) ∧ (c.isStruct = true → Value W a) ∧ (c.isNew = true → Creatable W a)) := by
  obtain ⟨b, hb, hbi⟩ := newable_actual (ctx := ctx) h
  unfold checkFlags
  rw [refType_actual h, hb, ← isRef_iff h, ← value_iff h, ← hbi]
  cases c.isClass <;> cases c.isStruct <;> cases c.isNew <;> cases W.isRef a <;> cases b <;> exact ⟨_, rfl, by simp⟩

theorem checkClause_actual {W : World} {ctx : Ctx} {levels : List (List Nat × List Ty)} (hl : Levels levels)
    (ha : ∀ l ∈ levels, ∀ a ∈ l.2, Actual W a) {c : Clause} (hc : Proper W levels c) :
    ∃ r a, checkClause W ctx (getType levels) c = some r ∧ argument levels c.name = some a ∧
      (r = none ↔ Meets W (argument levels) c a) := by
  obtain ⟨a, hargs⟩ := argument_isSome hl hc.1
  obtain ⟨l, hl1, hl2⟩ := argument_mem hargs
  have hact := ha l hl1 a hl2
  have hσ : ∀ n t, argument levels n = some t → t.isNull = false := by
    intro n t h
    obtain ⟨l, h1, h2⟩ := argument_mem h
    exact (ha l h1 t h2).1
  have hname : getType levels c.name = a := by rw [getType_argument hl, hargs]; rfl
  have ht : ∀ t ∈ c.types, t.isNull = false ∧ transform (getType levels) t = replace (argument levels) t ∧
      (replace (argument levels) t).isNull = false ∧ W.kind (replace (argument levels) t) ≠ .struct_ := by
    intro t ht
    obtain ⟨h1, h2⟩ := hc.2 t ht
    obtain ⟨h3, h4⟩ := transform_over (f := getType levels) hσ (fun n hn => by
      obtain ⟨t, h⟩ := argument_isSome hl hn
      exact ⟨t, h, by rw [getType_argument hl, h]; rfl⟩) t h1
    exact ⟨h4, h3, replace_notNull hσ t h4, h2⟩
  obtain ⟨r, hr, hri⟩ := checkTypes_actual (ctx := ctx) (names := getType levels) hact (replace (argument levels)) c.types ht
  obtain ⟨r2, hr2, hri2⟩ := checkFlags_actual (ctx := ctx) hact c
  unfold checkClause
  rw [hname, hr]
  cases r with
  | some x =>
    refine ⟨some x, a, rfl, hargs, ?_⟩
    constructor
    · intro h; cases h
    · intro h; exact absurd (hri.2 h.converts) (by simp)
  | none =>
    refine ⟨r2, a, hr2, hargs, ?_⟩
    rw [hri2]
    constructor
    · rintro ⟨h1, h2, h3⟩; exact ⟨hri.1 rfl, h1, h2, h3⟩
    · intro h; exact ⟨h.reference, h.value, h.creatable⟩

theorem checkUse_nil {W : World} {ctx : Ctx} {names : Nat → Ty} : ∀ {cs : List Clause}, checkUse W ctx names cs = some [] →
    ∀ c ∈ cs, checkClause W ctx names c = some none
  | [], _, _, hc => by cases hc
  | c :: cs, h, d, hd => by
    rw [checkUse] at h
    cases hr : checkClause W ctx names c with
    | none => rw [hr] at h; cases h
    | some r =>
      rw [hr] at h
      simp only [Option.map_eq_some_iff, List.append_eq_nil_iff] at h
      obtain ⟨rs, h1, h2, h3⟩ := h
      subst h3
      rcases List.mem_cons.1 hd with rfl | hd
      · rw [hr]
        cases r with
        | none => rfl
        | some _ => cases h2
      · exact checkUse_nil h1 d hd

/-! ## Arguments that are parameters -/

theorem clauseOf_governs {ctx : Ctx} (hm : ctx.method.isSome = true) (n : Nat) : clauseOf ctx n = some (governs ctx n) := by
  unfold clauseOf governs
  cases h : ctx.method with
  | none => rw [h] at hm; cases hm
  | some cs =>
    simp only [Option.toList_some, List.cons_append, List.nil_append, List.findSome?_cons, clauseIn]
    cases cs.find? fun c => c.name == n <;> rfl

theorem checkTypes_none {W : World} {ctx : Ctx} {names : Nat → Ty} {a : Ty} : ∀ {ts : List Ty},
    (∀ t ∈ ts, Over [] t) → checkTypes W ctx names a ts = some none → ∀ t ∈ ts, fits W ctx a t = some true
  | [], _, _, _, h => by cases h
  | t :: ts, ho, h, u, hu => by
    obtain ⟨h1, h2⟩ := transform_closed names (ho t (by simp))
    rw [checkTypes, h1, h2] at h
    simp only [Bool.or_self, Bool.false_eq_true, if_false] at h
    cases hk : W.kind t == .struct_ with
    | true => rw [hk] at h; cases h
    | false =>
      rw [hk] at h
      simp only [Bool.false_eq_true, if_false] at h
      cases hf : fits W ctx a t with
      | none => rw [hf] at h; cases h
      | some b =>
        rw [hf] at h
        cases b with
        | false => cases h
        | true =>
          rcases List.mem_cons.1 hu with rfl | hu
          · exact hf
          · exact checkTypes_none (fun x hx => ho x (List.mem_cons_of_mem _ hx)) h u hu

theorem checkFlags_none {W : World} {ctx : Ctx} {a : Ty} {c : Clause} (h : checkFlags W ctx a c = some none) :
    (c.isClass = true → refType W ctx a = some true) ∧ (c.isStruct = true → refType W ctx a = some false) ∧
    (c.isNew = true → newable W ctx a = some true) := by
  unfold checkFlags at h
  revert h
  generalize refType W ctx a = r
  generalize newable W ctx a = n
  cases c.isClass <;> cases c.isStruct <;> cases c.isNew <;> rcases r with _ | _ | _ <;> rcases n with _ | _ | _ <;> simp

/-! ## Clauses -/

mutual
theorem tyEq_iff : ∀ a b, tyEq a b = true ↔ a = b
  | .null, b => by cases b <;> simp [tyEq]
  | .nullType, b => by cases b <;> simp [tyEq]
  | .basic a, b => by cases b <;> simp [tyEq]
  | .param a, b => by cases b <;> simp [tyEq]
  | .array a d, b => by cases b <;> simp [tyEq, tyEq_iff a]
  | .gen t as h, b => by cases b <;> simp [tyEq, tysEq_iff as, tyEq_iff h, and_assoc]
theorem tysEq_iff : ∀ as bs, tysEq as bs = true ↔ as = bs
  | [], bs => by cases bs <;> simp [tysEq]
  | a :: as, bs => by cases bs <;> simp [tysEq, tyEq_iff a, tysEq_iff as]
end

theorem isBasic_iff (t : Ty) (n : Nat) : isBasic t n = true ↔ t = .basic n := by
  cases t <;> simp [isBasic]

theorem declTypes_none {W : World} {c : Clause} : ∀ (ts seen : List Ty) (index : Nat) (deps : List Nat),
    ((declTypes W c seen index ts deps).1 = none ↔
      ts.Nodup ∧ (∀ t ∈ ts, t ∉ seen) ∧ (∀ t ∈ ts, t ≠ .basic W.objectType) ∧ (∀ t ∈ ts, W.isSealed t = false) ∧
      (∀ t ∈ (if index = 0 then ts.tail else ts), W.kind t ≠ .class_) ∧
      (c.isClass = true ∨ c.isStruct = true → ∀ t ∈ ts, W.kind t = .class_ → t = .basic W.enumType)) ∧
    ((declTypes W c seen index ts deps).1 = none → (declTypes W c seen index ts deps).2 = deps ++ ts.filterMap paramOf)
  | [], seen, index, deps => by simp [declTypes]
  | t :: ts, seen, index, deps => by
    have ih := declTypes_none (W := W) (c := c) ts (t :: seen) (index + 1) (deps ++ noted t)
    rw [declTypes]
    have hseen : seen.any (tyEq t) = true ↔ t ∈ seen := by
      simp [List.any_eq_true, tyEq_iff]
    by_cases h1 : t ∈ seen
    · rw [if_pos (hseen.2 h1)]
      simp [h1]
    rw [if_neg (fun h => h1 (hseen.1 h))]
    by_cases h2 : (W.kind t == .class_ && !isBasic t W.enumType && (c.isClass || c.isStruct)) = true
    · rw [if_pos h2]
      simp only [Bool.and_eq_true, Bool.or_eq_true, Bool.not_eq_true', beq_iff_eq] at h2
      constructor
      · constructor
        · intro h; cases h
        · rintro ⟨-, -, -, -, -, h⟩
          have := (isBasic_iff t W.enumType).2 (h h2.2 t (by simp) h2.1.1)
          rw [this] at h2
          exact absurd h2.1.2 (by simp)
      · intro h; cases h
    rw [if_neg h2]
    by_cases h3 : isBasic t W.objectType = true
    · rw [if_pos h3]
      rw [isBasic_iff] at h3
      simp [h3]
    rw [if_neg h3]
    by_cases h4 : W.isSealed t = true
    · rw [if_pos h4]
      simp [h4]
    rw [if_neg h4]
    by_cases h5 : (W.kind t == .class_ && decide (index ≥ 1)) = true
    · rw [if_pos h5]
      simp only [Bool.and_eq_true, beq_iff_eq, decide_eq_true_eq] at h5
      constructor
      · constructor
        · intro h; cases h
        · rintro ⟨-, -, -, -, h, -⟩
          rw [if_neg (by omega)] at h
          exact absurd h5.1 (h t (by simp))
      · intro h; cases h
    rw [if_neg h5]
    refine ⟨?_, ?_⟩
    · rw [ih.1]
      simp only [Nat.add_one_ne_zero, if_false, List.nodup_cons, List.mem_cons, forall_eq_or_imp, not_or, List.tail_cons]
      have h2' : c.isClass = true ∨ c.isStruct = true → W.kind t = .class_ → t = .basic W.enumType := by
        intro ho hk
        refine Classical.byContradiction fun hne => h2 ?_
        have : isBasic t W.enumType = false := by
          cases hb : isBasic t W.enumType with
          | false => rfl
          | true => exact absurd ((isBasic_iff _ _).1 hb) hne
        simp [hk, this, ho]
      have h3' : t ≠ .basic W.objectType := fun h => h3 ((isBasic_iff _ _).2 h)
      have h4' : W.isSealed t = false := by simpa using h4
      constructor
      · rintro ⟨a1, a2, a3, a4, a5, a6⟩
        refine ⟨⟨fun hm => (a2 t hm).1 rfl, a1⟩, ⟨h1, fun x hx => (a2 x hx).2⟩, ⟨h3', a3⟩, ⟨h4', a4⟩, ?_, fun ho => ⟨h2' ho, a6 ho⟩⟩
        by_cases hi : index = 0
        · rw [if_pos hi]; exact a5
        · rw [if_neg hi]
          intro x hx
          rcases List.mem_cons.1 hx with rfl | hx
          · intro hk
            exact h5 (by simp [hk]; omega)
          · exact a5 x hx
      · rintro ⟨⟨a1, a2⟩, ⟨-, a3⟩, ⟨-, a4⟩, ⟨-, a5⟩, a6, a7⟩
        refine ⟨a2, fun x hx => ⟨fun h => a1 (h ▸ hx), a3 x hx⟩, a4, a5, ?_, fun ho => (a7 ho).2⟩
        intro x hx
        by_cases hi : index = 0
        · rw [if_pos hi] at a6; exact a6 x hx
        · rw [if_neg hi] at a6; exact a6 x (List.mem_cons_of_mem _ hx)
    · intro h
      rw [ih.2 h]
      cases t <;> simp [paramOf, noted, List.filterMap_cons]

theorem declClause_none {W : World} {c : Clause} : ((declClause W c).1 = none ↔ WellFormed W c) ∧
    ((declClause W c).1 = none → (declClause W c).2 = c.types.filterMap paramOf) := by
  obtain ⟨h1, h2⟩ := declTypes_none (W := W) (c := c) c.types [] 0 []
  unfold declClause
  cases hd : declTypes W c [] 0 c.types [] with
  | mk r deps =>
    rw [hd] at h1 h2
    cases r with
    | some r =>
      refine ⟨⟨fun h => by (cases h), fun h => ?_⟩, fun h => by (cases h)⟩
      exact absurd (h1.2 ⟨h.distinct, by simp, h.notObject, h.notSealed, h.classFirst, h.noClass⟩) (by simp)
    | none =>
      obtain ⟨a1, -, a3, a4, a5, a6⟩ := h1.1 rfl
      have hdeps := h2 rfl
      simp only [List.nil_append] at hdeps
      refine ⟨?_, fun h => ?_⟩
      · constructor
        · intro h
          refine ⟨a1, a3, a4, a5, a6, ?_, ?_⟩
          · rintro ⟨b1, b2⟩; simp [b1, b2] at h
          · rintro ⟨b1, b2⟩
            cases hc : c.isClass <;> simp [b1, b2, hc] at h
        · intro h
          have n1 := h.notBoth
          have n2 := h.notNew
          revert n1 n2
          cases c.isClass <;> cases c.isStruct <;> cases c.isNew <;> simp
      · rw [← hdeps]
        dsimp only
        split
        · rfl
        · split <;> rfl

theorem declLoop_none {W : World} : ∀ (cs : List Clause) (names : List Nat) (deps : Verif.Decl.Deps),
    ((declLoop W names cs deps).1 = [] ↔ (cs.map (·.name)).Nodup ∧ (∀ c ∈ cs, c.name ∉ names) ∧ ∀ c ∈ cs, WellFormed W c) ∧
    ((declLoop W names cs deps).1 = [] → (declLoop W names cs deps).2 = some (deps ++
      (cs.map fun c => (c.name, c.types.filterMap paramOf)).filter fun e => !e.2.isEmpty))
  | [], names, deps => by simp [declLoop]
  | c :: cs, names, deps => by
    obtain ⟨h1, h2⟩ := declClause_none (W := W) (c := c)
    have ih := declLoop_none (W := W) cs (c.name :: names) (if (declClause W c).2.isEmpty then deps else deps ++ [(c.name, (declClause W c).2)])
    rw [declLoop]
    by_cases hm : names.contains c.name = true
    · rw [if_pos hm]
      have : c.name ∈ names := by simpa using hm
      simp [this]
    · rw [if_neg hm]
      have hm' : c.name ∉ names := by simpa using hm
      simp only [List.append_eq_nil_iff]
      have hto : (declClause W c).1.toList = [] ↔ (declClause W c).1 = none := by cases (declClause W c).1 <;> simp
      refine ⟨?_, ?_⟩
      · rw [hto, h1, ih.1]
        simp only [List.map_cons, List.nodup_cons, List.mem_map, not_exists, not_and, List.mem_cons, not_or, forall_eq_or_imp]
        constructor
        · rintro ⟨b1, b2, b3, b4⟩
          exact ⟨⟨fun x hx => (b3 x hx).1, b2⟩, ⟨hm', fun x hx => (b3 x hx).2⟩, b1, b4⟩
        · rintro ⟨⟨b1, b2⟩, ⟨-, b3⟩, b4, b5⟩
          exact ⟨b4, b2, fun x hx => ⟨b1 x hx, b3 x hx⟩, b5⟩
      · rintro ⟨b1, b2⟩
        rw [ih.2 b2, h2 (hto.1 b1)]
        cases hf : c.types.filterMap paramOf with
        | nil => simp [hf]
        | cons x xs => simp [hf]

end Verif.Where
