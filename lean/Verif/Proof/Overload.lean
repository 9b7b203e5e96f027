import Verif.Spec.Overload

/-! # Conversions and calls of methods without type parameters -/

namespace Verif.Overload

open Verif.Fold (VT)

/-! ## Conversions -/

theorem widens_of_vtCompat {a b : VT} (h : vtCompat (some a) (some b) = true) (hne : a ≠ b) : Widens a b := by
  revert h hne
  cases a <;> cases b <;> intro h hne <;>
    first
    | exact absurd rfl hne
    | (exfalso; revert h; decide)
    | exact .one (by constructor)
    | exact .trans (by constructor) (.one (by constructor))
    | exact .trans .i8 (.trans .i16 (.one .i32))
    | exact .trans .i8 (.trans .i16 (.trans .i32 (.one .i64)))
    | exact .trans .i8 (.trans .i16 (.trans .i32 (.trans .i64 (.one .f))))
    | exact .trans .i16 (.trans .i32 (.one .i64))
    | exact .trans .i16 (.trans .i32 (.trans .i64 (.one .f)))
    | exact .trans .i32 (.trans .i64 (.one .f))
    | exact .trans .u8 (.trans .u16 (.one .u32))

theorem vtCompat_trans {a b c : VT} (h : WidenStep a b) (h' : vtCompat (some b) (some c) = true) :
    vtCompat (some a) (some c) = true := by
  revert h'
  cases h <;> cases c <;> decide

theorem vtCompat_of_widens {a b : VT} (h : Widens a b) : vtCompat (some a) (some b) = true := by
  induction h with
  | one h => cases h <;> decide
  | trans h _ ih => exact vtCompat_trans h ih

theorem widens_numeric {a b : VT} (h : Widens a b) : a ≠ .mobject ∧ b ≠ .mobject := by
  induction h with
  | one h => cases h <;> exact ⟨by decide, by decide⟩
  | trans h _ ih => exact ⟨by cases h <;> decide, ih.2⟩

theorem isMobject_iff (W : World) (t : Ty) : W.isMobject t = true ↔ W.ObjectType t := by
  cases t <;> simp [World.isMobject, World.vtype, World.ObjectType]

theorem derives_object {W : World} (g : W.Good) {a b : Ty} (h : Derives W a b) : W.ObjectType b := by
  induction h with
  | one h => exact g.supers _ _ h
  | trans _ _ ih => exact ih

/-- The test of the compiler is the conversion. -/
theorem compat_iff {W : World} (g : W.Good) {a b : Ty} (hp : W.Plain a b) :
    compat W a b = true ↔ Converts W a b := by
  obtain ⟨hb, hnull, hpar, hen⟩ := hp
  unfold compat
  by_cases hab : a = b
  · subst hab; simp [Converts.same]
  simp only [hab, if_false]
  by_cases han : a = .null
  · subst han
    simp only [Ty.isNull, Bool.or_true, if_true, true_iff]
    exact .null (hnull rfl)
  have h1 : a.isNull = false := by cases a <;> simp_all [Ty.isNull]
  have h2 : b.isNull = false := by cases b <;> simp_all [Ty.isNull]
  simp only [h1, h2, Bool.false_eq_true, if_false]
  by_cases hm : W.isMobject a || W.isMobject b
  · rw [if_pos hm, g.sup_iff]
    constructor
    · exact .upcast
    · intro h
      cases h with
      | same => exact absurd rfl hab
      | null _ => exact absurd rfl han
      | widen _ _ hw =>
        have := widens_numeric hw
        simp [World.isMobject, World.vtype, this.1, this.2] at hm
      | upcast h => exact h
  · rw [if_neg hm]
    have hm1 : W.isMobject a = false := by cases h : W.isMobject a <;> simp_all
    have hm2 : W.isMobject b = false := by cases h : W.isMobject b <;> simp_all
    have hno : ¬ Derives W a b := by
      intro h
      have := (isMobject_iff W b).2 (derives_object g h)
      simp [hm2] at this
    cases a with
    | null => exact absurd rfl han
    | gen t as => simp [World.isMobject, World.vtype] at hm1
    | arr e d => simp [World.isMobject, World.vtype] at hm1
    | param n =>
      cases b with
      | null => exact absurd rfl hb
      | gen t as => simp [World.isMobject, World.vtype] at hm2
      | arr e d => simp [World.isMobject, World.vtype] at hm2
      | param k => exact absurd (by rw [hpar n k rfl rfl]) hab
      | base d =>
        constructor
        · intro h; simp [World.vtype, vtCompat] at h
        · intro h; cases h with
          | upcast h => exact absurd h hno
    | base c =>
      cases b with
      | null => exact absurd rfl hb
      | gen t as => simp [World.isMobject, World.vtype] at hm2
      | arr e d => simp [World.isMobject, World.vtype] at hm2
      | param k =>
        constructor
        · intro h; simp [World.vtype, vtCompat] at h
        · intro h; cases h with
          | upcast h => exact absurd h hno
      | base d =>
        have hcd : c ≠ d := fun h => hab (by rw [h])
        simp [World.isMobject, World.vtype] at hm1 hm2
        obtain ⟨e1, e2⟩ := hen c d rfl rfl hcd hm1 hm2
        simp only [World.vtype]
        constructor
        · intro h
          refine .widen e1 e2 (widens_of_vtCompat h ?_)
          intro hv
          exact hcd (g.distinct c d hv hm1 e1 e2)
        · intro h
          cases h with
          | same => exact absurd rfl hab
          | widen _ _ hw => exact vtCompat_of_widens hw
          | upcast h => exact absurd h hno

/-! ## Arguments of methods without type parameters -/

mutual
theorem over_nil_hasParams : (t : Ty) → t.over [] = true → t.hasParams = false ∧ t.isParam = false
  | .null, _ => ⟨rfl, rfl⟩
  | .base _, _ => ⟨rfl, rfl⟩
  | .param n, h => by simp [Ty.over] at h
  | .arr _ _, _ => ⟨rfl, rfl⟩
  | .gen _ as, h => ⟨by simpa [Ty.hasParams] using overs_nil_hasParams as (by simpa [Ty.over] using h), rfl⟩
theorem overs_nil_hasParams : (ts : Tys) → ts.over [] = true → ts.hasParams = false
  | .nil, _ => rfl
  | .cons t ts, h => by
    simp only [Tys.over, Bool.and_eq_true] at h
    have h1 := over_nil_hasParams t h.1
    have h2 := overs_nil_hasParams ts h.2
    simp [Tys.hasParams, h1.1, h1.2, h2]
end

theorem toReal_closed (W : World) (given : Bool) (env : Env) {p a : Ty} (h : p.closed = true) :
    toReal W given env p a = .type p env := by
  have hh := over_nil_hasParams p h
  cases p with
  | param n => simp [Ty.closed, Ty.over] at h
  | gen t ps =>
    have : ps.hasParams = false := by simpa [Ty.hasParams] using hh.1
    simp [toReal, this]
  | _ => rfl

/-- What `compareArg` says about a parameter without type parameters. -/
def argClass (W : World) (p a : Slot) : Compare :=
  if p.1 ≠ a.1 then .notMatch
  else if p.2 = a.2 then .equals
  else if p.1 = .ref then .notMatch
  else if p.1 = .out then (if compat W p.2 a.2 then .matched else .notMatch)
  else if compat W a.2 p.2 then .matched else .notMatch

theorem compareArg_closed (W : World) (given : Bool) (env : Env) {p a : Slot} (h : p.2.closed = true) :
    compareArg W given env p a = (argClass W p a, env) := by
  unfold compareArg argClass
  rw [toReal_closed W given env h]
  by_cases h1 : p.1 = a.1
  · simp only [h1, ne_eq, not_true_eq_false, if_false]
    split
    · rfl
    · split
      · rfl
      · split <;> split <;> rfl
  · simp [h1]

theorem argClass_equals {W : World} {p a : Slot} : argClass W p a = .equals ↔ p = a := by
  unfold argClass
  obtain ⟨p1, p2⟩ := p
  obtain ⟨a1, a2⟩ := a
  simp only [Prod.mk.injEq]
  by_cases h1 : p1 = a1
  · by_cases h2 : p2 = a2
    · simp [h1, h2]
    · simp only [h1, h2, ne_eq, not_true_eq_false, if_false, and_false, iff_false]
      split
      · simp
      · split <;> split <;> simp
  · simp [h1]

theorem argClass_cases (W : World) (p a : Slot) :
    argClass W p a = .equals ∨ argClass W p a = .matched ∨ argClass W p a = .notMatch := by
  unfold argClass
  split
  · simp
  · split
    · simp
    · split
      · simp
      · split <;> split <;> simp

theorem argClass_fits {W : World} {p a : Slot} :
    argClass W p a ≠ .notMatch ↔ Fits (fun x y => compat W x y = true) p a := by
  unfold argClass Fits
  by_cases h1 : p.1 = a.1
  · by_cases h2 : p.2 = a.2
    · simp [h1, h2]
    · simp only [h1, h2, ne_eq, not_true_eq_false, if_false, false_or, true_and]
      by_cases hr : a.1 = .ref
      · simp [hr]
      · simp only [hr, if_false, not_false_eq_true, true_and]
        by_cases ho : a.1 = .out
        · simp only [ho, if_true, true_and, not_true_eq_false, false_and, or_false]
          cases compat W p.2 a.2 <;> simp
        · simp only [ho, if_false, false_and, not_false_eq_true, true_and, false_or]
          cases compat W a.2 p.2 <;> simp
  · simp [h1]

theorem compareLoop_closed (W : World) (given : Bool) (env : Env) :
    ∀ (ps as : List Slot) (r : Compare), ps.length = as.length → (∀ p ∈ ps, p.2.closed = true) →
      (r = .equals ∨ r = .matched) →
      ∃ r', compareLoop W given env ps as r = (r', env) ∧
        (r' = .equals ∨ r' = .matched ∨ r' = .notMatch) ∧
        (r' = .equals ↔ r = .equals ∧ ps = as) ∧
        (r' ≠ .notMatch ↔ AllFit (fun x y => compat W x y = true) ps as)
  | [], [], r, _, _, hr => ⟨r, rfl, by rcases hr with h | h <;> simp [h], by simp, by
      constructor
      · intro _; exact .nil
      · intro _; rcases hr with h | h <;> simp [h]⟩
  | [], a :: as, r, hl, _, _ => by simp at hl
  | p :: ps, [], r, hl, _, _ => by simp at hl
  | p :: ps, a :: as, r, hl, hc, hr => by
    have hl' : ps.length = as.length := by simpa using hl
    have hc' : ∀ p ∈ ps, p.2.closed = true := fun q hq => hc q (List.mem_cons_of_mem _ hq)
    have hcp := hc p List.mem_cons_self
    rw [compareLoop, compareArg_closed W given env hcp]
    rcases argClass_cases W p a with h | h | h
    · rw [h]
      obtain ⟨r', e, h1, h2, h3⟩ := compareLoop_closed W given env ps as r hl' hc' hr
      refine ⟨r', e, h1, ?_, ?_⟩
      · rw [h2, List.cons.injEq, argClass_equals.1 h]; simp
      · rw [h3]
        constructor
        · intro ht; exact .cons (argClass_fits.1 (by rw [h]; simp)) ht
        · intro ht; cases ht with | cons _ ht => exact ht
    · rw [h]
      have hr' : (if r = .auto then Compare.auto else .matched) = .matched := by
        rcases hr with e | e <;> simp [e]
      simp only [hr']
      obtain ⟨r', e, h1, h2, h3⟩ := compareLoop_closed W given env ps as .matched hl' hc' (Or.inr rfl)
      refine ⟨r', e, h1, ?_, ?_⟩
      · rw [h2]
        simp only [reduceCtorEq, false_and, false_iff, not_and]
        intro _ he
        have := (argClass_equals (W := W)).2 (List.cons.inj he).1
        rw [h] at this; cases this
      · rw [h3]
        constructor
        · intro ht; exact .cons (argClass_fits.1 (by rw [h]; simp)) ht
        · intro ht; cases ht with | cons _ ht => exact ht
    · rw [h]
      refine ⟨.notMatch, rfl, by simp, ?_, ?_⟩
      · simp only [reduceCtorEq, false_iff, not_and]
        intro _ he
        have := (argClass_equals (W := W)).2 (List.cons.inj he).1
        rw [h] at this; cases this
      · simp only [ne_eq, not_true_eq_false, false_iff]
        intro ht
        cases ht with
        | cons hf _ => exact (argClass_fits.2 hf) h

theorem allFit_length {conv : Ty → Ty → Prop} {ps as : List Slot} (h : AllFit conv ps as) :
    ps.length = as.length := by
  induction h with
  | nil => rfl
  | cons _ _ ih => simp [ih]

theorem fits_congr {W : World} (g : W.Good) {p a : Slot}
    (h : (p.1 = .out → W.Plain p.2 a.2) ∧ (p.1 ≠ .out → W.Plain a.2 p.2)) :
    Fits (fun x y => compat W x y = true) p a ↔ Fits (Converts W) p a := by
  unfold Fits
  by_cases ho : p.1 = .out
  · simp only [ho, true_and, ne_eq, not_true_eq_false, false_and, and_false, or_false]
    rw [compat_iff g (h.1 ho)]
  · simp only [ho, false_and, false_or, ne_eq, not_false_eq_true, true_and]
    rw [compat_iff g (h.2 ho)]

theorem allFit_congr {W : World} (g : W.Good) :
    ∀ {ps as : List Slot}, W.PlainCall ps as →
      (AllFit (fun x y => compat W x y = true) ps as ↔ AllFit (Converts W) ps as)
  | [], [], _ => ⟨fun _ => .nil, fun _ => .nil⟩
  | [], _ :: _, _ => ⟨fun h => (by cases h), fun h => (by cases h)⟩
  | _ :: _, [], _ => ⟨fun h => (by cases h), fun h => (by cases h)⟩
  | p :: ps, a :: as, h => by
    have h0 := fits_congr g (h 0 p a rfl rfl)
    have ht : W.PlainCall ps as := fun i p a hp ha => h (i + 1) p a (by simpa using hp) (by simpa using ha)
    have ih := allFit_congr g ht
    constructor
    · intro hh; cases hh with | cons hf hr => exact .cons (h0.1 hf) (ih.1 hr)
    · intro hh; cases hh with | cons hf hr => exact .cons (h0.2 hf) (ih.2 hr)

/-- A method without type parameters: what the comparison says. -/
theorem compareMethod_closed {W : World} (g : W.Good) {m : Method} {as : List Slot}
    (hg : m.gparams = []) (hc : ∀ p ∈ m.params, p.2.closed = true) (hp : W.PlainCall m.params as) :
    ∃ r, compareMethod W m none (some as) = (r, []) ∧ (r = .equals ∨ r = .matched ∨ r = .notMatch) ∧
      (r = .equals ↔ Exact m as) ∧ (r ≠ .notMatch ↔ Applicable W m as) := by
  unfold compareMethod Exact Applicable
  simp only [hg, List.length_nil, Nat.lt_irrefl, gt_iff_lt, if_false]
  by_cases h0 : as.length = 0
  · have : as = [] := List.eq_nil_of_length_eq_zero h0
    subst this
    cases hps : m.params with
    | nil => exact ⟨.equals, by simp, by simp, by simp, by simp; exact .nil⟩
    | cons p ps => exact ⟨.notMatch, by simp, by simp, by simp, by simp; intro h; cases h⟩
  · by_cases hl : as.length = m.params.length
    · obtain ⟨r, e, h1, h2, h3⟩ := compareLoop_closed W false [] m.params as .equals hl.symm hc (Or.inl rfl)
      refine ⟨r, ?_, h1, by simpa using h2, h3.trans (allFit_congr g hp)⟩
      simp [hl, compareAll, e]
      intro hh
      simp [hl, hh] at h0
    · refine ⟨.notMatch, by simp [h0, hl], by simp, ?_, ?_⟩
      · simp only [reduceCtorEq, false_iff]
        intro h; rw [h] at hl; exact hl rfl
      · simp only [ne_eq, not_true_eq_false, false_iff]
        intro h; exact hl (allFit_length h).symm

/-! ## The methods of one class -/

/-- `analyzeOne` over methods without type parameters. -/
theorem fold_closed {W : World} (g : W.Good) {q : Query} {as : List Slot} (hq : q.gargs = none)
    (hqa : q.args = some as) :
    ∀ (ms : List Method) (s : Acc), (∀ m ∈ ms, m.gparams = []) →
      (∀ m ∈ ms, ∀ p ∈ m.params, p.2.closed = true) → (∀ m ∈ ms, W.PlainCall m.params as) → ms.Nodup →
      ∃ e : Option Pick, ∃ l : List Method,
        ms.foldl (analyzeOne W q) s =
          { s with equaled := (match e with | some p => some p | none => s.equaled),
                   matched := s.matched ++ l.map (fun m => ⟨m, []⟩) } ∧
        l.Nodup ∧ (∀ m, m ∈ l ↔ m ∈ ms ∧ Applicable W m as ∧ ¬ Exact m as) ∧
        (match e with
          | some p => p.types = [] ∧ p.method ∈ ms ∧ Exact p.method as
          | none => ∀ m ∈ ms, ¬ Exact m as)
  | [], s, _, _, _, _ => ⟨none, [], by simp, List.nodup_nil, by simp, by simp⟩
  | m :: ms, s, hg, hc, hp, hn => by
    have hn' : m ∉ ms ∧ ms.Nodup := by simpa using hn
    obtain ⟨r, e, h1, h2, h3⟩ := compareMethod_closed g (hg m List.mem_cons_self) (hc m List.mem_cons_self)
      (hp m List.mem_cons_self)
    have hg' : ∀ m ∈ ms, m.gparams = [] := fun x hx => hg x (List.mem_cons_of_mem _ hx)
    have hc' : ∀ m ∈ ms, ∀ p ∈ m.params, p.2.closed = true := fun x hx => hc x (List.mem_cons_of_mem _ hx)
    have hp' : ∀ m ∈ ms, W.PlainCall m.params as := fun x hx => hp x (List.mem_cons_of_mem _ hx)
    obtain ⟨e', l', k1, k2, k3, k4⟩ := fold_closed g hq hqa ms (analyzeOne W q s m) hg' hc' hp' hn'.2
    rw [List.foldl_cons, k1]
    rcases h1 with h | h | h
    · -- exact
      subst h
      have hex : Exact m as := h2.1 rfl
      have hs : analyzeOne W q s m = { s with equaled := some ⟨m, []⟩ } := by
        simp [analyzeOne, hq, hqa, e]
      refine ⟨some (e'.getD ⟨m, []⟩), l', ?_, k2, ?_, ?_⟩
      · rw [hs]; cases e' <;> simp
      · intro x
        rw [k3]
        constructor
        · intro ⟨a, b⟩; exact ⟨List.mem_cons_of_mem _ a, b⟩
        · intro ⟨a, b⟩
          rcases List.mem_cons.1 a with rfl | a
          · exact absurd hex b.2
          · exact ⟨a, b⟩
      · cases e' with
        | none => exact ⟨rfl, List.mem_cons_self, hex⟩
        | some p => exact ⟨k4.1, List.mem_cons_of_mem _ k4.2.1, k4.2.2⟩
    · -- matched
      subst h
      have hex : ¬ Exact m as := fun hh => by simpa using h2.2 hh
      have hap : Applicable W m as := h3.1 (by simp)
      have hs : analyzeOne W q s m = { s with matched := s.matched ++ [⟨m, []⟩] } := by
        simp [analyzeOne, hq, hqa, e]
      refine ⟨e', m :: l', ?_, ?_, ?_, ?_⟩
      · rw [hs]; cases e' <;> simp
      · simp only [List.nodup_cons]
        exact ⟨fun hm => hn'.1 ((k3 m).1 hm).1, k2⟩
      · intro x
        rw [List.mem_cons, k3, List.mem_cons]
        constructor
        · rintro (rfl | ⟨a, b⟩)
          · exact ⟨Or.inl rfl, hap, hex⟩
          · exact ⟨Or.inr a, b⟩
        · rintro ⟨rfl | a, b⟩
          · exact Or.inl rfl
          · exact Or.inr ⟨a, b⟩
      · cases e' with
        | none =>
          intro x hx
          rcases List.mem_cons.1 hx with rfl | hx
          · exact hex
          · exact k4 x hx
        | some p => exact ⟨k4.1, List.mem_cons_of_mem _ k4.2.1, k4.2.2⟩
    · -- no match
      subst h
      have hex : ¬ Exact m as := fun hh => by simpa using h2.2 hh
      have hap : ¬ Applicable W m as := fun hh => h3.2 hh rfl
      have hs : analyzeOne W q s m = s := by
        simp [analyzeOne, hq, hqa, e]
      refine ⟨e', l', ?_, k2, ?_, ?_⟩
      · rw [hs]
      · intro x
        rw [k3, List.mem_cons]
        constructor
        · rintro ⟨a, b⟩; exact ⟨Or.inr a, b⟩
        · rintro ⟨rfl | a, b⟩
          · exact absurd b.1 hap
          · exact ⟨a, b⟩
      · cases e' with
        | none =>
          intro x hx
          rcases List.mem_cons.1 hx with rfl | hx
          · exact hex
          · exact k4 x hx
        | some p => exact ⟨k4.1, List.mem_cons_of_mem _ k4.2.1, k4.2.2⟩

theorem applicable_of_exact {W : World} {m : Method} {as : List Slot} (h : Exact m as) : Applicable W m as := by
  unfold Exact at h
  unfold Applicable
  rw [h]
  clear h
  induction as with
  | nil => exact .nil
  | cons a as ih => exact .cons ⟨rfl, Or.inl rfl⟩ ih

/-- The query of a call by name without type arguments. -/
def callQuery (name : Nat) (as : List Slot) : Query := ⟨name, .normal, none, some as⟩

theorem firstRound_named (name : Nat) (as : List Slot) (ms : List Method) :
    firstRound (callQuery name as) ms = namedIn name ms := by
  unfold firstRound callQuery namedIn
  simp only [Option.getD_none, List.length_nil]
  apply List.filter_congr
  intro m _
  cases m.gparams <;> simp [Bool.beq_eq_decide_eq]

theorem fold_chosen {W : World} (g : W.Good) {name : Nat} {as : List Slot} {ms : List Method}
    (hg : ∀ m ∈ ms, m.gparams = []) (h : W.Ready as ms) :
    ∃ x, Chosen W as ms x ∧
      (ms.foldl (analyzeOne W (callQuery name as)) ⟨none, [], [], false⟩).result = x.res ∧
      ((ms.foldl (analyzeOne W (callQuery name as)) ⟨none, [], [], false⟩).notFound = true ↔ x = .nothing) ∧
      (x = .nothing → ms.foldl (analyzeOne W (callQuery name as)) ⟨none, [], [], false⟩ = ⟨none, [], [], false⟩) := by
  obtain ⟨e, l, h1, h2, h3, h4⟩ := fold_closed g (q := callQuery name as) rfl rfl ms ⟨none, [], [], false⟩ hg
    h.closed h.plain h.nodup
  rw [h1]
  cases e with
  | some p =>
    obtain ⟨pm, pt⟩ := p
    obtain ⟨rfl, hm, hx⟩ := h4
    exact ⟨.method pm, .exact hm hx, by simp [Acc.result, Answer.res], by simp [Acc.notFound], by simp⟩
  | none =>
    match l, h2, h3 with
    | [], _, h3 =>
      refine ⟨.nothing, .nothing ?_, by simp [Acc.result, Answer.res], by simp [Acc.notFound], by simp⟩
      intro m hm ha
      have := (h3 m).2 ⟨hm, ha, h4 m hm⟩
      cases this
    | [m], _, h3 =>
      have hm := (h3 m).1 (by simp)
      refine ⟨.method m, .only h4 hm.1 hm.2.1 ?_, by simp [Acc.result, Answer.res], by simp [Acc.notFound], by simp⟩
      intro m' hm' ha
      have := (h3 m').2 ⟨hm', ha, h4 m' hm'⟩
      simpa using this
    | m :: m' :: l, h2, h3 =>
      have hm := (h3 m).1 (by simp)
      have hm' := (h3 m').1 (by simp)
      refine ⟨.ambiguous, .ambiguous h4 hm.1 hm'.1 ?_ hm.2.1 hm'.2.1, by simp [Acc.result, Answer.res],
        by simp [Acc.notFound], by simp⟩
      intro he
      subst he
      simp at h2

theorem named_gparams {name : Nat} {ms : List Method} : ∀ m ∈ namedIn name ms, m.gparams = [] := by
  intro m hm
  simp only [namedIn, List.mem_filter, decide_eq_true_eq] at hm
  exact hm.2.2

/-- A list of methods, when it has no generic method with the name, or when the others answer. -/
theorem analyze_chosen {W : World} (g : W.Good) {name : Nat} {as : List Slot} {ms : List Method}
    (h : W.Ready as (namedIn name ms)) :
    ∃ x, Chosen W as (namedIn name ms) x ∧
      (x ≠ .nothing ∨ (∀ m ∈ ms, m.name = name → m.gparams = []) →
        (analyze W (callQuery name as) ms).result = x.res) := by
  obtain ⟨x, h1, h2, h3, h4⟩ := fold_chosen g (name := name) named_gparams h
  refine ⟨x, h1, ?_⟩
  intro hx
  unfold analyze
  rw [firstRound_named]
  simp only [callQuery, Option.getD_none, List.length_nil, decide_true, Bool.and_true]
  simp only [callQuery] at h2 h3 h4
  by_cases hn : x = .nothing
  · rw [if_pos (h3.2 hn)]
    rcases hx with hx | hx
    · exact absurd hn hx
    · have : secondRound ⟨name, .normal, none, some as⟩ ms = [] := by
        unfold secondRound
        rw [List.filter_eq_nil_iff]
        intro m hm
        simp only [Bool.and_eq_true, beq_iff_eq, decide_eq_true_eq, not_and]
        intro he
        rw [hx m hm he]; simp
      rw [this, List.foldl_nil]
      exact h2
  · have : ¬ ((namedIn name ms).foldl (analyzeOne W ⟨name, .normal, none, some as⟩) ⟨none, [], [], false⟩).notFound = true :=
      fun hh => hn (h3.1 hh)
    rw [if_neg this]
    exact h2

/-- One class, when it has no generic method with the name, or when the others answer. -/
theorem inType_chosen {W : World} (g : W.Good) {name : Nat} {as : List Slot} {t : Ty}
    (h : W.Ready as (W.named name t)) :
    ∃ x, Chosen W as (W.named name t) x ∧
      (x ≠ .nothing ∨ (∀ m ∈ W.methods t, m.name = name → m.gparams = []) →
        inType W (callQuery name as) t = x.res) := analyze_chosen g h

/-- The rules have one answer. -/
theorem chosen_unique {W : World} {as : List Slot} {ms : List Method}
    (hd : ∀ m ∈ ms, ∀ m' ∈ ms, m.params = m'.params → m = m') {x y : Answer}
    (hx : Chosen W as ms x) (hy : Chosen W as ms y) : x = y := by
  cases hx with
  | exact h1 h2 =>
    cases hy with
    | exact k1 k2 => exact congrArg _ (hd _ h1 _ k1 (h2.trans k2.symm))
    | only k1 => exact absurd h2 (k1 _ h1)
    | ambiguous k1 => exact absurd h2 (k1 _ h1)
    | nothing k => exact absurd (applicable_of_exact h2) (k _ h1)
  | only h1 h2 h3 h4 =>
    cases hy with
    | exact k1 k2 => exact absurd k2 (h1 _ k1)
    | only k1 k2 k3 k4 => exact congrArg _ (k4 _ h2 h3)
    | ambiguous k1 k2 k3 k4 k5 k6 => exact absurd ((h4 _ k2 k5).trans (h4 _ k3 k6).symm) k4
    | nothing k => exact absurd h3 (k _ h2)
  | ambiguous h1 h2 h3 h4 h5 h6 =>
    cases hy with
    | exact k1 k2 => exact absurd k2 (h1 _ k1)
    | only k1 k2 k3 k4 => exact absurd ((k4 _ h2 h5).trans (k4 _ h3 h6).symm) h4
    | ambiguous => rfl
    | nothing k => exact absurd h5 (k _ h2)
  | nothing h =>
    cases hy with
    | exact k1 k2 => exact absurd (applicable_of_exact k2) (h _ k1)
    | only k1 k2 k3 k4 => exact absurd k3 (h _ k2)
    | ambiguous k1 k2 k3 k4 k5 k6 => exact absurd k5 (h _ k2)
    | nothing => rfl

/-! ## Base classes -/

theorem height_unique {W : World} : ∀ {o : Option Ty} {k : Nat}, Height W o k → ∀ {k' : Nat}, Height W o k' → k = k' := by
  intro o k h
  induction h with
  | top => intro k' h'; cases h'; rfl
  | step _ ih => intro k' h'; cases h' with | step h' => rw [ih h']

theorem inBases_chosen {W : World} (g : W.Good) {name : Nat} {as : List Slot} :
    ∀ (k n : Nat) (o : Option Ty) (walked : List Ty), Height W o k → k < n →
      (∀ w ∈ walked, ∃ j, k < j ∧ Height W (some w) j) →
      (∀ t, Above W o t → W.Ready as (W.named name t)) →
      (∀ t, Above W o t → ∀ m ∈ W.methods t, m.name = name → m.gparams = []) →
      ∃ x, ChosenUp W name as o x ∧ inBases W (callQuery name as) n walked o = x.res := by
  intro k
  induction k with
  | zero =>
    intro n o walked hh hn _ _ _
    cases hh
    cases n with
    | zero => omega
    | succ n => exact ⟨.nothing, .top, rfl⟩
  | succ k ih =>
    intro n o walked hh hn hw hr hg
    cases hh with
    | @step t _ hh =>
      cases n with
      | zero => omega
      | succ n =>
        have hnot : t ∉ walked := by
          intro hm
          obtain ⟨j, hj, hj'⟩ := hw t hm
          have := height_unique (.step hh) hj'
          omega
        obtain ⟨x, h1, h2⟩ := inType_chosen g (hr t .here)
        have h2 := h2 (Or.inr (hg t .here))
        unfold inBases
        rw [if_neg hnot, h2]
        cases x with
        | method m => exact ⟨.method m, .here h1 (by simp), rfl⟩
        | ambiguous => exact ⟨.ambiguous, .here h1 (by simp), rfl⟩
        | nothing =>
          obtain ⟨y, hy1, hy2⟩ := ih n (W.baseOf t) (t :: walked) hh (by omega)
            (by
              intro w hw'
              rcases List.mem_cons.1 hw' with rfl | hw'
              · exact ⟨k + 1, by omega, .step hh⟩
              · obtain ⟨j, hj, hj'⟩ := hw w hw'
                exact ⟨j, by omega, hj'⟩)
            (fun s hs => hr s (.up hs)) (fun s hs => hg s (.up hs))
          exact ⟨y, .up h1 hy1, hy2⟩

theorem chosenUp_unique {W : World} {name : Nat} {as : List Slot} {o : Option Ty}
    (hd : ∀ t, Above W o t → ∀ m ∈ W.named name t, ∀ m' ∈ W.named name t, m.params = m'.params → m = m')
    {x y : Answer} (hx : ChosenUp W name as o x) (hy : ChosenUp W name as o y) : x = y := by
  induction hx with
  | top => cases hy; rfl
  | here h1 h2 =>
    cases hy with
    | here k1 k2 => exact chosen_unique (hd _ .here) h1 k1
    | up k1 k2 => exact absurd (chosen_unique (hd _ .here) h1 k1) h2
  | up h1 _ ih =>
    cases hy with
    | here k1 k2 => exact absurd (chosen_unique (hd _ .here) k1 h1) k2
    | up k1 k2 => exact ih (fun t ht => hd t (.up ht)) k2

end Verif.Overload
