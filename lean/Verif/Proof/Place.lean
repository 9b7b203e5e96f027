import Verif.Spec.Place

/-! Helper lemmas: what compiled member reads and assignments do. -/

namespace Verif.Place

variable {W : World} {this : Val}

theorem exec_append (a b : List Ins) (c : Cfg) :
    exec W this (a ++ b) c = (exec W this a c).bind (exec W this b) := by
  induction a generalizing c with
  | nil => rfl
  | cons i is ih =>
    simp only [List.cons_append, exec]
    cases h : step W this i c with
    | none => rfl
    | some d => simp only [Option.bind_some, ih]

theorem exec_one (i : Ins) (c : Cfg) : exec W this [i] c = step W this i c := by
  simp only [exec]
  cases step W this i c <;> rfl

/-! ## Evaluation of pure and simple expressions -/

mutual
theorem Exp.pure_eval : (e : Exp) → e.pure = true → ∀ {s v s'},
    e.eval W this s = some (v, s') → s' = s
  | .const _, _, s, v, s', h => by
    simp only [Exp.eval, Option.some.injEq, Prod.mk.injEq] at h; exact h.2.symm
  | .this, _, s, v, s', h => by
    simp only [Exp.eval, Option.some.injEq, Prod.mk.injEq] at h; exact h.2.symm
  | .get p, hp, s, v, s', h => by
    simp only [Exp.pure] at hp
    simp only [Exp.eval, Option.bind_eq_bind, Option.bind_eq_some_iff, Prod.exists] at h
    obtain ⟨l, s1, h1, h2⟩ := h
    have := Place.pure_locate p hp h1
    rw [this.1] at h2
    exact this.2 h2
  | .bin op a b, hp, s, v, s', h => by
    simp only [Exp.pure, Bool.and_eq_true] at hp
    simp only [Exp.eval, Option.bind_eq_bind, Option.bind_eq_some_iff, Prod.exists,
      Option.some.injEq, Prod.mk.injEq] at h
    obtain ⟨x, s1, h1, y, s2, h2, r, h3, h4, h5⟩ := h
    have e1 := Exp.pure_eval a hp.1 h1
    have e2 := Exp.pure_eval b hp.2 h2
    rw [← h5, e2, e1]
  | .assign _ _, hp, _, _, _, _ => by simp [Exp.pure] at hp
  | .opAssign _ _ _, hp, _, _, _, _ => by simp [Exp.pure] at hp
  | .inc _ _ _, hp, _, _, _, _ => by simp [Exp.pure] at hp
  | .call _ _ _, hp, _, _, _, _ => by simp [Exp.pure] at hp
  | .bare _ _, hp, _, _, _, _ => by simp [Exp.pure] at hp
  | .new _ _ _, hp, _, _, _, _ => by simp [Exp.pure] at hp
theorem Place.pure_locate : (p : Place) → p.pure = true → ∀ {s l s'},
    p.locate W this s = some (l, s') →
    s' = s ∧ ∀ {t v t'}, l.load W t = some (v, t') → t' = t
  | .var i, _, s, l, s', h => by
    simp only [Place.locate, Option.some.injEq, Prod.mk.injEq] at h
    obtain ⟨rfl, rfl⟩ := h
    refine ⟨rfl, ?_⟩
    intro t v t' h
    simp only [Loc.load, Option.map_eq_some_iff, Prod.mk.injEq] at h
    obtain ⟨_, _, _, h⟩ := h; exact h.symm
  | .field o f, hp, s, l, s', h => by
    simp only [Place.pure] at hp
    simp only [Place.locate, Option.bind_eq_bind, Option.bind_eq_some_iff, Prod.exists,
      Option.some.injEq, Prod.mk.injEq] at h
    obtain ⟨v, s1, h1, h2, h3⟩ := h
    subst h2; subst h3
    refine ⟨Exp.pure_eval o hp h1, ?_⟩
    intro t v t' h
    simp only [Loc.load, Option.map_eq_some_iff, Prod.mk.injEq] at h
    obtain ⟨_, _, _, h⟩ := h; exact h.symm
  | .elem a i, hp, s, l, s', h => by
    simp only [Place.pure, Bool.and_eq_true] at hp
    simp only [Place.locate, Option.bind_eq_bind, Option.bind_eq_some_iff, Prod.exists,
      Option.some.injEq, Prod.mk.injEq] at h
    obtain ⟨x, s1, h1, y, s2, h2, h3, h4⟩ := h
    subst h3; subst h4
    have e1 := Exp.pure_eval a hp.1 h1
    have e2 := Exp.pure_eval i hp.2 h2
    refine ⟨by rw [e2, e1], ?_⟩
    intro t v t' h
    simp only [Loc.load, Option.map_eq_some_iff, Prod.mk.injEq] at h
    obtain ⟨_, _, _, h⟩ := h; exact h.symm
  | .prop _ _ _, hp, _, _, _, _ => by simp [Place.pure] at hp
  | .indexer _ _ _ _, hp, _, _, _, _ => by simp [Place.pure] at hp
  | .static f, _, s, l, s', h => by
    simp only [Place.locate, Option.some.injEq, Prod.mk.injEq] at h
    obtain ⟨rfl, rfl⟩ := h
    refine ⟨rfl, ?_⟩
    intro t v t' h
    simp only [Loc.load, Option.map_eq_some_iff, Prod.mk.injEq] at h
    obtain ⟨_, _, _, h⟩ := h; exact h.symm
end

theorem Args.pure_eval : (as : Args) → as.pure = true → ∀ {s vs s'},
    as.eval W this s = some (vs, s') → s' = s
  | .nil, _, s, v, s', h => by
    simp only [Args.eval, Option.some.injEq, Prod.mk.injEq] at h; exact h.2.symm
  | .cons e r, hp, s, v, s', h => by
    simp only [Args.pure, Bool.and_eq_true] at hp
    simp only [Args.eval, Option.bind_eq_bind, Option.bind_eq_some_iff, Prod.exists,
      Option.some.injEq, Prod.mk.injEq] at h
    obtain ⟨x, s1, h1, y, s2, h2, h3, h4⟩ := h
    rw [← h4, Args.pure_eval r hp.2 h2, Exp.pure_eval e hp.1 h1]

/-- The variables outside `ws` are the same in two states. -/
def Same (ws : List Nat) (s s' : State) : Prop :=
  ∀ i, i ∉ ws → s'.locals[i]? = s.locals[i]?

theorem Same.trans {a b c : List Nat} {s t u : State} (h1 : Same a s t) (h2 : Same b t u)
    (ha : ∀ i, i ∈ a → i ∈ c) (hb : ∀ i, i ∈ b → i ∈ c) : Same c s u := fun i hi => by
  rw [h2 i (fun h => hi (hb i h)), h1 i (fun h => hi (ha i h))]

theorem invoke_locals {m o vs} {s s' : State} {v} (h : invoke W m o vs s = some (v, s')) :
    s'.locals = s.locals := by
  simp only [invoke, Option.map_eq_some_iff, Prod.exists, Prod.mk.injEq] at h
  obtain ⟨_, _, _, _, h⟩ := h
  rw [← h]

theorem invokeDirect_locals {m o vs} {s s' : State} {v} (h : invokeDirect W m o vs s = some (v, s')) :
    s'.locals = s.locals := by
  simp only [invokeDirect, Option.map_eq_some_iff, Prod.exists, Prod.mk.injEq] at h
  obtain ⟨_, _, _, _, h⟩ := h
  rw [← h]

theorem Loc.load_locals {l : Loc} {s s' : State} {v} (h : l.load W s = some (v, s')) :
    s'.locals = s.locals := by
  cases l with
  | prop o g st => exact invoke_locals h
  | indexer o vs g st => exact invoke_locals h
  | _ =>
    simp only [Loc.load, Option.map_eq_some_iff, Prod.mk.injEq] at h
    obtain ⟨_, _, _, h⟩ := h
    rw [← h]

/-- The variable an evaluated place is. -/
def Loc.target : Loc → List Nat
  | .var i => [i]
  | _ => []

theorem Loc.store_same {l : Loc} {s s' : State} {v} (h : l.store W v s = some s') :
    Same l.target s s' := by
  cases l with
  | var i =>
    simp only [Loc.store, State.setLocal] at h
    split at h
    · cases h
      intro j hj
      simp only [Loc.target, List.mem_singleton] at hj
      exact List.getElem?_set_ne (Ne.symm hj)
    · cases h
  | prop o g st =>
    simp only [Loc.store, Option.map_eq_some_iff, Prod.exists] at h
    obtain ⟨_, s1, h, rfl⟩ := h
    intro j _; rw [invoke_locals h]
  | indexer o vs g st =>
    simp only [Loc.store, Option.map_eq_some_iff, Prod.exists] at h
    obtain ⟨_, s1, h, rfl⟩ := h
    intro j _; rw [invoke_locals h]
  | static f =>
    simp only [Loc.store] at h
    split at h
    · cases h; intro j _; rfl
    · cases h
  | _ =>
    simp only [Loc.store, Option.map_eq_some_iff] at h
    obtain ⟨_, _, h⟩ := h
    rw [← h]; intro j _; rfl

theorem Place.locate_target {p : Place} {s s' : State} {l}
    (h : p.locate W this s = some (l, s')) : l.target = p.target := by
  cases p <;>
    (simp only [Place.locate, Option.bind_eq_bind, Option.bind_eq_some_iff, Prod.exists,
      Option.some.injEq, Prod.mk.injEq] at h)
  case var i => rw [← h.1]; simp only [Loc.target, Place.target]
  case field o f => obtain ⟨_, _, _, h, _⟩ := h; rw [← h]; simp only [Loc.target, Place.target]
  case elem a i =>
    obtain ⟨_, _, _, _, _, _, h, _⟩ := h; rw [← h]; simp only [Loc.target, Place.target]
  case prop o g st =>
    obtain ⟨_, _, _, h, _⟩ := h; rw [← h]; simp only [Loc.target, Place.target]
  case indexer o as g st =>
    obtain ⟨_, _, _, _, _, _, h, _⟩ := h; rw [← h]; simp only [Loc.target, Place.target]
  case static f => rw [← h.1]; simp only [Loc.target, Place.target]

theorem Same.refl (ws : List Nat) (s : State) : Same ws s s := fun _ _ => rfl

theorem Same.of_locals {ws : List Nat} {s s' : State} (h : s'.locals = s.locals) :
    Same ws s s' := fun _ _ => by rw [h]

theorem Same.mono {a c : List Nat} {s t : State} (h : Same a s t)
    (ha : ∀ i, i ∈ a → i ∈ c) : Same c s t := fun i hi => h i (fun h => hi (ha i h))

mutual
theorem Exp.eval_same : (e : Exp) → ∀ {s v s'}, e.eval W this s = some (v, s') →
    Same e.writes s s'
  | .const _, s, v, s', h => by
    simp only [Exp.eval, Option.some.injEq, Prod.mk.injEq] at h; rw [h.2]; exact Same.refl _ _
  | .this, s, v, s', h => by
    simp only [Exp.eval, Option.some.injEq, Prod.mk.injEq] at h; rw [h.2]; exact Same.refl _ _
  | .get p, s, v, s', h => by
    simp only [Exp.eval, Option.bind_eq_bind, Option.bind_eq_some_iff, Prod.exists] at h
    obtain ⟨l, s1, h1, h2⟩ := h
    exact (Place.locate_same p h1).trans (Same.of_locals (ws := []) (Loc.load_locals h2))
      (fun i h => by rw [Exp.writes]; exact h) (fun i h => by cases h)
  | .bin op a b, s, v, s', h => by
    simp only [Exp.eval, Option.bind_eq_bind, Option.bind_eq_some_iff, Prod.exists,
      Option.some.injEq, Prod.mk.injEq] at h
    obtain ⟨x, s1, h1, y, s2, h2, r, h3, h4, h5⟩ := h
    rw [← h5]
    exact (Exp.eval_same a h1).trans (Exp.eval_same b h2)
      (fun i h => by simp [Exp.writes, h]) (fun i h => by simp [Exp.writes, h])
  | .assign p e, s, v, s', h => by
    simp only [Exp.eval, Option.bind_eq_bind, Option.bind_eq_some_iff, Prod.exists,
      Option.some.injEq, Prod.mk.injEq] at h
    obtain ⟨l, s1, h1, y, s2, h2, s3, h3, h4, h5⟩ := h
    rw [← h5]
    have h6 := Loc.store_same h3
    rw [Place.locate_target h1] at h6
    refine ((Place.locate_same p h1).trans (Exp.eval_same e h2) (c := p.partWrites ++ e.writes)
      (fun i h => by simp [h]) (fun i h => by simp [h])).trans h6 ?_ ?_
    · intro i h; rw [List.mem_append] at h; rcases h with h | h <;> simp [Exp.writes, h]
    · intro i h; simp [Exp.writes, h]
  | .opAssign op p e, s, v, s', h => by
    simp only [Exp.eval, Option.bind_eq_bind, Option.bind_eq_some_iff, Prod.exists,
      Option.some.injEq, Prod.mk.injEq] at h
    obtain ⟨l, s1, h1, x, s2, h2, y, s3, h3, r, h4, s4, h5, h6, h7⟩ := h
    rw [← h7]
    have h8 := Loc.store_same h5
    rw [Place.locate_target h1] at h8
    refine (((Place.locate_same p h1).trans
      (Same.of_locals (ws := []) (Loc.load_locals h2)) (fun i h => h)
      (fun i h => by cases h)).trans (Exp.eval_same e h3) (c := p.partWrites ++ e.writes)
      (fun i h => by simp [h]) (fun i h => by simp [h])).trans h8 ?_ ?_
    · intro i h; rw [List.mem_append] at h; rcases h with h | h <;> simp [Exp.writes, h]
    · intro i h; simp [Exp.writes, h]
  | .inc post op p, s, v, s', h => by
    simp only [Exp.eval, Option.bind_eq_bind, Option.bind_eq_some_iff, Prod.exists,
      Option.some.injEq, Prod.mk.injEq] at h
    obtain ⟨l, s1, h1, x, s2, h2, r, h4, s4, h5, h6, h7⟩ := h
    rw [← h7]
    have h8 := Loc.store_same h5
    rw [Place.locate_target h1] at h8
    refine ((Place.locate_same p h1).trans
      (Same.of_locals (ws := []) (Loc.load_locals h2)) (fun i h => h)
      (fun i h => by cases h)).trans h8 ?_ ?_
    · intro i h; simp [Exp.writes, h]
    · intro i h; simp [Exp.writes, h]
  | .call o m args, s, v, s', h => by
    simp only [Exp.eval, Option.bind_eq_bind, Option.bind_eq_some_iff, Prod.exists] at h
    obtain ⟨x, s1, h1, y, s2, h2, h3⟩ := h
    refine ((Exp.eval_same o h1).trans (Args.eval_same args h2) (c := o.writes ++ args.writes)
      (fun i h => by simp [h]) (fun i h => by simp [h])).trans
      (Same.of_locals (ws := []) (invoke_locals h3)) ?_ (fun i h => by cases h)
    intro i h; rw [Exp.writes]; exact h
  | .bare m args, s, v, s', h => by
    simp only [Exp.eval, Option.bind_eq_bind, Option.bind_eq_some_iff, Prod.exists] at h
    obtain ⟨y, s2, h2, h3⟩ := h
    exact (Args.eval_same args h2).trans
      (Same.of_locals (ws := []) (invoke_locals h3))
      (fun i h => by rw [Exp.writes]; exact h) (fun i h => by cases h)
  | .baseCall m args, s, v, s', h => by
    simp only [Exp.eval, Option.bind_eq_bind, Option.bind_eq_some_iff, Prod.exists] at h
    obtain ⟨y, s2, h2, h3⟩ := h
    exact (Args.eval_same args h2).trans
      (Same.of_locals (ws := []) (invokeDirect_locals h3))
      (fun i h => by rw [Exp.writes]; exact h) (fun i h => by cases h)
  | .new c m args, s, v, s', h => by
    simp only [Exp.eval, Option.bind_eq_bind, Option.bind_eq_some_iff, Prod.exists,
      Option.some.injEq, Prod.mk.injEq] at h
    obtain ⟨y, s2, h2, w, s3, h3, h4, h5⟩ := h
    rw [← h5]
    have h6 := Args.eval_same args h2
    exact (Same.trans (fun i hi => h6 i hi)
      (Same.of_locals (ws := []) (invoke_locals h3))
      (fun i h => by rw [Exp.writes]; exact h) (fun i h => by cases h))
theorem Place.locate_same : (p : Place) → ∀ {s l s'}, p.locate W this s = some (l, s') →
    Same p.partWrites s s'
  | .var i, s, l, s', h => by
    simp only [Place.locate, Option.some.injEq, Prod.mk.injEq] at h
    rw [h.2]; exact Same.refl _ _
  | .field o f, s, l, s', h => by
    simp only [Place.locate, Option.bind_eq_bind, Option.bind_eq_some_iff, Prod.exists,
      Option.some.injEq, Prod.mk.injEq] at h
    obtain ⟨x, s1, h1, _, h3⟩ := h
    rw [← h3, Place.partWrites]
    exact Exp.eval_same o h1
  | .elem a i, s, l, s', h => by
    simp only [Place.locate, Option.bind_eq_bind, Option.bind_eq_some_iff, Prod.exists,
      Option.some.injEq, Prod.mk.injEq] at h
    obtain ⟨x, s1, h1, y, s2, h2, _, h4⟩ := h
    rw [← h4]
    exact (Exp.eval_same a h1).trans (Exp.eval_same i h2)
      (fun i h => by simp [Place.partWrites, h]) (fun i h => by simp [Place.partWrites, h])
  | .prop o g st, s, l, s', h => by
    simp only [Place.locate, Option.bind_eq_bind, Option.bind_eq_some_iff, Prod.exists,
      Option.some.injEq, Prod.mk.injEq] at h
    obtain ⟨x, s1, h1, _, h3⟩ := h
    rw [← h3, Place.partWrites]
    exact Exp.eval_same o h1
  | .indexer o args g st, s, l, s', h => by
    simp only [Place.locate, Option.bind_eq_bind, Option.bind_eq_some_iff, Prod.exists,
      Option.some.injEq, Prod.mk.injEq] at h
    obtain ⟨x, s1, h1, y, s2, h2, _, h4⟩ := h
    rw [← h4]
    exact (Exp.eval_same o h1).trans (Args.eval_same args h2)
      (fun i h => by simp [Place.partWrites, h]) (fun i h => by simp [Place.partWrites, h])
  | .static f, s, l, s', h => by
    simp only [Place.locate, Option.some.injEq, Prod.mk.injEq] at h
    rw [h.2]; exact Same.refl _ _
theorem Args.eval_same : (as : Args) → ∀ {s vs s'}, as.eval W this s = some (vs, s') →
    Same as.writes s s'
  | .nil, s, v, s', h => by
    simp only [Args.eval, Option.some.injEq, Prod.mk.injEq] at h; rw [h.2]; exact Same.refl _ _
  | .cons e r, s, v, s', h => by
    simp only [Args.eval, Option.bind_eq_bind, Option.bind_eq_some_iff, Prod.exists,
      Option.some.injEq, Prod.mk.injEq] at h
    obtain ⟨x, s1, h1, y, s2, h2, _, h4⟩ := h
    rw [← h4]
    exact (Exp.eval_same e h1).trans (Args.eval_same r h2)
      (fun i h => by simp [Args.writes, h]) (fun i h => by simp [Args.writes, h])
end

theorem Args.eval_length : (as : Args) → ∀ {s vs s'}, as.eval W this s = some (vs, s') →
    vs.length = as.length
  | .nil, s, v, s', h => by
    simp only [Args.eval, Option.some.injEq, Prod.mk.injEq] at h; rw [← h.1]; rfl
  | .cons e r, s, v, s', h => by
    simp only [Args.eval, Option.bind_eq_bind, Option.bind_eq_some_iff, Prod.exists,
      Option.some.injEq, Prod.mk.injEq] at h
    obtain ⟨x, s1, h1, y, s2, h2, h3, h4⟩ := h
    rw [← h3, List.length_cons, Args.eval_length r h2, Args.length]

theorem Exp.simple_pure {ws : List Nat} {o : Exp} (h : o.simple ws = true) : o.pure = true := by
  cases o with
  | const v => simp only [Exp.pure]
  | this => simp only [Exp.pure]
  | get p => cases p <;> simp_all [Exp.simple, Exp.pure, Place.pure]
  | _ => simp [Exp.simple] at h

theorem calm_pure {o e : Exp} (h : calm o e = true) : o.pure = true := by
  simp only [calm, Bool.or_eq_true, Bool.and_eq_true] at h
  rcases h with h | h
  · exact Exp.simple_pure h
  · exact h.1

/-- A pure expression, and what evaluating it leaves. -/
theorem Exp.pure_some {o : Exp} (h : o.pure = true) (s : State) :
    o.eval W this s = (o.eval W this s).map fun r => (r.1, s) := by
  cases h1 : o.eval W this s with
  | none => rfl
  | some r =>
    obtain ⟨v, s'⟩ := r
    rw [Exp.pure_eval o h h1]; rfl

/-- A calm expression has the same value after the other. -/
theorem calm_eval {o e : Exp} (h : calm o e = true) {s w s'}
    (he : e.eval W this s = some (w, s')) :
    o.eval W this s' = (o.eval W this s).map fun r => (r.1, s') := by
  simp only [calm, Bool.or_eq_true, Bool.and_eq_true] at h
  rcases h with h | h
  · cases o with
    | const v => simp only [Exp.eval, Option.map_some]
    | this => simp only [Exp.eval, Option.map_some]
    | get p =>
      cases p with
      | var i =>
        simp only [Exp.simple, Bool.not_eq_true', List.contains_eq_mem,
          decide_eq_false_iff_not] at h
        simp only [Exp.eval, Place.locate, Option.bind_eq_bind, Option.bind_some, Loc.load,
          Option.map_map, Exp.eval_same e he i h]
        rfl
      | _ => simp [Exp.simple] at h
    | _ => simp [Exp.simple] at h
  · have := Exp.pure_eval e h.2 he
    subst this
    exact Exp.pure_some h.1 _

/-! ## The code -/

/-- The code pushes the value. -/
def Runs (W : World) (this : Val) (c : List Ins) (f : State → Option (Val × State)) : Prop :=
  ∀ k s, exec W this c (k, s) = (f s).map fun r => (r.1 :: k, r.2)

/-- The code pushes the values of arguments. -/
def RunsArgs (W : World) (this : Val) (c : List Ins)
    (f : State → Option (List Val × State)) : Prop :=
  ∀ k s, exec W this c (k, s) = (f s).map fun r => (r.1.reverse ++ k, r.2)

theorem call_values (m : Nat) (vs : List Val) (o : Val) (k : List Val) (s : State)
    (h : vs.length = W.arity m) :
    step W this (.call m) (vs.reverse ++ o :: k, s) =
      (invoke W m o vs s).map fun r => (if W.returns m then r.1 :: k else k, r.2) := by
  have h1 : (vs.reverse ++ o :: k).drop (W.arity m) = o :: k := by
    rw [← h, ← List.length_reverse, List.drop_left]
  have h2 : (vs.reverse ++ o :: k).take (W.arity m) = vs.reverse := by
    rw [← h, ← List.length_reverse, List.take_left]
  simp only [step, callStep, h1, h2, List.reverse_reverse, invoke]
  cases W.run m o vs s.heap <;> rfl

theorem callDirect_values (m : Nat) (vs : List Val) (o : Val) (k : List Val) (s : State)
    (h : vs.length = W.arity m) :
    step W this (.callDirect m) (vs.reverse ++ o :: k, s) =
      (invokeDirect W m o vs s).map fun r => (if W.returns m then r.1 :: k else k, r.2) := by
  have h1 : (vs.reverse ++ o :: k).drop (W.arity m) = o :: k := by
    rw [← h, ← List.length_reverse, List.drop_left]
  have h2 : (vs.reverse ++ o :: k).take (W.arity m) = vs.reverse := by
    rw [← h, ← List.length_reverse, List.take_left]
  simp only [step, callStep, h1, h2, List.reverse_reverse, invokeDirect]
  cases W.direct m o vs s.heap <;> rfl

theorem invokeDirect_eq {m : Nat} (h : W.virt m = false) (o : Val) (vs : List Val) (s : State) :
    invokeDirect W m o vs s = invoke W m o vs s := by
  simp only [invokeDirect, invoke, W.direct_eq m h]

theorem popFor_false (m : Nat) : popFor W false m = [] := by simp [popFor]

/-- Pushing a receiver and arguments, then calling. -/
theorem Runs.call {co ca : List Ins} {f g} (ho : Runs W this co f) (ha : RunsArgs W this ca g)
    (m : Nat) (hl : ∀ s vs s', g s = some (vs, s') → vs.length = W.arity m) (k : List Val)
    (s : State) :
    exec W this (co ++ ca ++ [.call m]) (k, s) =
      ((f s).bind fun q => (g q.2).bind fun r => invoke W m q.1 r.1 r.2).map
        fun r => (if W.returns m then r.1 :: k else k, r.2) := by
  rw [exec_append, exec_append, ho]
  cases hf : f s with
  | none => rfl
  | some r =>
    obtain ⟨v, s1⟩ := r
    simp only [Option.map_some, Option.bind_some]
    rw [ha]
    cases hg : g s1 with
    | none => rfl
    | some r =>
      obtain ⟨vs, s2⟩ := r
      simp only [Option.map_some, Option.bind_some]
      rw [exec_one, call_values m vs v k s2 (hl _ _ _ hg)]

/-- The same for a call that is not dispatched. -/
theorem Runs.callDirect {co ca : List Ins} {f g} (ho : Runs W this co f)
    (ha : RunsArgs W this ca g) (m : Nat)
    (hl : ∀ s vs s', g s = some (vs, s') → vs.length = W.arity m) (k : List Val) (s : State) :
    exec W this (co ++ ca ++ [.callDirect m]) (k, s) =
      ((f s).bind fun q => (g q.2).bind fun r => invokeDirect W m q.1 r.1 r.2).map
        fun r => (if W.returns m then r.1 :: k else k, r.2) := by
  rw [exec_append, exec_append, ho]
  cases hf : f s with
  | none => rfl
  | some r =>
    obtain ⟨v, s1⟩ := r
    simp only [Option.map_some, Option.bind_some]
    rw [ha]
    cases hg : g s1 with
    | none => rfl
    | some r =>
      obtain ⟨vs, s2⟩ := r
      simp only [Option.map_some, Option.bind_some]
      rw [exec_one, callDirect_values m vs v k s2 (hl _ _ _ hg)]

theorem runs_this : Runs W this [.pushThis] (fun s => some (this, s)) := fun k s => by
  simp only [exec_one, step, Option.map_some]

theorem runs_nil : RunsArgs W this [] (fun s => some ([], s)) := fun k s => by
  simp only [exec, Option.map_some, List.reverse_nil, List.nil_append]

/-- An object and a field. -/
theorem Runs.field {co : List Ins} {g} (ho : Runs W this co g) (f : Nat) (k : List Val)
    (s : State) : exec W this (co ++ [.pushField f]) (k, s) =
      ((g s).bind fun r => (Loc.field r.1 f).load W r.2).map fun r => (r.1 :: k, r.2) := by
  rw [exec_append, ho]
  cases h : g s with
  | none => rfl
  | some r =>
    simp only [Option.map_some, Option.bind_some, exec_one, step, Loc.load, Option.map_map]
    rfl

/-- An index, an array and a read. -/
theorem Runs.elem {ci ca : List Ins} {gi ga} (hi : Runs W this ci gi) (ha : Runs W this ca ga)
    (k : List Val) (s : State) : exec W this (ci ++ ca ++ [.pushElem]) (k, s) =
      ((gi s).bind fun r => (ga r.2).bind fun q =>
        (Loc.elem q.1 r.1).load W q.2).map fun r => (r.1 :: k, r.2) := by
  rw [exec_append, exec_append, hi]
  cases h : gi s with
  | none => rfl
  | some r =>
    simp only [Option.map_some, Option.bind_some]
    rw [ha]
    cases h2 : ga r.2 with
    | none => rfl
    | some q =>
      simp only [Option.map_some, Option.bind_some, exec_one, step, Loc.load, Option.map_map]
      rfl

/-- An index, an array and a write. -/
theorem Runs.popElem {ci ca : List Ins} {gi ga} (hi : Runs W this ci gi)
    (ha : Runs W this ca ga) (v : Val) (k : List Val) (s : State) :
    exec W this (ci ++ ca ++ [.popElem]) (v :: k, s) =
      (gi s).bind fun r => (ga r.2).bind fun q =>
        ((Loc.elem q.1 r.1).store W v q.2).map fun t => (k, t) := by
  rw [exec_append, exec_append, hi]
  cases h : gi s with
  | none => rfl
  | some r =>
    simp only [Option.map_some, Option.bind_some]
    rw [ha]
    cases h2 : ga r.2 with
    | none => rfl
    | some q =>
      simp only [Option.map_some, Option.bind_some, exec_one, step, Loc.store, Option.map_map]
      rfl

/-- An object and a write. -/
theorem Runs.popField {co : List Ins} {g} (ho : Runs W this co g) (pick : Bool) (f : Nat)
    (v : Val) (k : List Val) (s : State) :
    exec W this (co ++ [if pick then .pickField f else .popField f]) (v :: k, s) =
      (g s).bind fun r => ((Loc.field r.1 f).store W v r.2).map
        fun t => (if pick then v :: k else k, t) := by
  rw [exec_append, ho]
  cases h : g s with
  | none => rfl
  | some r =>
    cases pick <;>
    · simp only [Option.map_some, Option.bind_some, exec_one, step, Loc.store, Option.map_map,
        if_true, if_false, Bool.false_eq_true]
      rfl

/-- A variable write. -/
theorem popVar (pick : Bool) (i : Nat) (v : Val) (k : List Val) (s : State) :
    exec W this [if pick then .pickLocal i else .popLocal i] (v :: k, s) =
      ((Loc.var i).store W v s).map fun t => (if pick then v :: k else k, t) := by
  cases pick <;> simp only [exec_one, step, Loc.store, if_true, if_false, Bool.false_eq_true]

/-- The array of an element after its index, against the order of the source. -/
theorem calm_elem {a i : Exp} (h : calm a i = true) {α} (s : State)
    (f : Val → Val → State → Option α) :
    ((i.eval W this s).bind fun r => (a.eval W this r.2).bind fun q => f q.1 r.1 q.2) =
      (a.eval W this s).bind fun q => (i.eval W this q.2).bind fun r => f q.1 r.1 r.2 := by
  cases hi : i.eval W this s with
  | none =>
    rw [Exp.pure_some (calm_pure h) s]
    cases ha : a.eval W this s with
    | none => rfl
    | some q => simp only [Option.map_some, Option.bind_some, hi, Option.bind_none]
  | some r =>
    obtain ⟨y, s'⟩ := r
    simp only [Option.bind_some]
    rw [calm_eval h hi, Exp.pure_some (calm_pure h) s]
    cases ha : a.eval W this s with
    | none => rfl
    | some q => simp only [Option.map_some, Option.bind_some, hi]

/-- The read of an indexer: receiver and arguments pushed once more. -/
theorem Exp.eval_get (p : Place) (s : State) : (Exp.get p).eval W this s =
    (p.locate W this s).bind fun r => r.1.load W r.2 := by
  rw [Exp.eval]; rfl

/-- The parts of a place can be evaluated again, before or after `e`, and reading
the place changes nothing. -/
structure Steady (W : World) (this : Val) (p : Place) (f : State → Option (Val × State)) :
    Prop where
  same : ∀ s, p.locate W this s = (p.locate W this s).map fun r => (r.1, s)
  load : ∀ {s l s1}, p.locate W this s = some (l, s1) → ∀ {t v t'},
    l.load W t = some (v, t') → t' = t
  after : ∀ {s w s'}, f s = some (w, s') →
    p.locate W this s' = (p.locate W this s).map fun r => (r.1, s')

/-- The code writes the value on top of the stack to the place. -/
def Writes (W : World) (this : Val) (pick : Bool) (p : Place) (t : List Ins) : Prop :=
  ∀ v k s, exec W this t (v :: k, s) = (p.locate W this s).bind fun r =>
    (r.1.store W v r.2).map fun t => (if pick then v :: k else k, t)

theorem Steady.assign {p : Place} {e : Exp} (hs : Steady W this p (e.eval W this))
    {ce t : List Ins} (rc : Runs W this ce (e.eval W this)) {pick} (wt : Writes W this pick p t)
    (k : List Val) (s : State) : exec W this (ce ++ t) (k, s) =
      ((Exp.assign p e).eval W this s).map fun r => (if pick then r.1 :: k else k, r.2) := by
  rw [exec_append, rc, Exp.eval, hs.same]
  cases h : e.eval W this s with
  | none => cases hl : p.locate W this s <;> simp [h]
  | some r =>
    obtain ⟨w, s'⟩ := r
    simp only [Option.map_some, Option.bind_some]
    rw [wt, hs.after h]
    cases hl : p.locate W this s with
    | none => rfl
    | some q =>
      simp only [Option.map_some, Option.bind_some, Option.bind_eq_bind, h]
      cases q.1.store W w s' <;> rfl

theorem Steady.opAssign {p : Place} {e : Exp} (hs : Steady W this p (e.eval W this))
    {cr ce t : List Ins} (rr : Runs W this cr ((Exp.get p).eval W this))
    (rc : Runs W this ce (e.eval W this)) {pick} (wt : Writes W this pick p t) (op : Op)
    (k : List Val) (s : State) : exec W this (cr ++ ce ++ [.op op] ++ t) (k, s) =
      ((Exp.opAssign op p e).eval W this s).map
        fun r => (if pick then r.1 :: k else k, r.2) := by
  rw [exec_append, exec_append, exec_append, rr, Exp.eval_get, Exp.eval, hs.same]
  cases hl : p.locate W this s with
  | none => rfl
  | some q =>
    simp only [Option.map_some, Option.bind_some, Option.bind_eq_bind]
    cases hx : q.1.load W s with
    | none => rfl
    | some x =>
      obtain ⟨x, s1⟩ := x
      obtain ⟨l, sl⟩ := q
      have := hs.load hl hx
      subst this
      simp only [Option.map_some, Option.bind_some]
      rw [rc]
      cases h : e.eval W _ s1 with
      | none => rfl
      | some r =>
        obtain ⟨w, s'⟩ := r
        simp only [Option.map_some, Option.bind_some, exec_one, step]
        cases op.apply x w with
        | none => rfl
        | some y =>
          simp only [Option.map_some, Option.bind_some]
          rw [wt, hs.after h, hl]
          simp only [Option.map_some, Option.bind_some]
          cases l.store W y s' <;> rfl

theorem Steady.incPre {p : Place} (hs : Steady W this p (fun s => some (.int 1, s)))
    {cr t : List Ins} (rr : Runs W this cr ((Exp.get p).eval W this))
    {pick} (wt : Writes W this pick p t) (op : Op)
    (k : List Val) (s : State) :
    exec W this (cr ++ [.push (.int 1), .op op] ++ t) (k, s) =
      ((Exp.inc false op p).eval W this s).map
        fun r => (if pick then r.1 :: k else k, r.2) := by
  rw [exec_append, exec_append, rr, Exp.eval_get, Exp.eval, hs.same]
  cases hl : p.locate W this s with
  | none => rfl
  | some q =>
    simp only [Option.map_some, Option.bind_some, Option.bind_eq_bind]
    cases hx : q.1.load W s with
    | none => rfl
    | some x =>
      obtain ⟨x, s1⟩ := x
      obtain ⟨l, sl⟩ := q
      have := hs.load hl hx
      subst this
      simp only [Option.map_some, Option.bind_some, exec, step]
      cases op.apply x (.int 1) with
      | none => rfl
      | some y =>
        simp only [Option.map_some, Option.bind_some]
        rw [wt, hs.same, hl]
        simp only [Option.map_some, Option.bind_some]
        cases l.store W y s1 <;> rfl

theorem Steady.incPost {p : Place} (hs : Steady W this p (fun s => some (.int 1, s)))
    {cr t : List Ins} (rr : Runs W this cr ((Exp.get p).eval W this))
    (wt : Writes W this false p t) (op : Op) (k : List Val) (s : State) :
    exec W this (cr ++ cr ++ [.push (.int 1), .op op] ++ t) (k, s) =
      ((Exp.inc true op p).eval W this s).map fun r => (r.1 :: k, r.2) := by
  rw [exec_append, exec_append, exec_append, rr, Exp.eval_get, Exp.eval, hs.same]
  cases hl : p.locate W this s with
  | none => rfl
  | some q =>
    simp only [Option.map_some, Option.bind_some, Option.bind_eq_bind]
    cases hx : q.1.load W s with
    | none => rfl
    | some x =>
      obtain ⟨x, s1⟩ := x
      obtain ⟨l, sl⟩ := q
      have := hs.load hl hx
      subst this
      simp only [Option.map_some, Option.bind_some]
      rw [rr, Exp.eval_get, hs.same, hl]
      simp only [Option.map_some, Option.bind_some, hx, exec, step]
      cases op.apply x (.int 1) with
      | none => rfl
      | some y =>
        simp only [Option.map_some, Option.bind_some]
        rw [wt, hs.same, hl]
        simp only [Option.map_some, Option.bind_some]
        cases l.store W y s1 <;> rfl

/-- A pure expression has the same value where a simple value is pushed. -/
theorem pure_one {o : Exp} (h : o.pure = true) {s w s'} (he : some (Val.int 1, s) = some (w, s')) :
    o.eval W this s' = (o.eval W this s).map fun r => (r.1, s') := by
  simp only [Option.some.injEq, Prod.mk.injEq] at he
  obtain ⟨_, rfl⟩ := he
  exact Exp.pure_some h _

theorem steady_var (i : Nat) (f : State → Option (Val × State)) :
    Steady W this (.var i) f where
  same s := by simp only [Place.locate, Option.map_some]
  load h := (Place.pure_locate (.var i) (by simp only [Place.pure]) h).2
  after _ := by simp only [Place.locate, Option.map_some]

theorem steady_field {o : Exp} (hp : o.pure = true) (fd : Nat) {f : State → Option (Val × State)}
    (ha : ∀ {s w s'}, f s = some (w, s') →
      o.eval W this s' = (o.eval W this s).map fun r => (r.1, s')) :
    Steady W this (.field o fd) f where
  same s := by
    simp only [Place.locate, Option.bind_eq_bind]
    rw [Exp.pure_some hp s]
    cases o.eval W this s <;> rfl
  load h := (Place.pure_locate (.field o fd) (by simp only [Place.pure, hp]) h).2
  after h := by
    simp only [Place.locate, Option.bind_eq_bind]
    rw [ha h]
    cases o.eval W this _ <;> rfl

theorem steady_elem {a i : Exp} (hp : a.pure = true) (hi : i.pure = true)
    {f : State → Option (Val × State)}
    (ha : ∀ {s w s'}, f s = some (w, s') →
      a.eval W this s' = (a.eval W this s).map fun r => (r.1, s'))
    (hb : ∀ {s w s'}, f s = some (w, s') →
      i.eval W this s' = (i.eval W this s).map fun r => (r.1, s')) :
    Steady W this (.elem a i) f where
  same s := by
    simp only [Place.locate, Option.bind_eq_bind]
    rw [Exp.pure_some hp s]
    cases a.eval W this s with
    | none => rfl
    | some x =>
      simp only [Option.map_some, Option.bind_some]
      rw [Exp.pure_some hi s]
      cases i.eval W this s <;> rfl
  load h := (Place.pure_locate (.elem a i) (by simp only [Place.pure, hp, hi]; rfl) h).2
  after {s w s'} h := by
    simp only [Place.locate, Option.bind_eq_bind]
    rw [ha h, Exp.pure_some hp s]
    cases a.eval W this s with
    | none => rfl
    | some x =>
      simp only [Option.map_some, Option.bind_some]
      rw [hb h]
      cases i.eval W this s <;> rfl

theorem writes_var (pick : Bool) (i : Nat) :
    Writes W this pick (.var i) [if pick then .pickLocal i else .popLocal i] := fun v k s => by
  rw [popVar, Place.locate]; rfl

theorem writes_field {o : Exp} {co : List Ins} (ro : Runs W this co (o.eval W this))
    (pick : Bool) (f : Nat) : Writes W this pick (.field o f)
      (co ++ [if pick then .pickField f else .popField f]) := fun v k s => by
  rw [ro.popField, Place.locate]
  cases o.eval W this s <;> rfl

theorem writes_elem {a i : Exp} (h : calm a i = true) {ca ci : List Ins}
    (ra : Runs W this ca (a.eval W this)) (ri : Runs W this ci (i.eval W this)) :
    Writes W this false (.elem a i) (ci ++ ca ++ [.popElem]) := fun v k s => by
  rw [ri.popElem ra, Place.locate,
    calm_elem h s (fun q r t => ((Loc.elem q r).store W v t).map fun t => (k, t))]
  cases a.eval W this s with
  | none => rfl
  | some x =>
    simp only [Option.bind_some, Option.bind_eq_bind]
    cases i.eval W this x.2 <;> rfl

theorem pure_calm {a i : Exp} (h : a.pure = true) (h2 : i.pure = true) : calm a i = true := by
  simp [calm, h, h2]

theorem Runs.read_field {o : Exp} {co : List Ins} (ro : Runs W this co (o.eval W this))
    (f : Nat) : Runs W this (co ++ [.pushField f]) ((Exp.get (.field o f)).eval W this) :=
  fun k s => by
    rw [ro.field, Exp.eval_get, Place.locate]
    cases o.eval W this s <;> rfl

theorem Runs.read_elem {a i : Exp} (h : calm a i = true) {ca ci : List Ins}
    (ra : Runs W this ca (a.eval W this)) (ri : Runs W this ci (i.eval W this)) :
    Runs W this (ci ++ ca ++ [.pushElem]) ((Exp.get (.elem a i)).eval W this) := fun k s => by
  rw [ri.elem ra, Exp.eval_get, Place.locate,
    calm_elem h s (fun q r t => (Loc.elem q r).load W t)]
  cases h4 : a.eval W this s with
  | none => rfl
  | some q =>
    simp only [Option.bind_some, Option.bind_eq_bind]
    cases h5 : i.eval W this q.2 <;> rfl

theorem runs_var (i : Nat) : Runs W this [.pushLocal i] ((Exp.get (.var i)).eval W this) :=
  fun k s => by
    simp only [exec_one, step, Exp.eval, Place.locate, Option.bind_eq_bind, Option.bind_some,
      Loc.load, Option.map_map]
    rfl

mutual
theorem Exp.right : (e : Exp) → e.ok W = true → ∀ env, ∃ c, e.compile W false env = some c ∧
    Runs W this c (e.eval W this)
  | .const v, _, env => ⟨[.push v], by simp only [Exp.compile], fun k s => by
      simp only [exec_one, step, Exp.eval, Option.map_some]⟩
  | .this, _, env => ⟨[.pushThis], by simp only [Exp.compile], fun k s => by
      simp only [exec_one, step, Exp.eval, Option.map_some]⟩
  | .get p, h, env => by
    simp only [Exp.ok] at h
    rw [Exp.compile]
    exact Place.right p h
  | .bin op a b, h, env => by
    simp only [Exp.ok, Bool.and_eq_true] at h
    obtain ⟨ca, ha, ra⟩ := Exp.right a h.1 false
    obtain ⟨cb, hb, rb⟩ := Exp.right b h.2 false
    refine ⟨ca ++ cb ++ [.op op], by simp only [Exp.compile, ha, hb]; rfl, fun k s => ?_⟩
    rw [exec_append, exec_append, ra, Exp.eval]
    cases h1 : a.eval W this s with
    | none => rfl
    | some x =>
      simp only [Option.map_some, Option.bind_some, Option.bind_eq_bind]
      rw [rb]
      cases h2 : b.eval W this x.2 with
      | none => rfl
      | some y =>
        simp only [Option.map_some, Option.bind_some, exec_one, step]
        cases op.apply x.1 y.1 <;> rfl
  | .assign p e, h, env => by
    simp only [Exp.ok, Bool.and_eq_true] at h
    obtain ⟨c, hc, rc⟩ := Exp.right e h.1 false
    exact (Place.keepRight p h.2 hc rc env).1
  | .opAssign op p e, h, env => by
    simp only [Exp.ok, Bool.and_eq_true] at h
    obtain ⟨c, hc, rc⟩ := Exp.right e h.1 false
    exact (Place.keepRight p h.2 hc rc env).2 op
  | .inc post op p, h, env => by
    simp only [Exp.ok] at h
    exact Place.incRight p h op env
  | .call o m args, h, env => by
    simp only [Exp.ok, Bool.and_eq_true, beq_iff_eq] at h
    obtain ⟨⟨⟨h1, h2⟩, h3⟩, h4⟩ := h
    obtain ⟨co, ho, ro⟩ := Exp.right o h1 true
    obtain ⟨ca, ha, ra⟩ := Args.right args h2
    refine ⟨co ++ ca ++ [.call m], by
      simp only [Exp.compile, ho, ha, popFor_false, List.append_nil]; rfl,
      fun k s => ?_⟩
    rw [Runs.call ro ra m (fun s vs s' hv => by rw [Args.eval_length args hv, h4]), Exp.eval, h3]
    rfl
  | .bare m args, h, env => by
    simp only [Exp.ok, Bool.and_eq_true, beq_iff_eq] at h
    obtain ⟨⟨h2, h3⟩, h4⟩ := h
    obtain ⟨ca, ha, ra⟩ := Args.right args h2
    refine ⟨[.pushThis] ++ ca ++ [.call m], by
      simp only [Exp.compile, ha, Bool.false_and, popFor_false, List.append_nil]; rfl, fun k s => ?_⟩
    rw [Runs.call runs_this ra m (fun s vs s' hv => by rw [Args.eval_length args hv, h4]),
      Exp.eval, h3]
    rfl
  | .baseCall m args, h, env => by
    simp only [Exp.ok, Bool.and_eq_true, beq_iff_eq] at h
    obtain ⟨⟨h2, h3⟩, h4⟩ := h
    obtain ⟨ca, ha, ra⟩ := Args.right args h2
    refine ⟨[.pushThis] ++ ca ++ [.callDirect m], by
      simp only [Exp.compile, ha, popFor_false, List.append_nil]; rfl, fun k s => ?_⟩
    rw [Runs.callDirect runs_this ra m (fun s vs s' hv => by rw [Args.eval_length args hv, h4]),
      Exp.eval, h3]
    rfl
  | .new c m args, h, env => by
    simp only [Exp.ok, Bool.and_eq_true, beq_iff_eq, Bool.not_eq_true'] at h
    obtain ⟨⟨h2, h3⟩, h4⟩ := h
    obtain ⟨ca, ha, ra⟩ := Args.right args h2
    refine ⟨[.new c, .dup] ++ ca ++ [.call m], by simp only [Exp.compile, ha]; rfl,
      fun k s => ?_⟩
    rw [exec_append, exec_append, Exp.eval]
    simp only [exec, step, Option.bind_some]
    rw [ra]
    cases hv : args.eval W this
        { s with heap := (W.create c s.heap).2 } with
    | none => rfl
    | some r =>
      obtain ⟨vs, s1⟩ := r
      simp only [Option.map_some, Option.bind_some, Option.bind_eq_bind]
      have h5 := call_values (W := W) (this := this) m vs (W.create c s.heap).1
        ((W.create c s.heap).1 :: k) s1 (by rw [Args.eval_length args hv, h4])
      simp only [step] at h5
      rw [h5, h3]
      cases invoke W m (W.create c s.heap).1 vs s1 <;> rfl
theorem Place.right : (p : Place) → p.readOk W = true → ∃ c, p.read W false = some c ∧
    Runs W this c ((Exp.get p).eval W this)
  | .var i, _ => ⟨[.pushLocal i], by simp only [Place.read], runs_var i⟩
  | .field o f, h => by
    simp only [Place.readOk] at h
    obtain ⟨co, ho, ro⟩ := Exp.right o h false
    exact ⟨co ++ [.pushField f], by simp only [Place.read, ho]; rfl, ro.read_field f⟩
  | .elem a i, h => by
    simp only [Place.readOk, Bool.and_eq_true] at h
    obtain ⟨⟨h1, h2⟩, h3⟩ := h
    obtain ⟨ca, ha, ra⟩ := Exp.right a h1 false
    obtain ⟨ci, hi, ri⟩ := Exp.right i h2 false
    exact ⟨ci ++ ca ++ [.pushElem], by simp only [Place.read, ha, hi]; rfl,
      Runs.read_elem h3 ra ri⟩
  | .prop o g st, h => by
    simp only [Place.readOk, Bool.and_eq_true, beq_iff_eq] at h
    obtain ⟨⟨h1, h2⟩, h3⟩ := h
    obtain ⟨co, ho, ro⟩ := Exp.right o h1 false
    refine ⟨co ++ [] ++ [.call g], by
      simp only [Place.read, ho, popFor_false, List.append_nil]; rfl, fun k s => ?_⟩
    rw [Runs.call ro runs_nil g (fun s vs s' hv => by
      simp only [Option.some.injEq, Prod.mk.injEq] at hv; rw [← hv.1, h3]; rfl),
      Exp.eval_get, Place.locate, h2]
    cases o.eval W this s <;> rfl
  | .indexer o args g st, h => by
    simp only [Place.readOk, Bool.and_eq_true, beq_iff_eq] at h
    obtain ⟨⟨⟨h1, h2⟩, h3⟩, h4⟩ := h
    obtain ⟨co, ho, ro⟩ := Exp.right o h1 false
    obtain ⟨ca, ha, ra⟩ := Args.right args h2
    refine ⟨co ++ ca ++ [.call g], by
      simp only [Place.read, ho, ha, popFor_false, List.append_nil]; rfl, fun k s => ?_⟩
    rw [Runs.call ro ra g (fun s vs s' hv => by rw [Args.eval_length args hv, h4]),
      Exp.eval_get, Place.locate, h3]
    cases o.eval W this s with
    | none => rfl
    | some q =>
      simp only [Option.bind_some, Option.bind_eq_bind]
      cases args.eval W this q.2 <;> rfl
  | .static f, h => by simp [Place.readOk] at h
theorem Place.keepRight : (p : Place) → ∀ {e : Exp}, p.keepOk W e = true → ∀ {ce},
    e.compile W false false = some ce → Runs W this ce (e.eval W this) → ∀ env,
    (∃ c, (Exp.assign p e).compile W false env = some c ∧
      Runs W this c ((Exp.assign p e).eval W this)) ∧
    ∀ op, ∃ c, (Exp.opAssign op p e).compile W false env = some c ∧
      Runs W this c ((Exp.opAssign op p e).eval W this)
  | .var i, e, _, ce, hc, rc, env => by
    constructor
    · refine ⟨[] ++ ce ++ [.pickLocal i], by
        simp only [Exp.compile, Place.pre, Place.to, Place.real, hc, if_true]; rfl, fun k s => ?_⟩
      exact (steady_var i _).assign rc (writes_var true i) k s
    · intro op
      refine ⟨[] ++ [.pushLocal i] ++ ce ++ [.op op] ++ [.pickLocal i], by
        simp only [Exp.compile, Place.pre, Place.to, Place.read, hc, if_true]; rfl, fun k s => ?_⟩
      exact (steady_var i _).opAssign (runs_var i) rc (writes_var true i) op k s
  | .field o f, e, h, ce, hc, rc, env => by
    simp only [Place.keepOk, Bool.and_eq_true] at h
    obtain ⟨co, ho, ro⟩ := Exp.right o h.1 false
    constructor
    · refine ⟨[] ++ ce ++ (co ++ [.pickField f]), by
        simp only [Exp.compile, Place.pre, Place.to, Place.real, hc, ho, if_true]; rfl, fun k s => ?_⟩
      exact (steady_field (calm_pure h.2) f (calm_eval h.2)).assign rc (writes_field ro true f) k s
    · intro op
      refine ⟨[] ++ (co ++ [.pushField f]) ++ ce ++ [.op op] ++ (co ++ [.pickField f]), by
        simp only [Exp.compile, Place.pre, Place.to, Place.read, hc, ho, if_true]; rfl, fun k s => ?_⟩
      exact (steady_field (calm_pure h.2) f (calm_eval h.2)).opAssign (ro.read_field f) rc
          (writes_field ro true f) op k s
  | .elem _ _, _, h, _, _, _, _ => by simp [Place.keepOk] at h
  | .prop _ _ _, _, h, _, _, _, _ => by simp [Place.keepOk] at h
  | .indexer _ _ _ _, _, h, _, _, _, _ => by simp [Place.keepOk] at h
  | .static _, _, h, _, _, _, _ => by simp [Place.keepOk] at h
theorem Place.incRight : (p : Place) → ∀ {post}, p.incOk W post = true → ∀ op env,
    ∃ c, (Exp.inc post op p).compile W false env = some c ∧
      Runs W this c ((Exp.inc post op p).eval W this)
  | .var i, post, _, op, env => by
    cases post with
    | false =>
      refine ⟨[] ++ [.pushLocal i] ++ [.push (.int 1), .op op] ++ [.pickLocal i], by
        simp only [Exp.compile, Place.pre, Place.to, Place.read, if_true, Bool.false_eq_true,
          if_false]; rfl, fun k s => ?_⟩
      exact (steady_var i _).incPre (runs_var i) (writes_var true i) op k s
    | true =>
      refine ⟨[] ++ [.pushLocal i] ++ [.pushLocal i] ++ [.push (.int 1), .op op] ++
          [.popLocal i], by
        simp only [Exp.compile, Place.pre, Place.to, Place.read, if_true, Bool.false_eq_true,
          if_false]; rfl, fun k s => ?_⟩
      exact (steady_var i _).incPost (runs_var i) (writes_var false i) op k s
  | .field o f, post, h, op, env => by
    simp only [Place.incOk, Bool.and_eq_true] at h
    obtain ⟨co, ho, ro⟩ := Exp.right o h.1 false
    cases post with
    | false =>
      refine ⟨[] ++ (co ++ [.pushField f]) ++ [.push (.int 1), .op op] ++ (co ++ [.pickField f]),
        by
        simp only [Exp.compile, Place.pre, Place.to, Place.read, ho, if_true, Bool.false_eq_true,
          if_false]; rfl, fun k s => ?_⟩
      exact (steady_field h.2 f (pure_one h.2)).incPre (ro.read_field f)
          (writes_field ro true f) op k s
    | true =>
      refine ⟨[] ++ (co ++ [.pushField f]) ++ (co ++ [.pushField f]) ++
          [.push (.int 1), .op op] ++ (co ++ [.popField f]), by
        simp only [Exp.compile, Place.pre, Place.to, Place.read, ho, if_true, Bool.false_eq_true,
          if_false]; rfl, fun k s => ?_⟩
      exact (steady_field h.2 f (pure_one h.2)).incPost (ro.read_field f)
          (writes_field ro false f) op k s
  | .elem a i, post, h, op, env => by
    simp only [Place.incOk, Bool.and_eq_true] at h
    obtain ⟨⟨⟨⟨hp, h1⟩, h2⟩, h3⟩, h4⟩ := h
    subst hp
    obtain ⟨ca, ha, ra⟩ := Exp.right a h1 false
    obtain ⟨ci, hi, ri⟩ := Exp.right i h2 false
    have hc := pure_calm h3 h4
    refine ⟨[] ++ (ci ++ ca ++ [.pushElem]) ++ (ci ++ ca ++ [.pushElem]) ++
        [.push (.int 1), .op op] ++ (ci ++ ca ++ [.popElem]), by
      simp only [Exp.compile, Place.pre, Place.to, Place.read, ha, hi, if_true]; rfl, fun k s => ?_⟩
    exact (steady_elem h3 h4 (pure_one h3) (pure_one h4)).incPost (Runs.read_elem hc ra ri)
        (writes_elem hc ra ri) op k s
  | .prop _ _ _, _, h, _, _ => by simp [Place.incOk] at h
  | .indexer _ _ _ _, _, h, _, _ => by simp [Place.incOk] at h
  | .static _, _, h, _, _ => by simp [Place.incOk] at h
theorem Args.right : (as : Args) → as.ok W = true → ∃ c, as.compile W = some c ∧
    RunsArgs W this c (as.eval W this)
  | .nil, _ => ⟨[], by simp only [Args.compile], fun k s => by
      simp only [exec, Args.eval, Option.map_some, List.reverse_nil, List.nil_append]⟩
  | .cons e r, h => by
    simp only [Args.ok, Bool.and_eq_true] at h
    obtain ⟨ce, he, re⟩ := Exp.right e h.1 false
    obtain ⟨cr, hr, rr⟩ := Args.right r h.2
    refine ⟨ce ++ cr, by simp only [Args.compile, he, hr]; rfl, fun k s => ?_⟩
    rw [exec_append, re, Args.eval]
    cases h1 : e.eval W this s with
    | none => rfl
    | some x =>
      simp only [Option.map_some, Option.bind_some, Option.bind_eq_bind]
      rw [rr]
      cases h2 : r.eval W this x.2 with
      | none => rfl
      | some y => simp [Option.map_some, Option.bind_some]
end

/-- Nothing is dropped inside a kept receiver. -/
theorem Exp.kept_compile : (e : Exp) → ∀ {env}, e.kept env = true →
    e.compile W true env = e.compile W false env
  | .const _, _, _ => by simp only [Exp.compile]
  | .this, _, _ => by simp only [Exp.compile]
  | .get (.var _), _, _ => by simp only [Exp.compile, Place.read]
  | .get (.field o _), _, h => by
    simp only [Exp.kept] at h
    simp only [Exp.compile, Place.read, Exp.kept_compile o h]
  | .get (.elem _ _), _, _ => by simp only [Exp.compile, Place.read]
  | .get (.static _), _, _ => by simp only [Exp.compile, Place.read]
  | .get (.prop _ _ _), _, h => by simp [Exp.kept] at h
  | .get (.indexer _ _ _ _), _, h => by simp [Exp.kept] at h
  | .bin _ a b, _, h => by
    simp only [Exp.kept, Bool.and_eq_true] at h
    simp only [Exp.compile, Exp.kept_compile a h.1, Exp.kept_compile b h.2]
  | .call _ _ _, _, h => by simp [Exp.kept] at h
  | .bare _ _, _, h => by
    simp only [Exp.kept] at h
    subst h
    simp only [Exp.compile, Bool.not_true, Bool.and_false]
  | .assign _ _, _, _ => by simp only [Exp.compile]
  | .opAssign _ _ _, _, _ => by simp only [Exp.compile]
  | .inc _ _ _, _, _ => by simp only [Exp.compile]
  | .new _ _ _, _, _ => by simp only [Exp.compile]

/-- The code after a call of a statement. -/
theorem exec_popFor {code : List Ins} {m : Nat} {f : State → Option (Val × State)}
    (h : ∀ k s, exec W this code (k, s) = (f s).map
      fun r => (if W.returns m then r.1 :: k else k, r.2)) (k : List Val) (s : State) :
    exec W this (code ++ popFor W true m) (k, s) = ((f s).map (·.2)).map fun s' => (k, s') := by
  rw [exec_append, h]
  cases f s with
  | none => rfl
  | some r =>
    cases hr : W.returns m <;>
      simp [popFor, hr, exec, step]

/-- A value at the place of an assignment that is not kept. -/
theorem Stmt.of_pop {e : Exp} {st : Stmt} (he : st.exp = e) {c : List Ins}
    (h : ∀ k s, exec W this c (k, s) = (e.eval W this s).map
      fun r => (if false then r.1 :: k else k, r.2)) (k : List Val) (s : State) :
    exec W this c (k, s) = (st.run W this s).map fun s' => (k, s') := by
  rw [h, Stmt.run, he]
  cases e.eval W this s <;> rfl

theorem inc_run (post : Bool) (op : Op) (p : Place) (s : State) :
    ((Exp.inc post op p).eval W this s).map (·.2) =
      ((Exp.inc false op p).eval W this s).map (·.2) := by
  simp only [Exp.eval, Option.bind_eq_bind]
  cases p.locate W this s with
  | none => rfl
  | some q =>
    simp only [Option.bind_some]
    cases q.1.load W q.2 with
    | none => rfl
    | some x =>
      simp only [Option.bind_some]
      cases op.apply x.1 (.int 1) with
      | none => rfl
      | some y =>
        simp only [Option.bind_some]
        cases q.1.store W y x.2 <;> rfl

/-- A compound assignment to an indexer: receiver and arguments twice, then the
getter, the value and the setter. -/
theorem indexer_compound {o : Exp} {args : Args} (hp : o.pure = true) (hq : args.pure = true)
    {g st : Nat} (hg : W.returns g = true) (hga : args.length = W.arity g)
    (hst : W.returns st = false) (hsa : args.length + 1 = W.arity st) (hvt : W.virt st = false)
    {co ca ce : List Ins} (ro : Runs W this co (o.eval W this))
    (ra : RunsArgs W this ca (args.eval W this)) {f : State → Option (Val × State)}
    (rc : Runs W this ce f) (op : Op) (k : List Val) (s : State) :
    exec W this (co ++ ca ++ (co ++ ca ++ [.call g]) ++ ce ++ [.op op] ++ [.callDirect st]) (k, s) =
      ((Place.indexer o args g st).locate W this s).bind fun l =>
        (l.1.load W l.2).bind fun x => (f x.2).bind fun y =>
          (op.apply x.1 y.1).bind fun r => (l.1.store W r y.2).map fun t => (k, t) := by
  have hread := Runs.call ro ra g (fun s vs s' hv => by rw [Args.eval_length args hv, hga])
  rw [exec_append, exec_append, exec_append, exec_append, exec_append, ro, Place.locate,
    Exp.pure_some hp s]
  cases ho : o.eval W this s with
  | none => rfl
  | some q =>
    obtain ⟨v, s1⟩ := q
    have := Exp.pure_eval o hp ho
    subst this
    simp only [Option.map_some, Option.bind_some, Option.bind_eq_bind]
    rw [ra]
    cases ha : args.eval W _ s1 with
    | none => rfl
    | some r =>
      obtain ⟨vs, s2⟩ := r
      have := Args.pure_eval args hq ha
      subst this
      simp only [Option.map_some, Option.bind_some]
      rw [hread, ho]
      simp only [Option.bind_some, ha, hg, if_true, Loc.load]
      cases hx : invoke W g v vs s2 with
      | none => rfl
      | some x =>
        simp only [Option.map_some, Option.bind_some]
        rw [rc]
        cases hy : f x.2 with
        | none => rfl
        | some y =>
          simp only [Option.map_some, Option.bind_some, exec_one, step]
          cases op.apply x.1 y.1 with
          | none => rfl
          | some z =>
            simp only [Option.map_some, Option.bind_some]
            have h5 := callDirect_values (W := W) (this := this) st (vs ++ [z]) v k y.2 (by
              rw [List.length_append, Args.eval_length args ha, ← hsa]; rfl)
            simp only [List.reverse_append, List.reverse_singleton, List.singleton_append,
              List.cons_append, List.nil_append] at h5
            rw [exec_one, h5, hst, invokeDirect_eq hvt]
            simp only [Loc.store, Option.map_map]
            cases invoke W st v (vs ++ [z]) y.2 <;> rfl

theorem runs_one : Runs W this [.push (.int 1)] (fun s => some (.int 1, s)) := fun k s => by
  simp only [exec_one, step, Option.map_some]

/-- A statement of the fragment does what it says, and leaves the operand stack
as it was. -/
theorem Stmt.right (st : Stmt) (h : st.ok W = true) : ∃ c, st.compile W = some c ∧
    ∀ k s, exec W this c (k, s) = (st.run W this s).map fun s' => (k, s') := by
  match st, h with
  | .assign (.var i) e, h =>
    simp only [Stmt.ok] at h
    obtain ⟨ce, hc, rc⟩ := Exp.right (this := this) e h false
    refine ⟨[] ++ ce ++ [.popLocal i], by
      simp only [Stmt.compile, Place.pre, Place.to, Place.real, hc, if_true, Bool.false_eq_true,
        if_false]; rfl, Stmt.of_pop rfl fun k s => ?_⟩
    exact (steady_var i _).assign rc (writes_var false i) k s
  | .assign (.field o f) e, h =>
    simp only [Stmt.ok, Bool.and_eq_true] at h
    obtain ⟨ce, hc, rc⟩ := Exp.right (this := this) e h.1.1 false
    obtain ⟨co, ho, ro⟩ := Exp.right (this := this) o h.1.2 false
    refine ⟨[] ++ ce ++ (co ++ [.popField f]), by
      simp only [Stmt.compile, Place.pre, Place.to, Place.real, hc, ho, if_true,
        Bool.false_eq_true, if_false]; rfl, Stmt.of_pop rfl fun k s => ?_⟩
    exact (steady_field (calm_pure h.2) f (calm_eval h.2)).assign rc
      (writes_field ro false f) k s
  | .assign (.elem a i) e, h =>
    simp only [Stmt.ok, Bool.and_eq_true] at h
    obtain ⟨⟨⟨⟨⟨h1, h2⟩, h3⟩, h4⟩, h5⟩, h6⟩ := h
    obtain ⟨ce, hc, rc⟩ := Exp.right (this := this) e h1 false
    obtain ⟨ca, ha, ra⟩ := Exp.right (this := this) a h2 false
    obtain ⟨ci, hi, ri⟩ := Exp.right (this := this) i h3 false
    refine ⟨[] ++ ce ++ (ci ++ ca ++ [.popElem]), by
      simp only [Stmt.compile, Place.pre, Place.to, Place.real, hc, ha, hi, if_true]; rfl,
      Stmt.of_pop rfl fun k s => ?_⟩
    exact (steady_elem (calm_pure h5) (calm_pure h6) (calm_eval h5) (calm_eval h6)).assign rc
      (writes_elem h4 ra ri) k s
  | .assign (.prop o g m) e, h =>
    simp only [Stmt.ok, Bool.and_eq_true, beq_iff_eq, Bool.not_eq_true'] at h
    obtain ⟨⟨⟨h1, h2⟩, h3⟩, h4⟩ := h
    obtain ⟨ce, hc, rc⟩ := Exp.right (this := this) e h1 false
    obtain ⟨co, ho, ro⟩ := Exp.right (this := this) o h2 false
    refine ⟨co ++ (ce ++ [.call m]), by
      simp only [Stmt.compile, Place.pre, Place.to, Place.real, hc, ho, Bool.false_eq_true,
        if_false]; rfl, fun k s => ?_⟩
    rw [exec_append, ro, Stmt.run, Stmt.exp, Exp.eval, Place.locate]
    cases h5 : o.eval W this s with
    | none => rfl
    | some q =>
      simp only [Option.map_some, Option.bind_some, Option.bind_eq_bind]
      rw [exec_append, rc]
      cases h6 : e.eval W this q.2 with
      | none => rfl
      | some r =>
        simp only [Option.map_some, Option.bind_some, exec_one]
        have h7 := call_values (W := W) (this := this) m [r.1] q.1 k r.2 (by rw [h4]; rfl)
        simp only [List.reverse_singleton, List.singleton_append] at h7
        rw [h7, h3]
        simp only [Loc.store]
        cases invoke W m q.1 [r.1] r.2 <;> rfl
  | .opAssign op (.var i) e, h =>
    simp only [Stmt.ok] at h
    obtain ⟨ce, hc, rc⟩ := Exp.right (this := this) e h false
    refine ⟨[] ++ [.pushLocal i] ++ ce ++ [.op op] ++ [.popLocal i], by
      simp only [Stmt.compile, Place.pre, Place.to, Place.read, hc, Bool.false_eq_true,
        if_false]; rfl, Stmt.of_pop rfl fun k s => ?_⟩
    exact (steady_var i _).opAssign (runs_var i) rc (writes_var false i) op k s
  | .opAssign op (.field o f) e, h =>
    simp only [Stmt.ok, Bool.and_eq_true] at h
    obtain ⟨ce, hc, rc⟩ := Exp.right (this := this) e h.1.1 false
    obtain ⟨co, ho, ro⟩ := Exp.right (this := this) o h.1.2 false
    refine ⟨[] ++ (co ++ [.pushField f]) ++ ce ++ [.op op] ++ (co ++ [.popField f]), by
      simp only [Stmt.compile, Place.pre, Place.to, Place.read, hc, ho,
        Bool.false_eq_true, if_false]; rfl, Stmt.of_pop rfl fun k s => ?_⟩
    exact (steady_field (calm_pure h.2) f (calm_eval h.2)).opAssign (ro.read_field f) rc
      (writes_field ro false f) op k s
  | .opAssign op (.elem a i) e, h =>
    simp only [Stmt.ok, Bool.and_eq_true] at h
    obtain ⟨⟨⟨⟨h1, h2⟩, h3⟩, h5⟩, h6⟩ := h
    obtain ⟨ce, hc, rc⟩ := Exp.right (this := this) e h1 false
    obtain ⟨ca, ha, ra⟩ := Exp.right (this := this) a h2 false
    obtain ⟨ci, hi, ri⟩ := Exp.right (this := this) i h3 false
    have h4 := pure_calm (calm_pure h5) (calm_pure h6)
    refine ⟨[] ++ (ci ++ ca ++ [.pushElem]) ++ ce ++ [.op op] ++ (ci ++ ca ++ [.popElem]), by
      simp only [Stmt.compile, Place.pre, Place.to, Place.read, hc, ha, hi]; rfl,
      Stmt.of_pop rfl fun k s => ?_⟩
    exact (steady_elem (calm_pure h5) (calm_pure h6) (calm_eval h5) (calm_eval h6)).opAssign
      (Runs.read_elem h4 ra ri) rc (writes_elem h4 ra ri) op k s
  | .opAssign op (.indexer o args g m) e, h =>
    simp only [Stmt.ok, Bool.and_eq_true, beq_iff_eq, Bool.not_eq_true'] at h
    obtain ⟨⟨⟨⟨⟨⟨⟨⟨⟨h1, h2⟩, h3⟩, h4⟩, h5⟩, h6⟩, h7⟩, h8⟩, h9⟩, h10⟩ := h
    obtain ⟨ce, hc, rc⟩ := Exp.right (this := this) e h1 false
    obtain ⟨co, ho, ro⟩ := Exp.right (this := this) o h2 false
    obtain ⟨ca, ha, ra⟩ := Args.right (this := this) args h3
    refine ⟨co ++ ca ++ (co ++ ca ++ [.call g]) ++ ce ++ [.op op] ++ [.callDirect m], by
      simp only [Stmt.compile, Place.pre, Place.to, Place.read, hc, ho, ha, popFor_false,
        List.append_nil]; rfl, fun k s => ?_⟩
    rw [indexer_compound h4 h5 h6 h7 h8 h9 h10 ro ra rc op, Stmt.run, Stmt.exp, Exp.eval]
    cases (Place.indexer o args g m).locate W this s with
    | none => rfl
    | some l =>
      simp only [Option.bind_some, Option.bind_eq_bind]
      cases l.1.load W l.2 with
      | none => rfl
      | some x =>
        simp only [Option.bind_some]
        cases e.eval W this x.2 with
        | none => rfl
        | some y =>
          simp only [Option.bind_some]
          cases op.apply x.1 y.1 with
          | none => rfl
          | some z =>
            simp only [Option.bind_some]
            cases l.1.store W z y.2 <;> rfl
  | .inc post op (.var i), _ =>
    refine ⟨[] ++ [.pushLocal i] ++ [.push (.int 1), .op op] ++ [.popLocal i], by
      simp only [Stmt.compile, Place.pre, Place.to, Place.read, Bool.false_eq_true,
        if_false]; rfl, fun k s => ?_⟩
    rw [Stmt.run, Stmt.exp, inc_run]
    exact Stmt.of_pop (st := .inc false op (.var i)) rfl
      (fun k s => (steady_var i _).incPre (runs_var i) (writes_var false i) op k s) k s
  | .inc post op (.field o f), h =>
    simp only [Stmt.ok, Bool.and_eq_true] at h
    obtain ⟨co, ho, ro⟩ := Exp.right (this := this) o h.1 false
    refine ⟨[] ++ (co ++ [.pushField f]) ++ [.push (.int 1), .op op] ++ (co ++ [.popField f]), by
      simp only [Stmt.compile, Place.pre, Place.to, Place.read, ho, Bool.false_eq_true,
        if_false]; rfl, fun k s => ?_⟩
    rw [Stmt.run, Stmt.exp, inc_run]
    exact Stmt.of_pop (st := .inc false op (.field o f)) rfl
      (fun k s => (steady_field h.2 f (pure_one h.2)).incPre (ro.read_field f)
        (writes_field ro false f) op k s) k s
  | .inc post op (.elem a i), h =>
    simp only [Stmt.ok, Bool.and_eq_true] at h
    obtain ⟨⟨⟨h1, h2⟩, h3⟩, h4⟩ := h
    obtain ⟨ca, ha, ra⟩ := Exp.right (this := this) a h1 false
    obtain ⟨ci, hi, ri⟩ := Exp.right (this := this) i h2 false
    have hc := pure_calm h3 h4
    refine ⟨[] ++ (ci ++ ca ++ [.pushElem]) ++ [.push (.int 1), .op op] ++
      (ci ++ ca ++ [.popElem]), by
      simp only [Stmt.compile, Place.pre, Place.to, Place.read, ha, hi]; rfl, fun k s => ?_⟩
    rw [Stmt.run, Stmt.exp, inc_run]
    exact Stmt.of_pop (st := .inc false op (.elem a i)) rfl
      (fun k s => (steady_elem h3 h4 (pure_one h3) (pure_one h4)).incPre
        (Runs.read_elem hc ra ri) (writes_elem hc ra ri) op k s) k s
  | .inc post op (.indexer o args g m), h =>
    simp only [Stmt.ok, Bool.and_eq_true, beq_iff_eq, Bool.not_eq_true'] at h
    obtain ⟨⟨⟨⟨⟨⟨⟨⟨h2, h3⟩, h4⟩, h5⟩, h6⟩, h7⟩, h8⟩, h9⟩, h10⟩ := h
    obtain ⟨co, ho, ro⟩ := Exp.right (this := this) o h2 false
    obtain ⟨ca, ha, ra⟩ := Args.right (this := this) args h3
    refine ⟨co ++ ca ++ (co ++ ca ++ [.call g]) ++ [.push (.int 1), .op op] ++ [.callDirect m], by
      simp only [Stmt.compile, Place.pre, Place.to, Place.read, ho, ha, popFor_false,
        List.append_nil]; rfl, fun k s => ?_⟩
    have hi := indexer_compound h4 h5 h6 h7 h8 h9 h10 ro ra runs_one op k s
    rw [List.append_assoc (co ++ ca ++ (co ++ ca ++ [Ins.call g]))] at hi
    rw [show [Ins.push (.int 1), .op op] = [Ins.push (.int 1)] ++ [.op op] from rfl, hi,
      Stmt.run, Stmt.exp, Exp.eval]
    cases (Place.indexer o args g m).locate W this s with
    | none => rfl
    | some l =>
      simp only [Option.bind_some, Option.bind_eq_bind]
      cases l.1.load W l.2 with
      | none => rfl
      | some x =>
        simp only [Option.bind_some]
        cases op.apply x.1 (.int 1) with
        | none => rfl
        | some z =>
          simp only [Option.bind_some]
          cases l.1.store W z x.2 <;> rfl
  | .call o m args, h =>
    simp only [Stmt.ok, Bool.and_eq_true, beq_iff_eq] at h
    obtain ⟨⟨⟨h1, h2⟩, h3⟩, h4⟩ := h
    obtain ⟨co, ho, ro⟩ := Exp.right (this := this) o h1 true
    obtain ⟨ca, ha, ra⟩ := Args.right (this := this) args h2
    refine ⟨co ++ ca ++ [.call m] ++ popFor W true m, by
      simp only [Stmt.compile, Exp.compile, Exp.kept_compile o h3, ho, ha]; rfl, fun k s => ?_⟩
    rw [exec_popFor (Runs.call ro ra m
      (fun s vs s' hv => by rw [Args.eval_length args hv, h4])), Stmt.run, Stmt.exp, Exp.eval]
    rfl
  | .bare m args, h =>
    simp only [Stmt.ok, Bool.and_eq_true, beq_iff_eq] at h
    obtain ⟨ca, ha, ra⟩ := Args.right (this := this) args h.1
    refine ⟨[.pushThis] ++ ca ++ [.call m] ++ popFor W true m, by
      simp only [Stmt.compile, Exp.compile, ha, Bool.not_false, Bool.and_true]; rfl,
      fun k s => ?_⟩
    rw [exec_popFor (Runs.call runs_this ra m
      (fun s vs s' hv => by rw [Args.eval_length args hv, h.2])), Stmt.run, Stmt.exp, Exp.eval]
    rfl
  | .baseCall m args, h =>
    simp only [Stmt.ok, Bool.and_eq_true, beq_iff_eq] at h
    obtain ⟨ca, ha, ra⟩ := Args.right (this := this) args h.1
    refine ⟨[.pushThis] ++ ca ++ [.callDirect m] ++ popFor W true m, by
      simp only [Stmt.compile, Exp.compile, ha]; rfl,
      fun k s => ?_⟩
    rw [exec_popFor (Runs.callDirect runs_this ra m
      (fun s vs s' hv => by rw [Args.eval_length args hv, h.2])), Stmt.run, Stmt.exp, Exp.eval]
    rfl
  | .new c m args, h =>
    obtain ⟨code, hc, rc⟩ := Exp.right (W := W) (this := this) (.new c m args) h false
    refine ⟨code ++ [.popEmpty], by
      simp only [Stmt.compile]
      rw [Exp.kept_compile (.new c m args) (by simp only [Exp.kept]), hc]; rfl, fun k s => ?_⟩
    rw [exec_append, rc, Stmt.run, Stmt.exp]
    cases (Exp.new c m args).eval W this s <;> rfl

end Verif.Place
