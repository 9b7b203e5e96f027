import Verif.Spec.Scope

/-!
# Lemmas about regions and names
-/

namespace Verif.Scope

/-! ## Declarations in a region -/

/-- Whether a declaration is a duplicate of one of `vs`. -/
def dup (vs : List (Nat × Variable)) (d : Nat × Variable) : Bool :=
  match vs.lookup d.1 with
  | none => false
  | some v => !d.2.kind.allowDuplicate || v.kind != d.2.kind

/-- What a region holds after declarations. -/
def keep : List (Nat × Variable) → List (Nat × Variable) → List (Nat × Variable)
  | vs, [] => vs
  | vs, d :: ds => if dup vs d then keep vs ds else keep (vs ++ [d]) ds

/-- The declarations that are rejected. -/
def rejects : List (Nat × Variable) → List (Nat × Variable) → List Nat
  | _, [] => []
  | vs, d :: ds => if dup vs d then d.2.id :: rejects vs ds else rejects (vs ++ [d]) ds

theorem keep_append : ∀ (ds es vs : List (Nat × Variable)), keep vs (ds ++ es) = keep (keep vs ds) es
  | [], es, vs => rfl
  | d :: ds, es, vs => by
    simp only [List.cons_append, keep]
    split
    · exact keep_append ds es vs
    · exact keep_append ds es _

theorem rejects_append : ∀ (ds es vs : List (Nat × Variable)),
    rejects vs (ds ++ es) = rejects vs ds ++ rejects (keep vs ds) es
  | [], es, vs => rfl
  | d :: ds, es, vs => by
    simp only [List.cons_append, keep, rejects]
    split
    · rw [rejects_append ds es vs]; rfl
    · exact rejects_append ds es _

theorem lookup_append (n : Nat) : ∀ (a b : List (Nat × Variable)),
    (a ++ b).lookup n = match a.lookup n with | some v => some v | none => b.lookup n
  | [], b => rfl
  | (k, v) :: a, b => by
    simp only [List.cons_append, List.lookup_cons]
    cases h : n == k
    · exact lookup_append n a b
    · rfl

theorem lookup_keep (n : Nat) : ∀ (ds vs : List (Nat × Variable)), (keep vs ds).lookup n = (vs ++ ds).lookup n
  | [], vs => by simp [keep]
  | (k, w) :: ds, vs => by
    simp only [keep]
    split
    · rename_i h
      rw [lookup_keep n ds vs, lookup_append, lookup_append]
      cases hv : vs.lookup n with
      | some v => rfl
      | none =>
        simp only [List.lookup_cons]
        cases hd : n == k
        · rfl
        · have : n = k := by simpa using hd
          subst this
          simp [dup, hv] at h
    · rw [lookup_keep n ds, List.append_assoc]; rfl

theorem lookup_mem {n : Nat} {v : Variable} : ∀ {vs : List (Nat × Variable)}, vs.lookup n = some v → (n, v) ∈ vs
  | [], h => by cases h
  | (k, w) :: vs, h => by
    simp only [List.lookup_cons] at h
    cases hx : n == k
    · rw [hx] at h; exact List.mem_cons_of_mem _ (lookup_mem h)
    · rw [hx] at h
      have : n = k := by simpa using hx
      subst this
      simp only [Option.some.injEq] at h
      subst h
      exact List.mem_cons_self ..

theorem lookup_none {n : Nat} : ∀ {vs : List (Nat × Variable)}, vs.lookup n = none ↔ ∀ x ∈ vs, x.1 ≠ n
  | [] => by simp
  | (k, w) :: vs => by
    simp only [List.lookup_cons]
    cases hx : n == k
    · simp only [List.mem_cons, forall_eq_or_imp]
      have : n ≠ k := by simpa using hx
      rw [lookup_none (vs := vs)]
      exact ⟨fun h => ⟨fun e => this e.symm, h⟩, fun h => h.2⟩
    · have : n = k := by simpa using hx
      subst this
      simp

theorem dup_iff {vs : List (Nat × Variable)} {d : Nat × Variable} (hc : Clean vs) :
    dup vs d = false ↔ ∀ x ∈ vs, x.1 = d.1 → x.2.kind = .method ∧ d.2.kind = .method := by
  unfold dup
  cases h : vs.lookup d.1 with
  | none =>
    simp only [true_iff]
    intro x hx e
    exact absurd e (lookup_none.1 h x hx)
  | some v =>
    have hv := lookup_mem h
    simp only [Kind.allowDuplicate, Bool.or_eq_false_iff]
    constructor
    · rintro ⟨h1, h2⟩ x hx e
      have h3 : d.2.kind = .method := by simpa using h1
      have h4 : v.kind = .method := by rw [h3] at h2; simpa using h2
      refine ⟨?_, h3⟩
      -- the first of the name is a method, so all of them are
      clear h1 h2
      induction vs with
      | nil => cases hx
      | cons y ys ih =>
        obtain ⟨k, w⟩ := y
        have hc' := List.pairwise_cons.1 hc
        simp only [List.lookup_cons] at h
        cases hy : d.1 == k
        · rw [hy] at h
          rcases List.mem_cons.1 hx with rfl | hx
          · have : d.1 ≠ k := by simpa using hy
            exact absurd e.symm this
          · exact ih hc'.2 h (lookup_mem h) hx
        · rw [hy] at h
          simp only [Option.some.injEq] at h
          have e2 : d.1 = k := by simpa using hy
          rcases List.mem_cons.1 hx with rfl | hx
          · rw [h]; exact h4
          · exact (hc'.1 x hx (by rw [← e2, e])).2
    · intro h1
      obtain ⟨h2, h3⟩ := h1 _ hv rfl
      simp only at h2
      simp [h2, h3]

theorem rejects_nil : ∀ (ds vs : List (Nat × Variable)), Clean vs → (rejects vs ds = [] ↔ Clean (vs ++ ds))
  | [], vs, hc => by simp [rejects, hc]
  | d :: ds, vs, hc => by
    simp only [rejects]
    cases hd : dup vs d
    · have h1 := (dup_iff hc).1 hd
      have hc' : Clean (vs ++ [d]) := by
        unfold Clean
        rw [List.pairwise_append]
        exact ⟨hc, List.pairwise_singleton .., fun a ha b hb e => by
          simp at hb; subst hb; exact h1 a ha e⟩
      simp only [Bool.false_eq_true, if_false]
      rw [rejects_nil ds (vs ++ [d]) hc', List.append_assoc]
      rfl
    · simp only [if_true]
      constructor
      · intro h; cases h
      · intro h
        have : dup vs d = false := by
          rw [dup_iff hc]
          intro x hx e
          unfold Clean at h
          rw [List.pairwise_append] at h
          exact h.2.2 x hx d (List.mem_cons_self ..) e
        rw [hd] at this; cases this

/-! ## Regions -/

/-- The region before a region is an earlier row. -/
def WF (F : List Region) : Prop := ∀ (i : Nat) (r : Region), F[i]? = some r → ∀ p, r.previous = some p → p < i

theorem get_fuel {F : List Region} (hw : WF F) (name : Nat) : ∀ (n m i : Nat), i < n → i < m →
    get F name n (some i) = get F name m (some i)
  | 0, _, _, h, _ => by omega
  | _, 0, _, _, h => by omega
  | n + 1, m + 1, i, h1, h2 => by
    simp only [get]
    cases hr : F[i]? with
    | none => rfl
    | some r =>
      simp only
      cases r.variables.lookup name with
      | some v => rfl
      | none =>
        simp only
        cases hp : r.previous with
        | none => cases n <;> cases m <;> rfl
        | some p =>
          have := hw i r hr p hp
          exact get_fuel hw name n m p (by omega) (by omega)

/-- The names as seen from a region. -/
def Sees (F : List Region) (cur : Option Nat) (env : Env) : Prop :=
  ∀ name, get F name F.length cur = env.find name

theorem sees_region {F : List Region} (hw : WF F) {k : Nat} {r : Region} (hr : F[k]? = some r) {env : Env}
    (h : Sees F r.previous env) {ds : List (Nat × Variable)} (hv : ∀ n, r.variables.lookup n = ds.lookup n) :
    Sees F (some k) (ds :: env) := by
  intro name
  have hk : k < F.length := (List.getElem?_eq_some_iff.1 hr).1
  obtain ⟨n, hn⟩ : ∃ n, F.length = n + 1 := ⟨F.length - 1, by omega⟩
  rw [hn]
  simp only [get, hr, hv, Env.find, List.flatten_cons, lookup_append]
  cases ds.lookup name with
  | some v => rfl
  | none =>
    simp only
    have := h name
    simp only [Env.find] at this
    rw [← this]
    cases hp : r.previous with
    | none => rw [hn]; cases n <;> rfl
    | some p =>
      have := hw k r hr p hp
      exact get_fuel hw name _ _ p (by omega) (by omega)

/-- The variables of the current region. -/
def varsAt (s : State) : List (Nat × Variable) :=
  match s.current with
  | none => []
  | some c => match s.regions[c]? with
    | none => []
    | some r => r.variables

theorem analysis_append (F : List Region) : ∀ (a b : List Item) (bs : List (Nat × Option Variable)),
    analysis F (a ++ b) = some bs → ∃ b1 b2, analysis F a = some b1 ∧ analysis F b = some b2 ∧ bs = b1 ++ b2
  | [], b, bs, h => ⟨[], bs, rfl, h, rfl⟩
  | .use id name region :: a, b, bs, h => by
    simp only [List.cons_append, analysis, Option.map_eq_some_iff] at h
    obtain ⟨cs, h1, h2⟩ := h
    obtain ⟨b1, b2, e1, e2, e3⟩ := analysis_append F a b cs h1
    refine ⟨_ :: b1, b2, by simp only [analysis, e1, Option.map_some]; rfl, e2, ?_⟩
    rw [← h2, e3]; rfl
  | .defined none :: a, b, bs, h => by cases h
  | .defined (some v) :: a, b, bs, h => by
    simp only [List.cons_append, analysis] at h
    obtain ⟨b1, b2, e1, e2, e3⟩ := analysis_append F a b bs h
    exact ⟨b1, b2, by simp only [analysis, e1], e2, e3⟩

theorem analysis_alive (F : List Region) : ∀ (a b : List Item), (analysis F a).isSome → (analysis F b).isSome →
    (analysis F (a ++ b)).isSome
  | [], _, _, h => h
  | .use id name region :: a, b, h1, h2 => by
    simp only [analysis, Option.isSome_map, List.cons_append] at h1 ⊢
    exact analysis_alive F a b h1 h2
  | .defined none :: a, b, h1, h2 => by cases h1
  | .defined (some v) :: a, b, h1, h2 => by
    simp only [analysis, List.cons_append] at h1 ⊢
    exact analysis_alive F a b h1 h2

/-- What a part of the walk did: it declared `decl` in the current region, delayed names that mean `uses`, and reported nothing
exactly when `tidy` holds and `decl` fits in. -/
structure Res (s s' : State) (decl : List (Nat × Variable)) (uses : Env → List (Nat × Option Variable)) (tidy : Prop) :
    Prop where
  cur : s'.current = s.current
  len : s.regions.length ≤ s'.regions.length
  wf : WF s.regions → WF s'.regions
  other : ∀ i, i < s.regions.length → some i ≠ s.current → s'.regions[i]? = s.regions[i]?
  own : ∀ c r, s.current = some c → s.regions[c]? = some r →
    s'.regions[c]? = some { r with variables := keep r.variables decl }
  logs : ∃ l ds, s'.log = s.log ++ l ∧ (l = [] ↔ tidy ∧ rejects (varsAt s) decl = []) ∧
    s'.delayed = s.delayed ++ ds ∧ (l = [] → ∀ F, (analysis F ds).isSome) ∧
    ∀ F env, WF F → s'.regions.length ≤ F.length →
      (∀ i, s.regions.length ≤ i → i < s'.regions.length → F[i]? = s'.regions[i]?) →
      Sees F s.current env → ∀ bs, analysis F ds = some bs → bs = uses env

/-- The current region exists and holds the kinds. -/
def Pre (s : State) (kinds : List Kind) : Prop :=
  WF s.regions ∧ ∃ c r, s.current = some c ∧ s.regions[c]? = some r ∧ ∀ k ∈ kinds, k ∈ r.mask

theorem Res.pre {s s' : State} {decl : List (Nat × Variable)} {uses : Env → List (Nat × Option Variable)} {tidy : Prop}
    (h : Res s s' decl uses tidy) {kinds : List Kind} (hp : Pre s kinds) : Pre s' kinds := by
  obtain ⟨h1, c, r, h2, h3, h4⟩ := hp
  exact ⟨h.wf h1, c, _, by rw [h.cur, h2], h.own c r h2 h3, h4⟩

theorem Res.varsAt {s s' : State} {decl : List (Nat × Variable)} {uses : Env → List (Nat × Option Variable)} {tidy : Prop}
    (h : Res s s' decl uses tidy) {kinds : List Kind} (hp : Pre s kinds) :
    Scope.varsAt s' = keep (Scope.varsAt s) decl := by
  obtain ⟨h1, c, r, h2, h3, h4⟩ := hp
  simp only [Scope.varsAt, h.cur, h2, h3, h.own c r h2 h3]

theorem Res.refl (s : State) : Res s s [] (fun _ => []) True where
  cur := rfl
  len := Nat.le_refl _
  wf := id
  other := fun _ _ _ => rfl
  own := fun c r _ h => h
  logs := ⟨[], [], by simp, by simp [rejects], by simp, fun _ _ => rfl, fun F env _ _ _ _ bs h => by
    simp only [analysis, Option.some.injEq] at h; exact h.symm⟩

theorem Res.seq {s s1 s2 : State} {d1 d2 : List (Nat × Variable)} {u1 u2 : Env → List (Nat × Option Variable)}
    {t1 t2 : Prop} (hp : (∃ ks, Pre s ks) ∨ s.current = none ∧ d1 = [] ∧ d2 = []) (h1 : Res s s1 d1 u1 t1)
    (h2 : Res s1 s2 d2 u2 t2) :
    Res s s2 (d1 ++ d2) (fun e => u1 e ++ u2 e) (t1 ∧ t2) where
  cur := by rw [h2.cur, h1.cur]
  len := Nat.le_trans h1.len h2.len
  wf := fun h => h2.wf (h1.wf h)
  other := fun i hi hc => by
    have := h1.len
    rw [h2.other i (by omega) (by rw [h1.cur]; exact hc), h1.other i hi hc]
  own := fun c r hc hr => by
    rw [h2.own c _ (by rw [h1.cur]; exact hc) (h1.own c r hc hr), keep_append]
  logs := by
    obtain ⟨l1, x1, e1, a1, b1, f1, g1⟩ := h1.logs
    obtain ⟨l2, x2, e2, a2, b2, f2, g2⟩ := h2.logs
    have hv : rejects (Scope.varsAt s1) d2 = rejects (keep (Scope.varsAt s) d1) d2 := by
      rcases hp with ⟨ks, hp⟩ | ⟨hc, hd1, hd2⟩
      · rw [h1.varsAt hp]
      · subst hd1; subst hd2; rfl
    refine ⟨l1 ++ l2, x1 ++ x2, by rw [e2, e1, List.append_assoc], ?_, by rw [b2, b1, List.append_assoc], ?_, ?_⟩
    · rw [List.append_eq_nil_iff, a1, a2, rejects_append, hv, List.append_eq_nil_iff]
      constructor
      · rintro ⟨⟨p, q⟩, r, t⟩; exact ⟨⟨p, r⟩, q, t⟩
      · rintro ⟨⟨p, r⟩, q, t⟩; exact ⟨⟨p, q⟩, r, t⟩
    · intro h F
      rw [List.append_eq_nil_iff] at h
      exact analysis_alive F _ _ (f1 h.1 F) (f2 h.2 F)
    · intro F env hF hlen hagree hs bs hb
      obtain ⟨c1, c2, y1, y2, y3⟩ := analysis_append F _ _ _ hb
      have l1' := h1.len
      have l2' := h2.len
      rw [y3, g2 F env hF hlen (fun i i1 i2 => hagree i (by omega) i2) (by rw [h1.cur]; exact hs) c2 y2]
      rw [g1 F env hF (by omega) ?_ hs c1 y1]
      intro i i1 i2
      have hne : some i ≠ s1.current := by
        rw [h1.cur]
        rcases hp with ⟨ks, _, c, r, p2, p3, _⟩ | ⟨hc, _, _⟩
        · rw [p2]
          have := (List.getElem?_eq_some_iff.1 p3).1
          intro e
          simp only [Option.some.injEq] at e
          omega
        · rw [hc]; simp
      rw [hagree i i1 (by omega), h2.other i i2 hne]

theorem Res.weaken {s s' : State} {d d' : List (Nat × Variable)} {u u' : Env → List (Nat × Option Variable)} {t t' : Prop}
    (h : Res s s' d u t) (hd : d = d') (hu : u = u') (ht : t ↔ t') : Res s s' d' u' t' := by
  have := propext ht
  subst this; subst hd; subst hu; exact h

theorem Res.delay_use (s : State) (id name : Nat) :
    Res s (s.delay (.use id name s.current)) [] (fun e => [(id, e.find name)]) True where
  cur := rfl
  len := Nat.le_refl _
  wf := fun h => h
  other := fun _ _ _ => rfl
  own := fun c r _ h => h
  logs := ⟨[], [.use id name s.current], by simp [State.delay], by simp [rejects], rfl, fun _ _ => rfl,
    fun F env _ _ _ hs bs h => by
      simp only [analysis, Option.map_some, Option.some.injEq] at h
      rw [← h, hs name]⟩

theorem Res.names : ∀ (xs : List (Nat × Nat)) (s : State), (∃ ks, Pre s ks) →
    Res s (State.names xs s) [] (fun e => findAll e xs) True
  | [], s, _ => Res.refl s
  | x :: xs, s, hp => by
    have h1 := Res.delay_use s x.1 x.2
    have hp' : ∃ ks, Pre (s.delay (.use x.1 x.2 s.current)) ks := hp.elim fun ks h => ⟨ks, h1.pre h⟩
    exact (Res.seq (.inl hp) h1 (Res.names xs _ hp')).weaken rfl (by funext e; rfl) (by simp)

theorem set_other {α : Type} (xs : List α) (i j : Nat) (x : α) (h : j ≠ i) : (xs.set i x)[j]? = xs[j]? := by
  rw [List.getElem?_set_ne (fun e => h e.symm)]

/-- A definition, and what is delayed because of it. -/
theorem Res.define {s : State} {name : Nat} {v : Variable} (hp : Pre s [v.kind]) :
    ∃ s' o, s.define name v = some (s', o) ∧ Res s s' [(name, v)] (fun _ => []) True ∧
      ∀ (b : Bool), Res s (if b then s'.delay (.defined o) else s') [(name, v)] (fun _ => []) True := by
  obtain ⟨hw, c, r, hc, hr, hm⟩ := hp
  have hm' : r.mask.contains v.kind = true := by
    rw [List.contains_iff_mem]; exact hm _ (List.mem_singleton.2 rfl)
  have hlt := (List.getElem?_eq_some_iff.1 hr).1
  obtain ⟨regs, cur, del, lg⟩ := s
  simp only at hc hr hw hlt
  subst hc
  have hv : Scope.varsAt ⟨regs, some c, del, lg⟩ = r.variables := by simp only [Scope.varsAt, hr]
  have hdup : duplicate r name v.kind = dup r.variables (name, v) := rfl
  simp only [State.define, hr, hm', Bool.not_true, Bool.false_eq_true, if_false, hdup]
  cases hd : dup r.variables (name, v)
  · simp only [Bool.false_eq_true, if_false]
    refine ⟨_, _, rfl, ?_⟩
    suffices H : ∀ (b : Bool), Res ⟨regs, some c, del, lg⟩ (if b then (⟨regs.set c { r with variables := r.variables ++ [(name, v)] }, some c, del, lg⟩ : State).delay (.defined (some v)) else (⟨regs.set c { r with variables := r.variables ++ [(name, v)] }, some c, del, lg⟩ : State)) [(name, v)] (fun _ => []) True from ⟨by simpa using H false, H⟩
    intro b
    have hregs : (if b then (⟨regs.set c { r with variables := r.variables ++ [(name, v)] }, some c, del, lg⟩ : State).delay (.defined (some v)) else (⟨regs.set c { r with variables := r.variables ++ [(name, v)] }, some c, del, lg⟩ : State)).regions = regs.set c { r with variables := r.variables ++ [(name, v)] } := by
      cases b <;> rfl
    refine ⟨by cases b <;> simp [State.delay], by rw [hregs]; simp, ?_, ?_, ?_, ?_⟩
    · intro _
      rw [hregs]
      intro i q hq p hpv
      by_cases hi : i = c
      · subst hi
        rw [List.getElem?_set_self hlt] at hq
        simp only [Option.some.injEq] at hq
        subst hq
        exact hw i r hr p hpv
      · rw [set_other _ _ _ _ hi] at hq
        exact hw i q hq p hpv
    · intro i hi hne
      rw [hregs]
      exact set_other _ _ _ _ (fun e => hne (by simp only [e]))
    · intro c' r' hc' hr'
      simp only [Option.some.injEq] at hc'
      subst hc'
      rw [hr] at hr'
      simp only [Option.some.injEq] at hr'
      subst hr'
      rw [hregs, List.getElem?_set_self hlt]
      simp [keep, hd]
    · refine ⟨[], if b then [.defined (some v)] else [], by cases b <;> simp [State.delay], ?_, by cases b <;> simp [State.delay],
        by intro _ F; cases b <;> rfl, ?_⟩
      · simp [rejects, hv, hd]
      · intro F env _ _ _ _ bs h
        cases b <;> simp [analysis] at h <;> first | exact h | exact h.symm
  · simp only [if_true]
    refine ⟨_, _, rfl, ?_⟩
    suffices H : ∀ (b : Bool), Res ⟨regs, some c, del, lg⟩ (if b then (⟨regs, some c, del, lg ++ [v.id]⟩ : State).delay (.defined none) else (⟨regs, some c, del, lg ++ [v.id]⟩ : State)) [(name, v)] (fun _ => []) True from ⟨by simpa using H false, H⟩
    intro b
    have hregs : (if b then (⟨regs, some c, del, lg ++ [v.id]⟩ : State).delay (.defined none) else (⟨regs, some c, del, lg ++ [v.id]⟩ : State)).regions = regs := by
      cases b <;> rfl
    refine ⟨by cases b <;> simp [State.delay], by rw [hregs]; exact Nat.le_refl _, by rw [hregs]; exact fun h => h, ?_, ?_, ?_⟩
    · intro i _ _
      rw [hregs]
    · intro c' r' hc' hr'
      simp only [Option.some.injEq] at hc'
      subst hc'
      rw [hr] at hr'
      simp only [Option.some.injEq] at hr'
      subst hr'
      rw [hregs, hr]
      simp [keep, hd]
    · refine ⟨[v.id], if b then [.defined none] else [], by cases b <;> simp [State.delay], ?_, by cases b <;> simp [State.delay],
        (by intro h; cases h), ?_⟩
      · simp [rejects, hv, hd]
      · intro F env _ _ _ _ bs h
        cases b <;> simp [analysis] at h <;> first | exact h | exact h.symm

theorem pre_push (s : State) (mask : List Kind) (hw : WF s.regions)
    (hc : ∀ c, s.current = some c → c < s.regions.length) : Pre (s.push mask) mask := by
  refine ⟨?_, s.regions.length, ⟨s.current, mask, []⟩, rfl, by simp [State.push], fun k h => h⟩
  intro i r hr p hpv
  simp only [State.push] at hr
  by_cases hi : i < s.regions.length
  · rw [List.getElem?_append_left hi] at hr
    exact hw i r hr p hpv
  · rw [List.getElem?_append_right (by omega)] at hr
    have hi2 : i - s.regions.length = 0 := by
      have := (List.getElem?_eq_some_iff.1 hr).1
      simp at this; omega
    rw [hi2] at hr
    simp only [List.getElem?_cons_zero, Option.some.injEq] at hr
    subst hr
    have := hc p hpv
    omega

/-- What is done in a new region. -/
theorem Res.scope {s s' : State} {mask : List Kind} {decl : List (Nat × Variable)}
    {uses : Env → List (Nat × Option Variable)} {tidy : Prop} (hw : WF s.regions)
    (hc : ∀ c, s.current = some c → c < s.regions.length) (h : Res (s.push mask) s' decl uses tidy) :
    Res s (s'.pop s.current) [] (fun env => uses (decl :: env)) (Clean decl ∧ tidy) where
  cur := rfl
  len := by
    have := h.len
    simp only [State.push, State.pop, List.length_append, List.length_cons, List.length_nil] at this ⊢
    omega
  wf := fun _ => h.wf (pre_push s mask hw hc).1
  other := fun i hi hne => by
    simp only [State.pop]
    rw [h.other i (by simp [State.push]; omega) (by simp [State.push]; omega)]
    simp only [State.push]
    exact List.getElem?_append_left hi
  own := fun c r hcur hr => by
    have hlt := hc c hcur
    simp only [State.pop, keep]
    rw [h.other c (by simp [State.push]; omega) (by simp [State.push]; omega)]
    simp only [State.push]
    rw [List.getElem?_append_left hlt, hr]
  logs := by
    obtain ⟨l, ds, e1, e2, e3, e4, e5⟩ := h.logs
    have hv : Scope.varsAt (s.push mask) = [] := by simp [Scope.varsAt, State.push]
    refine ⟨l, ds, e1, ?_, e3, e4, ?_⟩
    · rw [e2, hv, rejects_nil decl [] List.Pairwise.nil, List.nil_append]
      simp only [rejects, and_true]
      exact And.comm
    · intro F env hF hlen hagree hs bs hb
      have hl := h.len
      simp only [State.push, List.length_append, List.length_cons, List.length_nil] at hl
      simp only [State.pop] at hlen hagree
      have hown := h.own s.regions.length ⟨s.current, mask, []⟩ rfl (by simp [State.push])
      refine e5 F (decl :: env) hF hlen (fun i i1 i2 => hagree i (by simp [State.push] at i1; omega) i2) ?_ bs hb
      refine sees_region hF (k := s.regions.length) (by rw [hagree _ (Nat.le_refl _) (by omega), hown]) hs ?_
      intro n
      simp only
      rw [lookup_keep]; rfl

/-! ## Statements and members -/

theorem pre_current {s : State} {ks : List Kind} (hp : Pre s ks) : ∀ c, s.current = some c → c < s.regions.length := by
  obtain ⟨_, c, r, h1, h2, _⟩ := hp
  intro c' h
  rw [h1] at h
  simp only [Option.some.injEq] at h
  subst h
  exact (List.getElem?_eq_some_iff.1 h2).1

theorem pre_mono {s : State} {ks ks' : List Kind} (hp : Pre s ks) (h : ∀ k ∈ ks', k ∈ ks) : Pre s ks' := by
  obtain ⟨h1, c, r, h2, h3, h4⟩ := hp
  exact ⟨h1, c, r, h2, h3, fun k hk => h4 k (h k hk)⟩

theorem Stmt.res : ∀ (st : Stmt) (s : State), Pre s [.local_] →
    ∃ s', st.walk s = some s' ∧ Res s s' st.declares st.uses st.Tidy
  | .skip, s, _ => ⟨s, rfl, Res.refl s⟩
  | .seq a b, s, hp => by
    obtain ⟨s1, h1, r1⟩ := a.res s hp
    obtain ⟨s2, h2, r2⟩ := b.res s1 (r1.pre hp)
    exact ⟨s2, by simp only [Stmt.walk, h1, Option.bind_some, h2], Res.seq (.inl ⟨_, hp⟩) r1 r2⟩
  | .exp id name, s, _ => ⟨_, rfl, Res.delay_use s id name⟩
  | .define id name init, s, hp => by
    have r1 := Res.names init s ⟨_, hp⟩
    obtain ⟨s2, o, h2, _, r2⟩ := Res.define (name := name) (v := ⟨.local_, id⟩) (r1.pre hp)
    refine ⟨s2.delay (.defined o), by simp only [Stmt.walk, h2, Option.map_some], ?_⟩
    refine (Res.seq (.inl ⟨_, hp⟩) r1 (r2 true)).weaken rfl ?_ ?_
    · funext e; simp [Stmt.uses]
    · simp [Stmt.Tidy]
  | .block body, s, hp => by
    obtain ⟨s1, h1, r1⟩ := body.res (s.push blockMask) (pre_push s blockMask hp.1 (pre_current hp))
    exact ⟨s1.pop s.current, by simp only [Stmt.walk, h1, Option.map_some], Res.scope hp.1 (pre_current hp) r1⟩
  | .for_ d body, s, hp => by
    cases d
    · obtain ⟨s1, h1, r1⟩ := body.res s hp
      refine ⟨s1, by simp [Stmt.walk, h1], r1.weaken (by simp [Stmt.declares]) ?_ ?_⟩
      · funext e; simp [Stmt.uses]
      · simp [Stmt.Tidy]
    · obtain ⟨s1, h1, r1⟩ := body.res (s.push blockMask) (pre_push s blockMask hp.1 (pre_current hp))
      refine ⟨s1.pop s.current, by simp only [Stmt.walk, h1, Option.map_some, if_true], ?_⟩
      refine (Res.scope hp.1 (pre_current hp) r1).weaken (by simp [Stmt.declares]) ?_ ?_
      · funext e; simp [Stmt.uses]
      · simp [Stmt.Tidy]
  | .catch_ id name body, s, hp => by
    have hp1 := pre_push s blockMask hp.1 (pre_current hp)
    obtain ⟨s2, o, h2, r2, _⟩ := Res.define (name := name) (v := ⟨.local_, id⟩) hp1
    obtain ⟨s1, h1, r1⟩ := body.res s2 (r2.pre hp1)
    refine ⟨s1.pop s.current, by simp only [Stmt.walk, h2, Option.bind_some, h1, Option.map_some], ?_⟩
    refine (Res.scope hp.1 (pre_current hp) (Res.seq (.inl ⟨_, hp1⟩) r2 r1)).weaken rfl ?_ ?_
    · funext e; simp [Stmt.uses]
    · simp [Stmt.Tidy]

theorem params_res : ∀ (ps : List (Nat × Nat)) (s : State), Pre s [.param] →
    ∃ s', defineParams ps s = some s' ∧ Res s s' (paramDecls ps) (fun _ => []) True
  | [], s, _ => ⟨s, rfl, Res.refl s⟩
  | p :: ps, s, hp => by
    obtain ⟨s1, o, h1, r1, _⟩ := Res.define (name := p.2) (v := ⟨.param, p.1⟩) hp
    obtain ⟨s2, h2, r2⟩ := params_res ps s1 (r1.pre hp)
    refine ⟨s2, by simp only [defineParams, h1, Option.bind_some, h2], ?_⟩
    exact (Res.seq (.inl ⟨_, hp⟩) r1 r2).weaken rfl (by funext e; rfl) (by simp)

theorem Member.res : ∀ (m : Member) (s : State), Pre s typeMask →
    ∃ s', m.walk s = some s' ∧ Res s s' m.declares m.uses m.Tidy
  | .none, s, _ => ⟨s, rfl, Res.refl s⟩
  | .seq a b, s, hp => by
    obtain ⟨s1, h1, r1⟩ := a.res s hp
    obtain ⟨s2, h2, r2⟩ := b.res s1 (r1.pre hp)
    exact ⟨s2, by simp only [Member.walk, h1, Option.bind_some, h2], Res.seq (.inl ⟨_, hp⟩) r1 r2⟩
  | .field id name init, s, hp => by
    have r1 := Res.names init s ⟨_, hp⟩
    obtain ⟨s2, o, h2, r2, _⟩ := Res.define (name := name) (v := ⟨.field, id⟩)
      (pre_mono (r1.pre hp) (by simp [typeMask]))
    refine ⟨s2, by simp only [Member.walk, h2, Option.map_some], ?_⟩
    refine (Res.seq (.inl ⟨_, hp⟩) r1 r2).weaken rfl ?_ ?_
    · funext e; simp [Member.uses]
    · simp [Member.Tidy]
  | .property id name accessors, s, hp => by
    obtain ⟨s2, o, h2, r2, _⟩ := Res.define (s := s) (name := name) (v := ⟨.property, id⟩)
      (pre_mono hp (by simp [typeMask]))
    obtain ⟨s1, h1, r1⟩ := accessors.res s2 (r2.pre hp)
    refine ⟨s1, by simp only [Member.walk, h2, Option.bind_some, h1], ?_⟩
    refine (Res.seq (.inl ⟨_, hp⟩) r2 r1).weaken rfl ?_ ?_
    · funext e; simp [Member.uses]
    · simp [Member.Tidy]
  | .method normal id name params body, s, hp => by
    have hp1 := pre_push s methodMask hp.1 (pre_current hp)
    obtain ⟨s1, h1, r1⟩ := body.res _ (pre_mono hp1 (by simp [methodMask]))
    obtain ⟨s2, h2, r2⟩ := params_res params s1 (pre_mono (r1.pre hp1) (by simp [methodMask]))
    have r3 := Res.scope hp.1 (pre_current hp) (Res.seq (.inl ⟨_, hp1⟩) r1 r2)
    cases normal
    · refine ⟨s2.pop s.current, by simp [Member.walk, h1, h2], ?_⟩
      refine r3.weaken (by simp [Member.declares]) ?_ ?_
      · funext e; simp [Member.uses]
      · simp [Member.Tidy]
    · obtain ⟨s4, o, h4, r4, _⟩ := Res.define (name := name) (v := ⟨.method, id⟩)
        (pre_mono (r3.pre hp) (by simp [typeMask]))
      refine ⟨s4, by simp [Member.walk, h1, h2, h4], ?_⟩
      refine (Res.seq (.inl ⟨_, hp⟩) r3 r4).weaken (by simp [Member.declares]) ?_ ?_
      · funext e; simp [Member.uses]
      · simp [Member.Tidy]
  | .type base members, s, hp => by
    obtain ⟨s1, h1, r1⟩ := members.res (s.push typeMask) (pre_push s typeMask hp.1 (pre_current hp))
    exact ⟨s1.pop s.current, by simp only [Member.walk, h1, Option.map_some], Res.scope hp.1 (pre_current hp) r1⟩

theorem types_res : ∀ (p : Program) (s : State), WF s.regions → s.current = none →
    ∃ s', walkTypes p s = some s' ∧ Res s s' [] (fun e => p.flatMap fun t => (Member.type t.1 t.2).uses e) p.Tidy
  | [], s, _, _ => ⟨s, rfl, (Res.refl s).weaken rfl rfl (by simp [Program.Tidy])⟩
  | t :: ts, s, hw, hc => by
    have hc' : ∀ c, s.current = some c → c < s.regions.length := by rw [hc]; intro c h; cases h
    obtain ⟨s1, h1, r1⟩ := t.2.res (s.push typeMask) (pre_push s typeMask hw hc')
    have r2 := Res.scope hw hc' r1
    obtain ⟨s3, h3, r3⟩ := types_res ts (s1.pop s.current) (r2.wf hw) (by rw [r2.cur, hc])
    refine ⟨s3, by simp only [walkTypes, Member.walk, h1, Option.map_some, Option.bind_some, h3], ?_⟩
    refine (Res.seq (.inr ⟨hc, rfl, rfl⟩) r2 r3).weaken rfl ?_ ?_
    · funext e; rfl
    · simp [Program.Tidy, Member.Tidy]

/-- The whole walk. -/
theorem compile_spec (p : Program) : ∃ log res, compile p = some (log, res) ∧ (log = [] ↔ p.Tidy) ∧
    (log = [] → res.isSome) ∧ (∀ bs, res = some bs → bs = p.uses) := by
  have hw : WF State.start.regions := by intro i r h; simp [State.start] at h
  obtain ⟨s, h, r⟩ := types_res p State.start hw rfl
  obtain ⟨l, ds, e1, e2, e3, e4, e5⟩ := r.logs
  have e1' : s.log = l := by simpa [State.start] using e1
  have e3' : s.delayed = ds := by simpa [State.start] using e3
  refine ⟨s.log, analysis s.regions s.delayed, by simp only [compile, h, Option.map_some], ?_, ?_, ?_⟩
  · rw [e1', e2]; simp [rejects]
  · rw [e1', e3']; exact fun h => e4 h _
  · intro bs hb
    rw [e3'] at hb
    refine e5 s.regions [] (r.wf hw) (Nat.le_refl _) (fun _ _ _ => rfl) ?_ bs hb
    intro name
    simp only [State.start, Env.find, List.flatten_nil, List.lookup_nil]
    cases s.regions.length <;> rfl

/-! ## Names that only reach back -/

theorem find_cons (b : List (Nat × Variable)) (e : Env) (n : Nat) :
    Env.find (b :: e) n = match b.lookup n with | some v => some v | none => Env.find e n := by
  simp only [Env.find, List.flatten_cons, lookup_append]

theorem lookup_not_mem {n : Nat} {vs : List (Nat × Variable)} (h : n ∉ vs.map (·.1)) : vs.lookup n = none :=
  lookup_none.2 fun x hx e => h (e ▸ List.mem_map_of_mem hx)

theorem lookup_back {n : Nat} {D P L : List (Nat × Variable)} (h : D.lookup n = (P ++ L).lookup n)
    (hn : n ∉ L.map (·.1)) : D.lookup n = P.lookup n := by
  rw [h, lookup_append, lookup_not_mem hn]
  cases P.lookup n <;> rfl

theorem find_back {n : Nat} {D P L : List (Nat × Variable)} {E E' : Env} {lo : List Nat}
    (h : D.lookup n = (P ++ L).lookup n) (he : ∀ n, n ∉ lo → E.find n = E'.find n) (hn : n ∉ L.map (·.1) ++ lo) :
    Env.find (D :: E) n = Env.find (P :: E') n := by
  rw [List.mem_append, not_or] at hn
  rw [find_cons, find_cons, lookup_back h hn.1, he n hn.2]

theorem lexical_eq : ∀ (st : Stmt) (P L D : List (Nat × Variable)) (E E' : Env) (lo : List Nat),
    st.backward (L.map (·.1) ++ lo) = true → (∀ n, n ∉ lo → E.find n = E'.find n) →
    (∀ n, D.lookup n = (P ++ (st.declares ++ L)).lookup n) →
    st.lexical (P :: E') = (st.uses (D :: E), (P ++ st.declares) :: E')
  | .skip, P, L, D, E, E', lo, _, _, _ => by simp [Stmt.lexical, Stmt.uses, Stmt.declares]
  | .seq a b, P, L, D, E, E', lo, hb, he, hd => by
    simp only [Stmt.backward, Bool.and_eq_true, ← List.append_assoc, ← List.map_append] at hb
    have h1 := lexical_eq a P (b.declares ++ L) D E E' lo hb.1 he
      (fun n => by rw [hd n]; simp only [Stmt.declares, List.append_assoc])
    have h2 := lexical_eq b (P ++ a.declares) L D E E' lo hb.2 he
      (fun n => by rw [hd n]; simp only [Stmt.declares, List.append_assoc])
    simp only [Stmt.lexical, h1, h2, Stmt.uses, Stmt.declares, List.append_assoc]
  | .exp id name, P, L, D, E, E', lo, hb, he, hd => by
    simp only [Stmt.backward, Bool.not_eq_true', ← Bool.not_eq_true, List.contains_iff_mem] at hb
    simp only [Stmt.lexical, Stmt.uses, Stmt.declares, List.append_nil]
    rw [find_back (hd name) he hb]
  | .define id name init, P, L, D, E, E', lo, hb, he, hd => by
    simp only [Stmt.backward, List.all_eq_true, Bool.not_eq_true', ← Bool.not_eq_true, List.contains_iff_mem] at hb
    simp only [Stmt.lexical, Stmt.uses, Stmt.declares, findAll, Prod.mk.injEq, and_true]
    refine List.map_congr_left fun x hx => ?_
    rw [find_back (hd x.2) he (by simpa [Stmt.declares] using hb x hx)]
  | .block body, P, L, D, E, E', lo, hb, he, hd => by
    have h1 := lexical_eq body [] [] body.declares (D :: E) (P :: E') (L.map (·.1) ++ lo) (by simpa [Stmt.backward] using hb)
      (fun n hn => find_back (by simpa [Stmt.declares] using hd n) he hn) (fun n => by simp)
    simp only [Stmt.lexical, h1, Stmt.uses, Stmt.declares, List.append_nil]
  | .for_ d body, P, L, D, E, E', lo, hb, he, hd => by
    cases d
    · have h1 := lexical_eq body P L D E E' lo (by simpa [Stmt.backward] using hb) he
        (fun n => by rw [hd n]; simp [Stmt.declares])
      simp [Stmt.lexical, h1, Stmt.uses, Stmt.declares]
    · have h1 := lexical_eq body [] [] body.declares (D :: E) (P :: E') (L.map (·.1) ++ lo) (by simpa [Stmt.backward] using hb)
        (fun n hn => find_back (by simpa [Stmt.declares] using hd n) he hn) (fun n => by simp)
      simp [Stmt.lexical, h1, Stmt.uses, Stmt.declares]
  | .catch_ id name body, P, L, D, E, E', lo, hb, he, hd => by
    have h1 := lexical_eq body [(name, ⟨.local_, id⟩)] [] ((name, ⟨.local_, id⟩) :: body.declares) (D :: E) (P :: E')
      (L.map (·.1) ++ lo) (by simpa [Stmt.backward] using hb)
      (fun n hn => find_back (by simpa [Stmt.declares] using hd n) he hn) (fun n => by simp)
    simp only [Stmt.lexical, h1, Stmt.uses, Stmt.declares, List.append_nil]

theorem lookup_swap (n : Nat) {a b : List (Nat × Variable)} (h : ∀ x ∈ a, ∀ y ∈ b, x.1 ≠ y.1) :
    (a ++ b).lookup n = (b ++ a).lookup n := by
  rw [lookup_append, lookup_append]
  cases ha : a.lookup n with
  | none => cases b.lookup n <;> rfl
  | some v =>
    have : b.lookup n = none := lookup_none.2 fun y hy e => h _ (lookup_mem ha) y hy e.symm
    rw [this]

end Verif.Scope
