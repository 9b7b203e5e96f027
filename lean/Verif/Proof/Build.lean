import Verif.Spec.Build
import Mathlib.Data.List.Perm.Subperm
import Mathlib.Data.List.Nodup

/-! Helper lemmas about building a solution. -/

namespace Verif.Build

open Spec

theorem nodup_length {l m : List Nat} (hl : l.Nodup) (hs : ∀ x ∈ l, x ∈ m) :
    l.length ≤ m.length :=
  (List.subperm_of_subset hl hs).length_le

theorem project_some {s : Solution} {u : Nat} {p : Proj} (h : s.project u = some p) :
    p ∈ s.projects ∧ p.name = u := by
  have h1 := List.find?_some h
  have h2 := List.mem_of_find?_eq_some h
  exact ⟨by simpa using h2, by simpa using h1⟩

theorem project_none {s : Solution} {u : Nat} (h : s.project u = none) : u ∉ names s := by
  intro hm
  obtain ⟨p, hp, hn⟩ := List.mem_map.mp hm
  have := List.find?_eq_none.mp h p (by simpa using hp)
  simp [hn] at this

/-- The imports of a project are in `a` or are assembly files. -/
def Served (s : Solution) (a : List Nat) (owner u : Nat) : Prop :=
  u ≠ owner ∧ (u ∈ a ∨ (u ∉ names s ∧ u ∈ s.refs))

/-- Every name of the list stands for a project without errors all of whose imports are
there. -/
def Good (s : Solution) (l : List Nat) : Prop :=
  ∀ a x b, l = a ++ x :: b → ∃ p ∈ s.projects, p.name = x ∧ p.faulty = false
    ∧ ∀ u ∈ p.imports, Served s a x u

theorem good_nil (s : Solution) : Good s [] := by
  intro a x b h; simp at h

theorem good_snoc {s : Solution} {l : List Nat} {x : Nat} (hl : Good s l)
    (hx : ∃ p ∈ s.projects, p.name = x ∧ p.faulty = false ∧ ∀ u ∈ p.imports, Served s l x u) :
    Good s (l ++ [x]) := by
  intro a y b h
  rcases List.eq_nil_or_concat b with rfl | ⟨b', z, rfl⟩
  · have h1 : a ++ [y] = l ++ [x] := h.symm
    obtain ⟨ha, hy⟩ := List.append_inj' h1 rfl
    simp at hy
    subst ha; subst hy
    exact hx
  · have h1 : (a ++ y :: b') ++ [z] = l ++ [x] := by
      rw [h]; simp
    obtain ⟨ha, _⟩ := List.append_inj' h1 rfl
    exact hl a y b' ha.symm

structure Inv (s : Solution) (st : State) : Prop where
  ing_nodup : st.compiling.Nodup
  ing_names : ∀ x ∈ st.compiling, x ∈ names s
  ed_nodup : st.compiled.Nodup
  ed_names : ∀ x ∈ st.compiled, x ∈ names s
  apart : ∀ x ∈ st.compiling, x ∉ st.compiled
  loaded : ∀ x ∈ st.loaded, x ∈ st.compiled ∨ (x ∉ names s ∧ x ∈ s.refs)
  good : st.errors = 0 → Good s st.compiled
  wrote : st.errors = 0 → st.written = st.compiled
  wrote_pre : st.written <+: st.compiled
  wrote_good : Good s st.written

structure Post (s : Solution) (st st' : State) : Prop where
  inv : Inv s st'
  ing : st'.compiling = st.compiling
  ed : st.compiled <+: st'.compiled
  err : st.errors ≤ st'.errors
  wr : st.written <+: st'.written

theorem Post.refl {s st} (h : Inv s st) : Post s st st :=
  ⟨h, rfl, List.prefix_refl _, Nat.le_refl _, List.prefix_refl _⟩

theorem Post.trans {s a b c} (h : Post s a b) (k : Post s b c) : Post s a c :=
  ⟨k.inv, k.ing.trans h.ing, h.ed.trans k.ed, Nat.le_trans h.err k.err, h.wr.trans k.wr⟩

/-- What compiling a project with enough depth `k` does. -/
def Does (s : Solution) (k : Nat) (C : State → Proj → Option (Outcome × State)) : Prop :=
  ∀ st p, Inv s st → p ∈ s.projects → p.name ∉ st.compiled →
    (names s).length < k + st.compiling.length →
    (C st p = some (.circular, st) ∧ p.name ∈ st.compiling)
    ∨ ∃ st', C st p = some (.found, st') ∧ p.name ∉ st.compiling ∧ Post s st st'
        ∧ p.name ∈ st'.compiled

theorem inv_error {s st} (h : Inv s st) : Inv s { st with errors := st.errors + 1 } :=
  ⟨h.ing_nodup, h.ing_names, h.ed_nodup, h.ed_names, h.apart, h.loaded,
    fun h => by simp at h, fun h => by simp at h, h.wrote_pre, h.wrote_good⟩

theorem inv_loaded {s st} (h : Inv s st) (u : Nat)
    (hu : u ∈ st.compiled ∨ (u ∉ names s ∧ u ∈ s.refs)) :
    Inv s { st with loaded := u :: st.loaded } :=
  ⟨h.ing_nodup, h.ing_names, h.ed_nodup, h.ed_names, h.apart,
    fun x hx => by
      rcases List.mem_cons.mp hx with rfl | hx
      · exact hu
      · exact h.loaded x hx,
    h.good, h.wrote, h.wrote_pre, h.wrote_good⟩

theorem load_does {s k C} (hC : Does s k C) {st} (hi : Inv s st)
    (hk : (names s).length < k + st.compiling.length) (u : Nat) :
    (∃ st', load C s st u = some (.found, st') ∧ Post s st st'
        ∧ (u ∈ st'.compiled ∨ (u ∉ names s ∧ u ∈ s.refs)))
    ∨ (load C s st u = some (.circular, st) ∧ u ∈ st.compiling)
    ∨ (load C s st u = some (.notFound, st) ∧ u ∉ names s ∧ u ∉ s.refs) := by
  unfold load
  by_cases h1 : st.loaded.contains u
  · rw [if_pos h1]
    exact .inl ⟨st, rfl, Post.refl hi, hi.loaded u (by simpa using h1)⟩
  · rw [if_neg h1]
    by_cases h2 : st.compiled.contains u
    · rw [if_pos h2]
      have hu : u ∈ st.compiled := by simpa using h2
      exact .inl ⟨_, rfl, ⟨inv_loaded hi u (.inl hu), rfl, List.prefix_refl _, Nat.le_refl _,
        List.prefix_refl _⟩, .inl hu⟩
    · rw [if_neg h2]
      have hu : u ∉ st.compiled := by simpa using h2
      cases hp : s.project u with
      | some p =>
        obtain ⟨hm, hn⟩ := project_some hp
        simp only
        rcases hC st p hi hm (by rw [hn]; exact hu) hk with ⟨h, hc⟩ | ⟨st', h, _, hpost, hc⟩
        · rw [h]
          exact .inr (.inl ⟨rfl, hn ▸ hc⟩)
        · rw [h]
          rw [hn] at hc
          refine .inl ⟨_, rfl, ⟨inv_loaded hpost.inv u (.inl hc), hpost.ing, hpost.ed, hpost.err,
            hpost.wr⟩, .inl hc⟩
      | none =>
        have hn := project_none hp
        simp only
        by_cases h3 : s.refs.contains u
        · rw [if_pos h3]
          have hr : u ∈ s.refs := by simpa using h3
          exact .inl ⟨_, rfl, ⟨inv_loaded hi u (.inr ⟨hn, hr⟩), rfl, List.prefix_refl _,
            Nat.le_refl _, List.prefix_refl _⟩, .inr ⟨hn, hr⟩⟩
        · rw [if_neg h3]
          exact .inr (.inr ⟨rfl, hn, by simpa using h3⟩)

theorem Served.mono {s : Solution} {a b : List Nat} {o u : Nat} (h : Served s a o u)
    (hab : a <+: b) : Served s b o u :=
  ⟨h.1, h.2.imp (fun hm => hab.subset hm) id⟩

theorem importOne_does {s k C} (hC : Does s k C) {st} (hi : Inv s st)
    (hk : (names s).length < k + st.compiling.length) (owner u : Nat) :
    ∃ st', importOne C s owner st u = some st' ∧ Post s st st'
      ∧ (st'.errors = 0 → Served s st'.compiled owner u) := by
  unfold importOne
  by_cases h0 : owner = u
  · rw [if_pos h0]
    exact ⟨_, rfl, ⟨inv_error hi, rfl, List.prefix_refl _, Nat.le_succ _, List.prefix_refl _⟩,
      fun h => by simp at h⟩
  · rw [if_neg h0]
    rcases load_does hC hi hk u with ⟨st', h, hp, hs⟩ | ⟨h, _⟩ | ⟨h, _⟩
    · rw [h]
      exact ⟨st', rfl, hp, fun _ => ⟨fun h => h0 h.symm, hs⟩⟩
    · rw [h]
      exact ⟨_, rfl, ⟨inv_error hi, rfl, List.prefix_refl _, Nat.le_succ _, List.prefix_refl _⟩,
        fun h => by simp at h⟩
    · rw [h]
      exact ⟨_, rfl, ⟨inv_error hi, rfl, List.prefix_refl _, Nat.le_succ _, List.prefix_refl _⟩,
        fun h => by simp at h⟩

theorem importAll_does {s k C} (hC : Does s k C) (owner : Nat) : ∀ (us : List Nat) (st : State),
    Inv s st → (names s).length < k + st.compiling.length →
    ∃ st', importAll C s owner st us = some st' ∧ Post s st st'
      ∧ (st'.errors = 0 → ∀ u ∈ us, Served s st'.compiled owner u) := by
  intro us
  induction us with
  | nil => intro st hi _; exact ⟨st, rfl, Post.refl hi, fun _ u hu => by simp at hu⟩
  | cons u us ih =>
    intro st hi hk
    obtain ⟨st1, h1, p1, s1⟩ := importOne_does hC hi hk owner u
    obtain ⟨st2, h2, p2, s2⟩ := ih st1 p1.inv (by rw [p1.ing]; exact hk)
    refine ⟨st2, ?_, p1.trans p2, ?_⟩
    · unfold importAll; rw [h1]; exact h2
    · intro h0 v hv
      rcases List.mem_cons.mp hv with rfl | hv
      · exact (s1 (by have := p2.err; omega)).mono p2.ed
      · exact s2 h0 v hv

theorem compile_does (s : Solution) : ∀ k, Does s k (compileProject s k) := by
  intro k
  induction k with
  | zero =>
    intro st p hi _ _ hk
    have := nodup_length hi.ing_nodup hi.ing_names
    omega
  | succ k ih =>
    intro st p hi hp hn hk
    rw [compileProject.eq_def]
    simp only
    by_cases hc : st.compiling.contains p.name
    · rw [if_pos hc]
      exact .inl ⟨rfl, by simpa using hc⟩
    · rw [if_neg hc]
      have hc' : p.name ∉ st.compiling := by simpa using hc
      right
      have hname : p.name ∈ names s := List.mem_map.mpr ⟨p, hp, rfl⟩
      have hi' : Inv s { st with compiling := p.name :: st.compiling } :=
        ⟨List.nodup_cons.mpr ⟨hc', hi.ing_nodup⟩,
          fun x hx => by
            rcases List.mem_cons.mp hx with rfl | hx
            · exact hname
            · exact hi.ing_names x hx,
          hi.ed_nodup, hi.ed_names,
          fun x hx => by
            rcases List.mem_cons.mp hx with rfl | hx
            · exact hn
            · exact hi.apart x hx,
          hi.loaded, hi.good, hi.wrote, hi.wrote_pre, hi.wrote_good⟩
      obtain ⟨st', h, hpost, hserved⟩ := importAll_does ih p.name p.imports _ hi'
        (by simp only [List.length_cons]; omega)
      rw [h]
      have hing : st'.compiling = p.name :: st.compiling := hpost.ing
      have hnot : p.name ∉ st'.compiled := hpost.inv.apart p.name (by rw [hing]; simp)
      refine ⟨finish p st', rfl, hc', ?_, by simp [finish]⟩
      have her : st'.compiling.erase p.name = st.compiling := by rw [hing]; simp
      have hgood : (finish p st').errors = 0 → Good s (st'.compiled ++ [p.name]) := by
        intro h0
        have hf : p.faulty = false ∧ st'.errors = 0 := by
          simp only [finish] at h0
          cases hpf : p.faulty with
          | true => rw [hpf] at h0; simp at h0
          | false => rw [hpf] at h0; exact ⟨rfl, by simpa using h0⟩
        exact good_snoc (hpost.inv.good hf.2) ⟨p, hp, rfl, hf.1, hserved hf.2⟩
      have hfin0 : (finish p st').errors = 0 → st'.errors = 0 := by
        intro h0
        simp only [finish] at h0
        split at h0 <;> omega
      refine ⟨⟨?_, ?_, ?_, ?_, ?_, ?_, ?_, ?_, ?_, ?_⟩, ?_, ?_, ?_, ?_⟩
      · simp only [finish]; rw [her]; exact hi.ing_nodup
      · simp only [finish]; rw [her]; exact hi.ing_names
      · simp only [finish]
        rw [List.nodup_append]
        refine ⟨hpost.inv.ed_nodup, by simp, ?_⟩
        intro a ha b hb
        rw [List.mem_singleton.mp hb]
        exact fun h => hnot (h ▸ ha)
      · intro x hx
        simp only [finish, List.mem_append, List.mem_singleton] at hx
        rcases hx with hx | rfl
        · exact hpost.inv.ed_names x hx
        · exact hname
      · simp only [finish]; rw [her]
        intro x hx hm
        rw [List.mem_append, List.mem_singleton] at hm
        rcases hm with hm | rfl
        · exact hpost.inv.apart x (by rw [hing]; simp [hx]) hm
        · exact hc' hx
      · intro x hx
        simp only [finish] at hx ⊢
        rcases hpost.inv.loaded x hx with h | h
        · exact .inl (by simp [h])
        · exact .inr h
      · exact hgood
      · intro h0
        have h1 := hfin0 h0
        have h2 := hpost.inv.wrote h1
        have h3 : (if p.faulty = true then st'.errors + 1 else st'.errors) = 0 := h0
        simp only [finish]
        rw [if_pos h3, h2]
      · by_cases h0 : (finish p st').errors = 0
        · have h3 : (if p.faulty = true then st'.errors + 1 else st'.errors) = 0 := h0
          simp only [finish]
          rw [if_pos h3, hpost.inv.wrote (hfin0 h0)]
          exact List.prefix_refl _
        · have h3 : ¬ (if p.faulty = true then st'.errors + 1 else st'.errors) = 0 := h0
          simp only [finish]
          rw [if_neg h3]
          exact hpost.inv.wrote_pre.trans (List.prefix_append _ _)
      · by_cases h0 : (finish p st').errors = 0
        · have h3 : (if p.faulty = true then st'.errors + 1 else st'.errors) = 0 := h0
          have hw : (finish p st').written = st'.compiled ++ [p.name] := by
            simp only [finish]
            rw [if_pos h3, hpost.inv.wrote (hfin0 h0)]
          rw [hw]; exact hgood h0
        · have h3 : ¬ (if p.faulty = true then st'.errors + 1 else st'.errors) = 0 := h0
          have hw : (finish p st').written = st'.written := by
            simp only [finish]
            rw [if_neg h3]
          rw [hw]; exact hpost.inv.wrote_good
      · exact her
      · exact hpost.ed.trans (List.prefix_append _ _)
      · have h1 := hpost.err
        simp only [finish] at h1 ⊢
        split <;> omega
      · by_cases h3 : (if p.faulty = true then st'.errors + 1 else st'.errors) = 0
        · simp only [finish]
          rw [if_pos h3]
          exact List.IsPrefix.trans hpost.wr (List.prefix_append _ _)
        · simp only [finish]
          rw [if_neg h3]
          exact hpost.wr

theorem compileAll_does (s : Solution) (fuel : Nat) (hf : (names s).length < fuel) :
    ∀ (ps : List Proj) (st : State), (∀ p ∈ ps, p ∈ s.projects) → Inv s st →
    st.compiling = [] →
    ∃ st', compileAll s fuel st ps = some st' ∧ Post s st st'
      ∧ ∀ p ∈ ps, p.name ∈ st'.compiled := by
  intro ps
  induction ps with
  | nil => intro st _ hi _; exact ⟨st, rfl, Post.refl hi, by simp⟩
  | cons p ps ih =>
    intro st hps hi he
    have hps' : ∀ q ∈ ps, q ∈ s.projects := fun q hq => hps q (by simp [hq])
    unfold compileAll
    by_cases hc : p.name ∈ st.compiled
    · rw [if_neg (by simp [hc])]
      obtain ⟨st', h, hp, hall⟩ := ih st hps' hi he
      refine ⟨st', h, hp, ?_⟩
      intro q hq
      rcases List.mem_cons.mp hq with rfl | hq
      · exact hp.ed.subset hc
      · exact hall q hq
    · rw [if_pos (by simp [hc, he])]
      rcases compile_does s fuel st p hi (hps p (by simp)) hc (by rw [he]; simpa using hf)
        with ⟨_, hm⟩ | ⟨st1, h1, _, p1, c1⟩
      · rw [he] at hm; simp at hm
      · rw [h1]
        obtain ⟨st', h, hp, hall⟩ := ih st1 hps' p1.inv (by rw [p1.ing, he])
        refine ⟨st', h, p1.trans hp, ?_⟩
        intro q hq
        rcases List.mem_cons.mp hq with rfl | hq
        · exact hp.ed.subset c1
        · exact hall q hq

def start : State := { compiling := [], compiled := [], loaded := [], errors := 0, written := [] }

theorem inv_start (s : Solution) : Inv s start :=
  ⟨by simp [start], by simp [start], by simp [start], by simp [start], by simp [start],
    by simp [start], fun _ => good_nil s, fun _ => rfl, List.prefix_refl _, good_nil s⟩

theorem build_does (s : Solution) : ∃ st, build s = some st ∧ Post s start st
    ∧ ∀ p ∈ s.projects, p.name ∈ st.compiled :=
  compileAll_does s (s.projects.length + 1) (by simp [names]) s.projects start
    (fun _ h => h) (inv_start s) rfl

/-! ## No circle, no error -/

theorem reaches_trans {s p q r} (h : Reaches s p q) (k : Uses s q r) : Reaches s p r := by
  induction h with
  | one h => exact .more h (.one k)
  | more h _ ih => exact .more h (ih k)

theorem distinct_eq {s : Solution} (hd : Distinct s) {p q : Proj} (hp : p ∈ s.projects)
    (hq : q ∈ s.projects) (h : p.name = q.name) : p = q :=
  List.inj_on_of_nodup_map hd hp hq h

/-- All projects that are being compiled need `p`. -/
def Above (s : Solution) (st : State) (p : Proj) : Prop :=
  ∀ c ∈ st.compiling, ∃ q ∈ s.projects, q.name = c ∧ Reaches s q p

def Clean (s : Solution) (k : Nat) (C : State → Proj → Option (Outcome × State)) : Prop :=
  ∀ st p, Inv s st → p ∈ s.projects → p.name ∉ st.compiled →
    (names s).length < k + st.compiling.length → st.errors = 0 → Above s st p →
    ∀ o st', C st p = some (o, st') → o = .found ∧ st'.errors = 0

theorem importAll_clean {s k C} (hC : Does s k C) (hK : Clean s k C) (hd : Distinct s)
    (hcirc : ¬ Circular s) (p : Proj) (hp : p ∈ s.projects) :
    ∀ (us : List Nat), (∀ u ∈ us, u ∈ p.imports ∧ (u ∈ names s ∨ u ∈ s.refs)) → ∀ st st',
    Inv s st → (names s).length < k + st.compiling.length → st.errors = 0 →
    (∀ c ∈ st.compiling, ∃ q ∈ s.projects, q.name = c ∧ (q = p ∨ Reaches s q p)) →
    importAll C s p.name st us = some st' → st'.errors = 0 := by
  intro us
  induction us with
  | nil => intro _ st st' _ _ h0 _ h; simp [importAll] at h; rw [← h]; exact h0
  | cons u us ih =>
    intro hus st st' hi hk h0 hab h
    unfold importAll at h
    obtain ⟨st1, h1, p1, s1⟩ := importOne_does hC hi hk p.name u
    rw [h1] at h
    simp only at h
    have hu := hus u (by simp)
    have hne : ∀ q ∈ s.projects, q.name = u → Uses s p q := by
      intro q hq hqn
      exact ⟨hp, hq, hqn ▸ hu.1⟩
    have h10 : st1.errors = 0 := by
      unfold importOne at h1
      have hself : ¬ p.name = u := by
        intro he
        exact hcirc ⟨p, .one (hne p hp he)⟩
      rw [if_neg hself] at h1
      have habove : ∀ q ∈ s.projects, q.name = u → Above s st q := by
        intro q hq hqn c hc
        obtain ⟨r, hr, hrn, hrr⟩ := hab c hc
        refine ⟨r, hr, hrn, ?_⟩
        rcases hrr with rfl | hrr
        · exact .one (hne q hq hqn)
        · exact reaches_trans hrr (hne q hq hqn)
      rcases load_does hC hi hk u with ⟨st2, hl, hpost, hs⟩ | ⟨hl, hc⟩ | ⟨hl, hn, hr⟩
      · rw [hl] at h1
        simp only [Option.some.injEq] at h1
        subst h1
        -- the load itself is clean
        unfold load at hl
        split at hl
        · simp at hl; rw [← hl]; exact h0
        · split at hl
          · simp at hl; rw [← hl]; exact h0
          · next hcomp =>
            cases hpr : s.project u with
            | none =>
              rw [hpr] at hl
              simp only at hl
              split at hl
              · simp at hl; rw [← hl]; exact h0
              · simp at hl
            | some q =>
              rw [hpr] at hl
              obtain ⟨hq, hqn⟩ := project_some hpr
              have hqc : q.name ∉ st.compiled := by rw [hqn]; simpa using hcomp
              simp only at hl
              cases hcq : C st q with
              | none => rw [hcq] at hl; simp at hl
              | some r =>
                obtain ⟨o, st3⟩ := r
                obtain ⟨ho, he⟩ := hK st q hi hq hqc hk h0 (habove q hq hqn) o st3 hcq
                subst ho
                rw [hcq] at hl
                simp at hl
                rw [← hl]; exact he
      · exfalso
        obtain ⟨q, hq, hqn⟩ := List.mem_map.mp (hi.ing_names u hc)
        obtain ⟨r, hr, hrn, hrr⟩ := habove q hq hqn u hc
        have : r = q := distinct_eq hd hr hq (hrn.trans hqn.symm)
        subst this
        exact hcirc ⟨_, hrr⟩
      · exact absurd hu.2 (by simp [hn, hr])
    exact ih (fun v hv => hus v (by simp [hv])) st1 st' p1.inv (by rw [p1.ing]; exact hk) h10
      (by rw [p1.ing]; exact hab) h

theorem compile_clean (s : Solution) (hd : Distinct s) (hcirc : ¬ Circular s)
    (hcomp : Complete s) (hsound : Sound s) : ∀ k, Clean s k (compileProject s k) := by
  intro k
  induction k with
  | zero => intro st p _ _ _ _ _ _ o st' h; simp [compileProject] at h
  | succ k ih =>
    intro st p hi hp hn hk h0 hab o st' h
    have hpc : p.name ∉ st.compiling := by
      intro hc
      obtain ⟨q, hq, hqn, hr⟩ := hab _ hc
      have : q = p := distinct_eq hd hq hp hqn
      subst this
      exact hcirc ⟨_, hr⟩
    rw [compileProject.eq_def] at h
    simp only at h
    rw [if_neg (by simpa using hpc)] at h
    have hname : p.name ∈ names s := List.mem_map.mpr ⟨p, hp, rfl⟩
    have hi' : Inv s { st with compiling := p.name :: st.compiling } :=
      ⟨List.nodup_cons.mpr ⟨hpc, hi.ing_nodup⟩,
        fun x hx => by
          rcases List.mem_cons.mp hx with rfl | hx
          · exact hname
          · exact hi.ing_names x hx,
        hi.ed_nodup, hi.ed_names,
        fun x hx => by
          rcases List.mem_cons.mp hx with rfl | hx
          · exact hn
          · exact hi.apart x hx,
        hi.loaded, hi.good, hi.wrote, hi.wrote_pre, hi.wrote_good⟩
    have hk' : (names s).length < k + (p.name :: st.compiling).length := by
      simp only [List.length_cons]; omega
    obtain ⟨st1, h1, _, _⟩ := importAll_does (compile_does s k) p.name p.imports _ hi' hk'
    have he := importAll_clean (compile_does s k) ih hd hcirc p hp p.imports
      (fun u hu => ⟨hu, hcomp p hp u hu⟩) _ st1 hi' hk' h0 (by
        intro c hc
        rcases List.mem_cons.mp hc with rfl | hc
        · exact ⟨p, hp, rfl, .inl rfl⟩
        · obtain ⟨q, hq, hqn, hr⟩ := hab c hc
          exact ⟨q, hq, hqn, .inr hr⟩) h1
    rw [h1] at h
    simp only [Option.some.injEq, Prod.mk.injEq] at h
    obtain ⟨ho, hs⟩ := h
    refine ⟨ho.symm, ?_⟩
    rw [← hs]
    simp [finish, hsound p hp, he]

theorem compileAll_clean (s : Solution) (hd : Distinct s) (hcirc : ¬ Circular s)
    (hcomp : Complete s) (hsound : Sound s) (fuel : Nat) (hf : (names s).length < fuel) :
    ∀ (ps : List Proj) (st st' : State), (∀ p ∈ ps, p ∈ s.projects) → Inv s st →
    st.compiling = [] → st.errors = 0 → compileAll s fuel st ps = some st' →
    st'.errors = 0 := by
  intro ps
  induction ps with
  | nil => intro st st' _ _ _ h0 h; simp [compileAll] at h; rw [← h]; exact h0
  | cons p ps ih =>
    intro st st' hps hi he h0 h
    have hps' : ∀ q ∈ ps, q ∈ s.projects := fun q hq => hps q (by simp [hq])
    unfold compileAll at h
    by_cases hc : p.name ∈ st.compiled
    · rw [if_neg (by simp [hc])] at h
      exact ih st st' hps' hi he h0 h
    · rw [if_pos (by simp [hc, he])] at h
      have hk : (names s).length < fuel + st.compiling.length := by rw [he]; simpa using hf
      rcases compile_does s fuel st p hi (hps p (by simp)) hc hk
        with ⟨_, hm⟩ | ⟨st1, h1, _, p1, _⟩
      · rw [he] at hm; simp at hm
      · have := (compile_clean s hd hcirc hcomp hsound fuel st p hi (hps p (by simp)) hc hk h0
          (by intro c hcc; rw [he] at hcc; simp at hcc) _ _ h1).2
        rw [h1] at h
        exact ih st1 st' hps' p1.inv (by rw [p1.ing, he]) this h

/-! ## An order without errors has no circle -/

/-- `x` stands before `y`. -/
def Before (l : List Nat) (x y : Nat) : Prop := ∃ a b, l = a ++ y :: b ∧ x ∈ a

theorem before_trans {l : List Nat} (hn : l.Nodup) {x y z : Nat} (h : Before l x y)
    (k : Before l y z) : Before l x z := by
  obtain ⟨a, b, hl, hx⟩ := h
  obtain ⟨c, d, hl', hy⟩ := k
  obtain ⟨c1, c2, rfl⟩ := List.append_of_mem hy
  refine ⟨_, d, hl', ?_⟩
  have e : a ++ y :: b = c1 ++ y :: (c2 ++ z :: d) := by rw [← hl, hl']; simp
  have hna : y ∉ a := by
    intro hm
    rw [hl, List.nodup_append] at hn
    exact hn.2.2 y hm y (by simp) rfl
  have hnc : y ∉ c1 := by
    intro hm
    rw [hl', List.append_assoc, List.nodup_append] at hn
    exact hn.2.2 y hm y (by simp) rfl
  have : a = c1 := by
    clear hl hl' hn hy hx
    induction a generalizing c1 with
    | nil =>
      cases c1 with
      | nil => rfl
      | cons w c1 => simp at e hnc; exact absurd e.1 hnc.1
    | cons w a ih =>
      cases c1 with
      | nil => simp at e hna; exact absurd e.1.symm hna.1
      | cons v c1 =>
        simp at e hna hnc
        rw [e.1, ih c1 (by simpa using e.2) hna.2 hnc.2]
  subst this
  simp [hx]

theorem before_irrefl {l : List Nat} (hn : l.Nodup) {x : Nat} (h : Before l x x) : False := by
  obtain ⟨a, b, hl, hx⟩ := h
  rw [hl, List.nodup_append] at hn
  exact hn.2.2 x hx x (by simp) rfl

theorem uses_before {s : Solution} (hd : Distinct s) {l : List Nat} (hg : Good s l)
    (hall : ∀ p ∈ s.projects, p.name ∈ l) {p q : Proj} (h : Uses s p q) :
    Before l q.name p.name := by
  obtain ⟨hp, hq, hu⟩ := h
  obtain ⟨a, b, hl⟩ := List.append_of_mem (hall p hp)
  obtain ⟨r, hr, hrn, _, hs⟩ := hg a p.name b hl
  have : r = p := distinct_eq hd hr hp hrn
  subst this
  rcases (hs q.name hu).2 with h | ⟨h, _⟩
  · exact ⟨a, b, hl, h⟩
  · exact absurd (List.mem_map.mpr ⟨q, hq, rfl⟩) h

theorem reaches_before {s : Solution} (hd : Distinct s) {l : List Nat} (hn : l.Nodup)
    (hg : Good s l) (hall : ∀ p ∈ s.projects, p.name ∈ l) {p q : Proj} (h : Reaches s p q) :
    Before l q.name p.name := by
  induction h with
  | one h => exact uses_before hd hg hall h
  | more h _ ih => exact before_trans hn ih (uses_before hd hg hall h)

end Verif.Build
