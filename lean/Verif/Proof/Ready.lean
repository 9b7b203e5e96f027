import Verif.Spec.Ready

namespace Verif.Ready

theorem andThen_st {I : St → Prop} {r : Bool × St} {f : St → Bool × St} (h : I r.2) (hf : r.1 = true → I (f r.2).2) :
    I (andThen r f).2 := by
  unfold andThen
  split
  · exact hf ‹_›
  · exact h

theorem andThen_ok {r : Bool × St} {f : St → Bool × St} (h : (andThen r f).1 = true) :
    r.1 = true ∧ (f r.2).1 = true ∧ andThen r f = f r.2 := by
  unfold andThen at h ⊢
  split at h
  · exact ⟨‹_›, h, by rw [if_pos ‹_›]⟩
  · exact absurd h ‹_›

theorem andThen_of {r : Bool × St} {f : St → Bool × St} (h1 : r.1 = true) (h2 : (f r.2).1 = true) : (andThen r f).1 = true := by
  rw [andThen, if_pos h1]; exact h2

theorem onBase_st {I : St → Prop} {f : Nat → St → Bool × St} (hf : ∀ b s, I s → I (f b s).2) (b : Option Nat) (s : St) (h : I s) :
    I (onBase b f s).2 := by
  cases b with
  | none => exact h
  | some b => exact hf b s h

theorem eachField_st {I : St → Prop} {f : Nat → St → Bool × St} (hf : ∀ b s, I s → I (f b s).2) (xs : List Nat) :
    ∀ s, I s → I (eachField f xs s).2 := by
  induction xs with
  | nil => exact fun s h => h
  | cons x xs ih => exact fun s h => andThen_st (hf x s h) fun _ => ih _ (hf x s h)

theorem varSize_st {I : St → Prop} {p : Prog} {f : Nat → St → Bool × St} (hf : ∀ b s, I s → I (f b s).2) (x : Nat) (s : St) (h : I s) :
    I (varSize p f x s).2 := by
  unfold varSize
  split
  · exact h
  · exact h
  · split
    · exact h
    · exact h
    · exact hf x s h
    · exact hf x s h

/-- Types whose size is ever stored. -/
def Sizable (p : Prog) (t : Nat) : Prop := ∃ x, p[t]? = some x ∧ ∀ i, x = .named i → i.form ≠ .interface

theorem getSize_st {I : St → Prop} {p : Prog} (hs : ∀ s u, I s → Sizable p u → I (setSized s u)) :
    ∀ n t s, I s → I (getSize p n t s).2 := by
  intro n
  induction n with
  | zero => exact fun _ _ h => h
  | succ n ih =>
    intro t s h
    rw [getSize]
    split
    · exact h
    · split
      · exact h
      · rename_i hx
        exact hs s t h ⟨_, hx, fun i hi => by cases hi⟩
      · rename_i i hx
        split
        · exact h
        · rename_i hf
          have hz : Sizable p t := ⟨_, hx, fun j hj => by cases hj; exact hf⟩
          split
          · exact hs s t h hz
          · have h1 := onBase_st ih i.base s h
            have h2 := eachField_st (f := varSize p (getSize p n)) (fun x s => varSize_st ih x s) i.fields _ h1
            exact andThen_st h1 fun _ => andThen_st h2 fun _ => hs _ _ h2 hz

theorem getSize_ok {p : Prog} {n t : Nat} {s : St} (h : (getSize p n t s).1 = true) : (getSize p n t s).2.sized t = true := by
  cases n with
  | zero => cases h
  | succ n =>
    rw [getSize] at h ⊢
    split at h
    · rw [if_pos ‹_›]; assumption
    · rw [if_neg ‹_›]
      split at h
      · cases h
      · simp [setSized]
      · split at h
        · cases h
        · rw [if_neg ‹_›]
          split at h
          · rw [if_pos ‹_›]; simp [setSized]
          · rw [if_neg ‹_›]
            obtain ⟨_, h2, e1⟩ := andThen_ok h
            rw [e1]
            obtain ⟨_, _, e2⟩ := andThen_ok h2
            rw [e2]
            simp [setSized]

theorem preNew_st {I : St → Prop} {p : Prog} (hs : ∀ s u, I s → Sizable p u → I (setSized s u))
    (hb : ∀ s0 s u i, I s0 → (i.generic = true → s0.sized u = false) → I s → p[u]? = some (.named i) → s.sized u = true →
      I (build p u i s).2) :
    ∀ n t s, I s → I (preNew p n t s).2 := by
  intro n
  induction n with
  | zero => exact fun _ _ h => h
  | succ n ih =>
    intro t s h
    rw [preNew]
    split
    · exact h
    · exact ih _ _ h
    · rename_i i hx
      have h1 := onBase_st ih i.base s h
      have h2 := getSize_st hs p.length t _ h1
      split
      · split
        · exact h
        · refine andThen_st h1 fun _ => andThen_st h2 fun ok => ?_
          exact hb s _ t i h (fun _ => by simp_all) h2 hx (getSize_ok ok)
      · rename_i hg
        split
        · exact h
        · refine andThen_st h1 fun _ => andThen_st h2 fun ok => ?_
          split
          · exact hb s _ t i h (fun hg' => absurd hg' hg) h2 hx (getSize_ok ok)
          · exact h2

theorem build_st {p : Prog} {t : Nat} {i : Info} {s : St} (h : s.simple = none) :
    build p t i s = if i.complete then (true, setTable s t t) else (false, s) := by
  rw [build, h]

/-- What is true of tables and sizes after every history. -/
structure Inv (p : Prog) (s : St) : Prop where
  simple : s.simple = none
  own : ∀ u o, s.table u = some o → o = u ∧ s.sized u = true ∧ ∃ i, p[u]? = some (.named i)
  interface : ∀ u i, p[u]? = some (.named i) → i.form = .interface → s.sized u = false

theorem inv_setSized {p : Prog} (s : St) (u : Nat) (h : Inv p s) (hu : Sizable p u) : Inv p (setSized s u) := by
  refine ⟨h.simple, fun v o hv => ?_, fun v i hv hi => ?_⟩
  · obtain ⟨h1, h2, h3⟩ := h.own v o hv
    exact ⟨h1, by simp [setSized, h2], h3⟩
  · obtain ⟨x, hx, hf⟩ := hu
    have : v ≠ u := by
      rintro rfl
      rw [hv] at hx
      cases hx
      exact hf i rfl hi
    simp [setSized, this, h.interface v i hv hi]

theorem inv_build {p : Prog} (s0 s : St) (u : Nat) (i : Info) (_ : Inv p s0) (_ : i.generic = true → s0.sized u = false) (h : Inv p s)
    (hu : p[u]? = some (.named i)) (hz : s.sized u = true) : Inv p (build p u i s).2 := by
  rw [build_st h.simple]
  split
  · refine ⟨h.simple, fun v o hv => ?_, h.interface⟩
    by_cases e : v = u
    · subst e
      simp [setTable] at hv
      exact ⟨hv.symm, hz, i, hu⟩
    · simp [setTable, e] at hv
      exact h.own v o hv
  · exact h

theorem inv_getSize {p : Prog} (n t : Nat) (s : St) (h : Inv p s) : Inv p (getSize p n t s).2 :=
  getSize_st inv_setSized n t s h

theorem inv_preNew {p : Prog} (n t : Nat) (s : St) (h : Inv p s) : Inv p (preNew p n t s).2 :=
  preNew_st inv_setSized inv_build n t s h

/-- What one state keeps of another. -/
structure Keeps (s s' : St) : Prop where
  sized : ∀ u, s.sized u = true → s'.sized u = true
  table : ∀ u, s.table u = some u → s'.table u = some u
  objects : s'.objects = s.objects

theorem keeps_setSized {s0 : St} (s : St) (u : Nat) (h : Keeps s0 s) : Keeps s0 (setSized s u) :=
  ⟨fun v hv => by simp [setSized, h.sized v hv], h.table, h.objects⟩

theorem keeps_getSize {p : Prog} (n t : Nat) (s : St) : Keeps s (getSize p n t s).2 :=
  getSize_st (I := Keeps s) (fun s u h _ => keeps_setSized s u h) n t s ⟨fun _ h => h, fun _ h => h, rfl⟩

theorem keeps_preNew {p : Prog} (n t : Nat) (s : St) (h : Inv p s) : Keeps s (preNew p n t s).2 := by
  have := preNew_st (p := p) (I := fun x => Inv p x ∧ Keeps s x)
    (fun x u hx hu => ⟨inv_setSized x u hx.1 hu, keeps_setSized x u hx.2⟩)
    (fun s0 x u i h0 hg hx hu hz => ⟨inv_build s0 x u i h0.1 hg hx.1 hu hz, by
      rw [build_st hx.1.simple]
      split
      · refine ⟨hx.2.sized, fun v hv => ?_, hx.2.objects⟩
        by_cases e : v = u
        · simp [setTable, e]
        · simp [setTable, e, hx.2.table v hv]
      · exact hx.2⟩) n t s ⟨h, fun _ h => h, fun _ h => h, rfl⟩
  exact this.2

/-- `pre_new` of a type with a name that ends well. -/
theorem preNew_ok {p : Prog} {n t : Nat} {s : St} {i : Info} (hi : Inv p s) (ht : p[t]? = some (.named i))
    (h : (preNew p n t s).1 = true) :
    (preNew p n t s).2.sized t = true ∧
    (i.generic = false ∨ s.sized t = false → (preNew p n t s).2.table t = some t) := by
  cases n with
  | zero => cases h
  | succ n =>
    rw [preNew, ht] at h ⊢
    dsimp only at h ⊢
    have k1 := onBase_st (fun b s h => inv_preNew (p := p) n b s h) i.base s hi
    have k2 := inv_getSize p.length t _ k1
    have kb : ∀ x, Inv p x → (build p t i x).1 = true →
        (build p t i x).2.table t = some t ∧ (build p t i x).2.sized = x.sized := by
      intro x hx hok
      rw [build_st hx.simple] at hok ⊢
      split at hok
      · rw [if_pos ‹_›]; simp [setTable]
      · cases hok
    split at h
    · rw [if_pos ‹_›]
      rename_i hg
      split at h
      · rw [if_pos ‹_›]
        rename_i hz
        exact ⟨hz, fun hh => by rcases hh with hh | hh <;> simp_all⟩
      · rw [if_neg ‹_›]
        obtain ⟨_, h2, e1⟩ := andThen_ok h
        rw [e1]
        obtain ⟨h3, h4, e2⟩ := andThen_ok h2
        rw [e2]
        obtain ⟨b1, b2⟩ := kb _ k2 h4
        exact ⟨by rw [b2]; exact getSize_ok h3, fun _ => b1⟩
    · rw [if_neg ‹_›]
      split at h
      · rw [if_pos ‹_›]
        rename_i hz
        simp only [Bool.and_eq_true] at hz
        refine ⟨hz.1, fun _ => ?_⟩
        obtain ⟨o, ho⟩ := Option.isSome_iff_exists.1 hz.2
        rw [ho, (hi.own t o ho).1]
      · rw [if_neg ‹_›]
        obtain ⟨_, h2, e1⟩ := andThen_ok h
        rw [e1]
        obtain ⟨h3, h4, e2⟩ := andThen_ok h2
        rw [e2]
        by_cases hn : (s.table t).isNone
        · rw [if_pos hn] at h4 ⊢
          obtain ⟨b1, b2⟩ := kb _ k2 h4
          exact ⟨by rw [b2]; exact getSize_ok h3, fun _ => b1⟩
        · rw [if_neg hn] at h4 ⊢
          refine ⟨getSize_ok h3, fun _ => ?_⟩
          have : s.table t = some t := by
            cases e : s.table t with
            | none => simp [e] at hn
            | some o => rw [(hi.own t o e).1]
          have q : Keeps s (onBase i.base (preNew p n) s).2 := by
            cases i.base with
            | none => exact ⟨fun _ h => h, fun _ h => h, rfl⟩
            | some b => exact keeps_preNew n b s hi
          exact (keeps_getSize p.length t _).table t (q.table t this)

/-- The objects of types that are not generic have their tables. -/
def Tabled (p : Prog) (s : St) : Prop :=
  ∀ t ∈ s.objects, ∀ i, p[t]? = some (.named i) → s.sized t = true ∧ (i.generic = false → s.table t = some t)

theorem tabled_keeps {p : Prog} {s s' : St} (h : Tabled p s) (k : Keeps s s') : Tabled p s' := by
  intro t ht i hi
  rw [k.objects] at ht
  obtain ⟨h1, h2⟩ := h t ht i hi
  exact ⟨k.sized t h1, fun hg => k.table t (h2 hg)⟩

theorem create_inv {p : Prog} {s : St} (t : Nat) (h : Inv p s ∧ Tabled p s) :
    Inv p (create p t s).2 ∧ Tabled p (create p t s).2 := by
  have hi := inv_preNew p.length t s h.1
  have hk := tabled_keeps h.2 (keeps_preNew p.length t s h.1)
  refine andThen_st (I := fun x => Inv p x ∧ Tabled p x) ⟨hi, hk⟩ fun ok => ⟨⟨hi.simple, hi.own, hi.interface⟩, ?_⟩
  intro u hu i hui
  rcases List.mem_append.1 hu with hu | hu
  · exact hk u hu i hui
  · rcases List.mem_singleton.1 hu with rfl
    obtain ⟨h1, h2⟩ := preNew_ok h.1 hui ok
    exact ⟨h1, fun hg => h2 (.inl hg)⟩

theorem step_inv {p : Prog} {s : St} (o : Op) (h : Inv p s ∧ Tabled p s) : Inv p (step p s o).2 ∧ Tabled p (step p s o).2 := by
  have hg : ∀ t s, Inv p s ∧ Tabled p s → Inv p (getSize p p.length t s).2 ∧ Tabled p (getSize p p.length t s).2 :=
    fun t s h => ⟨inv_getSize _ _ _ h.1, tabled_keeps h.2 (keeps_getSize _ _ _)⟩
  cases o with
  | field t => exact hg t s h
  | hold t => exact varSize_st hg t s h
  | new t => exact create_inv t h
  | box t => exact andThen_st (I := fun x => Inv p x ∧ Tabled p x) (hg t s h) fun _ => create_inv t (hg t s h)

theorem run_inv {p : Prog} (ops : List Op) : ∀ s, Inv p s ∧ Tabled p s → Inv p (run p s ops) ∧ Tabled p (run p s ops) := by
  induction ops with
  | nil => exact fun s h => h
  | cons o os ih => exact fun s h => ih _ (step_inv o h)

theorem inv_init {p : Prog} : Inv p {} ∧ Tabled p {} :=
  ⟨⟨rfl, fun _ _ h => (by cases h), fun _ _ _ _ => rfl⟩, fun _ h => (by cases h)⟩

theorem reach {p : Prog} (ops : List Op) : Inv p (run p {} ops) ∧ Tabled p (run p {} ops) := run_inv ops _ inv_init

theorem run_append (p : Prog) (a b : List Op) : ∀ s, run p s (a ++ b) = run p (run p s a) b := by
  induction a with
  | nil => exact fun _ => rfl
  | cons o os ih => exact fun s => ih _

/-- A property of single states that every step keeps. -/
theorem run_st {I : St → Prop} {p : Prog} (hs : ∀ s u, I s → Sizable p u → I (setSized s u))
    (hb : ∀ s0 s u i, I s0 → (i.generic = true → s0.sized u = false) → I s → p[u]? = some (.named i) → s.sized u = true →
      I (build p u i s).2)
    (ho : ∀ s t, I s → I { s with objects := s.objects ++ [t] }) (ops : List Op) :
    ∀ s, I s → I (run p s ops) := by
  have hg := getSize_st (I := I) (p := p) hs p.length
  have hc : ∀ t s, I s → I (create p t s).2 := fun t s h =>
    andThen_st (preNew_st hs hb _ _ _ h) fun _ => ho _ _ (preNew_st hs hb _ _ _ h)
  induction ops with
  | nil => exact fun s h => h
  | cons o os ih =>
    intro s h
    refine ih _ ?_
    cases o with
    | field t => exact hg t s h
    | hold t => exact varSize_st hg t s h
    | new t => exact hc t s h
    | box t => exact andThen_st (hg t s h) fun _ => hc t _ (hg t s h)

/-- Once a table is there it stays. -/
theorem table_stays {p : Prog} (t : Nat) (ops : List Op) (s : St) (hi : Inv p s) (h : s.table t = some t) :
    (run p s ops).table t = some t := by
  refine (run_st (I := fun x => Inv p x ∧ x.table t = some t) (p := p)
    (fun x u hx hu => ⟨inv_setSized x u hx.1 hu, hx.2⟩)
    (fun s0 x u i h0 hg hx hu hz => ⟨inv_build s0 x u i h0.1 hg hx.1 hu hz, ?_⟩)
    (fun x u hx => ⟨⟨hx.1.simple, hx.1.own, hx.1.interface⟩, hx.2⟩) ops s ⟨hi, h⟩).2
  rw [build_st hx.1.simple]
  split
  · by_cases e : t = u
    · simp [setTable, e]
    · simp [setTable, e, hx.2]
  · exact hx.2

/-- A generic type with a size and without a table never gets one. -/
theorem lost_stays {p : Prog} {t : Nat} {i : Info} (ht : p[t]? = some (.named i)) (hg : i.generic = true) (ops : List Op) (s : St)
    (hi : Inv p s) (hz : s.sized t = true) (h : s.table t = none) : (run p s ops).table t = none := by
  refine (run_st (I := fun x => Inv p x ∧ x.sized t = true ∧ x.table t = none) (p := p)
    (fun x u hx hu => ⟨inv_setSized x u hx.1 hu, by simp [setSized, hx.2.1], hx.2.2⟩)
    (fun s0 x u j h0 hgu hx hu hzu => ⟨inv_build s0 x u j h0.1 hgu hx.1 hu hzu, ?_⟩)
    (fun x u hx => ⟨⟨hx.1.simple, hx.1.own, hx.1.interface⟩, hx.2⟩) ops s ⟨hi, hz, h⟩).2.2
  have hne : t ≠ u := by
    rintro rfl
    rw [ht] at hu
    cases hu
    have := hgu hg
    rw [h0.2.1] at this
    cases this
  rw [build_st hx.1.simple]
  split
  · exact ⟨hx.2.1, by simp [setTable, hne, hx.2.2]⟩
  · exact hx.2

/-! ## Bases -/

theorem bases_iff {p : Prog} (hp : Ordered p) (u : Nat) :
    ∀ n t, t < n → (u ∈ bases p n t ↔ Inherits p t u) := by
  intro n
  induction n with
  | zero => exact fun t h => absurd h (Nat.not_lt_zero _)
  | succ n ih =>
    intro t ht
    rw [bases]
    constructor
    · intro h
      split at h
      · rename_i i hx
        split at h
        · cases h
        · rename_i b hb
          rcases List.mem_cons.1 h with rfl | h
          · exact .base hx hb
          · have := (hp.base t i b hx hb).1
            exact .step hx hb ((ih b (by omega)).1 h)
      · cases h
    · intro h
      cases h with
      | base hx hb =>
        rw [hx]; dsimp only; rw [hb]; exact List.mem_cons_self
      | step hx hb hr =>
        have := (hp.base _ _ _ hx hb).1
        rw [hx]; dsimp only; rw [hb]
        exact List.mem_cons_of_mem _ ((ih _ (by omega)).2 hr)

/-! ## Progress -/

theorem eachField_ok {f : Nat → St → Bool × St} (xs : List Nat) (hf : ∀ x ∈ xs, ∀ s, (f x s).1 = true) :
    ∀ s, (eachField f xs s).1 = true := by
  induction xs with
  | nil => exact fun _ => rfl
  | cons x xs ih =>
    intro s
    exact andThen_of (hf x List.mem_cons_self s) (ih (fun y hy => hf y (List.mem_cons_of_mem _ hy)) _)

theorem getSize_progress {p : Prog} (hp : Ordered p) :
    ∀ n t s, t < n → Sizable p t → (getSize p n t s).1 = true := by
  intro n
  induction n with
  | zero => exact fun t _ h => absurd h (Nat.not_lt_zero _)
  | succ n ih =>
    rintro t s ht ⟨x, hx, hf⟩
    rw [getSize]
    split
    · rfl
    · rw [hx]
      cases x with
      | array e => rfl
      | named i =>
        dsimp only
        rw [if_neg (hf i rfl)]
        split
        · rfl
        · refine andThen_of ?_ (andThen_of ?_ rfl)
          · cases hb : i.base with
            | none => rfl
            | some b =>
              obtain ⟨h1, j, h2, h3⟩ := hp.base t i b hx hb
              exact ih b s (by omega) ⟨_, h2, fun k hk => by cases hk; rw [h3]; exact fun h => by cases h⟩
          · refine eachField_ok _ (fun f hfm s => ?_) _
            obtain ⟨h1, h2⟩ := hp.field t i f hx hfm
            unfold varSize
            rw [List.getElem?_eq_getElem h1]
            cases hy : p[f] with
            | array e => rfl
            | named j =>
              have hj : p[f]? = some (.named j) := by rw [List.getElem?_eq_getElem h1, hy]
              dsimp only
              cases hform : j.form with
              | class_ => rfl
              | interface => rfl
              | struct_ =>
                have := h2 ⟨j, hj, .inl hform⟩
                exact ih f s (by omega) ⟨_, hj, fun k hk => by cases hk; rw [hform]; exact fun h => by cases h⟩
              | enum_ =>
                have := h2 ⟨j, hj, .inr hform⟩
                exact ih f s (by omega) ⟨_, hj, fun k hk => by cases hk; rw [hform]; exact fun h => by cases h⟩

theorem preNew_progress {p : Prog} (hp : Ordered p) :
    ∀ n t s i, t < n → Inv p s → Innermost p t i → i.form ≠ .interface → (preNew p n t s).1 = true := by
  intro n
  induction n with
  | zero => exact fun t _ _ h => absurd h (Nat.not_lt_zero _)
  | succ n ih =>
    intro t s i ht hi hin hf
    rw [preNew]
    cases hin with
    | array hx he =>
      rw [hx]
      have := hp.element _ _ hx
      exact ih _ s i (by omega) hi he hf
    | named hx =>
      rw [hx]
      dsimp only
      have hbase : (onBase i.base (preNew p n) s).1 = true := by
        cases hb : i.base with
        | none => rfl
        | some b =>
          obtain ⟨h1, j, h2, h3⟩ := hp.base t i b hx hb
          exact ih b s j (by omega) hi (.named h2) (by rw [h3]; exact fun h => by cases h)
      have k1 := onBase_st (fun b s h => inv_preNew (p := p) n b s h) i.base s hi
      have hlt : t < p.length := (List.getElem?_eq_some_iff.1 hx).1
      have hsz : (getSize p p.length t (onBase i.base (preNew p n) s).2).1 = true :=
        getSize_progress hp _ _ _ hlt ⟨_, hx, fun k hk => by cases hk; exact hf⟩
      have k2 := inv_getSize p.length t _ k1
      have hbd : (build p t i (getSize p p.length t (onBase i.base (preNew p n) s).2).2).1 = true := by
        rw [build_st k2.simple, if_pos (hp.complete t i hx)]
      split
      · split
        · rfl
        · exact andThen_of hbase (andThen_of hsz hbd)
      · split
        · rfl
        · refine andThen_of hbase (andThen_of hsz ?_)
          split
          · exact hbd
          · rfl

theorem preNew_interface {p : Prog} : ∀ n t s i, Inv p s → Innermost p t i → i.form = .interface → i.base = none →
    (preNew p n t s).1 = false := by
  intro n
  induction n with
  | zero => exact fun _ _ _ _ _ _ _ => rfl
  | succ n ih =>
    intro t s i hi hin hf hb
    rw [preNew]
    cases hin with
    | array hx he => rw [hx]; exact ih _ s i hi he hf hb
    | named hx =>
      rw [hx]
      dsimp only
      have hz := hi.interface t i hx hf
      rw [hz, hb]
      have hg : ∀ s : St, s.sized t = false → (getSize p p.length t s) = (false, s) := by
        intro s hs
        cases hl : p.length with
        | zero => rfl
        | succ m =>
          rw [getSize, hs, hx]
          simp [hf]
      simp [onBase, andThen, hg s hz]

end Verif.Ready
