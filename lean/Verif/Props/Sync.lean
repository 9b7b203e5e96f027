import Verif.Proof.Sync

/-!
# C46: the semaphore; C47: the locks of objects
-/

namespace Verif.Sync.Props

/-! ## The semaphore -/

/-- No thread wakes up by itself; timeouts are possible. -/
def calm : Env := ⟨false, true⟩

/-- Only `notify_one` wakes threads. -/
def strict : Env := ⟨false, false⟩

/-- **C46, partial.**  For any number of threads (fewer than 2^32), any number of signals, and any order of the
steps, with timeouts: the signals held by threads and those in the semaphore are always all the signals.  So no
more are held than there are, and none is lost from the count.  Missing: threads that wake up by themselves
(`spurious_refuted`), and that a signal in the semaphore can be acquired (`lost_refuted`, `deadlock_refuted`). -/
theorem conserved_partial (max n : Nat) (e : Env) (s : Sem) (hm : max < 2 ^ 32) (hn : n < 2 ^ 32)
    (he : e.spurious = false) (h : Reach max e n s) : heldTotal s + s.signal = max :=
  (inv_reach hm hn he h).sum

/-- **C46, partial.**  The holders do not exceed the signals. -/
theorem holders_partial (max n : Nat) (e : Env) (s : Sem) (hm : max < 2 ^ 32) (hn : n < 2 ^ 32)
    (he : e.spurious = false) (h : Reach max e n s) : heldTotal s ≤ max := by
  have := conserved_partial max n e s hm hn he h; omega

/-- **C46, partial.**  When a signal is in the semaphore, no thread is inside `acquire` and `__mutex` is free, a
thread that asks for a signal gets it at once. -/
theorem acquire_partial (max n : Nat) (e : Env) (s : Sem) (hm : max < 2 ^ 32) (hn : n < 2 ^ 32)
    (he : e.spurious = false) (h : Reach max e n s) (hs : 0 < s.signal) (hidle : ∀ t ∈ s.threads, t.phase = .idle)
    (hmu : s.mutex = none) (i : Nat) (hi : i < n) :
    ∃ s', Step max e s s' ∧ heldTotal s' = heldTotal s + 1 ∧ s'.signal + 1 = s.signal := by
  have inv := inv_reach hm hn he h
  have hw : s.waiting = 0 := by
    rw [inv.waiting]
    have : ∀ l : List Thread, (∀ t ∈ l, t.phase = .idle) → tot wf l = 0 := by
      intro l
      induction l with
      | nil => intro _; rfl
      | cons a l ih =>
        intro hl
        have h1 := ih (fun t ht => hl t (List.mem_cons_of_mem _ ht))
        have h2 : wf a = 0 := by simp [wf, Waits, hl a (List.mem_cons_self ..)]
        simp only [tot, List.map_cons, List.sum_cons] at *; omega
    exact this _ hidle
  have hlt : i < s.threads.length := by rw [inv.len]; exact hi
  have ht : s.threads[i]? = some s.threads[i] := List.getElem?_eq_getElem hlt
  have hsum := inv.sum
  refine ⟨_, Step.take s i _ ht (hidle _ (List.getElem_mem hlt)) hmu (by simp [Sem.canTake, hw, hs]), ?_, ?_⟩
  · have := tot_set (·.held) s.threads i _ ⟨.idle, s.threads[i].held + 1⟩ ht
    simp only [heldTotal, tot] at *; omega
  · simp only; rw [decr_pos hs (by omega)]; omega

/-- **C46, partial.**  `release` of a signal that is held never fails: the thread no longer has it, and it is in the
semaphore. -/
theorem release_partial (max n : Nat) (e : Env) (s : Sem) (hm : max < 2 ^ 32) (hn : n < 2 ^ 32)
    (he : e.spurious = false) (h : Reach max e n s) (i : Nat) (t : Thread) (ht : s.threads[i]? = some t)
    (hidle : t.phase = .idle) (hheld : 0 < t.held) (hmu : s.mutex = none) :
    ∃ s', Step max e s s' ∧ heldTotal s' + 1 = heldTotal s ∧ s'.signal = s.signal + 1 := by
  have inv := inv_reach hm hn he h
  have hsum := inv.sum
  have h1 := tot_pos (·.held) s.threads t (List.mem_of_getElem? ht)
  have h2 := tot_set (·.held) s.threads i t ⟨.idle, t.held - 1⟩ ht
  by_cases hsl : ∃ u ∈ s.threads, u.phase = .sleeping
  · obtain ⟨u, hu, hph⟩ := hsl
    obtain ⟨j, hj⟩ := List.getElem?_of_mem hu
    have hij : i ≠ j := by
      intro hij; subst hij; rw [ht] at hj; cases hj; rw [hidle] at hph; cases hph
    have hu' : (s.threads.set i ⟨.idle, t.held - 1⟩)[j]? = some u := by
      rw [List.getElem?_set_ne hij]; exact hj
    have g1 := tot_set (·.held) _ j u ⟨.woken true, u.held⟩ hu'
    refine ⟨_, Step.notify s i j t u ht hidle hheld hmu (by omega) hj hph, ?_, rfl⟩
    simp only [heldTotal, tot] at *; omega
  · refine ⟨_, Step.release s i t ht hidle hheld hmu (by omega) (fun u hu hph => hsl ⟨u, hu, hph⟩), ?_, rfl⟩
    simp only [heldTotal, tot] at *; omega

/-- **C46, partial.**  A thread that was woken by a signal, once it has `__mutex`, has a signal: the count of the
semaphore was not zero. -/
theorem woken_partial (max n : Nat) (e : Env) (s : Sem) (hm : max < 2 ^ 32) (hn : n < 2 ^ 32)
    (he : e.spurious = false) (h : Reach max e n s) (i : Nat) (t : Thread) (ht : s.threads[i]? = some t)
    (hb : t.phase = .back true) (hmu : s.mutex = none) :
    0 < s.signal ∧ ∃ s', Step max e s s' ∧ heldTotal s' = heldTotal s + 1 ∧ s'.signal + 1 = s.signal := by
  have inv := inv_reach hm hn he h
  have hsum := inv.sum
  have h1 := tot_pos pf s.threads t (List.mem_of_getElem? ht)
  have h2 : pf t = 1 := by simp [pf, Promised, hb]
  have h3 := inv.promised
  have hpos : 0 < s.signal := by omega
  refine ⟨hpos, _, Step.finish s i t true ht hb hmu, ?_, ?_⟩
  · have := tot_set (·.held) s.threads i t ⟨.idle, t.held + 1⟩ ht
    simp only [heldTotal, tot, Bool.toNat_true] at *; omega
  · simp only [if_true]; rw [decr_pos hpos (by omega)]; omega

/-- One signal, two threads: the first has it, the second is counted as waiting, but is not in `wait` yet. -/
def ready1 : Sem := ⟨0, 1, none, some 1, [⟨.idle, 1⟩, ⟨.ready, 0⟩]⟩

theorem ready1_reach (e : Env) : Reach 1 e 2 ready1 := by
  have h0 : Reach 1 e 2 ⟨1, 0, none, none, [⟨.idle, 0⟩, ⟨.idle, 0⟩]⟩ := .init
  have h1 : Reach 1 e 2 ⟨0, 0, none, none, [⟨.idle, 1⟩, ⟨.idle, 0⟩]⟩ :=
    .step _ _ h0 (.take _ 0 ⟨.idle, 0⟩ rfl rfl rfl rfl)
  have h2 : Reach 1 e 2 ⟨0, 0, some 1, none, [⟨.idle, 1⟩, ⟨.needWait, 0⟩]⟩ :=
    .step _ _ h1 (.enter _ 1 ⟨.idle, 0⟩ rfl rfl rfl rfl)
  exact .step _ _ h2 (.lockWait _ 1 ⟨.needWait, 0⟩ rfl rfl rfl)

/-- Then it sleeps. -/
def sleeping1 : Sem := ⟨0, 1, none, none, [⟨.idle, 1⟩, ⟨.sleeping, 0⟩]⟩

theorem sleeping1_reach (e : Env) : Reach 1 e 2 sleeping1 :=
  .step _ _ (ready1_reach e) (.sleep _ 1 ⟨.ready, 0⟩ rfl rfl)

/-- Then the first releases the signal, and the second has `__wait_mutex` again. -/
def back1 : Sem := ⟨1, 1, none, some 1, [⟨.idle, 0⟩, ⟨.back true, 0⟩]⟩

theorem back1_reach (e : Env) : Reach 1 e 2 back1 := by
  have h1 : Reach 1 e 2 ⟨1, 1, none, none, [⟨.idle, 0⟩, ⟨.woken true, 0⟩]⟩ :=
    .step _ _ (sleeping1_reach e) (.notify _ 0 1 ⟨.idle, 1⟩ ⟨.sleeping, 0⟩ rfl rfl (by decide) rfl (by decide) rfl rfl)
  exact .step _ _ h1 (.relock _ 1 ⟨.woken true, 0⟩ true rfl rfl rfl)

example : ∃ s, Reach 1 calm 2 s ∧ s.threads[1]? = some ⟨.back true, 0⟩ ∧ s.mutex = none ∧ heldTotal s = 0 ∧
    s.signal = 1 := ⟨back1, back1_reach _, rfl, rfl, rfl, rfl⟩

/-- With the last step: the second thread has the signal. -/
theorem handed_over (e : Env) : Reach 1 e 2 ⟨0, 0, none, none, [⟨.idle, 0⟩, ⟨.idle, 1⟩]⟩ :=
  .step _ _ (back1_reach e) (.finish _ 1 ⟨.back true, 0⟩ true rfl rfl rfl)

example : ∃ s, Reach 1 calm 2 s ∧ (∀ t ∈ s.threads, t.phase = .idle) ∧ s.mutex = none ∧ s.signal = 0 ∧
    heldTotal s = 1 := ⟨_, handed_over _, by decide, rfl, rfl, rfl⟩

example : ∃ s, Reach 3 calm 5 s ∧ (∀ t ∈ s.threads, t.phase = .idle) ∧ s.mutex = none ∧ 0 < s.signal :=
  ⟨_, .init, by decide, rfl, by decide⟩

/-- **C46 (refuted).**  A thread that wakes up by itself takes a signal that is not there: one signal, two holders,
and a count of 4294967295. -/
theorem spurious_refuted : ∃ s, Reach 1 ⟨true, false⟩ 2 s ∧ heldTotal s = 2 ∧ s.signal = 4294967295 := by
  have h1 : Reach 1 ⟨true, false⟩ 2 ⟨0, 1, none, none, [⟨.idle, 1⟩, ⟨.woken true, 0⟩]⟩ :=
    .step _ _ (sleeping1_reach _) (.spurious _ 1 ⟨.sleeping, 0⟩ rfl rfl rfl)
  have h2 : Reach 1 ⟨true, false⟩ 2 ⟨0, 1, none, some 1, [⟨.idle, 1⟩, ⟨.back true, 0⟩]⟩ :=
    .step _ _ h1 (.relock _ 1 ⟨.woken true, 0⟩ true rfl rfl rfl)
  have h3 : Reach 1 ⟨true, false⟩ 2 ⟨4294967295, 0, none, none, [⟨.idle, 1⟩, ⟨.idle, 1⟩]⟩ :=
    .step _ _ h2 (.finish _ 1 ⟨.back true, 0⟩ true rfl rfl rfl)
  exact ⟨_, h3, rfl, rfl⟩

/-- A state from which no thread gets a signal any more. -/
theorem stuck_steps (max : Nat) (s s' : Sem) (hw : 0 < s.waiting)
    (ht : ∀ t ∈ s.threads, t.held = 0 ∧ (t.phase = .idle ∨ t.phase = .needWait ∨ t.phase = .ready ∨ t.phase = .sleeping))
    (h : Steps max strict s s') :
    s'.signal = s.signal ∧ 0 < s'.waiting ∧ ∀ t ∈ s'.threads, t.held = 0 ∧
      (t.phase = .idle ∨ t.phase = .needWait ∨ t.phase = .ready ∨ t.phase = .sleeping) := by
  induction h with
  | refl => exact ⟨rfl, hw, ht⟩
  | step s2 s3 h12 h23 ih =>
    obtain ⟨hs, hw2, ht2⟩ := ih
    have key : ∀ (i : Nat) (t : Thread) (p : Phase), s2.threads[i]? = some t →
        (p = .idle ∨ p = .needWait ∨ p = .ready ∨ p = .sleeping) →
        ∀ u ∈ s2.threads.set i ⟨p, t.held⟩, u.held = 0 ∧
          (u.phase = .idle ∨ u.phase = .needWait ∨ u.phase = .ready ∨ u.phase = .sleeping) := by
      intro i t p hi hp u hu
      rcases mem_set hu with rfl | hu
      · exact ⟨(ht2 t (List.mem_of_getElem? hi)).1, hp⟩
      · exact ht2 u hu
    cases h23 with
    | take i t hi hph hmu hc =>
      simp only [Sem.canTake, Bool.and_eq_true, beq_iff_eq] at hc; omega
    | enter i t hi hph hmu hc => exact ⟨hs, hw2, key i t _ hi (by simp)⟩
    | lockWait i t hi hph hm => exact ⟨hs, by simp only; omega, key i t _ hi (by simp)⟩
    | sleep i t hi hph => exact ⟨hs, hw2, key i t _ hi (by simp)⟩
    | spurious i t hsp hi hph => cases hsp
    | timeout i t hsp hi hph => cases hsp
    | relock i t ok hi hph hm =>
      have := (ht2 t (List.mem_of_getElem? hi)).2; simp [hph] at this
    | finish i t ok hi hph hm =>
      have := (ht2 t (List.mem_of_getElem? hi)).2; simp [hph] at this
    | release i t hi hph hh hmu hlt hno =>
      have := (ht2 t (List.mem_of_getElem? hi)).1; omega
    | notify i j t u hi hph hh hmu hlt hu hphu =>
      have := (ht2 t (List.mem_of_getElem? hi)).1; omega

theorem stuck_held (s : Sem) (h : ∀ t ∈ s.threads, t.held = 0) : heldTotal s = 0 := by
  rw [heldTotal]
  generalize s.threads = l at h ⊢
  induction l with
  | nil => rfl
  | cons a l ih =>
    have h1 := h a (List.mem_cons_self ..)
    have h2 := ih (fun t ht => h t (List.mem_cons_of_mem _ ht))
    simp only [List.map_cons, List.sum_cons]; omega

/-- **C46 (refuted).**  A `release` between the count of a waiting thread and its `wait` is lost: the thread sleeps,
one signal is in the semaphore, no thread holds one, and, whatever the threads do from then on, none ever gets it. -/
theorem lost_refuted : ∃ s, Reach 1 strict 2 s ∧ s.signal = 1 ∧ s.threads[1]? = some ⟨.sleeping, 0⟩ ∧
    ∀ s', Steps 1 strict s s' → s'.signal = 1 ∧ heldTotal s' = 0 := by
  have h1 : Reach 1 strict 2 ⟨1, 1, none, some 1, [⟨.idle, 0⟩, ⟨.ready, 0⟩]⟩ :=
    .step _ _ (ready1_reach _) (.release _ 0 ⟨.idle, 1⟩ rfl rfl (by decide) rfl (by decide) (by decide))
  have h2 : Reach 1 strict 2 ⟨1, 1, none, none, [⟨.idle, 0⟩, ⟨.sleeping, 0⟩]⟩ :=
    .step _ _ h1 (.sleep _ 1 ⟨.ready, 0⟩ rfl rfl)
  refine ⟨_, h2, rfl, rfl, ?_⟩
  intro s' hs
  obtain ⟨g1, _, g3⟩ := stuck_steps 1 _ s' (by decide) (by decide) hs
  exact ⟨g1, stuck_held s' (fun t ht => (g3 t ht).1)⟩

/-- **C46 (refuted).**  A thread whose time is up is still counted as waiting, so that another one that comes then
waits although a signal is there, and nothing wakes it. -/
theorem timeout_refuted : ∃ s, Reach 1 calm 2 s ∧ s.signal = 1 ∧ s.threads[0]? = some ⟨.sleeping, 0⟩ ∧
    ∀ s', Steps 1 strict s s' → s'.signal = 1 ∧ heldTotal s' = 0 := by
  have h1 : Reach 1 calm 2 ⟨0, 1, none, none, [⟨.idle, 1⟩, ⟨.woken false, 0⟩]⟩ :=
    .step _ _ (sleeping1_reach _) (.timeout _ 1 ⟨.sleeping, 0⟩ rfl rfl rfl)
  have h2 : Reach 1 calm 2 ⟨1, 1, none, none, [⟨.idle, 0⟩, ⟨.woken false, 0⟩]⟩ :=
    .step _ _ h1 (.release _ 0 ⟨.idle, 1⟩ rfl rfl (by decide) rfl (by decide) (by decide))
  have h3 : Reach 1 calm 2 ⟨1, 1, some 0, none, [⟨.needWait, 0⟩, ⟨.woken false, 0⟩]⟩ :=
    .step _ _ h2 (.enter _ 0 ⟨.idle, 0⟩ rfl rfl rfl rfl)
  have h4 : Reach 1 calm 2 ⟨1, 2, none, some 0, [⟨.ready, 0⟩, ⟨.woken false, 0⟩]⟩ :=
    .step _ _ h3 (.lockWait _ 0 ⟨.needWait, 0⟩ rfl rfl rfl)
  have h5 : Reach 1 calm 2 ⟨1, 2, none, none, [⟨.sleeping, 0⟩, ⟨.woken false, 0⟩]⟩ :=
    .step _ _ h4 (.sleep _ 0 ⟨.ready, 0⟩ rfl rfl)
  have h6 : Reach 1 calm 2 ⟨1, 2, none, some 1, [⟨.sleeping, 0⟩, ⟨.back false, 0⟩]⟩ :=
    .step _ _ h5 (.relock _ 1 ⟨.woken false, 0⟩ false rfl rfl rfl)
  have h7 : Reach 1 calm 2 ⟨1, 1, none, none, [⟨.sleeping, 0⟩, ⟨.idle, 0⟩]⟩ :=
    .step _ _ h6 (.finish _ 1 ⟨.back false, 0⟩ false rfl rfl rfl)
  refine ⟨_, h7, rfl, rfl, ?_⟩
  intro s' hs
  obtain ⟨g1, _, g3⟩ := stuck_steps 1 _ s' (by decide) (by decide) hs
  exact ⟨g1, stuck_held s' (fun t ht => (g3 t ht).1)⟩

theorem get2 {a b t : Thread} {i : Nat} (h : [a, b][i]? = some t) : t = a ∨ t = b := by
  match i with
  | 0 => exact Or.inl (Option.some.inj h).symm
  | 1 => exact Or.inr (Option.some.inj h).symm
  | _ + 2 => simp at h

/-- **C46 (refuted).**  The two mutexes are locked in both orders: a thread that was woken up has `__wait_mutex` and
wants `__mutex`, one that came then has `__mutex` and wants `__wait_mutex`; no step is possible, even if
threads could wake up by themselves, and the signal is never acquired. -/
theorem deadlock_refuted : ∃ s, Reach 1 strict 2 s ∧ s.signal = 1 ∧ heldTotal s = 0 ∧
    ∀ e s', ¬ Step 1 e s s' := by
  have h1 : Reach 1 strict 2 ⟨1, 1, some 0, some 1, [⟨.needWait, 0⟩, ⟨.back true, 0⟩]⟩ :=
    .step _ _ (back1_reach _) (.enter _ 0 ⟨.idle, 0⟩ rfl rfl rfl rfl)
  refine ⟨_, h1, rfl, rfl, ?_⟩
  intro e s' hs
  cases hs with
  | take i t hi hph hmu hc => cases hmu
  | enter i t hi hph hmu hc => cases hmu
  | lockWait i t hi hph hm => cases hm
  | sleep i t hi hph => rcases get2 hi with rfl | rfl <;> cases hph
  | spurious i t hsp hi hph => rcases get2 hi with rfl | rfl <;> cases hph
  | timeout i t hsp hi hph => rcases get2 hi with rfl | rfl <;> cases hph
  | relock i t ok hi hph hm => cases hm
  | finish i t ok hi hph hm => cases hm
  | release i t hi hph hh hmu hlt hno => cases hmu
  | notify i j t u hi hph hh hmu hlt hu hphu => cases hmu

/-! ## The locks of objects -/

/-- **C47.**  At most one thread has the lock of an object. -/
theorem exclusive (n : Nat) (s : Locks) (h : LReach n s) (i j o : Nat) (hi : Has s i o) (hj : Has s j o) : i = j := by
  have inv := linv_reach h
  obtain ⟨t, x, ht, hx⟩ := hi
  obtain ⟨u, y, hu, hy⟩ := hj
  have h1 := find_mem inv.keys (inv.held t (List.mem_of_getElem? ht) _ hx)
  have h2 := find_mem inv.keys (inv.held u (List.mem_of_getElem? hu) _ hy)
  rw [h1] at h2
  cases h2
  have h3 := (inv.owner x i).2 ⟨t, o, ht, hx⟩
  have h4 := (inv.owner x j).2 ⟨u, o, hu, hy⟩
  rw [h3] at h4
  exact Option.some.inj h4

/-- **C47.**  A thread that waits for the lock of an object that nobody has can lock it, whatever other locks are held
or waited for. -/
theorem independent (n : Nat) (s : Locks) (h : LReach n s) (i o : Nat) (hw : Wants s i o) (hno : ∀ j, ¬ Has s j o) :
    ∃ s', LStep s s' ∧ Has s' i o ∧ ∀ j p, p ≠ o → (Has s' j p ↔ Has s j p) := by
  have inv := linv_reach h
  obtain ⟨t, w, ht, hw⟩ := hw
  have hmap := inv.want t (List.mem_of_getElem? ht) _ hw
  have hown : s.owner w = none := by
    cases hq : s.owner w with
    | none => rfl
    | some j =>
      obtain ⟨u, p, hu, hp⟩ := (inv.owner w j).1 hq
      have := snd_inj inv.vals (inv.held u (List.mem_of_getElem? hu) _ hp) hmap
      subst this
      exact absurd ⟨u, w, hu, hp⟩ (hno j)
  refine ⟨_, LStep.lock s i o w t ht hw hown, ⟨_, w, set_self ht, List.mem_cons_self ..⟩, ?_⟩
  intro j p hp
  constructor
  · intro ⟨u, y, hu, hy⟩
    rcases get_set ht hu with ⟨rfl, rfl⟩ | ⟨hne, hu⟩
    · rcases List.mem_cons.1 hy with hy | hy
      · cases hy; exact absurd rfl hp
      · exact ⟨t, y, ht, hy⟩
    · exact ⟨u, y, hu, hy⟩
  · intro ⟨u, y, hu, hy⟩
    by_cases hij : i = j
    · subst hij
      rw [ht] at hu; cases hu
      exact ⟨_, y, set_self ht, List.mem_cons_of_mem _ hy⟩
    · exact ⟨u, y, by simp only; rw [List.getElem?_set_ne hij]; exact hu, hy⟩

/-- There is always a mutex that the pool can give. -/
theorem fresh_exists (m : List (Nat × Nat)) : ∃ w, ∀ p ∈ m, p.2 ≠ w := by
  have : ∀ m : List (Nat × Nat), ∃ w, ∀ p ∈ m, p.2 < w := by
    intro m
    induction m with
    | nil => exact ⟨0, by intro p hp; cases hp⟩
    | cons a m ih =>
      obtain ⟨w, hw⟩ := ih
      refine ⟨w + a.2 + 1, ?_⟩
      intro p hp
      rcases List.mem_cons.1 hp with rfl | hp
      · omega
      · have := hw p hp; omega
  obtain ⟨w, hw⟩ := this m
  exact ⟨w, fun p hp => by have := hw p hp; omega⟩

/-- **C47.**  A thread that is not waiting can begin `enter` of any object; nobody's locks change (also when the
manager removes mutexes that are no longer used). -/
theorem enter_ok (n : Nat) (s : Locks) (_h : LReach n s) (i o : Nat) (t : LThread) (ht : s.threads[i]? = some t)
    (hw : t.want = none) : ∃ s', LStep s s' ∧ Wants s' i o ∧ ∀ j p, Has s' j p ↔ Has s j p := by
  have hHas : ∀ (s' : Locks) w, s'.threads = s.threads.set i ⟨some (o, w), t.held⟩ →
      Wants s' i o ∧ ∀ j p, Has s' j p ↔ Has s j p := by
    intro s' w hs'
    refine ⟨⟨_, w, by rw [hs']; exact set_self ht, rfl⟩, ?_⟩
    intro j p
    constructor
    · intro ⟨u, y, hu, hy⟩
      rw [hs'] at hu
      rcases get_set ht hu with ⟨rfl, rfl⟩ | ⟨hne, hu⟩
      · exact ⟨t, y, ht, hy⟩
      · exact ⟨u, y, hu, hy⟩
    · intro ⟨u, y, hu, hy⟩
      by_cases hij : i = j
      · subst hij
        rw [ht] at hu; cases hu
        exact ⟨⟨some (o, w), t.held⟩, y, by rw [hs']; exact set_self ht, hy⟩
      · exact ⟨u, y, by rw [hs', List.getElem?_set_ne hij]; exact hu, hy⟩
  cases hf : find s.clean.map o with
  | some w => exact ⟨_, LStep.enterOld s i o w t ht hw hf, hHas _ w rfl⟩
  | none =>
    obtain ⟨w, hnew⟩ := fresh_exists s.clean.map
    exact ⟨_, LStep.enterNew s i o w t ht hw hf hnew, hHas _ w rfl⟩

/-- **C47.**  `exit` of an object whose lock the thread has: the manager finds a mutex, it is the one that this thread
has locked, and its references are not zero, so that no exception is thrown and no mutex of another
thread is unlocked; and then the thread no longer has the lock, and nothing else changes. -/
theorem exit_ok (n : Nat) (s : Locks) (h : LReach n s) (i o x : Nat) (t : LThread) (ht : s.threads[i]? = some t)
    (hw : t.want = none) (hx : (o, x) ∈ t.held) :
    find s.clean.map o = some x ∧ 0 < s.ref x ∧ s.owner x = some i ∧
    ∃ s', LStep s s' ∧ ¬ Has s' i o ∧ ∀ j p, (j ≠ i ∨ p ≠ o) → (Has s' j p ↔ Has s j p) := by
  have inv := linv_reach h
  have hc := linv_clean inv
  have htm := List.mem_of_getElem? ht
  have hkey : ∀ y, (o, y) ∈ t.held → find s.clean.map o = some y := fun y hy =>
    find_mem hc.keys (hc.held t (by rw [clean_threads]; exact htm) _ hy)
  have hf := hkey x hx
  have href : 0 < s.ref x := by
    have h1 := tot_pos (rf x) s.threads t htm
    have h2 : 0 < rf x t := rf_held hx
    rw [inv.ref x]; omega
  refine ⟨hf, href, (inv.owner x i).2 ⟨t, o, ht, hx⟩, _, LStep.exit s i o x x t ht hw hx hf href, ?_, ?_⟩
  · intro ⟨u, z, hu, hz⟩
    simp only at hu
    rw [set_self ht] at hu
    cases hu
    have h1 := hkey z (List.mem_of_mem_erase hz)
    rw [h1] at hf; cases hf
    exact ((inv.nodup t htm).mem_erase_iff.1 hz).1 rfl
  · intro j p hjp
    constructor
    · intro ⟨u, z, hu, hz⟩
      rcases get_set ht hu with ⟨rfl, rfl⟩ | ⟨hne, hu⟩
      · exact ⟨t, z, ht, List.mem_of_mem_erase hz⟩
      · exact ⟨u, z, hu, hz⟩
    · intro ⟨u, z, hu, hz⟩
      by_cases hij : i = j
      · subst hij
        rw [ht] at hu; cases hu
        rcases hjp with hjp | hjp
        · exact absurd rfl hjp
        · refine ⟨_, z, set_self ht, ?_⟩
          exact (List.mem_erase_of_ne (by intro he; cases he; exact hjp rfl)).2 hz
      · exact ⟨u, z, by simp only; rw [List.getElem?_set_ne hij]; exact hu, hz⟩

/-- **C47.**  Locks of different objects are different mutexes, also after the manager has removed mutexes and the pool
has given them again. -/
theorem mutexes_distinct (n : Nat) (s : Locks) (h : LReach n s) (i j o p x : Nat) (t u : LThread)
    (ht : s.threads[i]? = some t) (hu : s.threads[j]? = some u)
    (ho : (o, x) ∈ t.held ∨ t.want = some (o, x)) (hp : (p, x) ∈ u.held ∨ u.want = some (p, x)) : o = p := by
  have inv := linv_reach h
  have h1 : (o, x) ∈ s.map := by
    rcases ho with ho | ho
    · exact inv.held t (List.mem_of_getElem? ht) _ ho
    · exact inv.want t (List.mem_of_getElem? ht) _ ho
  have h2 : (p, x) ∈ s.map := by
    rcases hp with hp | hp
    · exact inv.held u (List.mem_of_getElem? hu) _ hp
    · exact inv.want u (List.mem_of_getElem? hu) _ hp
  exact snd_inj inv.vals h1 h2

/-- Two threads: the first has the lock of the object 7 and waits for that of 8, the second has that of 8 and
waits for that of 7. -/
example : ∃ s, LReach 2 s ∧ Has s 0 7 ∧ Has s 1 8 ∧ Wants s 0 8 ∧ Wants s 1 7 := by
  have h0 := LReach.init (n := 2)
  have h1 := LReach.step _ _ h0 (.enterNew _ 0 7 100 ⟨none, []⟩ rfl rfl rfl (by intro p hp; cases hp))
  have h2 := LReach.step _ _ h1 (.lock _ 0 7 100 ⟨some (7, 100), []⟩ rfl rfl rfl)
  have h3 := LReach.step _ _ h2 (.enterNew _ 1 8 101 ⟨none, []⟩ rfl rfl rfl (by
    intro p hp
    have : p ∈ [(7, 100)] := hp
    simp at this; subst this; decide))
  have h4 := LReach.step _ _ h3 (.lock _ 1 8 101 ⟨some (8, 101), []⟩ rfl rfl rfl)
  have h5 := LReach.step _ _ h4 (.enterOld _ 0 8 101 ⟨none, [(7, 100)]⟩ rfl rfl rfl)
  have h6 := LReach.step _ _ h5 (.enterOld _ 1 7 100 ⟨none, [(8, 101)]⟩ rfl rfl rfl)
  exact ⟨_, h6, ⟨⟨some (8, 101), [(7, 100)]⟩, 100, rfl, by decide⟩, ⟨⟨some (7, 100), [(8, 101)]⟩, 101, rfl, by decide⟩,
    ⟨⟨some (8, 101), [(7, 100)]⟩, 101, rfl, rfl⟩, ⟨⟨some (7, 100), [(8, 101)]⟩, 100, rfl, rfl⟩⟩

/-- A thread waits for a lock that nobody has. -/
example : ∃ s, LReach 2 s ∧ Wants s 0 7 ∧ ∀ j, ¬ Has s j 7 := by
  refine ⟨_, .step _ _ .init (.enterNew _ 0 7 100 ⟨none, []⟩ rfl rfl rfl (by intro p hp; cases hp)),
    ⟨⟨some (7, 100), []⟩, 100, rfl, rfl⟩, ?_⟩
  intro j ⟨t, x, ht, hx⟩
  rcases mem_set (List.mem_of_getElem? ht) with rfl | h
  · cases hx
  · rw [List.eq_of_mem_replicate h] at hx; cases hx

/-- The manager removes the mutex without references, and keeps the other. -/
example : (Locks.clean ⟨[(7, 100), (8, 101)], fun w => if w = 101 then 1 else 0, fun _ => none, 10, []⟩).map
    = [(8, 101)] := by decide

/-- **C47 (the locks are not recursive).**  A thread that enters an object whose lock it has waits for itself: no step
of any thread gets it further (here there is only this thread). -/
theorem reenter_refuted : ∃ s, LReach 1 s ∧ Has s 0 7 ∧ Wants s 0 7 ∧ ∀ s', ¬ LStep s s' := by
  have h0 := LReach.init (n := 1)
  have h1 := LReach.step _ _ h0 (.enterNew _ 0 7 100 ⟨none, []⟩ rfl rfl rfl (by intro p hp; cases hp))
  have h2 := LReach.step _ _ h1 (.lock _ 0 7 100 ⟨some (7, 100), []⟩ rfl rfl rfl)
  have h3 := LReach.step _ _ h2 (.enterOld _ 0 7 100 ⟨none, [(7, 100)]⟩ rfl rfl rfl)
  refine ⟨_, h3, ⟨⟨some (7, 100), [(7, 100)]⟩, 100, rfl, by decide⟩, ⟨⟨some (7, 100), [(7, 100)]⟩, 100, rfl, rfl⟩, ?_⟩
  have hget : ∀ (i : Nat) (t : LThread), [⟨some (7, 100), [(7, 100)]⟩][i]? = some t →
      t = ⟨some (7, 100), [(7, 100)]⟩ := by
    intro i t h
    match i with
    | 0 => exact (Option.some.inj h).symm
    | _ + 1 => simp at h
  intro s' hs
  cases hs with
  | enterOld i o w t ht hw hf => rw [hget i t ht] at hw; cases hw
  | enterNew i o w t ht hw hf hnew => rw [hget i t ht] at hw; cases hw
  | lock i o w t ht hw ho => rw [hget i t ht] at hw; cases hw; cases ho
  | exit i o w x t ht hw hx hf hr => rw [hget i t ht] at hw; cases hw

end Verif.Sync.Props
