import Verif.Spec.Sync

/-!
# Lemmas about the semaphore and the locks of objects
-/

namespace Verif.Sync

/-- The sum of a number for each thread. -/
def tot {α : Type} (f : α → Nat) (l : List α) : Nat := (l.map f).sum

theorem tot_set {α : Type} (f : α → Nat) : ∀ (l : List α) (i : Nat) (t t' : α), l[i]? = some t →
    tot f (l.set i t') + f t = tot f l + f t' := by
  intro l
  induction l with
  | nil => intro i t t' h; simp at h
  | cons a l ih =>
    intro i t t' h
    cases i with
    | zero =>
      simp at h; subst h
      simp [tot]; omega
    | succ i =>
      simp at h
      have := ih i t t' h
      simp only [tot, List.set_cons_succ, List.map_cons, List.sum_cons] at *
      omega

theorem tot_replicate {α : Type} (f : α → Nat) (a : α) (h : f a = 0) : ∀ n, tot f (List.replicate n a) = 0 := by
  intro n
  induction n with
  | zero => rfl
  | succ n ih => rw [List.replicate_succ]; simp only [tot, List.map_cons, List.sum_cons] at *; omega

theorem tot_pos {α : Type} (f : α → Nat) : ∀ (l : List α) (t : α), t ∈ l → f t ≤ tot f l := by
  intro l
  induction l with
  | nil => intro t h; cases h
  | cons a l ih =>
    intro t h
    simp only [tot, List.map_cons, List.sum_cons]
    rcases List.mem_cons.1 h with rfl | h
    · omega
    · have := ih t h; simp only [tot] at this; omega

theorem tot_le {α : Type} (f g : α → Nat) (h : ∀ a, f a ≤ g a) : ∀ l, tot f l ≤ tot g l := by
  intro l
  induction l with
  | nil => simp [tot]
  | cons a l ih => simp only [tot, List.map_cons, List.sum_cons] at *; have := h a; omega

/-- What a thread adds to the count of waiting threads. -/
def wf (t : Thread) : Nat := (Waits t).toNat

/-- What a thread adds to the signals that are promised. -/
def pf (t : Thread) : Nat := (Promised t).toNat

theorem pf_le_wf (t : Thread) : pf t ≤ wf t := by
  obtain ⟨p, h⟩ := t
  cases p with
  | woken b => cases b <;> simp [pf, wf, Promised, Waits]
  | back b => cases b <;> simp [pf, wf, Promised, Waits]
  | _ => simp [pf, wf, Promised, Waits]

theorem wf_le_one (t : Thread) : wf t ≤ 1 := by
  rw [wf]; cases Waits t <;> simp

theorem tot_wf_le : ∀ l : List Thread, tot wf l ≤ l.length := by
  intro l
  induction l with
  | nil => simp [tot]
  | cons a l ih => simp only [tot, List.map_cons, List.sum_cons, List.length_cons] at *; have := wf_le_one a; omega

theorem decr_pos {n : Nat} (h : 0 < n) (h2 : n < 2 ^ 32) : decr n = n - 1 := by
  rw [decr, show n + (2 ^ 32 - 1) = (n - 1) + 2 ^ 32 by omega, Nat.add_mod_right, Nat.mod_eq_of_lt (by omega)]

/-- What always holds of the semaphore when no thread wakes up by itself. -/
structure Inv (max n : Nat) (s : Sem) : Prop where
  len : s.threads.length = n
  sum : tot (·.held) s.threads + s.signal = max
  waiting : s.waiting = tot wf s.threads
  promised : tot pf s.threads ≤ s.signal

theorem inv_init (max n : Nat) : Inv max n (Sem.init max n) := by
  refine ⟨by simp [Sem.init], ?_, ?_, ?_⟩
  · simp only [Sem.init]; rw [tot_replicate (·.held) (⟨.idle, 0⟩ : Thread) rfl]; omega
  · simp only [Sem.init]; rw [tot_replicate wf (⟨.idle, 0⟩ : Thread) rfl]
  · simp only [Sem.init]; rw [tot_replicate pf (⟨.idle, 0⟩ : Thread) rfl]; omega

theorem inv_step {max n : Nat} (hm : max < 2 ^ 32) (hn : n < 2 ^ 32) {e : Env} (he : e.spurious = false)
    {s s' : Sem} (h : Inv max n s) (hs : Step max e s s') : Inv max n s' := by
  obtain ⟨hlen, hsum, hw, hp⟩ := h
  have hwl := tot_wf_le s.threads
  cases hs with
  | take i t ht hph hmu hc =>
    simp only [Sem.canTake, Bool.and_eq_true, beq_iff_eq, decide_eq_true_eq] at hc
    obtain ⟨hc1, hc2⟩ := hc
    have h1 := tot_set (·.held) s.threads i t ⟨.idle, t.held + 1⟩ ht
    have h2 := tot_set wf s.threads i t ⟨.idle, t.held + 1⟩ ht
    have h3 := tot_set pf s.threads i t ⟨.idle, t.held + 1⟩ ht
    have e1 : wf t = 0 := by simp [wf, Waits, hph]
    have e2 : pf t = 0 := by simp [pf, Promised, hph]
    have e3 : wf ⟨.idle, t.held + 1⟩ = 0 := rfl
    have e4 : pf ⟨.idle, t.held + 1⟩ = 0 := rfl
    have h4 := tot_le pf wf pf_le_wf s.threads
    have h5 := decr_pos hc2 (by omega)
    refine ⟨by simpa using hlen, ?_, ?_, ?_⟩ <;> simp only [h5] at * <;> omega
  | enter i t ht hph hmu hc =>
    have h1 := tot_set (·.held) s.threads i t ⟨.needWait, t.held⟩ ht
    have h2 := tot_set wf s.threads i t ⟨.needWait, t.held⟩ ht
    have h3 := tot_set pf s.threads i t ⟨.needWait, t.held⟩ ht
    have e1 : wf t = 0 := by simp [wf, Waits, hph]
    have e2 : pf t = 0 := by simp [pf, Promised, hph]
    have e3 : wf ⟨.needWait, t.held⟩ = 0 := rfl
    have e4 : pf ⟨.needWait, t.held⟩ = 0 := rfl
    refine ⟨by simpa using hlen, ?_, ?_, ?_⟩ <;> simp only at * <;> omega
  | lockWait i t ht hph hwm =>
    have h1 := tot_set (·.held) s.threads i t ⟨.ready, t.held⟩ ht
    have h2 := tot_set wf s.threads i t ⟨.ready, t.held⟩ ht
    have h3 := tot_set pf s.threads i t ⟨.ready, t.held⟩ ht
    have e1 : wf t = 0 := by simp [wf, Waits, hph]
    have e2 : pf t = 0 := by simp [pf, Promised, hph]
    have e3 : wf ⟨.ready, t.held⟩ = 1 := rfl
    have e4 : pf ⟨.ready, t.held⟩ = 0 := rfl
    refine ⟨by simpa using hlen, ?_, ?_, ?_⟩ <;> simp only at * <;> omega
  | sleep i t ht hph =>
    have h1 := tot_set (·.held) s.threads i t ⟨.sleeping, t.held⟩ ht
    have h2 := tot_set wf s.threads i t ⟨.sleeping, t.held⟩ ht
    have h3 := tot_set pf s.threads i t ⟨.sleeping, t.held⟩ ht
    have e1 : wf t = 1 := by simp [wf, Waits, hph]
    have e2 : pf t = 0 := by simp [pf, Promised, hph]
    have e3 : wf ⟨.sleeping, t.held⟩ = 1 := rfl
    have e4 : pf ⟨.sleeping, t.held⟩ = 0 := rfl
    refine ⟨by simpa using hlen, ?_, ?_, ?_⟩ <;> simp only at * <;> omega
  | spurious i t hsp ht hph => rw [he] at hsp; cases hsp
  | timeout i t hsp ht hph =>
    have h1 := tot_set (·.held) s.threads i t ⟨.woken false, t.held⟩ ht
    have h2 := tot_set wf s.threads i t ⟨.woken false, t.held⟩ ht
    have h3 := tot_set pf s.threads i t ⟨.woken false, t.held⟩ ht
    have e1 : wf t = 1 := by simp [wf, Waits, hph]
    have e2 : pf t = 0 := by simp [pf, Promised, hph]
    have e3 : wf ⟨.woken false, t.held⟩ = 1 := rfl
    have e4 : pf ⟨.woken false, t.held⟩ = 0 := rfl
    refine ⟨by simpa using hlen, ?_, ?_, ?_⟩ <;> simp only at * <;> omega
  | relock i t ok ht hph hwm =>
    have h1 := tot_set (·.held) s.threads i t ⟨.back ok, t.held⟩ ht
    have h2 := tot_set wf s.threads i t ⟨.back ok, t.held⟩ ht
    have h3 := tot_set pf s.threads i t ⟨.back ok, t.held⟩ ht
    have e1 : wf t = 1 := by simp [wf, Waits, hph]
    have e3 : wf ⟨.back ok, t.held⟩ = 1 := rfl
    have e4 : pf ⟨.back ok, t.held⟩ = pf t := by cases ok <;> simp [pf, Promised, hph]
    refine ⟨by simpa using hlen, ?_, ?_, ?_⟩ <;> simp only at * <;> omega
  | finish i t ok ht hph hmu =>
    have h1 := tot_set (·.held) s.threads i t ⟨.idle, t.held + ok.toNat⟩ ht
    have h2 := tot_set wf s.threads i t ⟨.idle, t.held + ok.toNat⟩ ht
    have h3 := tot_set pf s.threads i t ⟨.idle, t.held + ok.toNat⟩ ht
    have e1 : wf t = 1 := by simp [wf, Waits, hph]
    have e2 : pf t = ok.toNat := by cases ok <;> simp [pf, Promised, hph]
    have e3 : wf ⟨.idle, t.held + ok.toNat⟩ = 0 := rfl
    have e4 : pf ⟨.idle, t.held + ok.toNat⟩ = 0 := rfl
    have h5 := decr_pos (n := s.waiting) (by omega) (by omega)
    cases ok with
    | false =>
      simp only [Bool.toNat_false, Nat.add_zero] at *
      refine ⟨by simpa using hlen, ?_, ?_, ?_⟩ <;> simp only [h5, Bool.false_eq_true, if_false] at * <;> omega
    | true =>
      simp only [Bool.toNat_true] at *
      have h6 := decr_pos (n := s.signal) (by omega) (by omega)
      refine ⟨by simpa using hlen, ?_, ?_, ?_⟩ <;> simp only [h5, h6, if_true] at * <;> omega
  | release i t ht hph hh hmu hlt hno =>
    have h1 := tot_set (·.held) s.threads i t ⟨.idle, t.held - 1⟩ ht
    have h2 := tot_set wf s.threads i t ⟨.idle, t.held - 1⟩ ht
    have h3 := tot_set pf s.threads i t ⟨.idle, t.held - 1⟩ ht
    have e1 : wf t = 0 := by simp [wf, Waits, hph]
    have e2 : pf t = 0 := by simp [pf, Promised, hph]
    have e3 : wf ⟨.idle, t.held - 1⟩ = 0 := rfl
    have e4 : pf ⟨.idle, t.held - 1⟩ = 0 := rfl
    refine ⟨by simpa using hlen, ?_, ?_, ?_⟩ <;> simp only at * <;> omega
  | notify i j t u ht hph hh hmu hlt hu hphu =>
    have hij : i ≠ j := by
      intro hij; subst hij; rw [ht] at hu; cases hu; rw [hph] at hphu; cases hphu
    have h1 := tot_set (·.held) s.threads i t ⟨.idle, t.held - 1⟩ ht
    have h2 := tot_set wf s.threads i t ⟨.idle, t.held - 1⟩ ht
    have h3 := tot_set pf s.threads i t ⟨.idle, t.held - 1⟩ ht
    have e1 : wf t = 0 := by simp [wf, Waits, hph]
    have e2 : pf t = 0 := by simp [pf, Promised, hph]
    have e3 : wf ⟨.idle, t.held - 1⟩ = 0 := rfl
    have e4 : pf ⟨.idle, t.held - 1⟩ = 0 := rfl
    have hu' : (s.threads.set i ⟨.idle, t.held - 1⟩)[j]? = some u := by
      rw [List.getElem?_set_ne hij]; exact hu
    have g1 := tot_set (·.held) _ j u ⟨.woken true, u.held⟩ hu'
    have g2 := tot_set wf _ j u ⟨.woken true, u.held⟩ hu'
    have g3 := tot_set pf _ j u ⟨.woken true, u.held⟩ hu'
    have f1 : wf u = 1 := by simp [wf, Waits, hphu]
    have f2 : pf u = 0 := by simp [pf, Promised, hphu]
    have f3 : wf ⟨.woken true, u.held⟩ = 1 := rfl
    have f4 : pf ⟨.woken true, u.held⟩ = 1 := rfl
    refine ⟨by simpa using hlen, ?_, ?_, ?_⟩ <;> simp only at * <;> omega

theorem inv_reach {max n : Nat} (hm : max < 2 ^ 32) (hn : n < 2 ^ 32) {e : Env} (he : e.spurious = false)
    {s : Sem} (h : Reach max e n s) : Inv max n s := by
  induction h with
  | init => exact inv_init max n
  | step s s' _ hs ih => exact inv_step hm hn he ih hs

/-! ## The locks -/

/-- What a thread adds to the references of a mutex. -/
def rf (w : Nat) (t : LThread) : Nat :=
  (match t.want with | some p => if p.2 = w then 1 else 0 | none => 0) + t.held.countP (fun p => p.2 == w)

theorem find_some {m : List (Nat × Nat)} {o w : Nat} (h : find m o = some w) : (o, w) ∈ m := by
  rw [find, Option.map_eq_some_iff] at h
  obtain ⟨p, hp, hw⟩ := h
  have h1 := List.find?_some hp
  have h2 := List.mem_of_find?_eq_some hp
  simp only [beq_iff_eq] at h1
  obtain ⟨a, b⟩ := p
  simp only at h1 hw
  subst h1; subst hw; exact h2

theorem find_none {m : List (Nat × Nat)} {o w : Nat} (h : find m o = none) : (o, w) ∉ m := by
  rw [find, Option.map_eq_none_iff, List.find?_eq_none] at h
  intro hm
  exact h _ hm (by simp)

theorem find_mem {m : List (Nat × Nat)} (hk : (m.map (·.1)).Nodup) {o w : Nat} (h : (o, w) ∈ m) :
    find m o = some w := by
  induction m with
  | nil => cases h
  | cons p m ih =>
    obtain ⟨a, b⟩ := p
    rw [List.map_cons, List.nodup_cons] at hk
    rcases List.mem_cons.1 h with h | h
    · cases h; simp [find]
    · have hne : a ≠ o := by
        intro he; subst he
        exact hk.1 (List.mem_map.2 ⟨(a, w), h, rfl⟩)
      have := ih hk.2 h
      simp only [find] at *
      rw [List.find?_cons_of_neg (by simpa using hne)]
      exact this

theorem snd_inj {m : List (Nat × Nat)} (hv : (m.map (·.2)).Nodup) {o p w : Nat} (h : (o, w) ∈ m) (h' : (p, w) ∈ m) :
    o = p := by
  induction m with
  | nil => cases h
  | cons q m ih =>
    rw [List.map_cons, List.nodup_cons] at hv
    rcases List.mem_cons.1 h with rfl | g <;> rcases List.mem_cons.1 h' with h' | h'
    · cases h'; rfl
    · exact absurd (List.mem_map.2 ⟨_, h', rfl⟩) hv.1
    · subst h'; exact absurd (List.mem_map.2 ⟨_, g, rfl⟩) hv.1
    · exact ih hv.2 g h'

/-- What always holds of the locks. -/
structure LInv (n : Nat) (s : Locks) : Prop where
  len : s.threads.length = n
  keys : (s.map.map (·.1)).Nodup
  vals : (s.map.map (·.2)).Nodup
  ref : ∀ w, s.ref w = tot (rf w) s.threads
  want : ∀ t ∈ s.threads, ∀ p, t.want = some p → p ∈ s.map
  held : ∀ t ∈ s.threads, ∀ p ∈ t.held, p ∈ s.map
  owner : ∀ w i, s.owner w = some i ↔ ∃ t o, s.threads[i]? = some t ∧ (o, w) ∈ t.held
  nodup : ∀ t ∈ s.threads, t.held.Nodup

theorem linv_init (n : Nat) : LInv n (Locks.init n) := by
  refine ⟨by simp [Locks.init], by simp [Locks.init], by simp [Locks.init], ?_, ?_, ?_, ?_, ?_⟩
  · intro w
    simp only [Locks.init]
    rw [tot_replicate (rf w) (⟨none, []⟩ : LThread) rfl]
  · intro t ht p hp
    rw [List.eq_of_mem_replicate ht] at hp; cases hp
  · intro t ht p hp
    rw [List.eq_of_mem_replicate ht] at hp; cases hp
  · intro w i
    constructor
    · intro h; cases h
    · intro ⟨t, o, ht, ho⟩
      rw [List.eq_of_mem_replicate (List.mem_of_getElem? ht)] at ho; cases ho
  · intro t ht
    rw [List.eq_of_mem_replicate ht]; exact List.nodup_nil

theorem rf_want {t : LThread} {o w : Nat} (h : t.want = some (o, w)) : 0 < rf w t := by
  rw [rf, h]; simp; omega

theorem rf_held {t : LThread} {o w : Nat} (h : (o, w) ∈ t.held) : 0 < rf w t := by
  have : 0 < t.held.countP (fun p => p.2 == w) := List.countP_pos_iff.2 ⟨_, h, by simp⟩
  rw [rf]; omega

theorem linv_clean {n : Nat} {s : Locks} (h : LInv n s) : LInv n s.clean := by
  rw [Locks.clean]
  split
  · refine ⟨h.len, ?_, ?_, h.ref, ?_, ?_, h.owner, h.nodup⟩
    · exact h.keys.sublist (List.Sublist.map _ List.filter_sublist)
    · exact h.vals.sublist (List.Sublist.map _ List.filter_sublist)
    · intro t ht p hp
      refine List.mem_filter.2 ⟨h.want t ht p hp, ?_⟩
      have h1 := tot_pos (rf p.2) s.threads t ht
      have h2 : 0 < rf p.2 t := rf_want (o := p.1) hp
      have h3 := h.ref p.2
      simp only [bne_iff_ne]; omega
    · intro t ht p hp
      refine List.mem_filter.2 ⟨h.held t ht p hp, ?_⟩
      have h1 := tot_pos (rf p.2) s.threads t ht
      have h2 : 0 < rf p.2 t := rf_held (o := p.1) hp
      have h3 := h.ref p.2
      simp only [bne_iff_ne]; omega
  · exact h

theorem clean_threads (s : Locks) : s.clean.threads = s.threads := by rw [Locks.clean]; split <;> rfl
theorem clean_ref (s : Locks) : s.clean.ref = s.ref := by rw [Locks.clean]; split <;> rfl
theorem clean_owner (s : Locks) : s.clean.owner = s.owner := by rw [Locks.clean]; split <;> rfl

theorem mem_set {α : Type} {l : List α} {i : Nat} {a b : α} (h : b ∈ l.set i a) : b = a ∨ b ∈ l := by
  rcases List.mem_or_eq_of_mem_set h with h | h
  · exact Or.inr h
  · exact Or.inl h

theorem get_set {α : Type} {l : List α} {i j : Nat} {a b t : α} (ht : l[i]? = some t)
    (h : (l.set i a)[j]? = some b) : (j = i ∧ b = a) ∨ (j ≠ i ∧ l[j]? = some b) := by
  by_cases hij : i = j
  · subst hij
    have hlt : i < l.length := by
      rcases Nat.lt_or_ge i l.length with h1 | h1
      · exact h1
      · rw [List.getElem?_eq_none h1] at ht; cases ht
    rw [List.getElem?_set_self hlt] at h
    exact Or.inl ⟨rfl, (Option.some.inj h).symm⟩
  · rw [List.getElem?_set_ne hij] at h
    exact Or.inr ⟨fun hh => hij hh.symm, h⟩

theorem set_self {α : Type} {l : List α} {i : Nat} {a t : α} (ht : l[i]? = some t) :
    (l.set i a)[i]? = some a := by
  have hlt : i < l.length := by
    rcases Nat.lt_or_ge i l.length with h1 | h1
    · exact h1
    · rw [List.getElem?_eq_none h1] at ht; cases ht
  rw [List.getElem?_set_self hlt]

/-- The part of `enter` that is common to the two cases. -/
theorem linv_enter {n : Nat} {s : Locks} (h : LInv n s) {i o w : Nat} {t : LThread} (ht : s.threads[i]? = some t)
    (hw : t.want = none) {m : List (Nat × Nat)} (hk : (m.map (·.1)).Nodup) (hv : (m.map (·.2)).Nodup)
    (hsub : ∀ p ∈ s.map, p ∈ m) (hmem : (o, w) ∈ m) :
    LInv n { s with map := m, ref := upd s.ref w (s.ref w + 1), threads := s.threads.set i ⟨some (o, w), t.held⟩ } := by
  have htm := List.mem_of_getElem? ht
  refine ⟨by simpa using h.len, hk, hv, ?_, ?_, ?_, ?_, ?_⟩
  · intro x
    have h1 := tot_set (rf x) s.threads i t ⟨some (o, w), t.held⟩ ht
    have h2 := h.ref x
    have e1 : rf x t = t.held.countP (fun p => p.2 == x) := by simp [rf, hw]
    simp only [upd]
    by_cases hx : x = w
    · subst hx
      have e2 : rf x ⟨some (o, x), t.held⟩ = 1 + t.held.countP (fun p => p.2 == x) := by simp [rf]
      rw [if_pos rfl]; omega
    · have e2 : rf x ⟨some (o, w), t.held⟩ = t.held.countP (fun p => p.2 == x) := by
        simp [rf]; intro hh; exact absurd hh.symm hx
      rw [if_neg hx]; omega
  · intro u hu p hp
    rcases mem_set hu with rfl | hu
    · simp only [Option.some.injEq] at hp; subst hp; exact hmem
    · exact hsub p (h.want u hu p hp)
  · intro u hu p hp
    rcases mem_set hu with rfl | hu
    · exact hsub p (h.held t htm p hp)
    · exact hsub p (h.held u hu p hp)
  · intro x j
    simp only
    rw [h.owner x j]
    constructor
    · intro ⟨u, q, hu, hq⟩
      by_cases hij : i = j
      · subst hij
        rw [ht] at hu; cases hu
        exact ⟨_, q, set_self ht, hq⟩
      · exact ⟨u, q, by rw [List.getElem?_set_ne hij]; exact hu, hq⟩
    · intro ⟨u, q, hu, hq⟩
      rcases get_set ht hu with ⟨rfl, rfl⟩ | ⟨hne, hu⟩
      · exact ⟨t, q, ht, hq⟩
      · exact ⟨u, q, hu, hq⟩
  · intro u hu
    rcases mem_set hu with rfl | hu
    · exact h.nodup t htm
    · exact h.nodup u hu

theorem linv_step {n : Nat} {s s' : Locks} (h0 : LInv n s) (hs : LStep s s') : LInv n s' := by
  have hc := linv_clean h0
  cases hs with
  | enterOld i o w t ht hw hf =>
    have := linv_enter hc (i := i) (o := o) (w := w) (t := t) (by rw [clean_threads]; exact ht) hw
      (m := s.clean.map) hc.keys hc.vals (fun p hp => hp) (find_some hf)
    rw [clean_ref, clean_threads] at this
    exact this
  | enterNew i o w t ht hw hf hnew =>
    have := linv_enter hc (i := i) (o := o) (w := w) (t := t) (by rw [clean_threads]; exact ht) hw
      (m := (o, w) :: s.clean.map)
      (by
        rw [List.map_cons, List.nodup_cons]
        refine ⟨?_, hc.keys⟩
        intro hm
        obtain ⟨⟨a, b⟩, hp, hpe⟩ := List.mem_map.1 hm
        simp only at hpe; subst hpe
        exact find_none hf hp)
      (by
        rw [List.map_cons, List.nodup_cons]
        refine ⟨?_, hc.vals⟩
        intro hm
        obtain ⟨p, hp, hpe⟩ := List.mem_map.1 hm
        exact hnew p hp hpe)
      (fun p hp => List.mem_cons_of_mem _ hp) (List.mem_cons_self ..)
    rw [clean_ref, clean_threads] at this
    exact this
  | lock i o w t ht hw ho =>
    have htm := List.mem_of_getElem? ht
    have hnone : ∀ (j : Nat) (u : LThread) (q : Nat), s.threads[j]? = some u → (q, w) ∉ u.held := by
      intro j u q hu hq
      have := (h0.owner w j).2 ⟨u, q, hu, hq⟩
      rw [ho] at this; cases this
    refine ⟨by simpa using h0.len, h0.keys, h0.vals, ?_, ?_, ?_, ?_, ?_⟩
    · intro x
      have h1 := tot_set (rf x) s.threads i t ⟨none, (o, w) :: t.held⟩ ht
      have h2 := h0.ref x
      have e : rf x ⟨none, (o, w) :: t.held⟩ = rf x t := by
        simp only [rf, hw, List.countP_cons, beq_iff_eq]; omega
      simp only; omega
    · intro u hu p hp
      rcases mem_set hu with rfl | hu
      · cases hp
      · exact h0.want u hu p hp
    · intro u hu p hp
      rcases mem_set hu with rfl | hu
      · rcases List.mem_cons.1 hp with rfl | hp
        · exact h0.want t htm _ hw
        · exact h0.held t htm p hp
      · exact h0.held u hu p hp
    · intro x j
      simp only [upd]
      by_cases hx : x = w
      · subst hx
        rw [if_pos rfl]
        constructor
        · intro hj; cases hj
          exact ⟨_, o, set_self ht, List.mem_cons_self ..⟩
        · intro ⟨u, q, hu, hq⟩
          rcases get_set ht hu with ⟨rfl, rfl⟩ | ⟨hne, hu⟩
          · rfl
          · exact absurd hq (hnone j u q hu)
      · rw [if_neg hx, h0.owner x j]
        constructor
        · intro ⟨u, q, hu, hq⟩
          by_cases hij : i = j
          · subst hij
            rw [ht] at hu; cases hu
            exact ⟨_, q, set_self ht, List.mem_cons_of_mem _ hq⟩
          · exact ⟨u, q, by rw [List.getElem?_set_ne hij]; exact hu, hq⟩
        · intro ⟨u, q, hu, hq⟩
          rcases get_set ht hu with ⟨rfl, rfl⟩ | ⟨hne, hu⟩
          · rcases List.mem_cons.1 hq with hq | hq
            · cases hq; exact absurd rfl hx
            · exact ⟨t, q, ht, hq⟩
          · exact ⟨u, q, hu, hq⟩
    · intro u hu
      rcases mem_set hu with rfl | hu
      · exact List.nodup_cons.2 ⟨hnone i t o ht, h0.nodup t htm⟩
      · exact h0.nodup u hu
  | exit i o w x t ht hw hx hf hr =>
    have htm := List.mem_of_getElem? ht
    have hmap := find_some hf
    have hxm : (o, x) ∈ s.clean.map := hc.held t (by rw [clean_threads]; exact htm) _ hx
    have hxw : x = w := by
      have := find_mem hc.keys hxm
      rw [hf] at this; exact (Option.some.inj this).symm
    subst hxw
    have hown := (h0.owner x i).2 ⟨t, o, ht, hx⟩
    have hcount : (t.held.erase (o, x)).countP (fun p => p.2 == x) + 1 = t.held.countP (fun p => p.2 == x) := by
      have := (List.perm_cons_erase hx).countP_eq (fun p : Nat × Nat => p.2 == x)
      rw [this, List.countP_cons]; simp
    have hcount' : ∀ y, y ≠ x → (t.held.erase (o, x)).countP (fun p => p.2 == y)
        = t.held.countP (fun p => p.2 == y) := by
      intro y hy
      have := (List.perm_cons_erase hx).countP_eq (fun p : Nat × Nat => p.2 == y)
      rw [this, List.countP_cons]; simp; exact fun hh => hy hh.symm
    have honly : ∀ q, (q, x) ∉ t.held.erase (o, x) := by
      intro q hq
      have hq' := List.mem_of_mem_erase hq
      have hqm : (q, x) ∈ s.clean.map := hc.held t (by rw [clean_threads]; exact htm) _ hq'
      have := snd_inj hc.vals hqm hxm
      subst this
      exact ((h0.nodup t htm).mem_erase_iff.1 hq).1 rfl
    refine ⟨by simpa using h0.len, hc.keys, hc.vals, ?_, ?_, ?_, ?_, ?_⟩
    · intro y
      have h1 := tot_set (rf y) s.threads i t ⟨none, t.held.erase (o, x)⟩ ht
      have h2 := h0.ref y
      simp only [upd]
      by_cases hy : y = x
      · subst hy
        have e1 : rf y t = t.held.countP (fun p => p.2 == y) := by simp [rf, hw]
        have e2 : rf y ⟨none, t.held.erase (o, y)⟩ = (t.held.erase (o, y)).countP (fun p => p.2 == y) := by
          simp [rf]
        rw [if_pos rfl]; omega
      · have e1 : rf y t = t.held.countP (fun p => p.2 == y) := by simp [rf, hw]
        have e2 : rf y ⟨none, t.held.erase (o, x)⟩ = (t.held.erase (o, x)).countP (fun p => p.2 == y) := by
          simp [rf]
        have e3 := hcount' y hy
        rw [if_neg hy]; omega
    · intro u hu p hp
      rcases mem_set hu with rfl | hu
      · cases hp
      · exact hc.want u (by rw [clean_threads]; exact hu) p hp
    · intro u hu p hp
      rcases mem_set hu with rfl | hu
      · exact hc.held t (by rw [clean_threads]; exact htm) p (List.mem_of_mem_erase hp)
      · exact hc.held u (by rw [clean_threads]; exact hu) p hp
    · intro y j
      simp only [upd]
      by_cases hy : y = x
      · subst hy
        rw [if_pos rfl]
        constructor
        · intro hj; cases hj
        · intro ⟨u, q, hu, hq⟩
          rcases get_set ht hu with ⟨rfl, rfl⟩ | ⟨hne, hu⟩
          · exact absurd hq (honly q)
          · have := (h0.owner y j).2 ⟨u, q, hu, hq⟩
            rw [hown] at this; exact absurd (Option.some.inj this).symm hne
      · rw [if_neg hy, h0.owner y j]
        constructor
        · intro ⟨u, q, hu, hq⟩
          by_cases hij : i = j
          · subst hij
            rw [ht] at hu; cases hu
            refine ⟨_, q, set_self ht, ?_⟩
            exact (List.mem_erase_of_ne (by intro he; cases he; exact hy rfl)).2 hq
          · exact ⟨u, q, by rw [List.getElem?_set_ne hij]; exact hu, hq⟩
        · intro ⟨u, q, hu, hq⟩
          rcases get_set ht hu with ⟨rfl, rfl⟩ | ⟨hne, hu⟩
          · exact ⟨t, q, ht, List.mem_of_mem_erase hq⟩
          · exact ⟨u, q, hu, hq⟩
    · intro u hu
      rcases mem_set hu with rfl | hu
      · exact (h0.nodup t htm).erase _
      · exact h0.nodup u hu

theorem linv_reach {n : Nat} {s : Locks} (h : LReach n s) : LInv n s := by
  induction h with
  | init => exact linv_init n
  | step s s' _ hs ih => exact linv_step ih hs

end Verif.Sync
