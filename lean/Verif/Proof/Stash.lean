import Verif.Spec.Stash
/-! # Proofs about lists, caches and pools -/

namespace Verif.Stash

variable {α σ κ ν : Type}

theorem grow_ge (size need : Nat) (h : 0 < size) : need ≤ grow size need ∧ size ≤ grow size need := by
  induction size using grow.induct (need := need) with
  | case1 size hs ih =>
    rw [grow, dif_pos hs]
    have := ih (by omega)
    omega
  | case2 size hs =>
    rw [grow, dif_neg hs]
    omega

/-- The list in the memory is `xs`. -/
structure Is (l : WList α) (xs : List α) : Prop where
  pos : 0 < l.size
  count : l.count = xs.length
  none : l.buffer = none → xs = []
  some : ∀ b, l.buffer = some b → b.length = l.size ∧ l.count ≤ l.size ∧ b.take l.count = xs.map some

theorem is_new : Is (WList.new : WList α) [] :=
  ⟨Nat.lt_of_lt_of_le Nat.zero_lt_one (Nat.le_add_left 1 7), rfl, fun _ => rfl, fun b h => (by cases h)⟩

theorem is_check {l : WList α} {xs : List α} (h : Is l xs) (need : Nat) :
    Is (l.check need) xs ∧ (l.check need).count = l.count ∧
      ∃ b, (l.check need).buffer = some b ∧ need ≤ b.length := by
  have hg := grow_ge l.size need h.pos
  cases hb : l.buffer with
  | none =>
    have hx := h.none hb
    have hc : l.count = 0 := by rw [h.count, hx]; rfl
    have he : l.check need = { l with size := grow l.size need, buffer := Option.some (List.replicate (grow l.size need) Option.none) } := by
      unfold WList.check; rw [hb]
    rw [he]
    refine ⟨⟨(by show 0 < grow l.size need; have := h.pos; omega), h.count, fun e => (by cases e), ?_⟩, rfl, _, rfl, by simp; omega⟩
    intro b e
    injection e with e
    subst e
    refine ⟨by simp, by show l.count ≤ _; omega, ?_⟩
    show List.take l.count _ = _
    rw [hc, hx]; rfl
  | some b =>
    obtain ⟨h1, h2, h3⟩ := h.some b hb
    by_cases hs : l.size ≥ need
    · have he : l.check need = l := by unfold WList.check; rw [hb]; dsimp only; rw [if_pos hs]
      rw [he]
      exact ⟨h, rfl, b, hb, by omega⟩
    · have he : l.check need = { l with size := grow l.size need, buffer := Option.some (b.take l.count ++ List.replicate (grow l.size need - l.count) Option.none) } := by
        unfold WList.check; rw [hb]; dsimp only; rw [if_neg hs]
      have hl : (b.take l.count).length = l.count := by rw [List.length_take]; omega
      rw [he]
      refine ⟨⟨(by show 0 < grow l.size need; have := h.pos; omega), h.count, fun e => (by cases e), ?_⟩, rfl, _, rfl, ?_⟩
      · intro b' e
        injection e with e
        subst e
        refine ⟨?_, by show l.count ≤ grow _ _; omega, ?_⟩
        · rw [List.length_append, hl, List.length_replicate]; show _ = grow _ _; omega
        · show List.take l.count _ = _
          rw [List.take_append_of_le_length (by omega), List.take_take, Nat.min_self, h3]
      · rw [List.length_append, hl, List.length_replicate]; omega

theorem is_push {l : WList α} {xs : List α} (h : Is l xs) (x : α) :
    ∃ l', l.push x = some l' ∧ Is l' (xs ++ [x]) := by
  obtain ⟨h1, h2, b, hb, hn⟩ := is_check h (l.count + 1)
  obtain ⟨k1, k2, k3⟩ := h1.some b hb
  have hput : put b (l.check (l.count + 1)).count (some x) =
      some (b.set (l.check (l.count + 1)).count (some x)) := by
    unfold put; rw [if_pos (by omega)]
  refine ⟨{ l.check (l.count + 1) with buffer := some (b.set (l.check (l.count + 1)).count (some x)), count := (l.check (l.count + 1)).count + 1 }, ?_, ?_⟩
  · unfold WList.push
    dsimp only
    rw [hb]; dsimp only; rw [hput]
  · refine ⟨h1.pos, ?_, fun e => (by cases e), ?_⟩
    · show (l.check (l.count + 1)).count + 1 = _
      rw [h1.count]; simp
    · intro b' e
      injection e with e
      subst e
      refine ⟨by simpa using k1, by show _ + 1 ≤ _; rw [← k1]; omega, ?_⟩
      show List.take ((l.check (l.count + 1)).count + 1) _ = _
      rw [List.take_add_one, List.take_set_of_le (Nat.le_refl _), k3]
      rw [List.getElem?_set_self (by omega)]
      simp

theorem is_append {l : WList α} {xs : List α} (h : Is l xs) (ys : List α) :
    ∃ l', l.append ys = some l' ∧ Is l' (xs ++ ys) := by
  induction ys generalizing l xs with
  | nil => exact ⟨l, rfl, by simpa using h⟩
  | cons y ys ih =>
    obtain ⟨l1, e1, h1⟩ := is_push h y
    obtain ⟨l2, e2, h2⟩ := ih h1
    refine ⟨l2, ?_, by simpa using h2⟩
    unfold WList.append
    rw [e1]; exact e2

theorem keep_length (pred : σ → α → Bool × σ) (xs : List α) (s : σ) :
    (keep pred s xs).1.length ≤ xs.length := by
  induction xs generalizing s with
  | nil => exact Nat.le_refl _
  | cons x xs ih =>
    unfold keep
    cases hp : pred s x with
    | mk ok s' =>
      have := ih s'
      dsimp only
      cases ok <;> simp <;> omega

theorem loop_keep (pred : σ → α → Bool × σ) (ys : List α) (obj out : Nat) (b tail : List (Option α)) (s : σ)
    (ho : out ≤ obj) (hob : obj ≤ b.length) (hd : b.drop obj = ys.map some ++ tail) :
    ∃ b', walkLoop pred ys.length obj out b s =
        some (out + (keep pred s ys).1.length, b', (keep pred s ys).2) ∧ b'.length = b.length ∧
      b'.take (out + (keep pred s ys).1.length) = b.take out ++ (keep pred s ys).1.map some := by
  induction ys generalizing obj out b s with
  | nil => exact ⟨b, rfl, rfl, by simp [keep]⟩
  | cons y ys ih =>
    have hg : b[obj]? = some (some y) := by
      have : (b.drop obj)[0]? = some (some y) := by rw [hd]; rfl
      rwa [List.getElem?_drop, Nat.add_zero] at this
    have hlt : obj < b.length := by
      rcases Nat.lt_or_ge obj b.length with h | h
      · exact h
      · rw [List.getElem?_eq_none h] at hg; cases hg
    have hd' : b.drop (obj + 1) = ys.map some ++ tail := by
      have : (b.drop obj).drop 1 = ys.map some ++ tail := by rw [hd]; rfl
      rwa [List.drop_drop] at this
    unfold walkLoop keep
    cases hp : pred s y with
    | mk ok s' =>
      cases ok with
      | false =>
        obtain ⟨b', e1, e2, e3⟩ := ih (obj + 1) out b s' (by omega) (by omega) hd'
        refine ⟨b', ?_, e2, ?_⟩
        · simp only [List.length_cons, hg, hp]
          simpa using e1
        · simpa using e3
      | true =>
        have hput : put b out (some y) = some (b.set out (some y)) := by
          unfold put; rw [if_pos (by omega)]
        have hds : (b.set out (some y)).drop (obj + 1) = ys.map some ++ tail := by
          rw [List.drop_set_of_lt (by omega), hd']
        obtain ⟨b', e1, e2, e3⟩ := ih (obj + 1) (out + 1) (b.set out (some y)) s' (by omega)
          (by rw [List.length_set]; omega) hds
        refine ⟨b', ?_, by rw [e2, List.length_set], ?_⟩
        · simp only [List.length_cons, hg, hp, hput, e1]
          simp [Nat.add_assoc, Nat.add_comm]
        · have hlen : out + 1 + (keep pred s' ys).1.length = out + (y :: (keep pred s' ys).1).length := by
            simp; omega
          rw [hlen] at e3
          simp only [if_true]
          rw [e3, List.take_add_one, List.take_set_of_le (Nat.le_refl _), List.getElem?_set_self (by omega)]
          simp

/-- A walk over a part: what is before it stays, what is behind it is lost. -/
theorem is_walk {l : WList α} {xs : List α} (h : Is l xs) (pred : σ → α → Bool × σ) (s : σ) (first : Nat)
    (last : Option Nat) (h1 : first ≤ last.getD xs.length) (h2 : last.getD xs.length ≤ xs.length) :
    ∃ l', l.walk pred s first last =
        some (l', (keep pred s ((xs.take (last.getD xs.length)).drop first)).2) ∧
      Is l' (xs.take first ++ (keep pred s ((xs.take (last.getD xs.length)).drop first)).1) := by
  cases hb : l.buffer with
  | none =>
    have hx := h.none hb
    subst hx
    refine ⟨l, ?_, ?_⟩
    · unfold WList.walk; rw [hb]; simp [keep]
    · simpa [keep] using h
  | some b =>
    obtain ⟨k1, k2, k3⟩ := h.some b hb
    have hc := h.count
    generalize hlast : last.getD xs.length = e at h1 h2 ⊢
    have hlast' : last.getD l.count = e := by rw [hc]; exact hlast
    generalize hys : (xs.take e).drop first = ys
    have hlen : ys.length = e - first := by
      rw [← hys, List.length_drop, List.length_take]; omega
    have hd : ∃ tail, b.drop first = ys.map some ++ tail := by
      refine ⟨b.drop e, ?_⟩
      have hte : b.take e = (xs.take e).map some := by
        have := congrArg (List.take e) k3
        rw [List.take_take, Nat.min_eq_left (by omega), ← List.map_take] at this
        exact this
      have : b.drop first = ((b.take e) ++ b.drop e).drop first := by rw [List.take_append_drop]
      rw [this, List.drop_append_of_le_length (by rw [List.length_take]; omega), hte, ← List.map_drop, hys]
    obtain ⟨tail, hd⟩ := hd
    obtain ⟨b', e1, e2, e3⟩ := loop_keep pred ys first first b tail s (Nat.le_refl _) (by omega) hd
    have hk := keep_length pred ys s
    refine ⟨{ l with buffer := some b', count := first + (keep pred s ys).1.length }, ?_, ?_⟩
    · unfold WList.walk; rw [hb]; dsimp only; rw [hlast', ← hlen, e1]
    · refine ⟨h.pos, ?_, fun e => (by cases e), ?_⟩
      · show first + _ = _
        rw [List.length_append, List.length_take]; omega
      · intro b'' eb
        injection eb with eb
        subst eb
        refine ⟨e2.trans k1, by show first + _ ≤ l.size; omega, ?_⟩
        show List.take (first + _) _ = _
        rw [e3, List.map_append]
        congr 1
        have := congrArg (List.take first) k3
        rw [List.take_take, Nat.min_eq_left (by omega), ← List.map_take] at this
        exact this

theorem is_truncate {l : WList α} {xs : List α} (h : Is l xs) (n : Nat) : Is (l.truncate n) (xs.take n) := by
  unfold WList.truncate
  by_cases hn : n < l.count
  · rw [if_pos hn]
    have hc := h.count
    refine ⟨h.pos, by show n = _; rw [List.length_take]; omega, ?_, ?_⟩
    · intro e; rw [h.none e]; simp
    · intro b e
      obtain ⟨k1, k2, k3⟩ := h.some b e
      refine ⟨k1, by show n ≤ l.size; omega, ?_⟩
      have := congrArg (List.take n) k3
      rwa [List.take_take, Nat.min_eq_left (by omega), ← List.map_take] at this
  · rw [if_neg hn, List.take_of_length_le (by rw [← h.count]; omega)]
    exact h

theorem is_clear {l : WList α} {xs : List α} (h : Is l xs) : Is l.clear [] :=
  ⟨h.pos, rfl, fun _ => rfl, fun b e => by
    obtain ⟨k1, k2, k3⟩ := h.some b e
    exact ⟨k1, Nat.zero_le _, by show List.take 0 _ = _; simp⟩⟩

theorem step_is {l : WList α} {xs : List α} (h : Is l xs) (s : σ) (op : Op α σ) :
    ∃ l', step l s op = some (l', (stepList xs s op).2) ∧ Is l' (stepList xs s op).1 := by
  cases op with
  | push x =>
    obtain ⟨l', e, h'⟩ := is_push h x
    exact ⟨l', by unfold step; simp only; rw [e]; rfl, h'⟩
  | append ys =>
    obtain ⟨l', e, h'⟩ := is_append h ys
    exact ⟨l', by unfold step; simp only; rw [e]; rfl, h'⟩
  | walk pred =>
    obtain ⟨l', e, h'⟩ := is_walk h pred s 0 none (Nat.zero_le _) (Nat.le_refl _)
    simp at e h'
    exact ⟨l', e, h'⟩
  | clear => exact ⟨l.clear, rfl, is_clear h⟩
  | truncate n => exact ⟨l.truncate n, rfl, is_truncate h n⟩

theorem run_is (ops : List (Op α σ)) : ∀ {l : WList α} {xs : List α} (_ : Is l xs) (s : σ),
    ∃ l', run l s ops = some (l', (runList xs s ops).2) ∧ Is l' (runList xs s ops).1 := by
  induction ops with
  | nil => intro l xs h s; exact ⟨l, rfl, h⟩
  | cons op ops ih =>
    intro l xs h s
    obtain ⟨l1, e1, h1⟩ := step_is h s op
    obtain ⟨l2, e2, h2⟩ := ih h1 (stepList xs s op).2
    refine ⟨l2, ?_, h2⟩
    unfold run
    rw [e1]; exact e2

theorem mapM_some (xs : List α) : (xs.map some).mapM id = some xs := by
  induction xs with
  | nil => rfl
  | cons x xs ih => simp [List.mapM_cons, ih]

theorem is_all {l : WList α} {xs : List α} (h : Is l xs) : l.all = some xs := by
  unfold WList.all
  cases hb : l.buffer with
  | none => rw [h.none hb]
  | some b =>
    obtain ⟨k1, k2, k3⟩ := h.some b hb
    dsimp only
    rw [if_pos (by omega), k3, mapM_some]

theorem is_get {l : WList α} {xs : List α} (h : Is l xs) (i : Nat) : l.get i = xs[i]? := by
  unfold WList.get
  by_cases hi : i < l.count
  · rw [if_pos hi]
    cases hb : l.buffer with
    | none => have := h.count; rw [h.none hb] at this; simp at this; omega
    | some b =>
      obtain ⟨k1, k2, k3⟩ := h.some b hb
      dsimp only
      have : (b.take l.count)[i]? = b[i]? := List.getElem?_take_of_lt hi
      rw [← this, k3]
      rw [List.getElem?_map]
      cases xs[i]? <;> rfl
  · rw [if_neg hi, List.getElem?_eq_none (by rw [← h.count]; omega)]

/-! ## Caches -/

theorem lookup_isSome [DecidableEq κ] {c : List (κ × ν)} {k : κ} :
    (c.lookup k).isSome = true ↔ k ∈ c.map (·.1) := by
  induction c with
  | nil => simp
  | cons p c ih =>
    obtain ⟨k', v⟩ := p
    rw [List.lookup_cons]
    by_cases h : k = k'
    · subst h; simp
    · have hb : (k == k') = false := by simpa using h
      rw [hb]
      simp only [List.map_cons, List.mem_cons, h, false_or]
      exact ih

theorem cache_run [DecidableEq κ] (creator : σ → κ → ν × σ) (ks : List κ) :
    ∀ (c : List (κ × ν)) (s : σ) (seen : List κ), (∀ k, k ∈ seen ↔ k ∈ c.map (·.1)) →
    (cacheRun creator c s ks).2.1 = (makeAll creator s (firsts seen ks)).1.reverse ++ c ∧
      (cacheRun creator c s ks).2.2 = (makeAll creator s (firsts seen ks)).2 ∧
      (cacheRun creator c s ks).1.map some = ks.map (fun k => (cacheRun creator c s ks).2.1.lookup k) ∧
      ∀ k, k ∈ c.map (·.1) → (cacheRun creator c s ks).2.1.lookup k = c.lookup k := by
  induction ks with
  | nil => intro c s seen _; exact ⟨rfl, rfl, rfl, fun _ _ => rfl⟩
  | cons k ks ih =>
    intro c s seen hs
    cases hl : c.lookup k with
    | some v =>
      have hm : k ∈ c.map (·.1) := lookup_isSome.1 (by rw [hl]; rfl)
      have hg : cacheGet creator c s k = (v, c, s) := by unfold cacheGet; rw [hl]
      obtain ⟨i1, i2, i3, i4⟩ := ih c s seen hs
      have hr : cacheRun creator c s (k :: ks) =
          (v :: (cacheRun creator c s ks).1, (cacheRun creator c s ks).2) := by
        rw [cacheRun, hg]
      rw [hr, firsts, if_pos ((hs k).2 hm)]
      refine ⟨i1, i2, ?_, i4⟩
      simp only [List.map_cons]
      rw [i3, i4 k hm, hl]
    | none =>
      have hm : k ∉ c.map (·.1) := fun h => by
        have := lookup_isSome.2 h
        rw [hl] at this; cases this
      cases hc : creator s k with
      | mk v s' =>
        have hg : cacheGet creator c s k = (v, (k, v) :: c, s') := by
          unfold cacheGet; rw [hl]; simp only [hc]
        obtain ⟨i1, i2, i3, i4⟩ := ih ((k, v) :: c) s' (k :: seen) (by
          intro x; simp only [List.map_cons, List.mem_cons, hs x])
        have hr : cacheRun creator c s (k :: ks) =
            (v :: (cacheRun creator ((k, v) :: c) s' ks).1, (cacheRun creator ((k, v) :: c) s' ks).2) := by
          rw [cacheRun, hg]
        have hself : (cacheRun creator ((k, v) :: c) s' ks).2.1.lookup k = some v := by
          rw [i4 k (by simp)]; simp
        rw [hr, firsts, if_neg (fun h => hm ((hs k).1 h)), makeAll, hc]
        refine ⟨?_, i2, ?_, ?_⟩
        · dsimp only; rw [i1]; simp
        · simp only [List.map_cons]
          rw [i3, hself]
        · intro x hx
          dsimp only
          rw [i4 x (by simp only [List.map_cons, List.mem_cons]; exact .inr hx), List.lookup_cons]
          have : (x == k) = false := by
            simp only [beq_eq_false_iff_ne]
            exact fun e => hm (e ▸ hx)
          rw [this]

/-! ## Pools -/

/-- The objects in use and those in the queue are all objects, each once. -/
structure Fine (p : Pool α) (u : List (Nat × α)) : Prop where
  nodup : (u.map (·.1) ++ p.queue).Nodup
  bound : ∀ o, o ∈ u.map (·.1) ++ p.queue → o < p.made
  count : u.length + p.queue.length = p.made
  content : ∀ o x, (o, x) ∈ u → p.content o = some x

theorem fine_start : Fine (Pool.start : Pool α) [] :=
  ⟨by simp [Pool.start], fun o h => by simp [Pool.start] at h, rfl, fun _ _ h => by cases h⟩

theorem fine_new {p : Pool α} {u : List (Nat × α)} (F : Fine p u) (x : α) :
    Fine (p.new x).1 (((p.new x).2, x) :: u) ∧ (p.new x).2 ∉ u.map (·.1) ∧
      (p.new x).1.made = max p.made (u.length + 1) := by
  have hc := F.count
  cases hq : p.queue with
  | nil =>
    have he : p.new x = ({ p with made := p.made + 1, content := fun i => if i = p.made then some x else p.content i }, p.made) := by
      unfold Pool.new; rw [hq]
    have hn : p.made ∉ u.map (·.1) := fun h => by
      have := F.bound p.made (List.mem_append_left _ h); omega
    rw [he]
    rw [hq] at hc
    simp at hc
    refine ⟨⟨?_, ?_, ?_, ?_⟩, hn, by show p.made + 1 = _; omega⟩
    · have := F.nodup
      rw [hq] at this ⊢
      simp only [List.append_nil] at this
      simp only [List.map_cons, List.append_nil]
      exact List.nodup_cons.2 ⟨hn, this⟩
    · intro o ho
      rw [hq] at ho
      show o < p.made + 1
      simp only [List.map_cons, List.append_nil, List.mem_cons] at ho
      rcases ho with h | h
      · omega
      · have := F.bound o (List.mem_append_left _ h); omega
    · show u.length + 1 + p.queue.length = p.made + 1
      rw [hq]; simp; omega
    · intro o y h
      show (if o = p.made then some x else p.content o) = some y
      rcases List.mem_cons.1 h with h | h
      · injection h with h1 h2; rw [if_pos h1, h2]
      · have : o ≠ p.made := fun e => hn (e ▸ List.mem_map_of_mem (f := (·.1)) h)
        rw [if_neg this]; exact F.content o y h
  | cons q rest =>
    have he : p.new x = ({ p with queue := rest, content := fun i => if i = q then some x else p.content i }, q) := by
      unfold Pool.new; rw [hq]
    have hnd := F.nodup
    rw [hq] at hnd
    have hn : q ∉ u.map (·.1) := fun h => (List.nodup_append.1 hnd).2.2 q h q (by simp) rfl
    rw [he]
    refine ⟨⟨?_, ?_, ?_, ?_⟩, hn, ?_⟩
    · have hp : (u.map (·.1) ++ q :: rest).Perm (q :: (u.map (·.1) ++ rest)) := List.perm_middle
      exact hp.nodup_iff.1 hnd
    · intro o ho
      have hp : (u.map (·.1) ++ q :: rest).Perm (q :: (u.map (·.1) ++ rest)) := List.perm_middle
      exact F.bound o (by rw [hq]; exact hp.mem_iff.2 ho)
    · show u.length + 1 + rest.length = p.made
      rw [hq] at hc; simp at hc; omega
    · intro o y h
      show (if o = q then some x else p.content o) = some y
      rcases List.mem_cons.1 h with h | h
      · injection h with h1 h2; rw [if_pos h1, h2]
      · have : o ≠ q := fun e => hn (e ▸ List.mem_map_of_mem (f := (·.1)) h)
        rw [if_neg this]; exact F.content o y h
    · show p.made = _
      rw [hq] at hc; simp at hc; omega

theorem filter_perm {u : List (Nat × α)} {o : Nat} (hd : (u.map (·.1)).Nodup) (ho : o ∈ u.map (·.1)) :
    (u.map (·.1)).Perm (o :: (u.filter (·.1 ≠ o)).map (·.1)) := by
  induction u with
  | nil => cases ho
  | cons e u ih =>
    simp only [List.map_cons] at hd ho
    have hd1 := List.nodup_cons.1 hd
    by_cases h : e.1 = o
    · have : u.filter (·.1 ≠ o) = u := by
        rw [List.filter_eq_self]
        intro a ha
        simp only [ne_eq, decide_eq_true_eq]
        intro e'
        exact hd1.1 (by rw [h, ← e']; exact List.mem_map_of_mem (f := (·.1)) ha)
      rw [List.filter_cons]
      simp only [ne_eq, h, not_true, decide_false]
      rw [show u.filter (fun x => decide (¬ x.1 = o)) = u from this]
      simp [h]
    · have ho' : o ∈ u.map (·.1) := by
        rcases List.mem_cons.1 ho with h' | h'
        · exact absurd h'.symm h
        · exact h'
      rw [List.filter_cons]
      simp only [ne_eq, h, not_false_eq_true, decide_true, if_true, List.map_cons]
      exact (List.Perm.cons _ (ih hd1.2 ho')).trans (List.Perm.swap _ _ _)

theorem fine_release {p : Pool α} {u : List (Nat × α)} (F : Fine p u) {o : Nat} (ho : o ∈ u.map (·.1)) :
    Fine (p.release o) (u.filter (·.1 ≠ o)) ∧ (u.filter (·.1 ≠ o)).length = u.length - 1 := by
  have hp := filter_perm (List.nodup_append.1 F.nodup).1 ho
  have hlen := hp.length_eq
  simp only [List.length_map, List.length_cons] at hlen
  have hperm : ((u.filter (·.1 ≠ o)).map (·.1) ++ (p.queue ++ [o])).Perm (u.map (·.1) ++ p.queue) := by
    have h1 : ((u.filter (·.1 ≠ o)).map (·.1) ++ (p.queue ++ [o])).Perm
        (o :: ((u.filter (·.1 ≠ o)).map (·.1) ++ p.queue)) := by
      rw [← List.append_assoc]
      exact List.perm_append_singleton _ _
    exact h1.trans (List.Perm.append_right p.queue hp.symm)
  refine ⟨⟨hperm.nodup_iff.2 F.nodup, fun x hx => F.bound x (hperm.mem_iff.1 hx), ?_, ?_⟩, by omega⟩
  · show _ + (p.queue ++ [o]).length = p.made
    have := F.count
    simp only [List.length_append, List.length_singleton]
    omega
  · intro x y h
    exact F.content x y (List.mem_filter.1 h).1

theorem pool_run (ops : List (PoolOp α)) : ∀ {p : Pool α} {u w : List (Nat × α)} (_ : Fine p u) ,
    inUse u ops (p.run ops).2 = some w →
    Fine (p.run ops).1 w ∧ (p.run ops).1.made = peak u.length p.made ops := by
  induction ops with
  | nil =>
    intro p u w F h
    have h : some u = some w := h
    injection h with h
    subst h
    exact ⟨F, rfl⟩
  | cons op ops ih =>
    intro p u w F h
    cases op with
    | new x =>
      obtain ⟨F1, _, hm⟩ := fine_new F x
      have h : inUse (((p.new x).2, x) :: u) ops ((p.new x).1.run ops).2 = some w := h
      obtain ⟨F2, hk⟩ := ih F1 h
      refine ⟨F2, hk.trans ?_⟩
      rw [hm]; rfl
    | release o =>
      have h : (if o ∈ u.map (·.1) then inUse (u.filter (·.1 ≠ o)) ops ((p.release o).run ops).2 else none) = some w := h
      by_cases ho : o ∈ u.map (·.1)
      · rw [if_pos ho] at h
        obtain ⟨F1, hl⟩ := fine_release F ho
        obtain ⟨F2, hk⟩ := ih F1 h
        refine ⟨F2, hk.trans ?_⟩
        rw [hl]; rfl
      · rw [if_neg ho] at h; cases h

end Verif.Stash
