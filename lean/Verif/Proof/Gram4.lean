/-
  The nodes that can come next, and that the graph of a rule has them.
-/
import Verif.Proof.Gram3

namespace Verif.Gram.Proof

open Verif.Gram Verif.Gram.Spec

/-- A node that is not passed through: a token, a reference or the end of the rule. -/
def Leaf (T : List Node) (v : Nat) : Prop :=
  match (nodeAt T v).label with
  | .tok _ => True
  | .ref _ => True
  | .group => False
  | .stop own => (nodeAt T own).inner = false

/-- What can come first from a node on.  `av` is a node that is not passed by. -/
inductive First (T : List Node) (av : Option Nat) : Kind → Nat → Nat → Prop where
  | leaf {u} : Leaf T u → First T av .enter u u
  | group {u s v} : (nodeAt T u).label = .group → s ∈ (nodeAt T u).subnodes →
      First T av .run s v → First T av .enter u v
  | out {u own v} : (nodeAt T u).label = .stop own → (nodeAt T own).inner = true →
      First T av .after own v → First T av .enter u v
  | enter {u v} : First T av .enter u v → First T av .run u v
  | skip {u n v} : (nodeAt T u).skip = true → some u ≠ av → n ∈ (nodeAt T u).nodes →
      First T av .run n v → First T av .run u v
  | next {u n v} : n ∈ (nodeAt T u).nodes → First T av .run n v → First T av .after u v
  | again {u v} : (nodeAt T u).loop = true → First T av .enter u v → First T av .after u v

theorem First.isLeaf {T : List Node} {av : Option Nat} {k : Kind} {u v : Nat}
    (h : First T av k u v) : Leaf T v := by
  induction h with
  | leaf h => exact h
  | _ => assumption

theorem First.free {T : List Node} {av : Option Nat} {k : Kind} {u v : Nat}
    (h : First T av k u v) : First T none k u v := by
  induction h with
  | leaf h => exact .leaf h
  | group h1 h2 _ ih => exact .group h1 h2 ih
  | out h1 h2 _ ih => exact .out h1 h2 ih
  | enter _ ih => exact .enter ih
  | skip h1 _ h2 _ ih => exact .skip h1 (by simp) h2 ih
  | next h1 _ ih => exact .next h1 ih
  | again h1 _ ih => exact .again h1 ih

/-- To pass by `x` leads to what follows `x`. -/
theorem First.avoid {T : List Node} (x : Nat) {k : Kind} {u v : Nat} (h : First T none k u v) :
    First T (some x) k u v ∨ First T (some x) .after x v := by
  induction h with
  | leaf h => exact .inl (.leaf h)
  | group h1 h2 _ ih => exact ih.imp (.group h1 h2) id
  | out h1 h2 _ ih => exact ih.imp (.out h1 h2) id
  | enter _ ih => exact ih.imp .enter id
  | @skip u n v h1 _ h2 _ ih =>
    by_cases hx : u = x
    · subst hx
      rcases ih with ih | ih
      · exact .inr (.next h2 ih)
      · exact .inr ih
    · exact ih.imp (.skip h1 (by simpa using hx) h2) id
  | next h1 _ ih => exact ih.imp (.next h1) id
  | again h1 _ ih => exact ih.imp (.again h1) id

/-- What comes first from what comes first. -/
theorem First.trans' {T : List Node} {k : Kind} {u v w : Nat} (h : First T none k u v)
    (hw : First T none .run v w) :
    match k with
    | .enter => First T none .enter u w ∨ v = u
    | .run => First T none .run u w
    | .after => First T none .after u w := by
  induction h with
  | leaf _ => exact .inr rfl
  | group h1 h2 _ ih => exact .inl (.group h1 h2 (ih hw))
  | out h1 h2 _ ih => exact .inl (.out h1 h2 (ih hw))
  | enter _ ih =>
    rcases ih hw with h | rfl
    · exact .enter h
    · exact hw
  | skip h1 _ h2 _ ih => exact .skip h1 (by simp) h2 (ih hw)
  | next h1 _ ih => exact .next h1 (ih hw)
  | again h1 _ ih =>
    rcases ih hw with h | rfl
    · exact .again h1 h
    · cases hw with
      | enter h => exact .again h1 h
      | skip _ _ h2 h3 => exact .next h2 h3

/-! ## Joining -/

variable {T : List Node}

/-- What a node is followed by has not been worked out yet. -/
def Raw (T : List Node) (st : St) (y : Nat) : Prop := st.nodes y = (nodeAt T y).nodes

/-- It has been worked out. -/
def Done (T : List Node) (st : St) (y : Nat) : Prop :=
  ∀ v, v ∈ st.nodes y ↔ First T none .after y v

/-- A token or a reference. -/
def Word (T : List Node) (v : Nat) : Prop :=
  match (nodeAt T v).label with
  | .tok _ => True
  | .ref _ => True
  | _ => False

/-- What a step of joining to `x` does, where `new` are the nodes that it may add. -/
structure Step (T : List Node) (x : Nat) (new : Nat → Prop) (st st' : St) : Prop where
  other : ∀ y, y ≠ x → st'.nodes y = st.nodes y
  keeps : ∀ v, v ∈ st.nodes x → v ∈ st'.nodes x
  adds : ∀ v, v ∈ st'.nodes x → v ∈ st.nodes x ∨ new v
  seen : ∀ v, v ∈ st.seen → v ∈ st'.seen
  word : ∀ v, v ∈ st'.nodes x → Word T v → v ∈ st.nodes x ∨ v ∈ st'.seen
  queue : ∃ q, st'.queue = st.queue ++ q ∧ q.Nodup ∧ (∀ v ∈ q, v ∉ st.seen ∧ Word T v) ∧
    ∀ v, v ∈ st'.seen ↔ v ∈ st.seen ∨ v ∈ q

theorem Step.refl (x : Nat) (new : Nat → Prop) (st : St) : Step T x new st st :=
  ⟨fun _ _ => rfl, fun _ h => h, fun _ h => .inl h, fun _ h => h, fun _ h _ => .inl h,
    [], by simp, by simp, by simp, by simp⟩

theorem Step.trans {x : Nat} {new : Nat → Prop} {s1 s2 s3 : St} (h1 : Step T x new s1 s2)
    (h2 : Step T x new s2 s3) : Step T x new s1 s3 := by
  refine ⟨fun y hy => (h2.other y hy).trans (h1.other y hy),
    fun v h => h2.keeps v (h1.keeps v h), fun v h => ?_, fun v h => h2.seen v (h1.seen v h),
    fun v h hw => ?_, ?_⟩
  · rcases h2.adds v h with h | h
    · exact h1.adds v h
    · exact .inr h
  · rcases h2.word v h hw with h | h
    · exact (h1.word v h hw).imp id (h2.seen v)
    · exact .inr h
  · obtain ⟨q1, e1, n1, a1, m1⟩ := h1.queue
    obtain ⟨q2, e2, n2, a2, m2⟩ := h2.queue
    refine ⟨q1 ++ q2, by rw [e2, e1, List.append_assoc], ?_, ?_, ?_⟩
    · rw [List.nodup_append]
      refine ⟨n1, n2, fun a ha b hb hab => ?_⟩
      subst hab
      exact (a2 a hb).1 ((m1 a).mpr (.inr ha))
    · intro v hv
      rcases List.mem_append.mp hv with hv | hv
      · exact a1 v hv
      · exact ⟨fun h => (a2 v hv).1 (h1.seen v h), (a2 v hv).2⟩
    · intro v
      rw [m2, m1, List.mem_append, or_assoc]

theorem Step.weaken {x : Nat} {new new' : Nat → Prop} {st st' : St} (h : Step T x new st st')
    (hn : ∀ v, new v → new' v) : Step T x new' st st' :=
  ⟨h.other, h.keeps, fun v hv => (h.adds v hv).imp id (hn v), h.seen, h.word, h.queue⟩

theorem add_ok {pre u : Nat} {st st' : St} (h : add T pre u st = .ok st') :
    st'.queue = st.queue ∧ st'.seen = st.seen ∧ (∀ y, y ≠ pre → st'.nodes y = st.nodes y) ∧
    (∀ v, v ∈ st'.nodes pre ↔ v ∈ st.nodes pre ∨ v = u) := by
  have key : ∀ (q : St),
      q = { st with nodes := fun x => if x = pre then st.nodes pre ++ [u] else st.nodes x } →
      q.queue = st.queue ∧ q.seen = st.seen ∧
      (∀ y, y ≠ pre → q.nodes y = st.nodes y) ∧
      (∀ v, v ∈ q.nodes pre ↔ v ∈ st.nodes pre ∨ v = u) := by
    rintro q rfl
    exact ⟨rfl, rfl, fun y hy => by simp [hy], fun v => by simp⟩
  rw [add] at h
  by_cases hu : u ∈ st.nodes pre
  · rw [if_pos hu] at h
    cases h
    refine ⟨rfl, rfl, fun _ _ => rfl, fun v => ⟨.inl, ?_⟩⟩
    rintro (h | rfl)
    · exact h
    · exact hu
  · rw [if_neg hu] at h
    cases hl : (nodeAt T u).label with
    | stop o =>
      simp only [hl] at h
      split at h
      · simp at h
      · exact key st' (by cases h; rfl)
    | tok t => simp only [hl] at h; exact key st' (by cases h; rfl)
    | ref t => simp only [hl] at h; exact key st' (by cases h; rfl)
    | group => simp only [hl] at h; exact key st' (by cases h; rfl)

theorem add_step {pre u : Nat} {st st' : St} (h : add T pre u st = .ok st')
    (hw : ¬ Word T u) : Step T pre (fun v => v = u) st st' := by
  obtain ⟨h1, h2, h3, h4⟩ := add_ok h
  refine ⟨h3, fun v hv => (h4 v).mpr (.inl hv), fun v hv => (h4 v).mp hv, fun v hv => by rwa [h2],
    fun v hv hvw => ?_, [], by simp [h1], by simp, by simp, by simp [h2]⟩
  rcases (h4 v).mp hv with h | rfl
  · exact .inl h
  · exact absurd hvw hw

theorem add_push_step {pre u : Nat} {st st' : St} (h : add T pre u st = .ok st')
    (hw : Word T u) : Step T pre (fun v => v = u) st (push u st') := by
  obtain ⟨h1, h2, h3, h4⟩ := add_ok h
  rw [push]
  by_cases hs : u ∈ st'.seen
  · rw [if_pos hs]
    refine ⟨h3, fun v hv => (h4 v).mpr (.inl hv), fun v hv => (h4 v).mp hv,
      fun v hv => by rwa [h2], fun v hv hvw => ?_, [], by simp [h1], by simp, by simp, by simp [h2]⟩
    rcases (h4 v).mp hv with h | rfl
    · exact .inl h
    · exact .inr hs
  · rw [if_neg hs]
    refine ⟨h3, fun v hv => (h4 v).mpr (.inl hv), fun v hv => (h4 v).mp hv,
      fun v hv => by simp [h2, hv], fun v hv hvw => ?_, [u], by simp [h1], by simp, ?_, ?_⟩
    · rcases (h4 v).mp hv with h | rfl
      · exact .inl h
      · exact .inr (by simp)
    · intro v hv
      rw [List.mem_singleton] at hv
      subst hv
      exact ⟨by rwa [h2] at hs, hw⟩
    · intro v
      simp [h2, or_comm]

theorem joinAll_step {x : Nat} {new : Nat → Prop} {jn : Nat → St → Except Err St}
    {self : Option Nat} : ∀ (subs : List Nat) (st st' : St),
    joinAll jn self subs st = .ok st' →
    ∀ (I : St → Prop), I st → (∀ s s', I s → Step T x new s s' → I s') →
    (∀ u ∈ subs, self ≠ some u → ∀ s s', I s → jn u s = .ok s' → Step T x new s s') →
    Step T x new st st'
  | [], st, st', h, I, _, _, _ => by
    simp only [joinAll] at h
    cases h
    exact Step.refl _ _ _
  | u :: us, st, st', h, I, hI, hpres, hj => by
    rw [joinAll] at h
    by_cases hs : self = some u
    · rw [if_pos hs] at h
      exact joinAll_step us st st' h I hI hpres fun v hv => hj v (List.mem_cons_of_mem _ hv)
    · rw [if_neg hs] at h
      cases hq : jn u st with
      | error e => rw [hq] at h; simp at h
      | ok s =>
        rw [hq] at h
        simp only at h
        have h1 := hj u (by simp) hs st s hI hq
        have h2 := joinAll_step us s st' h I (hpres _ _ hI h1) hpres
          fun v hv => hj v (List.mem_cons_of_mem _ hv)
        exact h1.trans h2

/-- What is known while the nodes that follow `x` are worked out: for all others it has not been
    done or it has. -/
def Fit (T : List Node) (x : Nat) (st : St) : Prop :=
  ∀ y, y ≠ x → (nodeAt T y).inner = true → Raw T st y ∨ Done T st y

theorem Fit.step {x : Nat} {new : Nat → Prop} {s s' : St} (h : Fit T x s)
    (hs : Step T x new s s') : Fit T x s' := by
  intro y hy hin
  have he := hs.other y hy
  rcases h y hy hin with h | h
  · exact .inl (by rw [Raw, he]; exact h)
  · exact .inr (by intro v; rw [he]; exact h v)

/-- Ends are ends of groups, and nodes do not follow themselves. -/
structure Owned (T : List Node) : Prop where
  group : ∀ u own, (nodeAt T u).label = .stop own → (nodeAt T own).label = .group
  other : ∀ u, u ∉ (nodeAt T u).nodes
  skipped : ∀ u, (nodeAt T u).skip = true → (nodeAt T u).inner = true

theorem Owned.not_word (h0 : Owned T) {u own : Nat} (h : (nodeAt T u).label = .stop own) :
    ¬ Word T own := by simp [Word, h0.group u own h]

/-- The node `x` is not around others. -/
def Bare (T : List Node) (x : Nat) : Prop :=
  Word T x ∨ (nodeAt T x).inner = false

theorem Bare.ne (hx : Bare T x) (h0 : Owned T) {u own : Nat}
    (hl : (nodeAt T u).label = .stop own) (hin : (nodeAt T own).inner = true) : own ≠ x := by
  rintro rfl
  rcases hx with hx | hx
  · exact h0.not_word hl hx
  · rw [hx] at hin; simp at hin

/-- What is known while joining to `x`. -/
def Inv (T : List Node) (x : Nat) (st : St) : Prop :=
  Fit T x st ∧ ∀ y, ¬ Word T y → (nodeAt T y).inner = true → y ≠ x → Raw T st y

theorem Inv.step {x : Nat} {new : Nat → Prop} {s s' : St} (h : Inv T x s)
    (hs : Step T x new s s') : Inv T x s' :=
  ⟨h.1.step hs, fun y hy hin hyx => by rw [Raw, hs.other y hyx]; exact h.2 y hy hin hyx⟩

/-- What is joined is what can come first. -/
def Joins (T : List Node) (x : Nat) (go : Nat → St → Except Err St) : Prop :=
  ∀ u st st', Inv T x st → go u st = .ok st' → Step T x (fun v => First T none .run u v) st st'

theorem Joins.all {x : Nat} {go : Nat → St → Except Err St} (hgo : Joins T x go)
    {self : Option Nat} {subs : List Nat} {s s' : St} {new : Nat → Prop} (hI : Inv T x s)
    (hj : joinAll go self subs s = .ok s')
    (hnew : ∀ c ∈ subs, ∀ v, First T none .run c v → new v) : Step T x new s s' :=
  joinAll_step subs s s' hj (Inv T x) hI (fun _ _ hI hs => hI.step hs) fun c hc _ a b hIa hab =>
    (hgo c a b hIa hab).weaken (hnew c hc)

theorem enter_step {x : Nat} (hx : Bare T x) (h0 : Owned T) {go : Nat → St → Except Err St}
    (hgo : Joins T x go) {u : Nat} {st s : St} (hI : Inv T x st)
    (hs : joinEnter T go x u st = .ok s) : Step T x (fun v => First T none .run u v) st s := by
  rw [joinEnter] at hs
  cases hl : (nodeAt T u).label with
  | group =>
    simp only [hl] at hs
    exact hgo.all hI hs fun c hc v hv => .enter (.group hl hc hv)
  | tok t =>
    simp only [hl] at hs
    cases ha : add T x u st with
    | error e => rw [ha] at hs; simp at hs
    | ok s1 =>
      rw [ha] at hs
      simp only at hs
      cases hs
      exact (add_push_step ha (by simp [Word, hl])).weaken
        (by rintro v rfl; exact .enter (.leaf (by simp [Leaf, hl])))
  | ref t =>
    simp only [hl] at hs
    cases ha : add T x u st with
    | error e => rw [ha] at hs; simp at hs
    | ok s1 =>
      rw [ha] at hs
      simp only at hs
      cases hs
      exact (add_push_step ha (by simp [Word, hl])).weaken
        (by rintro v rfl; exact .enter (.leaf (by simp [Leaf, hl])))
  | stop own =>
    simp only [hl] at hs
    by_cases hin : (nodeAt T own).inner = true
    · rw [if_pos hin] at hs
      cases ha : joinAll go (some own) (st.nodes own) st with
      | error e => rw [ha] at hs; simp at hs
      | ok s1 =>
        rw [ha] at hs
        simp only at hs
        have h1 : Step T x (fun v => First T none .run u v) st s1 :=
          hgo.all hI ha fun c hc v hv => by
            rw [hI.2 own (h0.not_word hl) hin (hx.ne h0 hl hin)] at hc
            exact .enter (.out hl hin (.next hc hv))
        by_cases hlo : (nodeAt T own).loop = true
        · rw [if_pos hlo] at hs
          refine h1.trans (hgo.all (hI.step h1) hs fun c hc v hv => ?_)
          exact .enter (.out hl hin (.again hlo (.group (h0.group u own hl) hc hv)))
        · rw [if_neg hlo] at hs
          cases hs
          exact h1
    · rw [if_neg hin] at hs
      rw [Bool.not_eq_true] at hin
      exact (add_step hs (by simp [Word, hl])).weaken
        (by rintro v rfl; exact .enter (.leaf (by simp [Leaf, hl, hin])))

theorem join_step {x : Nat} (hx : Bare T x) (h0 : Owned T) : ∀ (n : Nat), Joins T x (join T n x)
  | 0, u, st, st', _, h => by simp [join] at h
  | n + 1, u, st, st', hI, h => by
    have ih := join_step hx h0 n
    rw [join] at h
    cases hr : joinEnter T (join T n x) x u st with
    | error e => rw [hr] at h; simp at h
    | ok s =>
      rw [hr] at h
      simp only at h
      have h1 := enter_step hx h0 ih hI hr
      by_cases hc : x ≠ u ∧ (nodeAt T u).skip = true
      · rw [if_pos hc] at h
        refine h1.trans (ih.all (hI.step h1) h fun c hcm v hv => ?_)
        rcases (hI.step h1).1 u (Ne.symm hc.1) (h0.skipped u hc.2) with hr | hd
        · rw [hr] at hcm
          exact .skip hc.2 (by simp) hcm hv
        · have := First.trans' ((hd c).mp hcm) hv
          simp only at this
          cases this with
          | next h2 h3 => exact .skip hc.2 (by simp) h2 h3
          | again _ h2 => exact .enter h2
      · rw [if_neg hc] at h
        cases h
        exact h1

/-- All are joined. -/
theorem Joins.one {x : Nat} {go : Nat → St → Except Err St} (hgo : Joins T x go)
    {self : Option Nat} {c : Nat} (hc : self ≠ some c) : ∀ {subs : List Nat} {s s' : St},
    Inv T x s → joinAll go self subs s = .ok s' → c ∈ subs →
    ∃ a b, Inv T x a ∧ go c a = .ok b ∧ ∀ v, v ∈ b.nodes x → v ∈ s'.nodes x
  | [], s, s', _, _, h => by simp at h
  | u :: us, s, s', hI, hj, h => by
    have hrest : ∀ {s1}, Inv T x s1 → joinAll go self us s1 = .ok s' →
        ∀ v, v ∈ s1.nodes x → v ∈ s'.nodes x := fun hI1 h1 v hv =>
      (hgo.all (new := fun _ => True) hI1 h1 (fun _ _ _ _ => trivial)).keeps v hv
    rw [joinAll] at hj
    by_cases hs : self = some u
    · rw [if_pos hs] at hj
      have hcu : c ≠ u := by rintro rfl; exact hc hs
      exact Joins.one hgo hc hI hj (by simpa [hcu] using h)
    · rw [if_neg hs] at hj
      cases hq : go u s with
      | error e => rw [hq] at hj; simp at hj
      | ok s1 =>
        rw [hq] at hj
        simp only at hj
        have hI1 := hI.step (hgo u s s1 hI hq)
        by_cases hcu : c = u
        · subst hcu
          exact ⟨s, s1, hI, hq, hrest hI1 hj⟩
        · exact Joins.one hgo hc hI1 hj (by simpa [hcu] using h)

theorem enter_leaf {x : Nat} {go : Nat → St → Except Err St} {u : Nat} {st s : St}
    (hu : Leaf T u) (hs : joinEnter T go x u st = .ok s) : u ∈ s.nodes x := by
  rw [joinEnter] at hs
  cases hl : (nodeAt T u).label with
  | group => simp [Leaf, hl] at hu
  | tok t =>
    simp only [hl] at hs
    cases ha : add T x u st with
    | error e => rw [ha] at hs; simp at hs
    | ok s1 =>
      rw [ha] at hs
      simp only at hs
      cases hs
      have := ((add_ok ha).2.2.2 u).mpr (.inr rfl)
      rw [push]
      split <;> exact this
  | ref t =>
    simp only [hl] at hs
    cases ha : add T x u st with
    | error e => rw [ha] at hs; simp at hs
    | ok s1 =>
      rw [ha] at hs
      simp only at hs
      cases hs
      have := ((add_ok ha).2.2.2 u).mpr (.inr rfl)
      rw [push]
      split <;> exact this
  | stop own =>
    simp only [hl] at hs
    have hin : (nodeAt T own).inner = false := by simpa [Leaf, hl] using hu
    rw [hin, if_neg (by simp)] at hs
    exact ((add_ok hs).2.2.2 u).mpr (.inr rfl)

theorem join_split {x : Nat} (hx : Bare T x) (h0 : Owned T) {n u : Nat} {st st' : St}
    (hI : Inv T x st) (h : join T n x u st = .ok st') :
    ∃ m s, n = m + 1 ∧ joinEnter T (join T m x) x u st = .ok s ∧ Inv T x s ∧
      (∀ v, v ∈ s.nodes x → v ∈ st'.nodes x) ∧
      (x ≠ u → (nodeAt T u).skip = true →
        joinAll (join T m x) (some u) (s.nodes u) s = .ok st') := by
  cases n with
  | zero => simp [join] at h
  | succ m =>
    have hst := join_step hx h0 m
    rw [join] at h
    cases hr : joinEnter T (join T m x) x u st with
    | error e => rw [hr] at h; simp at h
    | ok s =>
      rw [hr] at h
      simp only at h
      have hI1 := hI.step (enter_step hx h0 hst hI hr)
      refine ⟨m, s, rfl, hr, hI1, ?_⟩
      by_cases hc : x ≠ u ∧ (nodeAt T u).skip = true
      · rw [if_pos hc] at h
        exact ⟨(hst.all (new := fun _ => True) hI1 h (fun _ _ _ _ => trivial)).keeps, fun _ _ => h⟩
      · rw [if_neg hc] at h
        cases h
        exact ⟨fun _ h => h, fun h1 h2 => absurd ⟨h1, h2⟩ hc⟩

theorem join_has {x : Nat} (hx : Bare T x) (h0 : Owned T) {k : Kind} {u v : Nat}
    (h : First T (some x) k u v) : ∀ (n : Nat) (st st' : St), Inv T x st →
    match k with
    | .enter => joinEnter T (join T n x) x u st = .ok st' → v ∈ st'.nodes x
    | .run => join T n x u st = .ok st' → v ∈ st'.nodes x
    | .after => (nodeAt T u).label = .group → (nodeAt T u).inner = true → u ≠ x → ∀ s,
        joinAll (join T n x) (some u) (st.nodes u) st = .ok s →
        (if (nodeAt T u).loop = true then joinAll (join T n x) none (nodeAt T u).subnodes s
          else .ok s) = .ok st' → v ∈ st'.nodes x := by
  induction h with
  | leaf hl => intro n st st' _ h; exact enter_leaf hl h
  | @group u s v hl hs _ ih =>
    intro n st st' hI h
    rw [joinEnter, hl] at h
    simp only at h
    obtain ⟨a, b, hIa, hab, hk⟩ := (join_step hx h0 n).one (c := s) (by simp) hI h hs
    exact hk v (ih n a b hIa hab)
  | @out u own v hl hin _ ih =>
    intro n st st' hI h
    rw [joinEnter, hl] at h
    simp only at h
    rw [if_pos hin] at h
    cases ha : joinAll (join T n x) (some own) (st.nodes own) st with
    | error e => rw [ha] at h; simp at h
    | ok s1 =>
      rw [ha] at h
      simp only at h
      exact ih n st st' hI (h0.group u own hl) hin (hx.ne h0 hl hin) s1 ha h
  | @enter u v _ ih =>
    intro n st st' hI h
    obtain ⟨m, s, rfl, he, hI1, hk, _⟩ := join_split hx h0 hI h
    exact hk v (ih m st s hI he)
  | @skip u n' v hs hne hn hf ih =>
    intro n st st' hI h
    have hux : x ≠ u := by rintro rfl; exact hne rfl
    obtain ⟨m, s, rfl, he, hI1, hk, hall⟩ := join_split hx h0 hI h
    have hall := hall hux hs
    have hst := join_step hx h0 m
    rcases hI1.1 u (Ne.symm hux) (h0.skipped u hs) with hr | hd
    · have hn1 : n' ∈ s.nodes u := by rw [hr]; exact hn
      have hnu : (some u : Option Nat) ≠ some n' := by
        intro he; cases he; exact h0.other _ hn
      obtain ⟨a, b, hIa, hab, hk'⟩ := hst.one hnu hI1 hall hn1
      exact hk' v (ih m a b hIa hab)
    · have hv : v ∈ s.nodes u := (hd v).mpr (.next hn hf.free)
      by_cases hvu : v = u
      · subst hvu
        exact hk v (enter_leaf hf.isLeaf he)
      · obtain ⟨a, b, hIa, hab, hk'⟩ := hst.one (c := v) (by simpa using Ne.symm hvu) hI1 hall hv
        obtain ⟨_, s2, _, he2, _, hk2, _⟩ := join_split hx h0 hIa hab
        exact hk' v (hk2 v (enter_leaf hf.isLeaf he2))
  | @next u n' v hn hf ih =>
    intro n st st' hI hg hin hux s ha hb
    have hst := join_step hx h0 n
    have hr : Raw T st u := hI.2 u (by simp [Word, hg]) hin hux
    have hn1 : n' ∈ st.nodes u := by rw [hr]; exact hn
    have hnu : (some u : Option Nat) ≠ some n' := by
      intro he; cases he; exact h0.other _ hn
    obtain ⟨a, b, hIa, hab, hk⟩ := hst.one hnu hI ha hn1
    have hv := hk v (ih n a b hIa hab)
    by_cases hlo : (nodeAt T u).loop = true
    · rw [if_pos hlo] at hb
      have hI1 := hI.step (hst.all (new := fun _ => True) hI ha (fun _ _ _ _ => trivial))
      exact (hst.all (new := fun _ => True) hI1 hb (fun _ _ _ _ => trivial)).keeps v hv
    · rw [if_neg hlo] at hb
      cases hb
      exact hv
  | @again u v hlo hf ih =>
    intro n st st' hI hg hin hux s ha hb
    have hst := join_step hx h0 n
    have hI1 := hI.step (hst.all (new := fun _ => True) hI ha (fun _ _ _ _ => trivial))
    rw [if_pos hlo] at hb
    refine ih n s st' hI1 ?_
    rw [joinEnter, hg]
    exact hb

/-! ## The queue -/

/-- What is known between the nodes of the queue. -/
structure Good (T : List Node) (st : St) : Prop where
  nodup : st.queue.Nodup
  queued : ∀ y ∈ st.queue, y ∈ st.seen
  word : ∀ y ∈ st.seen, Word T y
  raw : ∀ y, (nodeAt T y).inner = true → y ∉ st.seen ∨ y ∈ st.queue → Raw T st y
  done : ∀ y ∈ st.seen, y ∉ st.queue →
    Done T st y ∧ ∀ v ∈ st.nodes y, Word T v → v ∈ st.seen
  first : ∀ v, v ∈ st.nodes 0 ↔ ∃ s ∈ (nodeAt T 0).subnodes, First T none .run s v
  starts : ∀ v ∈ st.nodes 0, Word T v → v ∈ st.seen

theorem exchangeNode_good {n x : Nat} {q : List Nat} {st st' : St} (h0 : Owned T)
    (hroot : ¬ Word T 0) (hin : ∀ y, Word T y → (nodeAt T y).inner = true) (hg : Good T st)
    (hq : st.queue = x :: q)
    (h : exchangeNode T n x { st with queue := q } = .ok st') : Good T st' := by
  have hxs : x ∈ st.seen := hg.queued x (by simp [hq])
  have hxw : Word T x := hg.word x hxs
  have hx : Bare T x := .inl hxw
  have hx0 : x ≠ 0 := by rintro rfl; exact hroot hxw
  have hxraw : Raw T st x := hg.raw x (hin x hxw) (.inr (by simp [hq]))
  have hnd : x ∉ q ∧ q.Nodup := by
    have := hg.nodup
    rw [hq] at this
    exact List.nodup_cons.mp this
  have hst := join_step hx h0 n
  rw [exchangeNode] at h
  simp only at h
  generalize hs0 : ({ st with queue := q, nodes := fun y => if y = x then [] else st.nodes y } : St)
    = s0 at h
  have hs0n : ∀ y, y ≠ x → s0.nodes y = st.nodes y := by intro y hy; subst hs0; simp [hy]
  have hs0x : s0.nodes x = [] := by subst hs0; simp
  have hs0q : s0.queue = q := by subst hs0; rfl
  have hs0s : s0.seen = st.seen := by subst hs0; rfl
  have hI : Inv T x s0 := by
    refine ⟨fun y hy hyi => ?_, fun y hw hyi hy => ?_⟩
    · by_cases hc : y ∉ st.seen ∨ y ∈ st.queue
      · exact .inl (by rw [Raw, hs0n y hy]; exact hg.raw y hyi hc)
      · have hc1 : y ∈ st.seen := Classical.byContradiction fun h => hc (.inl h)
        have hc2 : y ∉ st.queue := fun h => hc (.inr h)
        exact .inr (by intro v; rw [hs0n y hy]; exact (hg.done y hc1 hc2).1 v)
    · rw [Raw, hs0n y hy]
      exact hg.raw y hyi (.inl fun h => hw (hg.word y h))
  cases hj : joinAll (join T n x) none (st.nodes x) s0 with
  | error e => rw [hj] at h; simp at h
  | ok s1 =>
    rw [hj] at h
    simp only at h
    rw [hxraw] at hj
    have h1 : Step T x (fun v => First T none .after x v) s0 s1 :=
      hst.all hI hj fun c hc v hv => .next hc hv
    have hI1 := hI.step h1
    have h2 : Step T x (fun v => First T none .after x v) s1 st' := by
      by_cases hlo : (nodeAt T x).loop = true
      · rw [if_pos hlo] at h
        refine (hst x s1 st' hI1 h).weaken fun v hv => ?_
        cases hv with
        | enter hv => exact .again hlo hv
        | skip _ _ hn hv => exact .next hn hv
      · rw [if_neg hlo] at h
        cases h
        exact Step.refl _ _ _
    have h12 := h1.trans h2
    have hdone : Done T st' x := by
      intro v
      constructor
      · intro hv
        rcases h12.adds v hv with hv | hv
        · rw [hs0x] at hv; simp at hv
        · exact hv
      · intro hv
        have hv : First T (some x) .after x v := (First.avoid x hv).elim id id
        cases hv with
        | next hn hv =>
          obtain ⟨a, b, hIa, hab, hk⟩ := hst.one (self := none) (by simp) hI hj hn
          exact h2.keeps v (hk v (join_has hx h0 hv n a b hIa hab))
        | again hlo hv =>
          rw [if_pos hlo] at h
          obtain ⟨m, s, rfl, he, _, hk, _⟩ := join_split hx h0 hI1 h
          exact hk v (join_has hx h0 hv m s1 s hI1 he)
    obtain ⟨p, hp1, hp2, hp3, hp4⟩ := h12.queue
    rw [hs0q] at hp1
    rw [hs0s] at hp3
    have hp4' : ∀ v, v ∈ st'.seen ↔ v ∈ st.seen ∨ v ∈ p := by rw [← hs0s]; exact hp4
    have hxp : x ∉ p := fun h => (hp3 x h).1 hxs
    have hxq' : x ∉ st'.queue := by
      rw [hp1]; simp only [List.mem_append]; rintro (h | h)
      · exact hnd.1 h
      · exact hxp h
    have hother : ∀ y, y ≠ x → st'.nodes y = st.nodes y := fun y hy => by
      rw [h12.other y hy, hs0n y hy]
    refine ⟨?_, ?_, ?_, ?_, ?_, ?_, ?_⟩
    · rw [hp1, List.nodup_append]
      refine ⟨hnd.2, hp2, fun a ha b hb hab => ?_⟩
      subst hab
      exact (hp3 a hb).1 (hg.queued a (by simp [hq, ha]))
    · intro y hy
      rw [hp1, List.mem_append] at hy
      rw [hp4']
      rcases hy with hy | hy
      · exact .inl (hg.queued y (by simp [hq, hy]))
      · exact .inr hy
    · intro y hy
      rcases (hp4' y).mp hy with hy | hy
      · exact hg.word y hy
      · exact (hp3 y hy).2
    · intro y hyi hy
      have hyx : y ≠ x := by
        rintro rfl
        rcases hy with hy | hy
        · exact hy ((hp4' y).mpr (.inl hxs))
        · exact hxq' hy
      rw [Raw, hother y hyx]
      apply hg.raw y hyi
      rcases hy with hy | hy
      · exact .inl fun h => hy ((hp4' y).mpr (.inl h))
      · rw [hp1, List.mem_append] at hy
        rcases hy with hy | hy
        · exact .inr (by simp [hq, hy])
        · exact .inl (hp3 y hy).1
    · intro y hys hyq
      by_cases hyx : y = x
      · subst hyx
        refine ⟨hdone, fun v hv hw => ?_⟩
        rcases h12.word v hv hw with h | h
        · rw [hs0x] at h; simp at h
        · exact h
      · have hyp : y ∉ p := fun h => hyq (by rw [hp1]; simp [h])
        have hys' : y ∈ st.seen := by
          rcases (hp4' y).mp hys with h | h
          · exact h
          · exact absurd h hyp
        have hyq' : y ∉ st.queue := by
          rw [hq]
          simp only [List.mem_cons]
          rintro (h | h)
          · exact hyx h
          · exact hyq (by rw [hp1]; simp [h])
        obtain ⟨hd, hw⟩ := hg.done y hys' hyq'
        rw [hother y hyx]
        exact ⟨by intro v; rw [hother y hyx]; exact hd v,
          fun v hv hvw => (hp4' v).mpr (.inl (hw v hv hvw))⟩
    · rw [hother 0 (Ne.symm hx0)]
      exact hg.first
    · rw [hother 0 (Ne.symm hx0)]
      exact fun v hv hw => (hp4' v).mpr (.inl (hg.starts v hv hw))

theorem drain_good {n : Nat} (h0 : Owned T) (hroot : ¬ Word T 0)
    (hin : ∀ y, Word T y → (nodeAt T y).inner = true) : ∀ (m : Nat) (st st' : St), Good T st →
    drain T n m st = .ok st' → Good T st' ∧ st'.queue = []
  | 0, st, st', hg, h => by
    rw [drain] at h
    by_cases hq : st.queue = []
    · rw [if_pos hq] at h; cases h; exact ⟨hg, hq⟩
    · rw [if_neg hq] at h; simp at h
  | m + 1, st, st', hg, h => by
    rw [drain] at h
    cases hq : st.queue with
    | nil => rw [hq] at h; simp only at h; cases h; exact ⟨hg, hq⟩
    | cons x q =>
      rw [hq] at h
      simp only at h
      cases hx : exchangeNode T n x { st with queue := q } with
      | error e => rw [hx] at h; simp at h
      | ok s =>
        rw [hx] at h
        simp only at h
        exact drain_good h0 hroot hin m s st' (exchangeNode_good h0 hroot hin hg hq hx) h

/-- What is known of the table of a rule. -/
structure Table (T : List Node) : Prop where
  owned : Owned T
  root : (nodeAt T 0).label = .group
  noskip : (nodeAt T 0).skip = false
  noloop : (nodeAt T 0).loop = false
  nonodes : (nodeAt T 0).nodes = []
  outer : (nodeAt T 0).inner = false
  inner : ∀ y, y ≠ 0 → (nodeAt T y).inner = true

/-- The graph has the nodes that can come first and next. -/
structure Right' (T : List Node) (g : Graph) : Prop where
  label : ∀ u, g.label u = (nodeAt T u).label
  first : ∀ v, v ∈ g.start ↔ ∃ s ∈ (nodeAt T 0).subnodes, First T none .run s v
  next : ∀ y ∈ g.nodes, ∀ v, v ∈ g.next y ↔ First T none .after y v
  word : ∀ y ∈ g.nodes, Word T y
  starts : ∀ v ∈ g.start, Word T v → v ∈ g.nodes
  closed : ∀ y ∈ g.nodes, ∀ v ∈ g.next y, Word T v → v ∈ g.nodes

theorem exchange_right {n : Nat} {g : Graph} (hT : Table T) (h : exchange T n = .ok g) :
    Right' T g := by
  have h0 := hT.owned
  have hroot : ¬ Word T 0 := by simp [Word, hT.root]
  have hx : Bare T 0 := .inr hT.outer
  have hin : ∀ y, Word T y → (nodeAt T y).inner = true := fun y hy =>
    hT.inner y (by rintro rfl; exact hroot hy)
  rw [exchange] at h
  generalize hs0 : (⟨fun y => (nodeAt T y).nodes, [], []⟩ : St) = s0 at h
  have hraw : ∀ y, Raw T s0 y := by intro y; subst hs0; rfl
  have hI : Inv T 0 s0 := ⟨fun y _ _ => .inl (hraw y), fun y _ _ _ => hraw y⟩
  have hst := join_step hx h0 n
  cases hj : joinAll (join T n 0) none (nodeAt T 0).subnodes s0 with
  | error e => rw [hj] at h; simp at h
  | ok s1 =>
    rw [hj] at h
    simp only at h
    have h1 : Step T 0 (fun v => ∃ s ∈ (nodeAt T 0).subnodes, First T none .run s v) s0 s1 :=
      hst.all hI hj fun c hc v hv => ⟨c, hc, hv⟩
    have hempty : s0.nodes 0 = [] := by rw [hraw 0]; exact hT.nonodes
    have hq0 : s0.queue = [] := by subst hs0; rfl
    have hs0' : s0.seen = [] := by subst hs0; rfl
    obtain ⟨p, hp1, hp2, hp3, hp4⟩ := h1.queue
    rw [hq0, List.nil_append] at hp1
    have hp4' : ∀ v, v ∈ s1.seen ↔ v ∈ p := by
      intro v; rw [hp4, hs0']; simp
    have hg : Good T s1 := by
      refine ⟨by rw [hp1]; exact hp2, fun y hy => by rw [hp4', ← hp1]; exact hy,
        fun y hy => (hp3 y ((hp4' y).mp hy)).2, fun y hyi _ => ?_, fun y hy hyq => ?_,
        fun v => ⟨fun hv => ?_, ?_⟩, fun v hv hw => ?_⟩
      · have hy0 : y ≠ 0 := by rintro rfl; rw [hT.outer] at hyi; simp at hyi
        rw [Raw, h1.other y hy0]; exact hraw y
      · rw [hp1] at hyq
        exact absurd ((hp4' y).mp hy) hyq
      · rcases h1.adds v hv with hv | hv
        · rw [hempty] at hv; simp at hv
        · exact hv
      · rintro ⟨s, hs, hv⟩
        obtain ⟨a, b, hIa, hab, hk⟩ := hst.one (self := none) (by simp) hI hj hs
        apply hk v
        have hv' : First T (some 0) .run s v := by
          rcases First.avoid 0 hv with hv | hv
          · exact hv
          · exfalso
            cases hv with
            | next hn _ => rw [hT.nonodes] at hn; simp at hn
            | again hlo _ => rw [hT.noloop] at hlo; simp at hlo
        exact join_has hx h0 hv' n a b hIa hab
      · rcases h1.word v hv hw with h | h
        · rw [hempty] at h; simp at h
        · exact h
    cases hd : drain T n T.length s1 with
    | error e => rw [hd] at h; simp at h
    | ok s2 =>
      rw [hd] at h
      simp only at h
      cases h
      obtain ⟨hg2, hq2⟩ := drain_good h0 hroot hin _ _ _ hg hd
      refine ⟨fun _ => rfl, hg2.first, fun y hy => ?_, fun y hy => ?_, fun v hv hw => ?_,
        fun y hy => ?_⟩
      · exact (hg2.done y (by simpa using hy) (by rw [hq2]; simp)).1
      · exact hg2.word y (by simpa using hy)
      · simpa using hg2.starts v hv hw
      · intro v hv hw
        simpa using (hg2.done y (by simpa using hy) (by rw [hq2]; simp)).2 v hv hw

end Verif.Gram.Proof
