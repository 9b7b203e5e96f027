import Verif.Spec.Member

namespace Verif.Member.Proof

open Verif.Member Verif.Member.Spec

/-! ## One type -/

theorem last_some {k n ms m} (h : lastNamed k n ms = some m) : m ∈ ms ∧ m.kind = k ∧ m.name = n := by
  have := List.mem_of_getLast? h
  simpa using this

theorem last_none {k n ms} (h : lastNamed k n ms = none) : ∀ m ∈ ms, m.name = n → m.kind ≠ k := by
  intro m hm hn hk
  have := List.getLast?_eq_none_iff.1 h
  have h2 : m ∈ ms.filter fun m => m.kind == k && m.name == n := by simp [hm, hn, hk]
  rw [this] at h2
  cases h2

theorem nested_some {n ms m} (h : nestedNamed n ms = some m) :
    m ∈ ms ∧ m.kind = .type ∧ m.name = n ∧ m.gcount = 0 := by
  have := List.mem_of_head? h
  simpa [and_assoc] using this

theorem nested_none {n ms} (h : nestedNamed n ms = none) :
    ∀ m ∈ ms, m.name = n → m.kind = .type → m.gcount ≠ 0 := by
  intro m hm hn hk hg
  have := List.head?_eq_none_iff.1 h
  have h2 : m ∈ ms.filter fun m => m.kind == .type && m.name == n && m.gcount == 0 := by simp [hm, hn, hk, hg]
  rw [this] at h2
  cases h2

theorem one_nothing {l} (h : oneMethod l = .nothing) : l = [] := by
  match l, h with
  | [], _ => rfl
  | [_], h => cases h
  | _ :: _ :: _, h => cases h

theorem one_one {l m} (h : oneMethod l = .one m) : l = [m] := by
  match l, h with
  | [_], h => injection h with h; rw [h]
  | [], h => cases h
  | _ :: _ :: _, h => cases h

theorem one_conflict {l} (h : oneMethod l = .conflict) : ∃ a b r, l = a :: b :: r := by
  match l, h with
  | [_], h => cases h
  | [], h => cases h
  | a :: b :: r, _ => exact ⟨a, b, r, rfl⟩

theorem method_one {n ms m} (h : methodNamed n ms = .one m) : m ∈ ms ∧ m.kind = .method ∧ m.name = n := by
  unfold methodNamed at h
  split at h
  · have := one_one h
    have h2 : m ∈ ms.filter fun m => m.kind == .method && m.name == n && m.gcount != 0 := by rw [this]; simp
    simp at h2
    exact ⟨h2.1, h2.2.1.1, h2.2.1.2⟩
  · have := one_one h
    have h2 : m ∈ ms.filter fun m => m.kind == .method && m.name == n && m.gcount == 0 := by rw [this]; simp
    simp at h2
    exact ⟨h2.1, h2.2.1.1, h2.2.1.2⟩

theorem method_nothing {n ms} (h : methodNamed n ms = .nothing) : ∀ m ∈ ms, m.name = n → m.kind ≠ .method := by
  intro m hm hn hk
  unfold methodNamed at h
  split at h
  · rename_i he
    have h1 := one_nothing h
    by_cases hg : m.gcount = 0
    · have : m ∈ ms.filter fun m => m.kind == .method && m.name == n && m.gcount == 0 := by simp [hm, hn, hk, hg]
      rw [he] at this
      cases this
    · have : m ∈ ms.filter fun m => m.kind == .method && m.name == n && m.gcount != 0 := by simp [hm, hn, hk, hg]
      rw [h1] at this
      cases this
  · rename_i hne
    exact hne (one_nothing h)

theorem two_of {p : Member → Bool} {ms : List Member} {a b r} (hnd : ms.Nodup) (h : ms.filter p = a :: b :: r) :
    a ∈ ms ∧ b ∈ ms ∧ p a = true ∧ p b = true ∧ a ≠ b := by
  have hn : (ms.filter p).Nodup := hnd.filter p
  have ha : a ∈ ms.filter p := by rw [h]; simp
  have hb : b ∈ ms.filter p := by rw [h]; simp
  rw [h] at hn
  refine ⟨(List.mem_filter.1 ha).1, (List.mem_filter.1 hb).1, (List.mem_filter.1 ha).2, (List.mem_filter.1 hb).2, ?_⟩
  intro hab
  rw [hab] at hn
  simp at hn

theorem method_conflict {n ms} (hnd : ms.Nodup) (h : methodNamed n ms = .conflict) :
    ∃ a b, a ∈ ms ∧ b ∈ ms ∧ a ≠ b ∧ a.name = n ∧ b.name = n ∧ a.kind = .method ∧ b.kind = .method := by
  unfold methodNamed at h
  split at h
  · obtain ⟨a, b, r, e⟩ := one_conflict h
    obtain ⟨ha, hb, pa, pb, hab⟩ := two_of hnd e
    simp at pa pb
    exact ⟨a, b, ha, hb, hab, pa.1.2, pb.1.2, pa.1.1, pb.1.1⟩
  · obtain ⟨a, b, r, e⟩ := one_conflict h
    obtain ⟨ha, hb, pa, pb, hab⟩ := two_of hnd e
    simp at pa pb
    exact ⟨a, b, ha, hb, hab, pa.1.2, pb.1.2, pa.1.1, pb.1.1⟩

theorem own_one {W t n m} (h : own W t n = .one m) : Declares W all t n m := by
  unfold own at h
  split at h
  · injection h with h; subst h; rename_i h
    have := last_some h
    exact ⟨this.1, this.2.2, fun e => by (rw [this.2.1] at e; cases e), trivial⟩
  split at h
  · injection h with h; subst h; rename_i h
    have := last_some h
    exact ⟨this.1, this.2.2, fun e => by (rw [this.2.1] at e; cases e), trivial⟩
  split at h
  · injection h with h; subst h; rename_i h
    have := last_some h
    exact ⟨this.1, this.2.2, fun e => by (rw [this.2.1] at e; cases e), trivial⟩
  split at h
  · injection h with h; subst h; rename_i h
    have := last_some h
    exact ⟨this.1, this.2.2, fun e => by (rw [this.2.1] at e; cases e), trivial⟩
  split at h
  · injection h with h; subst h; rename_i h
    have := nested_some h
    exact ⟨this.1, this.2.2.1, fun _ => this.2.2.2, trivial⟩
  have := method_one h
  exact ⟨this.1, this.2.2, fun e => by (rw [this.2.1] at e; cases e), trivial⟩

theorem own_nothing {W t n} (h : own W t n = .nothing) : ∀ m, ¬ Declares W all t n m := by
  intro m hm
  obtain ⟨h1, h2, h3, _⟩ := hm
  unfold own at h
  split at h
  · cases h
  split at h
  · cases h
  split at h
  · cases h
  split at h
  · cases h
  split at h
  · cases h
  rename_i hf _ hp _ he _ hd _ hn
  cases hk : m.kind
  · exact last_none hf m h1 h2 hk
  · exact last_none hp m h1 h2 hk
  · exact last_none he m h1 h2 hk
  · exact last_none hd m h1 h2 hk
  · exact nested_none hn m h1 h2 hk (h3 hk)
  · exact method_nothing h m h1 h2 hk

theorem own_conflict {W t n} (hnd : (W.members t).Nodup) (h : own W t n = .conflict) :
    ∃ a b, Declares W all t n a ∧ Declares W all t n b ∧ a ≠ b ∧ a.kind = .method ∧ b.kind = .method := by
  unfold own at h
  split at h
  · cases h
  split at h
  · cases h
  split at h
  · cases h
  split at h
  · cases h
  split at h
  · cases h
  obtain ⟨a, b, ha, hb, hab, na, nb, ka, kb⟩ := method_conflict hnd h
  refine ⟨a, b, ⟨ha, na, ?_, trivial⟩, ⟨hb, nb, ?_, trivial⟩, hab, ka, kb⟩
  · intro e; rw [ka] at e; cases e
  · intro e; rw [kb] at e; cases e

/-! ## The whole tower -/

/-- What a lookup in `t` may answer. -/
def Right (W : World) (t n : Nat) : Found → Prop
  | .nothing => ∀ m, ¬ Has W all t n m
  | .one m => Has W all t n m
  | .conflict => ∃ a b, Has W all t n a ∧ Has W all t n b ∧ a ≠ b ∧ a.kind = .method ∧ b.kind = .method

theorem right_own {W rank t n} (T : Tower W rank) (h : own W t n ≠ .nothing) : Right W t n (own W t n) := by
  cases e : own W t n with
  | nothing => exact absurd e h
  | one m => exact .own (own_one e)
  | conflict =>
    obtain ⟨a, b, ha, hb, r⟩ := own_conflict (T.nodup t) e
    exact ⟨a, b, .own ha, .own hb, r⟩

theorem right_base {W t n b f} (hn : own W t n = .nothing) (hi : W.iface t = false) (hb : W.base t = some b)
    (h : Right W b n f) : Right W t n f := by
  have hd := own_nothing hn
  cases f with
  | nothing =>
    intro m hm
    cases hm with
    | own h => exact hd _ h
    | base _ _ hb' h' => rw [hb] at hb'; injection hb' with e; subst e; exact h m h'
    | super _ hi' => rw [hi] at hi'; cases hi'
  | one m => exact .base hd hi hb h
  | conflict =>
    obtain ⟨a, c, ha, hc, r⟩ := h
    exact ⟨a, c, .base hd hi hb ha, .base hd hi hb hc, r⟩

theorem right_top {W t n} (hn : own W t n = .nothing) (hi : W.iface t = false) (hb : W.base t = none) :
    Right W t n .nothing := by
  intro m hm
  cases hm with
  | own h => exact own_nothing hn _ h
  | base _ _ hb' h' => rw [hb] at hb'; cases hb'
  | super _ hi' => rw [hi] at hi'; cases hi'

theorem inBases_right {W rank n} (T : Tower W rank) : ∀ (k : Nat) (walked : List Nat) (t : Nat),
    W.iface t = false → rank t < k → (∀ w ∈ walked, rank t < rank w) →
    Right W t n (inBases W n k walked (some t)) := by
  intro k
  induction k with
  | zero => intro _ _ _ h; cases h
  | succ k ih =>
    intro walked t hi hk hw
    have hnw : t ∉ walked := fun h => Nat.lt_irrefl _ (hw t h)
    rw [inBases, if_neg hnw]
    cases e : own W t n with
    | nothing =>
      dsimp only
      cases hb : W.base t with
      | none =>
        have : inBases W n k (t :: walked) none = .nothing := by cases k <;> rfl
        rw [this]
        exact right_top e hi hb
      | some b =>
        have hr := T.base t b hb
        refine right_base e hi hb (ih _ b (T.classes t b hi hb) (by omega) ?_)
        intro w hw'
        rcases List.mem_cons.1 hw' with h | h
        · subst h; exact hr
        · exact Nat.lt_trans hr (hw w h)
    | one m => have := right_own (n := n) (t := t) T (by rw [e]; intro h; cases h); rwa [e] at this
    | conflict => have := right_own (n := n) (t := t) T (by rw [e]; intro h; cases h); rwa [e] at this

theorem class_right {W rank n t} (T : Tower W rank) (hi : W.iface t = false) :
    Right W t n (getMember W t n) := by
  unfold getMember
  rw [if_neg (by simp [hi])]
  cases e : own W t n with
  | nothing =>
    dsimp only
    cases hb : W.base t with
    | none =>
      have : inBases W n W.height [t] none = .nothing := by cases W.height <;> rfl
      rw [this]
      exact right_top e hi hb
    | some b =>
      refine right_base e hi hb (inBases_right T _ _ b (T.classes t b hi hb) (T.below b) ?_)
      intro w hw
      rcases List.mem_cons.1 hw with h | h
      · subst h; exact T.base _ _ hb
      · cases h
  | one m => have := right_own (n := n) (t := t) T (by rw [e]; intro h; cases h); rwa [e] at this
  | conflict => have := right_own (n := n) (t := t) T (by rw [e]; intro h; cases h); rwa [e] at this

/-- A set of interfaces, all but those of `open_` done: they declare nothing and all above is in the set. -/
def Done (W : World) (n : Nat) (before after : List Nat) : Prop :=
  (∀ x ∈ before, x ∈ after) ∧
  ∀ x ∈ after, x ∉ before → own W x n = .nothing ∧ ∀ s ∈ W.supers x, s ∈ after

theorem Done.refl {W n l} : Done W n l l := ⟨fun _ h => h, fun _ h h' => absurd h h'⟩

theorem Done.trans {W n a b c} (h : Done W n a b) (h' : Done W n b c) : Done W n a c := by
  refine ⟨fun x hx => h'.1 x (h.1 x hx), ?_⟩
  intro x hx hna
  by_cases hb : x ∈ b
  · obtain ⟨h1, h2⟩ := h.2 x hb hna
    exact ⟨h1, fun s hs => h'.1 s (h2 s hs)⟩
  · exact h'.2 x hx hb

theorem visit_spec {W rank n} (T : Tower W rank) : ∀ (k t : Nat) (walked : List Nat),
    W.iface t = true → rank t < k →
    (∀ w', inInterface W n k t walked = (.nothing, w') → Done W n walked w' ∧ t ∈ w') ∧
    (∀ f w', inInterface W n k t walked = (f, w') → f ≠ .nothing → Right W t n f) := by
  intro k
  induction k with
  | zero => intro _ _ _ h; cases h
  | succ k ih =>
    intro t walked hi hk
    rw [inInterface]
    by_cases hw : t ∈ walked
    · rw [if_pos hw]
      refine ⟨?_, ?_⟩
      · intro w' h
        injection h with _ h
        subst h
        exact ⟨Done.refl, hw⟩
      · intro f w' h hf
        injection h with h _
        exact absurd h.symm hf
    · rw [if_neg hw]
      cases e : own W t n with
      | nothing =>
        dsimp only
        have hd := own_nothing e
        have key : ∀ (ss walked : List Nat), (∀ s ∈ ss, s ∈ W.supers t) →
            (∀ w', eachSuper (inInterface W n k) ss walked = (.nothing, w') →
              Done W n walked w' ∧ ∀ s ∈ ss, s ∈ w') ∧
            (∀ f w', eachSuper (inInterface W n k) ss walked = (f, w') → f ≠ .nothing → Right W t n f) := by
          intro ss
          induction ss with
          | nil =>
            intro walked _
            refine ⟨?_, ?_⟩
            · intro w' h
              injection h with _ h
              subst h
              exact ⟨Done.refl, by simp⟩
            · intro f w' h hf
              injection h with h _
              exact absurd h.symm hf
          | cons s ss ihs =>
            intro walked hsub
            have hs := hsub s (by simp)
            obtain ⟨v1, v2⟩ := ih s walked (T.ifaces t s hi hs) (by have := T.super t s hs; omega)
            rw [eachSuper]
            cases ev : inInterface W n k s walked with
            | mk f w =>
              cases f with
              | nothing =>
                dsimp only
                obtain ⟨d1, d2⟩ := v1 w ev
                obtain ⟨i1, i2⟩ := ihs w (fun x hx => hsub x (by simp [hx]))
                refine ⟨?_, i2⟩
                intro w' h
                obtain ⟨d3, d4⟩ := i1 w' h
                refine ⟨d1.trans d3, ?_⟩
                intro x hx
                rcases List.mem_cons.1 hx with hx | hx
                · subst hx; exact d3.1 _ d2
                · exact d4 x hx
              | one m =>
                dsimp only
                refine ⟨fun w' h => by (injection h with h _; cases h), ?_⟩
                intro f w' h hf
                injection h with h _
                subst h
                exact .super hd hi hs (v2 _ _ ev hf)
              | conflict =>
                dsimp only
                refine ⟨fun w' h => by (injection h with h _; cases h), ?_⟩
                intro f w' h hf
                injection h with h _
                subst h
                obtain ⟨a, b, ha, hb, r⟩ := v2 _ _ ev hf
                exact ⟨a, b, .super hd hi hs ha, .super hd hi hs hb, r⟩
        obtain ⟨k1, k2⟩ := key (W.supers t) (t :: walked) (fun _ h => h)
        refine ⟨?_, k2⟩
        intro w' h
        obtain ⟨d1, d2⟩ := k1 w' h
        refine ⟨⟨fun x hx => d1.1 x (by simp [hx]), ?_⟩, d1.1 t (by simp)⟩
        intro x hx hnx
        by_cases hxt : x = t
        · subst hxt
          exact ⟨e, d2⟩
        · exact d1.2 x hx (by simp [hxt, hnx])
      | one m =>
        dsimp only
        refine ⟨fun w' h => by (injection h with h _; cases h), ?_⟩
        intro f w' h hf
        injection h with h _
        subst h
        have := right_own (n := n) (t := t) T (by rw [e]; intro h; cases h); rwa [e] at this
      | conflict =>
        dsimp only
        refine ⟨fun w' h => by (injection h with h _; cases h), ?_⟩
        intro f w' h hf
        injection h with h _
        subst h
        have := right_own (n := n) (t := t) T (by rw [e]; intro h; cases h); rwa [e] at this

theorem none_above {W rank n w} (T : Tower W rank) (hd : Done W n [] w) {t m} (h : Has W all t n m) :
    W.iface t = true → t ∈ w → False := by
  induction h with
  | own h => intro _ ht; exact own_nothing (hd.2 _ ht (by simp)).1 _ h
  | base _ hi => intro hi'; rw [hi] at hi'; cases hi'
  | super _ _ hs _ ih => intro hi ht; exact ih hd (T.ifaces _ _ hi hs) ((hd.2 _ ht (by simp)).2 _ hs)

theorem get_right {W rank n t} (T : Tower W rank) : Right W t n (getMember W t n) := by
  cases hi : W.iface t with
  | false => exact class_right T hi
  | true =>
    unfold getMember
    rw [if_pos hi]
    obtain ⟨v1, v2⟩ := visit_spec (n := n) T W.height t [] hi (T.below t)
    cases e : inInterface W n W.height t [] with
    | mk f w =>
      by_cases hf : f = .nothing
      · subst hf
        obtain ⟨d, ht⟩ := v1 w e
        intro m hm
        exact none_above T d hm hi ht
      · exact v2 f w e hf

/-! ## Expressions -/

theorem has_see {W see t n m} (h : Has W all t n m) (hs : see m) : Has W see t n m := by
  induction h with
  | own h => exact .own ⟨h.1, h.2.1, h.2.2.1, hs⟩
  | base hd hi hb _ ih => exact .base (fun m' h => hd m' ⟨h.1, h.2.1, h.2.2.1, trivial⟩) hi hb (ih hs)
  | super hd hi hb _ ih => exact .super (fun m' h => hd m' ⟨h.1, h.2.1, h.2.2.1, trivial⟩) hi hb (ih hs)

theorem has_open {W see t n m} (h : Has W see t n m) : see m := by
  induction h with
  | own h => exact h.2.2.2
  | base _ _ _ _ ih => exact ih
  | super _ _ _ _ ih => exact ih

theorem get_exact {W rank cur t n m} (T : Tower W rank) (hU : Unhidden W cur) (h : Has W (open_ W cur) t n m)
    (hu : ∀ m', Has W (open_ W cur) t n m' → m' = m) : getMember W t n = .one m := by
  have hr := get_right (n := n) (t := t) T
  have hiff := hU t n m h
  cases e : getMember W t n with
  | nothing => rw [e] at hr; exact absurd ((hiff m).2 h) (hr m)
  | one m' => rw [e] at hr; rw [hu m' ((hiff m').1 hr)]
  | conflict =>
    rw [e] at hr
    obtain ⟨a, b, ha, hb, hab, _⟩ := hr
    exact absurd ((hu a ((hiff a).1 ha)).trans (hu b ((hiff b).1 hb)).symm) hab

theorem type_eq (E : Env) (r : Node) : r.type E.ret = typeOf E r := by
  cases r <;> first | rfl | (rename_i v _; cases v <;> rfl)

theorem types_eq (E : Env) : (rs : Nodes) → rs.types E.ret = typesOf E rs
  | .nil => rfl
  | .cons r rs => by rw [Nodes.types, typesOf, type_eq, types_eq E rs]

theorem novar {E : Env} {n : Nat} : hijacker E n = none ↔ NoVariable E n := by
  unfold hijacker NoVariable
  constructor
  · intro h
    split at h
    · cases h
    · rename_i m hm
      split at h
      · rename_i hk; exact .inr ⟨m, hm, hk⟩
      · cases h
    · rename_i hn; exact .inl hn
  · rintro (h | ⟨m, h, hk⟩)
    · rw [h]
    · rw [h]; simp [hk]

theorem hijacked {E : Env} {n : Nat} {v : Entity} (h : hijacker E n = some v) :
    E.scope n = some v ∧ ∀ m, v = .member m → m.kind ≠ .method := by
  unfold hijacker at h
  split at h
  · rename_i hx; injection h with h; subst h; exact ⟨hx, by intro m h; cases h⟩
  · rename_i m hm
    split at h
    · cases h
    · rename_i hk; injection h with h; subst h
      exact ⟨hm, by intro m' h; injection h with h; subst h; exact hk⟩
  · cases h

section
variable {E : Env} {rank : Nat → Nat}

mutual

theorem walked (T : Tower E.W rank) (hU : Unhidden E.W E.cur) {e : Exp} {r : Node} (h : Means E e r) :
    Unshadowed E e → walk E e = .ok r := by
  cases h with
  | lit t => intro _; rfl
  | local_ hx => intro _; simp [walk, hx]
  | plain hx hk hs => intro _; simp [walk, hx]
  | type hx ht => intro _; simp [walk, hx, ht]
  | this => intro _; rfl
  | base hb => intro _; simp [walk, hb]
  | dot hr hh hu hk hf =>
    rename_i e n r m
    intro hs
    rw [Unshadowed] at hs
    have ha : E.W.access E.cur m = true := has_open hh
    rw [walk, walked T hU hr hs]
    dsimp only
    rw [type_eq, get_exact T hU hh hu, bindMember]
    rcases hk with hk | hk <;> simp [hk, ha]
  | alias hr hh hu hk _ =>
    rename_i e n r m _
    intro hs
    rw [Unshadowed] at hs
    have ha : E.W.access E.cur m = true := has_open hh
    rw [walk, walked T hU hr hs]
    dsimp only
    rw [type_eq, get_exact T hU hh hu, bindMember]
    simp [hk, ha]
  | call hr has hp ha hf =>
    rename_i e n args r as m
    intro hs
    rw [Unshadowed] at hs
    rw [walk, walked T hU hr hs.2.1]
    dsimp only
    rw [walkedAll T hU has hs.2.2]
    dsimp only
    rw [novar.2 hs.1]
    simp [bindCall, type_eq, types_eq, hp, ha]
  | bare hn has hp ha hf =>
    intro hs
    rw [Unshadowed] at hs
    rw [walk, walkedAll T hU has hs]
    dsimp only
    rw [novar.2 hn]
    simp [bindCall, type_eq, types_eq, hp, ha]
  | apply hn has =>
    intro hs
    rw [Unshadowed] at hs
    rw [walk, walkedAll T hU has hs]
    dsimp only
    simp [hijacker, hn]
  | applyMember hn hk _ has =>
    intro hs
    rw [Unshadowed] at hs
    rw [walk, walkedAll T hU has hs]
    dsimp only
    rcases hk with hk | hk <;> simp [hijacker, hn, hk]

theorem walkedAll (T : Tower E.W rank) (hU : Unhidden E.W E.cur) {es : Exps} {rs : Nodes} (h : MeansAll E es rs) :
    UnshadowedAll E es → walks E es = .ok rs := by
  cases h with
  | nil => intro _; rfl
  | cons h1 h2 =>
    intro hs
    rw [UnshadowedAll] at hs
    rw [walks, walked T hU h1 hs.1]
    dsimp only
    rw [walkedAll T hU h2 hs.2]

end

theorem folded_iff {m : Member} : m.folded = true ↔ isConstant m := by
  simp [Member.folded, isConstant, and_assoc]

theorem plain_checked {left : Bool} {m : Member} (hk : m.kind = .field ∨ m.kind = .property)
    (hs : E.inStatic = true → m.isStatic = true) (hp : PlainUse E left m) : checkMember E left none m = none := by
  obtain ⟨h1, h2⟩ := hp
  have h1' : m.isStatic = true → m.folded = true ∨ (E.inStatic = true ∧ left = false) :=
    fun h => (h1 h).imp folded_iff.2 id
  rcases hk with hk | hk
  · cases hf : m.folded
    · simp only [hf] at h1'
      cases a : E.inStatic <;> cases b : m.isStatic <;> cases left <;>
        simp_all [checkMember, hasInstance]
    · simp [checkMember, hk, hf]
  · have hnf : m.folded = false := by simp [Member.folded, hk]
    simp only [hnf] at h1'
    cases a : E.inStatic <;> cases b : m.isStatic <;> cases left <;>
        simp_all [checkMember, hasInstance]

theorem instance_of {r : Node} (h : isAlias r = false) : r.isInstance = !isType r := by
  cases r <;> first | rfl | cases h

theorem right_checked {left : Bool} {r : Node} {m : Member} (hk : m.kind = .field ∨ m.kind = .property)
    (hf : Fits (isType r) m.isStatic) (ha : isAlias r = true → isConstant m) :
    checkMember E left (some r) m = none := by
  by_cases hc : m.folded = true
  · have := (folded_iff.1 hc).1
    simp [checkMember, this, hc]
  · have hr : isAlias r = false := by
      cases h : isAlias r with
      | false => rfl
      | true => exact absurd (folded_iff.2 (ha h)) hc
    unfold Fits at hf
    rcases hk with hk | hk <;> simp [checkMember, hk, hc, hasInstance, instance_of hr, hf]

mutual

theorem checked {e : Exp} {r : Node} (left : Bool) (h : Means E e r) : Humble E left r → check E left r = none := by
  cases h with
  | plain hx hk hs =>
    intro hq
    rw [Humble] at hq
    rw [check, checkO, first]
    exact plain_checked hk hs hq
  | dot hr hh hu hk hf =>
    intro hq
    rw [Humble] at hq
    rw [check, checkO, checked true hr hq.1, first]
    exact right_checked hk hf hq.2
  | alias hr _ _ _ _ =>
    intro hq
    rw [Humble] at hq
    rw [check, checked true hr hq]
  | call hr has hp ha hf =>
    intro hq
    rw [Humble] at hq
    rw [check, checkO, checked true hr hq.1, checkedAll has hq.2]
    rfl
  | bare hn has hp ha hf =>
    intro hq
    rw [Humble] at hq
    rw [check, checkO, checkedAll has hq]
    rfl
  | apply hn has =>
    intro hq
    rw [Humble] at hq
    rw [check, checkedAll has hq]
  | applyMember hn hk hs has =>
    intro hq
    rw [Humble] at hq
    rw [check, checkedAll has hq.1, plain_checked hk hs hq.2]
    rcases hk with hk | hk <;> simp [hk, first, checkO]
  | _ => intro _; simp [check]

theorem checkedAll {es : Exps} {rs : Nodes} (h : MeansAll E es rs) : HumbleAll E rs → checkA E rs = none := by
  cases h with
  | nil => intro _; simp [checkA]
  | cons h1 h2 =>
    intro hq
    rw [HumbleAll] at hq
    rw [checkA, checked false h1 hq.1, checkedAll h2 hq.2]
    rfl

end

end

/-! The other way round. -/

theorem bind_ok {E : Env} {e' r : Node} {f : Found} (h : bindMember E e' f = .ok r) :
    ∃ m, f = .one m ∧ E.W.access E.cur m = true ∧
      ((m.kind = .typeDef ∧ r = .alias e' m) ∨ (m.kind ≠ .typeDef ∧ m.kind ≠ .type ∧ r = .mem (some e') m)) := by
  cases f with
  | nothing => cases h
  | conflict => cases h
  | one m =>
    refine ⟨m, rfl, ?_⟩
    rw [bindMember] at h
    by_cases ha : E.W.access E.cur m = true
    · cases hk : m.kind <;> rw [hk] at h <;> simp [ha] at h <;> simp [ha, h]
    · cases hk : m.kind <;> rw [hk] at h <;> simp [ha] at h

theorem call_ok {E : Env} {recv : Option Node} {t n : Nat} {as : Nodes} {r : Node}
    (h : bindCall E recv t n as = .ok r) :
    ∃ m, E.W.pick t n (as.types E.ret) = some m ∧ E.W.accessMeth E.cur m = true ∧ r = .call recv m as := by
  unfold bindCall at h
  split at h
  · cases h
  · rename_i m hp
    split at h
    · rename_i ha
      injection h with h
      exact ⟨m, hp, ha, h.symm⟩
    · cases h

theorem first_none {a b : Option Err} (h : first a b = none) : a = none ∧ b = none := by
  cases a with
  | none => exact ⟨rfl, h⟩
  | some _ => cases h

section
variable {E : Env} {rank : Nat → Nat}

theorem plain_ok {left : Bool} {m : Member} (hk : m.kind = .field ∨ m.kind = .property)
    (h : checkMember E left none m = none) (hl : left = true → E.inStatic = true → m.isStatic = true) :
    E.inStatic = true → m.isStatic = true := by
  intro hs
  cases left with
  | true => exact hl rfl hs
  | false =>
    by_cases hf : m.folded = true
    · exact (folded_iff.1 hf).2.1
    · rcases hk with hk | hk <;> simp [checkMember, hk, hf, hasInstance, hs] at h <;> simp [h]

theorem right_ok {left : Bool} {r : Node} {m : Member} (hk : m.kind = .field ∨ m.kind = .property)
    (h : checkMember E left (some r) m = none) (hc : isConstant m ∨ isAlias r = true → Fits (isType r) m.isStatic) :
    Fits (isType r) m.isStatic := by
  by_cases hf : m.folded = true
  · exact hc (.inl (folded_iff.1 hf))
  · cases ha : isAlias r with
    | true => exact hc (.inr ha)
    | false =>
      unfold Fits
      rcases hk with hk | hk <;> simp [checkMember, hk, hf, hasInstance, instance_of ha] at h <;> exact h

mutual

theorem sound (T : Tower E.W rank) (hC : Clear E.W E.cur) : (e : Exp) → (left : Bool) → (r : Node) →
    walk E e = .ok r → check E left r = none → Unshadowed E e → Careful E left r → Means E e r
  | .lit t, _, r, h, _, _, _ => by
    injection h with h; subst h; exact .lit t
  | .name x, left, r, h, hc, _, hcare => by
    rw [walk] at h
    split at h
    · rename_i id t hx; injection h with h; subst h; exact .local_ hx
    · rename_i m hx; injection h with h; subst h
      rw [Careful] at hcare
      rw [check] at hc
      exact .plain hx hcare.1 (plain_ok hcare.1 (first_none hc).2 hcare.2)
    · rename_i hx
      split at h
      · rename_i t ht; injection h with h; subst h; exact .type hx ht
      · cases h
  | .this, _, r, h, _, _, _ => by
    injection h with h; subst h; exact .this
  | .base, _, r, h, _, _, _ => by
    rw [walk] at h
    split at h
    · rename_i b hb; injection h with h; subst h; exact .base hb
    · cases h
  | .dot e n, left, r, h, hc, hs, hcare => by
    rw [walk] at h
    rw [Unshadowed] at hs
    split at h
    · cases h
    · rename_i e' he
      obtain ⟨m, hg, ha, hm⟩ := bind_ok h
      rw [type_eq] at hg
      have hall : Has E.W all (typeOf E e') n m := by
        have := get_right (n := n) (t := typeOf E e') T
        rwa [hg] at this
      have hopen := has_see (see := open_ E.W E.cur) hall ha
      rcases hm with ⟨hk, hr⟩ | ⟨_, _, hr⟩
      · subst hr
        rw [Careful] at hcare
        rw [check] at hc
        exact .alias (sound T hC e true e' he hc hs hcare.2) hopen
          (fun m' h' => hC _ _ _ _ hopen h' (by rw [hk]; intro h; cases h)) hk hcare.1
      · subst hr
        rw [Careful] at hcare
        rw [check, checkO] at hc
        obtain ⟨hc1, hc2⟩ := first_none hc
        exact .dot (sound T hC e true e' he hc1 hs hcare.1) hopen
          (fun m' h' => hC _ _ _ _ hopen h' (by rcases hcare.2.1 with hk | hk <;> rw [hk] <;> intro h <;> cases h))
          hcare.2.1 (right_ok hcare.2.1 hc2 hcare.2.2)
  | .call e n args, left, r, h, hc, hs, hcare => by
    rw [walk] at h
    rw [Unshadowed] at hs
    split at h
    · cases h
    · rename_i e' he
      split at h
      · cases h
      · rename_i as has
        rw [novar.2 hs.1] at h
        dsimp only at h
        obtain ⟨m, hp, ha, hr⟩ := call_ok h
        simp only [type_eq, types_eq] at hp
        subst hr
        rw [Careful] at hcare
        rw [check, checkO] at hc
        obtain ⟨hc1, hc2⟩ := first_none hc
        exact .call (sound T hC e true e' he hc1 hs.2.1 hcare.1) (soundAll T hC args as has hc2 hs.2.2 hcare.2.1)
          hp ha hcare.2.2
  | .bare n args, left, r, h, hc, hs, hcare => by
    rw [walk] at h
    rw [Unshadowed] at hs
    split at h
    · cases h
    · rename_i as has
      split at h
      · rename_i v hv
        injection h with h
        subst h
        obtain ⟨hsc, hkm⟩ := hijacked hv
        cases v with
        | value id t =>
          rw [Careful] at hcare
          rw [check] at hc
          exact .apply hsc (soundAll T hC args as has hc hs hcare)
        | member m =>
          rw [Careful] at hcare
          rw [check] at hc
          obtain ⟨hc1, hc2⟩ := first_none hc
          exact .applyMember hsc hcare.2.1 (plain_ok hcare.2.1 hc1 hcare.2.2)
            (soundAll T hC args as has (first_none hc2).2 hs hcare.1)
      · rename_i hv
        obtain ⟨m, hp, ha, hr⟩ := call_ok h
        simp only [type_eq, types_eq] at hp
        subst hr
        rw [Careful] at hcare
        rw [check, checkO] at hc
        exact .bare (novar.1 hv) (soundAll T hC args as has (first_none hc).2 hs hcare.1) hp ha hcare.2

theorem soundAll (T : Tower E.W rank) (hC : Clear E.W E.cur) : (es : Exps) → (rs : Nodes) →
    walks E es = .ok rs → checkA E rs = none → UnshadowedAll E es → CarefulAll E rs → MeansAll E es rs
  | .nil, rs, h, _, _, _ => by injection h with h; subst h; exact .nil
  | .cons e es, rs, h, hc, hs, hcare => by
    rw [walks] at h
    rw [UnshadowedAll] at hs
    split at h
    · cases h
    · rename_i e' he
      split at h
      · cases h
      · rename_i rs' hrs
        injection h with h
        subst h
        rw [CarefulAll] at hcare
        rw [checkA] at hc
        obtain ⟨hc1, hc2⟩ := first_none hc
        exact .cons (sound T hC e false e' he hc1 hs.1 hcare.1) (soundAll T hC es rs' hrs hc2 hs.2 hcare.2)

end
end

end Verif.Member.Proof

namespace Verif.Member.Proof

open Verif.Member Verif.Member.Spec

/-! ## Worlds that meet the conditions -/

theorem clear_of {W : World} {cur : Nat}
    (hu : ∀ t m m', m ∈ W.members t → m' ∈ W.members t → m.name = m'.name → m.kind ≠ .method → m' = m)
    (hs : ∀ t s s', s ∈ W.supers t → s' ∈ W.supers t → s = s') : Clear W cur := by
  intro t n m m' h
  induction h with
  | own h =>
    intro h' hk
    cases h' with
    | own h' => exact hu _ _ _ h.1 h'.1 (h.2.1.trans h'.2.1.symm) hk
    | base hd => exact absurd h (hd _)
    | super hd => exact absurd h (hd _)
  | base hd hi hb _ ih =>
    intro h' hk
    cases h' with
    | own h' => exact absurd h' (hd _)
    | base _ _ hb' h' => rw [hb] at hb'; injection hb' with e; subst e; exact ih h' hk
    | super _ hi' => rw [hi] at hi'; cases hi'
  | super hd hi hb _ ih =>
    intro h' hk
    cases h' with
    | own h' => exact absurd h' (hd _)
    | base _ hi' => rw [hi] at hi'; cases hi'
    | super _ _ hb' h' => rw [hs _ _ _ hb' hb] at h'; exact ih h' hk

theorem unhidden_of {W : World} {cur : Nat}
    (h : ∀ t m t' m', m ∈ W.members t → m' ∈ W.members t' → m.name = m'.name → W.access cur m = true →
      W.access cur m' = true) : Unhidden W cur := by
  intro t n m hm m'
  have hname : ∀ {see t n m}, Has W see t n m → m.name = n ∧ ∃ t', m ∈ W.members t' := by
    intro see t n m h
    induction h with
    | own h => exact ⟨h.2.1, _, h.1⟩
    | base _ _ _ _ ih => exact ih
    | super _ _ _ _ ih => exact ih
  obtain ⟨hn, t0, ht0⟩ := hname hm
  have ho : W.access cur m = true := has_open hm
  have hd : ∀ t x, Declares W all t n x → Declares W (open_ W cur) t n x :=
    fun t x hx => ⟨hx.1, hx.2.1, hx.2.2.1, h t0 m t x ht0 hx.1 (hn.trans hx.2.1.symm) ho⟩
  constructor
  · intro h'
    obtain ⟨hn', t1, ht1⟩ := hname h'
    exact has_see h' (h t0 m t1 m' ht0 ht1 (hn.trans hn'.symm) ho)
  · intro h'
    clear hm
    clear hn
    induction h' with
    | own h => exact .own ⟨h.1, h.2.1, h.2.2.1, trivial⟩
    | base hd' hi hb _ ih => exact .base (fun x hx => hd' x (hd _ x hx)) hi hb (ih hd)
    | super hd' hi hb _ ih => exact .super (fun x hx => hd' x (hd _ x hx)) hi hb (ih hd)

mutual

theorem means_unique {E : Env} {e : Exp} {r r' : Node} (h : Means E e r) (h' : Means E e r') : r = r' := by
  cases h with
  | lit t => cases h'; rfl
  | local_ hx => cases h' with
    | local_ hx' => rw [hx] at hx'; cases hx'; rfl
    | plain hx' => rw [hx] at hx'; cases hx'
    | type hx' => rw [hx] at hx'; cases hx'
  | plain hx _ _ => cases h' with
    | local_ hx' => rw [hx] at hx'; cases hx'
    | plain hx' => rw [hx] at hx'; cases hx'; rfl
    | type hx' => rw [hx] at hx'; cases hx'
  | type hx ht => cases h' with
    | local_ hx' => rw [hx] at hx'; cases hx'
    | plain hx' => rw [hx] at hx'; cases hx'
    | type _ ht' => rw [ht] at ht'; cases ht'; rfl
  | this => cases h'; rfl
  | base hb => cases h' with
    | base hb' => rw [hb] at hb'; cases hb'; rfl
  | dot hr hh hu hk hf => cases h' with
    | dot hr' hh' hu' hk' hf' =>
      have := means_unique hr hr'; subst this
      rw [hu _ hh']
    | alias hr' hh' hu' hk' _ =>
      have := means_unique hr hr'; subst this
      have := hu _ hh'; subst this
      rcases hk with hk | hk <;> rw [hk] at hk' <;> cases hk'
  | alias hr hh hu hk _ => cases h' with
    | dot hr' hh' hu' hk' hf' =>
      have := means_unique hr hr'; subst this
      have := hu _ hh'; subst this
      rcases hk' with hk' | hk' <;> rw [hk] at hk' <;> cases hk'
    | alias hr' hh' hu' hk' _ =>
      have := means_unique hr hr'; subst this
      rw [hu _ hh']
  | call hr has hp _ _ => cases h' with
    | call hr' has' hp' _ _ =>
      have := means_unique hr hr'; subst this
      have := meansAll_unique has has'; subst this
      rw [hp] at hp'; cases hp'; rfl
  | bare hn has hp _ _ => cases h' with
    | bare _ has' hp' _ _ =>
      have := meansAll_unique has has'; subst this
      rw [hp] at hp'; cases hp'; rfl
    | apply hs' => rcases hn with hn | ⟨m, hn, _⟩ <;> rw [hn] at hs' <;> cases hs'
    | applyMember hs' hk' =>
      rcases hn with hn | ⟨m, hn, hm⟩ <;> rw [hn] at hs' <;> cases hs'
      rw [hm] at hk'; rcases hk' with h | h <;> cases h
  | apply hs has => cases h' with
    | bare hn => rcases hn with hn | ⟨m, hn, _⟩ <;> rw [hn] at hs <;> cases hs
    | apply hs' has' =>
      rw [hs] at hs'; cases hs'
      rw [meansAll_unique has has']
    | applyMember hs' => rw [hs] at hs'; cases hs'
  | applyMember hs hk _ has => cases h' with
    | bare hn =>
      rcases hn with hn | ⟨m, hn, hm⟩ <;> rw [hn] at hs <;> cases hs
      rw [hm] at hk; rcases hk with h | h <;> cases h
    | apply hs' => rw [hs] at hs'; cases hs'
    | applyMember hs' _ _ has' =>
      rw [hs] at hs'; cases hs'
      rw [meansAll_unique has has']

theorem meansAll_unique {E : Env} {e : Exps} {r r' : Nodes} (h : MeansAll E e r) (h' : MeansAll E e r') : r = r' := by
  cases h with
  | nil => cases h'; rfl
  | cons h1 h2 => cases h' with
    | cons h1' h2' => rw [means_unique h1 h1', meansAll_unique h2 h2']

end

end Verif.Member.Proof
