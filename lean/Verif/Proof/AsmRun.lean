import Verif.Proof.AsmOk

/-
  The whole run of the writer on a program without errors.
-/

namespace Verif.Asm

open Verif.Asm.Spec

/-- The column in which a declaration has its type parameters, and their table. -/
def declCol : Kind → String × Kind
  | .typeDef => ("params", .typeDefParam)
  | _ => ("generic_params", .genericParam)

/-- No lookup before the type parameters have their rows. -/
def Shape (k : Kind) : List (String × Act) → Prop
  | [] => True
  | (f, a) :: l => quiet a = true ∧
      ((f = (declCol k).1 ∧ child a = some (declCol k).2) ∨ Shape k l)

theorem declared_known {W : World} {D} (L : Legal W D) {s : St} {k e} (hD : D k e)
    (hd : ∀ x ∈ W.many e (declCol k).1, (s.search (declCol k).2 x).isSome = true) :
    ∀ p ∈ declared W k e, Known W s p := by
  intro p hp
  have h := L.params k e p hD hp
  cases k <;> simp only [declared, List.not_mem_nil] at hp
  · simp only [reduceCtorEq, if_false] at h
    obtain ⟨j, hj⟩ := h
    exact (known_of hj).mpr (hd p hp)
  · simp only [reduceCtorEq, if_false] at h
    obtain ⟨j, hj⟩ := h
    exact (known_of hj).mpr (hd p hp)
  · simp only [if_true] at h
    exact (known_of' h).mpr (hd p hp)

theorem steps_shape (k : Kind) : (∀ W : World, ∀ e, declared W k e = []) ∨ Shape k (steps k) := by
  cases k <;> first
    | (left; intro W e; rfl)
    | (right; simp [steps, Shape, declCol, quiet, child])

/-- What a filled row leaves behind. -/
def Left (W : World) (s : St) (e : Id) (l : List (String × Act)) : Prop :=
  ∀ f a k', (f, a) ∈ l → child a = some k' → ∀ x ∈ W.many e f,
    (s.search k' x).isSome = true ∧ ∃ i, (k', i, x) ∈ s.queue

theorem Keep.que_mem {W D ds s s'} (h : Keep W D ds s s') {q} (hq : q ∈ s.queue) :
    q ∈ s'.queue := by
  obtain ⟨new, h1, _⟩ := h.que
  rw [h1]; exact List.mem_append_left _ hq

theorem fill_ok {W D} (L : Legal W D) (hw : ShortLists W) {k e} (hD : D k e) :
    ∀ (l : List (String × Act)) {s : St}, (∀ p ∈ l, Compat k p.1 p.2) → AllTypes W s →
    (∀ p, Mentions W k e p → Okp W s (declared W k e) p) →
    ((∀ p ∈ l, quiet p.2 = true) ∨ (Roots W s ∧ (∀ p, Mentions W k e p → Known W s p) ∧
      ((∀ p ∈ declared W k e, Known W s p) ∨ Shape k l))) →
    ∃ row s', fill W e l s = .ok (row, s') ∧ Keep W D (declared W k e) s s' ∧
      (Maps s → ∀ f c, row.lookup f = some c → CellRead k f c) ∧ Left W s' e l
  | [], s, _, _, _, _ => ⟨[], s, rfl, Keep.refl s, fun _ f c h => (by cases h),
      fun f a k' h => (by cases h)⟩
  | (f, a) :: l, s, hc, hT, hS, hr => by
    have hr1 : quiet a = true ∨ Ready W s k e := by
      rcases hr with h | ⟨h1, h2, h3⟩
      · exact .inl (h _ (List.mem_cons_self ..))
      · rcases h3 with h3 | h3
        · exact .inr ⟨h1, h3, h2⟩
        · exact .inl h3.1
    obtain ⟨c, s1, ha, k1, c1, q1⟩ := act_ok L hw hD (hc _ (List.mem_cons_self ..)) hT hS hr1
    have hT1 : AllTypes W s1 := fun t ht => k1.mono _ _ (hT t ht)
    have hr2 : (∀ p ∈ l, quiet p.2 = true) ∨ (Roots W s1 ∧
        (∀ p, Mentions W k e p → Known W s1 p) ∧
        ((∀ p ∈ declared W k e, Known W s1 p) ∨ Shape k l)) := by
      rcases hr with h | ⟨h1, h2, h3⟩
      · exact .inl fun p hp => h p (List.mem_cons_of_mem _ hp)
      · refine .inr ⟨fun t ht => (h1 t ht).mono k1.mono, fun p hp => k1.known (h2 p hp), ?_⟩
        rcases h3 with h3 | ⟨_, ⟨rfl, h5⟩ | h4⟩
        · exact .inl fun p hp => k1.known (h3 p hp)
        · exact .inl (declared_known L hD fun x hx => (q1 _ h5 x hx).1)
        · exact .inr h4
    obtain ⟨row, s2, hf, k2, c2, q2⟩ := fill_ok L hw hD l
      (fun p hp => hc p (List.mem_cons_of_mem _ hp)) hT1 (fun p hp => k1.okp (hS p hp)) hr2
    refine ⟨(f, c) :: row, s2, by simp only [fill, ha, hf], k1.trans k2, ?_, ?_⟩
    · intro hM f' c' h
      simp only [List.lookup] at h
      cases hff : f' == f with
      | true =>
        simp only [hff] at h
        cases h
        have : f' = f := by simpa using hff
        subst this
        exact c1 hM
      | false =>
        simp only [hff] at h
        exact c2 (k1.maps hM) f' c' h
    · intro f' a' k' hm hch x hx
      rcases List.mem_cons.mp hm with h | h
      · cases h
        obtain ⟨h1, i, h2⟩ := q1 k' hch x hx
        exact ⟨k2.mono _ _ h1, i, k2.que_mem h2⟩
      · exact q2 f' a' k' h hch x hx

/-- The invariant of the loop over the queue. -/
structure Run (W : World) (D : Kind → Id → Prop) (s : St) : Prop where
  maps : Maps s
  rows : RowsOk s.rows
  types : AllTypes W s
  que : ∃ L R, s.queue = L ++ R ∧ (∀ q ∈ L, q.1 = Kind.type ∧ q.2.2 ∈ W.types) ∧
    ∀ t ∈ W.types, (∃ i, (Kind.type, i, t) ∈ L) ∨ Rooted W s t
  all : ∀ q ∈ s.queue, D q.1 q.2.2 ∧
    ∀ p, Mentions W q.1 q.2.2 p → ofClass W p ∨ Known W s p
  meth : ∀ m, (s.search .method m).isSome = true → (∃ i, (Kind.method, i, m) ∈ s.queue) ∨
    ∀ p ∈ W.many m "generic_params", (s.search .genericParam p).isSome = true

theorem left_declared {W D} (L : Legal W D) {s : St} {k e} (hD : D k e)
    (h : Left W s e (steps k)) : ∀ p ∈ declared W k e, Known W s p := by
  have hs : (∀ W : World, ∀ e, declared W k e = []) ∨
      ∃ a, ((declCol k).1, a) ∈ steps k ∧ child a = some (declCol k).2 := by
    cases k <;> first
      | (left; intro W e; rfl)
      | (right; exact ⟨.many .genericParam, by simp [steps, declCol], rfl⟩)
      | (right; exact ⟨.many .typeDefParam, by simp [steps, declCol], rfl⟩)
  rcases hs with hs | ⟨a, h1, h2⟩
  · intro p hp; rw [hs] at hp; cases hp
  · exact declared_known L hD fun x hx => (h _ a _ h1 h2 x hx).1

theorem type_quiet : ∀ p ∈ steps .type, quiet p.2 = true := by simp [steps, quiet]

theorem drain_ok {W D} (L : Legal W D) (hw : ShortLists W) : ∀ (n : Nat) {s : St}, Run W D s →
    drain W n s = .error .fuel ∨ ∃ s', drain W n s = .ok s' ∧ Run W D s' ∧ s'.queue = []
  | 0, s, h => by
    simp only [drain]
    split
    · rename_i hq
      exact .inr ⟨s, rfl, h, by simpa using hq⟩
    · exact .inl rfl
  | n + 1, s, h => by
    cases hq : s.queue with
    | nil => simp only [drain, hq]; exact .inr ⟨s, rfl, h, hq⟩
    | cons q0 q =>
      obtain ⟨k, i, e⟩ := q0
      simp only [drain, hq]
      obtain ⟨hD, hM⟩ := h.all (k, i, e) (by rw [hq]; exact List.mem_cons_self ..)
      have hS : ∀ p, Mentions W k e p → Okp W { s with queue := q } (declared W k e) p :=
        fun p hp => (hM p hp).imp id .inl
      obtain ⟨Lq, Rq, hLR, hL, hroot⟩ := h.que
      have hmode : (∀ p ∈ steps k, quiet p.2 = true) ∨ (Roots W { s with queue := q } ∧
          (∀ p, Mentions W k e p → Known W { s with queue := q } p) ∧
          ((∀ p ∈ declared W k e, Known W { s with queue := q } p) ∨ Shape k (steps k))) := by
        cases Lq with
        | cons a l =>
          rw [hq] at hLR
          have : a = (k, i, e) := by cases hLR; rfl
          have hk := (hL a (List.mem_cons_self ..)).1
          rw [this] at hk
          have hk : k = .type := hk
          subst hk
          exact .inl type_quiet
        | nil =>
          have hR : Roots W s := fun t ht => (hroot t ht).resolve_left fun ⟨_, h⟩ => by cases h
          refine .inr ⟨hR, fun p hp => ?_, ?_⟩
          · rcases hM p hp with h1 | h1
            · exact ofClass_known L (s := s) hR h1
            · exact h1
          · rcases steps_shape k with hs | hs
            · exact .inl fun p hp => by rw [hs] at hp; cases hp
            · exact .inr hs
      obtain ⟨row, s1, hf, hk, hcell, hleft⟩ := fill_ok L hw hD (steps k)
        (s := { s with queue := q }) (steps_compat k) h.types hS hmode
      simp only [hf]
      have hdecl := left_declared L hD hleft
      have hmaps : Maps { s with queue := q } := h.maps
      apply drain_ok L hw n
      obtain ⟨new, hn1, hn2⟩ := hk.que
      have hn1 : s1.queue = q ++ new := hn1
      refine ⟨hk.maps hmaps, ?_, fun t ht => hk.mono _ _ (h.types t ht), ?_, ?_, ?_⟩
      · intro k' r hr f c hc
        have hr : r ∈ upd s1.rows k ((s1.rows k).set i row) k' := hr
        by_cases hkk : k' = k
        · subst hkk
          rw [upd_same] at hr
          rcases List.mem_or_eq_of_mem_set hr with hr | hr
          · exact hk.rows hmaps h.rows k' r hr f c hc
          · subst hr
            exact hcell hmaps f c hc
        · rw [upd_ne _ _ hkk] at hr
          exact hk.rows hmaps h.rows k' r hr f c hc
      · cases Lq with
        | nil =>
          refine ⟨[], s1.queue, rfl, fun q hq => (by cases hq), fun t ht => .inr ?_⟩
          exact ((hroot t ht).resolve_left fun ⟨_, h⟩ => by cases h).mono hk.mono
        | cons a l =>
          rw [hq] at hLR
          have ha : a = (k, i, e) := by cases hLR; rfl
          have hql : q = l ++ Rq := by cases hLR; rfl
          have hkt := (hL a (List.mem_cons_self ..)).1
          rw [ha] at hkt
          have hkt : k = .type := hkt
          subst hkt
          refine ⟨l, Rq ++ new, ?_, fun q hq => hL q (List.mem_cons_of_mem _ hq), ?_⟩
          · show s1.queue = _
            rw [hn1, hql, List.append_assoc]
          · intro t ht
            rcases hroot t ht with ⟨j, hj⟩ | hj
            · rcases List.mem_cons.mp hj with hj | hj
              · right
                rw [ha] at hj
                have : e = t := by cases hj; rfl
                subst this
                refine ⟨fun p hp => ?_, fun m hm => ?_, fun x hx => ?_⟩
                · exact (hleft "generic_params" (.many .genericParam) _ (by simp [steps]) rfl p hp).1
                · exact (hleft "methods" (.many .method) _ (by simp [steps]) rfl m hm).1
                · exact (hleft "fields" (.many .field) _ (by simp [steps]) rfl x hx).1
              · exact .inl ⟨j, hj⟩
            · exact .inr (hj.mono hk.mono)
      · intro z hz
        have hz : z ∈ s1.queue := hz
        rw [hn1] at hz
        rcases List.mem_append.mp hz with hz | hz
        · obtain ⟨h1, h2⟩ := h.all z (by rw [hq]; exact List.mem_cons_of_mem _ hz)
          exact ⟨h1, fun p hp => (h2 p hp).imp id fun h => hk.mono _ _ h⟩
        · obtain ⟨h1, h2⟩ := hn2 z hz
          refine ⟨h1, fun p hp => ?_⟩
          rcases h2 p hp with h3 | h3 | h3
          · exact .inl h3
          · exact .inr h3
          · exact .inr (hdecl p h3)
      · intro m hm
        rcases hk.meth m hm with h1 | h1
        · rcases h.meth m h1 with ⟨j, hj⟩ | hj
          · rw [hq] at hj
            rcases List.mem_cons.mp hj with hj | hj
            · right
              cases hj
              intro p hp
              exact (hleft "generic_params" (.many .genericParam) _ (by simp [steps]) rfl p hp).1
            · exact .inl ⟨j, by show _ ∈ s1.queue; rw [hn1]; exact List.mem_append_left _ hj⟩
          · exact .inr fun p hp => hk.mono _ _ (hj p hp)
        · exact .inl h1

/-! ## The beginning -/

structure Begin (W : World) (s : St) : Prop where
  maps : Maps s
  rows : RowsOk s.rows
  que : ∀ q ∈ s.queue, q.1 = Kind.type ∧ q.2.2 ∈ W.types
  inq : ∀ t, (s.search .type t).isSome = true → ∃ i, (Kind.type, i, t) ∈ s.queue
  noMethod : ∀ m, s.search .method m = none

theorem commitTypes_ok {W D} (L : Legal W D) : ∀ (l : List Id) {s : St}, (∀ t ∈ l, t ∈ W.types) →
    Begin W s → Begin W (commitTypes s l) ∧
      (∀ t, (s.search .type t).isSome = true → ((commitTypes s l).search .type t).isSome = true) ∧
      ∀ t ∈ l, ((commitTypes s l).search .type t).isSome = true
  | [], s, _, h => ⟨h, fun _ h => h, fun t ht => (by cases ht)⟩
  | t :: l, s, hl, h => by
    have ht := hl t (List.mem_cons_self ..)
    have hk := commitOne_keep (W := W) (D := D) (ds := []) (s := s) (k := .type) (e := t)
      (by decide) (L.types t ht).1 (fun _ p hp => .inl (L.typeScope t ht p hp))
    have hin : ((commitOne s .type t).2.search .type t).isSome = true := by
      unfold commitOne
      cases hs : s.search .type t with
      | some r => simp [hs]
      | none =>
        have : ((s.append .type t).enque .type (s.rows .type).length t).search .type t = _ :=
          search_append s .type .type t t
        rw [this]; simp
    have hB : Begin W (commitOne s .type t).2 := by
      refine ⟨hk.1.maps h.maps, hk.1.rows h.maps h.rows, ?_, ?_, ?_⟩
      · unfold commitOne
        cases hs : s.search .type t with
        | some r => exact h.que
        | none =>
          intro q hq
          rcases List.mem_append.mp hq with hq | hq
          · exact h.que q hq
          · simp only [List.mem_singleton] at hq
            subst hq; exact ⟨rfl, ht⟩
      · unfold commitOne
        cases hs : s.search .type t with
        | some r => exact h.inq
        | none =>
          intro x hx
          have hse : ((s.append .type t).enque .type (s.rows .type).length t).search .type x = _ :=
            search_append s .type .type t x
          rw [hse] at hx
          by_cases hxt : x = t
          · subst hxt
            exact ⟨_, List.mem_append_right _ (List.mem_singleton.mpr rfl)⟩
          · rw [if_neg (by simp [hxt])] at hx
            obtain ⟨i, hi⟩ := h.inq x hx
            exact ⟨i, List.mem_append_left _ hi⟩
      · intro m
        cases hm : (commitOne s .type t).2.search .method m with
        | none => rfl
        | some r =>
          exfalso
          unfold commitOne at hm
          cases hs : s.search .type t with
          | some r => simp only [hs] at hm; rw [h.noMethod] at hm; cases hm
          | none =>
            simp only [hs] at hm
            have hse : ((s.append .type t).enque .type (s.rows .type).length t).search .method m = _ :=
              search_append s .type .method t m
            rw [hse, if_neg (by simp), h.noMethod] at hm
            cases hm
    obtain ⟨h1, h2, h3⟩ := commitTypes_ok L l (fun x hx => hl x (List.mem_cons_of_mem _ hx)) hB
    refine ⟨h1, fun x hx => h2 x (hk.1.mono _ _ hx), ?_⟩
    intro x hx
    rcases List.mem_cons.mp hx with rfl | hx
    · exact h2 _ hin
    · exact h3 x hx

theorem commitTypeDefs_ok {W D} (L : Legal W D) : ∀ (l : List Id) {s : St},
    (∀ d ∈ l, d ∈ W.typeDefs) → AllTypes W s →
    ∃ s', commitTypeDefs W s l = .ok s' ∧ Keep W D [] s s'
  | [], s, _, _ => ⟨s, rfl, Keep.refl s⟩
  | d :: l, s, hl, hT => by
    have hd := hl d (List.mem_cons_self ..)
    have hDd := L.typeDefs d hd
    have hl' := fun x hx => hl x (List.mem_cons_of_mem _ hx)
    simp only [commitTypeDefs, commitTypeDef]
    cases hs : s.search .typeDef d with
    | some r => simp only []; exact commitTypeDefs_ok L l hl' hT
    | none =>
      simp only []
      have key : ∃ r s1, commitType W s (W.one d "host") = .ok (r, s1) ∧ Keep W D [] s s1 := by
        cases ho : W.one d "host" with
        | none => exact ⟨_, _, rfl, Keep.refl s⟩
        | some h =>
          obtain ⟨h1, h2⟩ := L.host d h (.inr hDd) ho
          obtain ⟨r, s', hct, hkeep, _⟩ := commitType_keep (ds := []) L hT (t := h)
            (fun k' hk => by rw [h2] at hk; cases hk; exact h1)
            (fun hp => by rw [h2] at hp; cases hp)
            (fun k' p hk hne _ => by rw [h2] at hk; cases hk; exact absurd rfl hne)
          exact ⟨r, s', hct, hkeep⟩
      obtain ⟨r, s1, h1, h2⟩ := key
      simp only [h1]
      have h3 := commitOne_keep (W := W) (D := D) (ds := []) (s := s1) (k := .typeDef) (e := d)
        (by decide) hDd (fun _ p hp => .inl (L.typeDefScope d hd p hp))
      obtain ⟨s', h4, h5⟩ := commitTypeDefs_ok L l hl'
        (fun t ht => h3.1.mono _ _ (h2.mono _ _ (hT t ht)))
      exact ⟨s', h4, (h2.trans h3.1).trans h5⟩

theorem assembly_mentions {W : World} {e p} : ¬ Mentions W .assembly e p := by
  intro h
  generalize hkk : Kind.assembly = kk at h
  cases h with
  | param hn _ _ _ =>
    subst hkk
    cases hn with
    | column h1 _ => simp [typeColumns] at h1
    | element h1 => rcases h1 with h1 | h1 | h1 <;> cases h1
    | constant h1 _ _ => simp [constantColumns] at h1
  | type hn _ _ _ _ =>
    subst hkk
    cases hn with
    | column h1 _ => simp [typeColumns] at h1
    | element h1 => rcases h1 with h1 | h1 | h1 <;> cases h1
    | constant h1 _ _ => simp [constantColumns] at h1
  | part h1 _ _ _ => subst hkk; simp [lists] at h1

theorem empty_begin (W : World) : Begin W empty :=
  ⟨fun k e r h => by simp [St.search, empty] at h, fun k row h => by simp [empty] at h,
    fun q h => by simp [empty] at h, fun t h => by simp [St.search, empty] at h,
    fun m => by simp [St.search, empty]⟩

theorem start_run {W D} (L : Legal W D) : ∃ s,
    commitTypeDefs W (commitTypes empty W.types) W.typeDefs = .ok s ∧ Run W D (start W s) := by
  obtain ⟨h1, _, h3⟩ := commitTypes_ok L W.types (fun _ h => h) (empty_begin W)
  obtain ⟨s, h4, h5⟩ := commitTypeDefs_ok L W.typeDefs (fun _ h => h)
    (s := commitTypes empty W.types) h3
  have h6 : Keep W D [] s (start W s) := append_keep (by decide) L.self
    (fun p hp => absurd hp assembly_mentions)
  have h7 := h5.trans h6
  obtain ⟨new, hn1, hn2⟩ := h7.que
  refine ⟨s, h4, h7.maps h1.maps, h7.rows h1.maps h1.rows, fun t ht => h7.mono _ _ (h3 t ht), ?_,
    ?_, ?_⟩
  · refine ⟨_, new, hn1, h1.que, fun t ht => .inl (h1.inq t (h3 t ht))⟩
  · intro q hq
    rw [hn1] at hq
    rcases List.mem_append.mp hq with hq | hq
    · obtain ⟨ha, hb⟩ := h1.que q hq
      obtain ⟨k, i, e⟩ := q
      simp only at ha hb
      subst ha
      exact ⟨(L.types e hb).1, fun p hp => .inl (L.typeScope e hb p hp)⟩
    · obtain ⟨ha, hb⟩ := hn2 q hq
      exact ⟨ha, fun p hp => by
        rcases hb p hp with h | h | h
        · exact .inl h
        · exact .inr h
        · cases h⟩
  · intro m hm
    rcases h7.meth m hm with h | h
    · rw [h1.noMethod] at h; cases h
    · exact .inl h

/-! ## The method bodies -/

/-- All that method bodies may name has its row. -/
structure Full (W : World) (s : St) : Prop where
  types : AllTypes W s
  roots : Roots W s
  params : ∀ p, ofClass W p ∨ ofMethod W p → Known W s p

theorem Full.mono {W D ds s s'} (h : Full W s) (k : Keep W D ds s s') : Full W s' :=
  ⟨fun t ht => k.mono _ _ (h.types t ht), fun t ht => (h.roots t ht).mono k.mono,
    fun p hp => k.known (h.params p hp)⟩

theorem run_full {W D} (L : Legal W D) {s : St} (h : Run W D s) (hq : s.queue = []) : Full W s := by
  obtain ⟨Lq, Rq, hLR, _, hroot⟩ := h.que
  have hL : Lq = [] := by
    rw [hq] at hLR
    cases Lq with
    | nil => rfl
    | cons a l => cases hLR
  have hR : Roots W s := fun t ht => (hroot t ht).resolve_left fun ⟨_, h⟩ => by
    rw [hL] at h; cases h
  refine ⟨h.types, hR, ?_⟩
  rintro p (hp | ⟨t, ht, m, hm, hp⟩)
  · exact ofClass_known L hR hp
  · rcases h.meth m ((hR t ht).2.1 m hm) with ⟨i, hi⟩ | hk
    · rw [hq] at hi; cases hi
    · have hD := L.lists .type t "methods" .method m (L.types t ht).1 (by simp [lists]) hm
      have := L.params .method m p hD hp
      simp only [reduceCtorEq, if_false] at this
      obtain ⟨j, hj⟩ := this
      exact (known_of hj).mpr (hk p hp)

theorem load_ok {W D} (L : Legal W D) {s : St} (hF : Full W s) {l : Load} (hl : l ∈ W.loads) :
    ∃ r s', load W s l = .ok (r, s') ∧ Keep W D [] s s' := by
  have h := L.loads l hl
  cases l with
  | type t =>
    obtain ⟨h1, h2, h3⟩ := h
    obtain ⟨r, s', hct, hk, _⟩ := commitType_keep (ds := []) L hF.types h1
      (fun hp => hF.params t (h2 hp))
      (fun k' p hk hne hm => .inr (.inl (hF.params p (h3 k' p hk hne hm))))
    exact ⟨r, s', hct, hk⟩
  | method m =>
    simp only at h
    by_cases hown : W.own m = true
    · rw [if_pos hown] at h
      obtain ⟨t, ht, hm⟩ := h
      have := (hF.roots t ht).2.1 m hm
      cases hs : s.search .method m with
      | none => rw [hs] at this; cases this
      | some r =>
        simp only [load, commitMethod, hown, if_true, hs]
        exact ⟨_, _, rfl, Keep.refl s⟩
    · rw [if_neg hown] at h
      simp only [load, commitMethod, hown, Bool.false_eq_true, if_false]
      exact ⟨(commitOne s .methodRef m).1, (commitOne s .methodRef m).2, rfl,
        (commitOne_keep (by decide) h (fun _ p hp => absurd hp (L.foreignScope m p h))).1⟩
  | field x =>
    obtain ⟨t, ht, hx⟩ := h
    have := (hF.roots t ht).2.2 x hx
    cases hs : s.search .field x with
    | none => rw [hs] at this; cases this
    | some r =>
      simp only [load, commitField, hs]
      exact ⟨_, _, rfl, Keep.refl s⟩

theorem loads_ok {W D} (L : Legal W D) : ∀ (ls : List Load) {s : St}, Full W s →
    (∀ l ∈ ls, l ∈ W.loads) → ∃ rs s', loads W ls s = .ok (rs, s') ∧ Keep W D [] s s'
  | [], s, _, _ => ⟨[], s, rfl, Keep.refl s⟩
  | l :: ls, s, hF, hl => by
    obtain ⟨r, s1, h1, h2⟩ := load_ok L hF (hl l (List.mem_cons_self ..))
    obtain ⟨rs, s2, h3, h4⟩ := loads_ok L ls (hF.mono h2) fun x hx => hl x (List.mem_cons_of_mem _ hx)
    exact ⟨r :: rs, s2, by simp only [loads, h1, h3], h2.trans h4⟩

/-- Writing succeeds, unless the model's fuel is spent. -/
theorem write_ok {W D} (L : Legal W D) (hw : ShortLists W) (n : Nat) :
    write W n = .error .fuel ∨ ∃ t rs, write W n = .ok (t, rs) ∧ RowsOk t := by
  obtain ⟨s, h1, h2⟩ := start_run L
  simp only [write, commitAll, h1]
  rcases drain_ok L hw n h2 with h3 | ⟨s1, h3, h4, h5⟩
  · unfold start at h3
    rw [h3]; exact .inl rfl
  · unfold start at h3
    rw [h3]
    simp only []
    have hF := run_full L h4 h5
    obtain ⟨rs, s2, h6, h7⟩ := loads_ok L W.loads hF fun _ h => h
    rw [h6]
    simp only []
    obtain ⟨new, hn1, hn2⟩ := h7.que
    have hrun : Run W D s2 := by
      refine ⟨h7.maps h4.maps, h7.rows h4.maps h4.rows, (hF.mono h7).types, ?_, ?_, ?_⟩
      · exact ⟨[], _, rfl, fun q hq => (by cases hq), fun t ht => .inr ((hF.mono h7).roots t ht)⟩
      · intro q hq
        rw [hn1, h5] at hq
        obtain ⟨ha, hb⟩ := hn2 q (by simpa using hq)
        exact ⟨ha, fun p hp => by
          rcases hb p hp with h | h | h
          · exact .inl h
          · exact .inr h
          · cases h⟩
      · intro m hm
        rcases h7.meth m hm with h | h
        · rcases h4.meth m h with ⟨i, hi⟩ | h
          · rw [h5] at hi; cases hi
          · exact .inr fun p hp => h7.mono _ _ (h p hp)
        · exact .inl h
    rcases drain_ok L hw n hrun with h8 | ⟨s3, h8, h9, _⟩
    · rw [h8]; exact .inl rfl
    · rw [h8]; exact .inr ⟨_, _, rfl, h9.rows⟩

/-! ## Reading -/

theorem typeOk_read {W : World} {ent : Ents} {t : Tables} (hf : Final W ent t)
    (hs : SmallTables t) {o : Option Id} {r : Ref} (h : TypeOk W ent o r)
    (he : r.extra ≠ paramIndex) : ∃ n, getType t r = .ok n := by
  cases o with
  | none =>
    have : r = Ref.null := h
    subst this
    exact ⟨none, rfl⟩
  | some x =>
    have key : ∀ k, Denotes ent k r x → (∀ t : Tables, ∀ r : Ref, r.isNull = false →
        r.extra = extra k → getType t r = getOne t k r) → ∃ n, getType t r = .ok n := by
      intro k hd hg
      obtain ⟨i, h1, _, h2, h3, _⟩ := denotes_get hf hs hd
      exact ⟨_, (hg t r h2 h3).trans h1⟩
    simp only [TypeOk] at h
    cases hx : W.gtype x with
    | general b =>
      rw [hx] at h
      cases b
      · exact key .typeRef h fun t r h1 h2 => by simp [getType, h1, h2, extra]
      · exact key .type h fun t r h1 h2 => by simp [getType, h1, h2, extra]
    | generic => rw [hx] at h; exact key .genericType h fun t r h1 h2 => by simp [getType, h1, h2, extra]
    | array => rw [hx] at h; exact key .arrayType h fun t r h1 h2 => by simp [getType, h1, h2, extra]
    | genericParam j =>
      rw [hx] at h
      rcases h with h | h
      · exact key .genericParam h fun t r h1 h2 => by simp [getType, h1, h2, extra]
      · exact absurd (by rw [h]; rfl) he
    | typeDefParam =>
      rw [hx] at h
      exact key .typeDefParam h fun t r h1 h2 => by simp [getType, h1, h2, extra]
    | null =>
      rw [hx] at h
      have : r = Ref.null := h
      subst this
      exact ⟨none, rfl⟩

theorem many_read {W : World} (hw : ShortLists W) {ent : Ents} {t : Tables}
    (hf : Final W ent t) (hs : SmallTables t) {k : Kind} {e : Id} {f : String} {r : Ref}
    (h : ManyOk ent k (W.many e f) r) : ∃ l, getMany t k r = .ok l := by
  rcases h with ⟨_, h2⟩ | ⟨h1, b, h2, h3⟩
  · exact ⟨[], by simp [getMany, h2]⟩
  · have hlen : (W.many e f).length < 512 := hw e f
    have hpos : 0 < (W.many e f).length := List.length_pos_iff.mpr h1
    have hcount : r.count = (W.many e f).length := by
      rw [h2, ref_count]; exact Nat.mod_eq_of_lt hlen
    have hlast := h3 ((W.many e f).length - 1) _
      (List.getElem?_eq_getElem (by omega : (W.many e f).length - 1 < (W.many e f).length))
    have hlt := (List.getElem?_eq_some_iff.mp hlast).1
    rw [← hf.len] at hlt
    have h20 := hs k
    have hidx : r.index = b := by
      rw [h2, ref_index]; exact Nat.mod_eq_of_lt (by omega)
    have hnn : r.isNull = false := by simp [Ref.isNull, hcount]; omega
    refine ⟨(List.range r.count).map fun j => (k, r.index + j), ?_⟩
    simp only [getMany, hnn, Bool.false_eq_true, if_false]
    rw [if_neg (by rw [hidx, hcount]; omega)]

theorem mapE_ok {α β : Type} (f : α → Except Err β) : ∀ (l : List α),
    (∀ a ∈ l, ∃ b, f a = .ok b) → ∃ r, mapE f l = .ok r
  | [], _ => ⟨[], rfl⟩
  | a :: l, h => by
    obtain ⟨b, hb⟩ := h a (List.mem_cons_self ..)
    obtain ⟨r, hr⟩ := mapE_ok f l fun x hx => h x (List.mem_cons_of_mem _ hx)
    exact ⟨b :: r, by simp only [mapE, hb, hr]⟩

theorem through_read {W : World} (hw : ShortLists W) {ent : Ents} {t : Tables}
    (hf : Final W ent t) (hs : SmallTables t) (hro : RowsOk t) {k : Kind} (hk : holder k = true)
    {e : Id} {f : String} {r : Ref} (h : ManyOk ent k (W.many e f) r) :
    ∃ l, getThrough t k r = .ok l := by
  obtain ⟨ns, hm⟩ := many_read hw hf hs h
  obtain ⟨_, h2⟩ := many_get hw hf hs h hm
  simp only [getThrough, hm]
  apply mapE_ok
  intro n hn
  obtain ⟨hn1, hn2⟩ := h2 n hn
  have hrow : ∃ row, (t k)[n.2]? = some row := by
    have := (List.getElem?_eq_some_iff.mp hn2).1
    rw [← hf.len] at this
    exact ⟨_, List.getElem?_eq_getElem this⟩
  obtain ⟨row, hrow⟩ := hrow
  obtain ⟨c, hc, r', rfl, hty⟩ := hf.done k n.2 _ row hn2 hrow "type" .itself (holder_col k hk)
  have hro' : rowOf t n = row := by
    have : n = (k, n.2) := by rw [← hn1]
    rw [this]; exact rowOf_eq hrow
  have hcell := hro k row (List.mem_of_getElem? hrow) "type" _ hc r' rfl
  have hne : r'.extra ≠ paramIndex := by
    intro h'
    rcases (hcell.1 h').1 with rfl | rfl <;> cases hk
  rw [hro', refAt_eq hc]
  rw [if_neg]
  · exact typeOk_read hf hs hty hne
  · rintro ⟨rfl, h'⟩
    exact h' (hcell.2.2 rfl)

theorem get_read {W : World} (hw : ShortLists W) (hm : OwnMethods W) {ent : Ents} {t : Tables}
    (hf : Final W ent t) (hs : SmallTables t) (hro : RowsOk t) {k : Kind} {e : Id} {f : String}
    {g : Get} {a : Act} {row : Row} {c : Cell} (hcompat : compat f g a = true)
    (himp : g = .imported ∨ ¬ ((k = .methodRef ∨ k = .methodRefParam) ∧ f = "type"))
    (hhost : g = .host → k = .typeRef ∧ f = "host")
    (hcell : CellRead k f c) (hl : row.lookup f = some c) (hc : CellOk W ent e f a c) :
    ∃ v, get t row f g = .ok v := by
  cases g with
  | text => exact ⟨_, rfl⟩
  | num => exact ⟨_, rfl⟩
  | type =>
    have ht : ∃ r, c = .ref r ∧ TypeOk W ent (W.one e f) r := by
      cases a <;> first | exact hc | cases hcompat
    obtain ⟨r, rfl, hty⟩ := ht
    have himp := himp.resolve_left (by intro h; cases h)
    obtain ⟨n, hn⟩ := typeOk_read hf hs hty fun h => himp ((hcell r rfl).1 h)
    exact ⟨.type n, by simp only [get, refAt_eq hl, hn]⟩
  | host =>
    have ht : ∃ r, c = .ref r ∧ TypeOk W ent (W.one e f) r := by
      cases a <;> first | exact hc | cases hcompat
    obtain ⟨r, rfl, hty⟩ := ht
    obtain ⟨rfl, rfl⟩ := hhost rfl
    simp only [get, refAt_eq hl]
    cases hn : r.isNull with
    | true => exact ⟨_, rfl⟩
    | false =>
      simp only [Bool.false_eq_true, if_false]
      rcases (hcell r rfl).2.1 rfl rfl with h | ⟨h1, h2⟩
      · rw [hn] at h; cases h
      · rw [if_neg (by simp [h1, h2])]
        obtain ⟨n, h3⟩ := typeOk_read hf hs hty (by rw [h1]; decide)
        have : getType t r = getOne t .typeRef r := by simp [getType, hn, h1]
        rw [this] at h3
        exact ⟨.type n, by simp only [h3]⟩
  | imported =>
    have ht : ∃ r, c = .ref r ∧ TypeOk W ent (W.one e f) r := by
      cases a <;> first | exact hc | cases hcompat
    obtain ⟨r, rfl, hty⟩ := ht
    simp only [get, refAt_eq hl]
    by_cases hp : r.extra = paramIndex
    · rw [if_pos hp]; exact ⟨_, rfl⟩
    · rw [if_neg hp]
      obtain ⟨n, hn⟩ := typeOk_read hf hs hty hp
      exact ⟨.type n, by simp only [hn]⟩
  | method =>
    have ht : ∃ r, c = .ref r ∧ MethodOk W ent (W.one e f) r := by
      cases a <;> first | exact hc | cases hcompat
    have hmem : f ∈ methodColumns := by
      cases a <;> first | (exfalso; exact Bool.noConfusion hcompat; done) | skip
      simpa [compat] using hcompat
    obtain ⟨r, rfl, hty⟩ := ht
    simp only [get, refAt_eq hl]
    cases ho : W.one e f with
    | none =>
      rw [ho] at hty
      have : r = Ref.null := hty
      subst this
      exact ⟨_, rfl⟩
    | some m =>
      rw [ho] at hty
      simp only [MethodOk, hm e f m hmem ho, if_true] at hty
      obtain ⟨i, h1, _⟩ := denotes_get hf hs hty
      exact ⟨_, by simp only [h1]; rfl⟩
  | constant =>
    have ht : ∃ r, c = .ref r ∧ ConstOk ent (W.one e f) r := by
      cases a <;> first | exact hc | cases hcompat
    obtain ⟨r, rfl, hty⟩ := ht
    simp only [get, refAt_eq hl]
    cases ho : W.one e f with
    | none =>
      rw [ho] at hty
      have : r.isNull = true := hty
      exact ⟨.one none, by simp [getOne, this]⟩
    | some m =>
      rw [ho] at hty
      obtain ⟨i, h1, _⟩ := denotes_get hf hs (show Denotes ent .constant r m from hty)
      exact ⟨_, by simp only [h1]; rfl⟩
  | assembly =>
    cases a <;> first | (exfalso; exact Bool.noConfusion hcompat; done) | skip
    obtain ⟨r, b, rfl, _, hd⟩ := hc
    simp only [get, refAt_eq hl]
    obtain ⟨i, h1, _⟩ := denotes_get hf hs hd
    exact ⟨_, by simp only [h1]; rfl⟩
  | many k' =>
    have ht : ∃ r, c = .ref r ∧ ManyOk ent k' (W.many e f) r := by
      cases a <;> first
        | (exfalso; exact Bool.noConfusion hcompat; done)
        | (simp only [compat, beq_iff_eq] at hcompat
           subst hcompat; exact hc)
    obtain ⟨r, rfl, hty⟩ := ht
    obtain ⟨l, h1⟩ := many_read hw hf hs hty
    exact ⟨_, by simp only [get, refAt_eq hl, h1]; rfl⟩
  | through k' =>
    have ht : holder k' = true ∧ ∃ r, c = .ref r ∧ ManyOk ent k' (W.many e f) r := by
      cases a <;> first
        | (exfalso; exact Bool.noConfusion hcompat; done)
        | (simp only [compat, Bool.and_eq_true, beq_iff_eq] at hcompat
           obtain ⟨rfl, h2⟩ := hcompat; exact ⟨h2, hc⟩)
        | (simp only [compat, beq_iff_eq] at hcompat
           subst hcompat; exact ⟨rfl, hc⟩)
    obtain ⟨hk', r, rfl, hty⟩ := ht
    obtain ⟨l, h1⟩ := through_read hw hf hs hro hk' hty
    exact ⟨_, by simp only [get, refAt_eq hl, h1]; rfl⟩

theorem reads_special (k : Kind) : ∀ p ∈ reads k,
    (p.2 = .imported ∨ ¬ ((k = .methodRef ∨ k = .methodRefParam) ∧ p.1 = "type")) ∧
    (p.2 = .host → k = .typeRef ∧ p.1 = "host") := by
  cases k <;> simp [reads]

theorem read_ok {W : World} (hw : ShortLists W) (hm : OwnMethods W) {ent : Ents} {t : Tables}
    (hf : Final W ent t) (hs : SmallTables t) (hro : RowsOk t) : ∃ g, read t = .ok g := by
  apply mapE_ok
  rintro ⟨k, i⟩ hn
  obtain ⟨_, hi⟩ := mem_nodes.mp hn
  have hi' := hi
  rw [hf.len] at hi'
  have hrow : (t k)[i]? = some ((t k)[i]'hi) := List.getElem?_eq_getElem hi
  have hent : (ent k)[i]? = some ((ent k)[i]'hi') := List.getElem?_eq_getElem hi'
  have hd := hf.done k i _ _ hent hrow
  have : ∃ fs, mapE (fun c : String × Get =>
      match get t (rowOf t (k, i)) c.1 c.2 with
      | .error x => .error x
      | .ok v => .ok (c.1, v)) (reads k) = .ok fs := by
    apply mapE_ok
    rintro ⟨f, g⟩ hp
    obtain ⟨a, ha, hcompat⟩ := reads_compat k (f, g) hp
    obtain ⟨c, hc, hok⟩ := hd f a ha
    obtain ⟨h1, h2⟩ := reads_special k (f, g) hp
    have hcell := hro k _ (List.mem_of_getElem? hrow) f c hc
    obtain ⟨v, hv⟩ := get_read hw hm hf hs hro hcompat h1 h2 hcell hc hok
    rw [rowOf_eq hrow]
    exact ⟨(f, v), by simp only [hv]⟩
  obtain ⟨fs, hfs⟩ := this
  refine ⟨((k, i), fs), ?_⟩
  have : ∀ m : Except Err (List (String × Val)), m = .ok fs →
      (match m with
        | .error x => Except.error x
        | .ok fs => Except.ok ((k, i), fs)) =
        .ok ((k, i), fs) := by rintro m rfl; rfl
  exact this _ hfs

end Verif.Asm
