import Verif.Proof.AsmEnd

/-
  A program without errors is written without errors, and its file is read without errors.
-/

namespace Verif.Asm

open Verif.Asm.Spec

/-- The table of a type parameter. -/
def pk (W : World) (p : Id) : Kind :=
  match W.gtype p with
  | .typeDefParam => .typeDefParam
  | _ => .genericParam

def Known (W : World) (s : St) (p : Id) : Prop := (s.search (pk W p) p).isSome = true

/-- The type parameter is one of a class, or has its row, or is about to get it. -/
def Okp (W : World) (s : St) (ds : List Id) (p : Id) : Prop := ofClass W p ∨ Known W s p ∨ p ∈ ds

def Maps (s : St) : Prop := ∀ k e r, s.search k e = some r → r.extra = extra k ∧ r.count = 1

/-- The reader has no complaint about this reference. -/
def CellRead (k : Kind) (f : String) (c : Cell) : Prop := ∀ r, c = .ref r →
  (r.extra = paramIndex → (k = .methodRef ∨ k = .methodRefParam) ∧ f = "type") ∧
  (k = .typeRef → f = "host" → r.isNull = true ∨ (r.extra = 1 ∧ r.count = 1)) ∧
  (k = .nestType → r.extra = 0)

def RowsOk (rows : Kind → List Row) : Prop :=
  ∀ k row, row ∈ rows k → ∀ f c, row.lookup f = some c → CellRead k f c

structure Keep (W : World) (D : Kind → Id → Prop) (ds : List Id) (s s' : St) : Prop where
  mono : ∀ k e, (s.search k e).isSome = true → (s'.search k e).isSome = true
  que : ∃ new, s'.queue = s.queue ++ new ∧
    ∀ q ∈ new, D q.1 q.2.2 ∧ ∀ p, Mentions W q.1 q.2.2 p → Okp W s' ds p
  rows : Maps s → RowsOk s.rows → RowsOk s'.rows
  maps : Maps s → Maps s'
  meth : ∀ m, (s'.search .method m).isSome = true → (s.search .method m).isSome = true ∨
    ∃ i, (Kind.method, i, m) ∈ s'.queue

theorem Keep.refl {W D ds} (s : St) : Keep W D ds s s :=
  ⟨fun _ _ h => h, ⟨[], by simp, fun q hq => by cases hq⟩, fun _ h => h, fun h => h,
    fun m h => .inl h⟩

theorem Keep.known {W D ds s s'} (h : Keep W D ds s s') {p} (hp : Known W s p) : Known W s' p :=
  h.mono _ _ hp

theorem Keep.okp {W D ds s s'} (h : Keep W D ds s s') {ds' p} (hp : Okp W s ds' p) :
    Okp W s' ds' p := hp.imp id (Or.imp h.known id)

theorem Keep.trans {W D ds s s' s''} (h : Keep W D ds s s') (g : Keep W D ds s' s'') :
    Keep W D ds s s'' := by
  refine ⟨fun k e x => g.mono _ _ (h.mono _ _ x), ?_, fun m x => g.rows (h.maps m) (h.rows m x),
    fun x => g.maps (h.maps x), ?_⟩
  · obtain ⟨n1, h1, h2⟩ := h.que
    obtain ⟨n2, g1, g2⟩ := g.que
    refine ⟨n1 ++ n2, by rw [g1, h1, List.append_assoc], ?_⟩
    intro q hq
    rcases List.mem_append.mp hq with hq | hq
    · exact ⟨(h2 q hq).1, fun p hp => g.okp ((h2 q hq).2 p hp)⟩
    · exact g2 q hq
  · intro m hm
    rcases g.meth m hm with h1 | h1
    · rcases h.meth m h1 with h2 | ⟨i, h2⟩
      · exact .inl h2
      · obtain ⟨n2, g1, _⟩ := g.que
        exact .inr ⟨i, by rw [g1]; exact List.mem_append_left _ h2⟩
    · exact .inr h1

theorem ref_extra (k : Kind) (i c : Nat) : (Ref.of i c (extra k)).extra = extra k := by
  cases k <;> rfl

theorem extra_ne (k : Kind) : extra k ≠ paramIndex := by cases k <;> decide

theorem append_keep {W D ds} {s : St} {k : Kind} {e : Id} (hk : k ≠ .method) (hD : D k e)
    (hm : ∀ p, Mentions W k e p → Okp W s ds p) :
    Keep W D ds s ((s.append k e).enque k (s.rows k).length e) := by
  have hse : ∀ k' e', ((s.append k e).enque k (s.rows k).length e).search k' e' =
      if k' = k ∧ e' = e then some (Ref.of (s.rows k).length 1 (extra k))
      else s.search k' e' := fun k' e' => search_append s k k' e e'
  have hmono : ∀ k' e', (s.search k' e').isSome = true →
      (((s.append k e).enque k (s.rows k).length e).search k' e').isSome = true := by
    intro k' e' h
    rw [hse]
    split
    · rfl
    · exact h
  refine ⟨hmono, ⟨[(k, (s.rows k).length, e)], rfl, ?_⟩, ?_, ?_, ?_⟩
  · intro q hq
    simp only [List.mem_singleton] at hq
    subst hq
    exact ⟨hD, fun p hp => (hm p hp).imp id (Or.imp (hmono _ _) id)⟩
  · intro _ h k' row hr f c hc
    have hr : row ∈ upd s.rows k (s.rows k ++ [[]]) k' := hr
    by_cases hkk : k' = k
    · subst hkk
      rw [upd_same] at hr
      rcases List.mem_append.mp hr with hr | hr
      · exact h k' row hr f c hc
      · simp only [List.mem_singleton] at hr
        subst hr; cases hc
    · rw [upd_ne _ _ hkk] at hr
      exact h k' row hr f c hc
  · intro h k' e' r hr
    rw [hse] at hr
    split at hr
    · rename_i hh
      obtain ⟨rfl, rfl⟩ := hh
      cases hr
      exact ⟨ref_extra _ _ _, rfl⟩
    · exact h k' e' r hr
  · intro m h
    rw [hse] at h
    split at h
    · rename_i hh
      exact absurd hh.1.symm hk
    · exact .inl h

theorem commitOne_keep {W D ds} {s : St} {k : Kind} {e : Id} (hk : k ≠ .method) (hD : D k e)
    (hm : s.search k e = none → ∀ p, Mentions W k e p → Okp W s ds p) :
    Keep W D ds s (commitOne s k e).2 ∧
      (Maps s → (commitOne s k e).1.extra = extra k ∧ (commitOne s k e).1.count = 1) := by
  unfold commitOne
  cases hs : s.search k e with
  | some r => exact ⟨Keep.refl s, fun h => h k e r hs⟩
  | none => exact ⟨append_keep hk hD (hm hs), fun _ => ⟨ref_extra _ _ _, rfl⟩⟩

def AllTypes (W : World) (s : St) : Prop := ∀ t ∈ W.types, (s.search .type t).isSome = true

theorem known_of {W : World} {s : St} {p : Id} {j : Nat} (h : W.gtype p = .genericParam j) :
    Known W s p ↔ (s.search .genericParam p).isSome = true := by simp [Known, pk, h]

theorem known_of' {W : World} {s : St} {p : Id} (h : W.gtype p = .typeDefParam) :
    Known W s p ↔ (s.search .typeDefParam p).isSome = true := by simp [Known, pk, h]

theorem commitType_keep {W D ds} (L : Legal W D) {s : St} (hT : AllTypes W s) {t : Id}
    (hn : ∀ k', tableOf (W.gtype t) = some k' → D k' t)
    (hp : isParam (W.gtype t) = true → Known W s t)
    (hm : ∀ k' p, tableOf (W.gtype t) = some k' → k' ≠ .type → Mentions W k' t p →
      Okp W s ds p) :
    ∃ r s', commitType W s (some t) = .ok (r, s') ∧ Keep W D ds s s' ∧
      (Maps s → r.extra ≠ paramIndex ∧
        (W.gtype t = .general false → r.extra = 1 ∧ r.count = 1) ∧
        (W.gtype t = .general true → r.extra = 0)) := by
  simp only [commitType]
  cases hg : W.gtype t with
  | general b =>
    cases b with
    | false =>
      have h := commitOne_keep (ds := ds) (s := s) (k := .typeRef) (by decide)
        (hn _ (by rw [hg]; rfl)) (fun _ p => hm .typeRef p (by rw [hg]; rfl) (by decide))
      refine ⟨(commitOne s .typeRef t).1, (commitOne s .typeRef t).2, rfl, h.1, fun hM => ⟨?_, fun _ => ?_, fun h' => (by cases h')⟩⟩
      · rw [(h.2 hM).1]; decide
      · exact h.2 hM
    | true =>
      have hD := hn .type (by rw [hg]; rfl)
      have h := commitOne_keep (W := W) (ds := ds) (s := s) (k := .type) (e := t) (by decide) hD
        (fun hs => by have := hT t (L.own t hD); rw [hs] at this; cases this)
      refine ⟨(commitOne s .type t).1, (commitOne s .type t).2, rfl, h.1, fun hM => ⟨?_, fun h' => (by cases h'), fun _ => ?_⟩⟩
      · rw [(h.2 hM).1]; decide
      · exact (h.2 hM).1
  | generic =>
    have h := commitOne_keep (ds := ds) (s := s) (k := .genericType) (by decide)
      (hn _ (by rw [hg]; rfl)) (fun _ p => hm .genericType p (by rw [hg]; rfl) (by decide))
    refine ⟨(commitOne s .genericType t).1, (commitOne s .genericType t).2, rfl, h.1, fun hM => ⟨?_, fun h' => (by cases h'), fun h' => (by cases h')⟩⟩
    rw [(h.2 hM).1]; decide
  | array =>
    have h := commitOne_keep (ds := ds) (s := s) (k := .arrayType) (by decide)
      (hn _ (by rw [hg]; rfl)) (fun _ p => hm .arrayType p (by rw [hg]; rfl) (by decide))
    refine ⟨(commitOne s .arrayType t).1, (commitOne s .arrayType t).2, rfl, h.1, fun hM => ⟨?_, fun h' => (by cases h'), fun h' => (by cases h')⟩⟩
    rw [(h.2 hM).1]; decide
  | genericParam j =>
    have hk := (known_of hg).mp (hp (by rw [hg]; rfl))
    cases hs : s.search .genericParam t with
    | none => rw [hs] at hk; cases hk
    | some r =>
      refine ⟨_, _, rfl, Keep.refl s, fun hM => ⟨?_, fun h' => (by cases h'), fun h' => (by cases h')⟩⟩
      rw [(hM _ _ _ hs).1]; decide
  | typeDefParam =>
    have hk := (known_of' hg).mp (hp (by rw [hg]; rfl))
    cases hs : s.search .typeDefParam t with
    | none => rw [hs] at hk; cases hk
    | some r =>
      refine ⟨_, _, rfl, Keep.refl s, fun hM => ⟨?_, fun h' => (by cases h'), fun h' => (by cases h')⟩⟩
      rw [(hM _ _ _ hs).1]; decide
  | null =>
    exact ⟨_, _, rfl, Keep.refl s, fun _ => ⟨by decide, fun h' => (by cases h'), fun h' => (by cases h')⟩⟩

/-- A type parameter of a foreign method. -/
theorem commitType_foreign {W : World} {s : St} {t : Id} {j : Nat}
    (hg : W.gtype t = .genericParam j) : ∃ r, commitType W s (some t) = .ok (r, s) := by
  simp only [commitType, hg]
  cases s.search .genericParam t with
  | none => exact ⟨_, rfl⟩
  | some r => exact ⟨_, rfl⟩

/-! ## Columns -/

/-- The statement fits the column. -/
def Compat (k : Kind) (f : String) : Act → Prop
  | .text must => must = true → f ∈ requiredNames k
  | .num => True
  | .type must => f ∈ typeColumns k ∧ (must = true → f ∈ requiredTypes k) ∧ k ≠ .nestType ∧
      (k = .methodRef ∧ f = "type" → must = false)
  | .itself => k = .genericArgument ∨ k = .nestType ∨ k = .superType
  | .touch => k = .type ∧ f = "host"
  | .method must => f ∈ methodColumns ∧
      (must = true → k = .attribute ∧ f = "constructor") ∧ k ≠ .typeRef ∧ k ≠ .nestType
  | .constant => f ∈ constantColumns k ∧ k ≠ .typeRef ∧ k ≠ .nestType
  | .assembly => k = .typeRef ∧ f = "assembly"
  | .many k' => (f, k') ∈ lists k ∧ single k' = false ∧ k ≠ .typeRef ∧ k ≠ .nestType
  | .nest => k = .type ∧ f = "nest_types"
  | .arguments => k = .attribute ∧ f = "arguments"
  | .attributeType => k = .attribute ∧ f = "type"
  | .refParam => k = .methodRefParam ∧ f = "type"

theorem steps_compat (k : Kind) : ∀ p ∈ steps k, Compat k p.1 p.2 := by
  cases k <;> simp [steps, Compat, requiredNames, requiredTypes, typeColumns, methodColumns,
    constantColumns, lists, single]

/-- The statements that look nothing up. -/
def quiet : Act → Bool
  | .text _ | .num | .many _ | .nest | .arguments | .touch => true
  | _ => false

def Rooted (W : World) (s : St) (t : Id) : Prop :=
  (∀ p ∈ W.many t "generic_params", (s.search .genericParam p).isSome = true) ∧
  (∀ m ∈ W.many t "methods", (s.search .method m).isSome = true) ∧
  ∀ x ∈ W.many t "fields", (s.search .field x).isSome = true

def Roots (W : World) (s : St) : Prop := ∀ t ∈ W.types, Rooted W s t

theorem Rooted.mono {W : World} {s s' : St} {t}
    (h : ∀ k e, (s.search k e).isSome = true → (s'.search k e).isSome = true)
    (g : Rooted W s t) : Rooted W s' t :=
  ⟨fun p hp => h _ _ (g.1 p hp), fun p hp => h _ _ (g.2.1 p hp), fun p hp => h _ _ (g.2.2 p hp)⟩

theorem ofClass_known {W : World} {D} (L : Legal W D) {s : St} (h : Roots W s) {p}
    (hp : ofClass W p) : Known W s p := by
  obtain ⟨t, ht, hm⟩ := hp
  have := L.params .type t p (L.types t ht).1 hm
  simp only [reduceCtorEq, if_false] at this
  obtain ⟨j, hj⟩ := this
  exact (known_of hj).mpr ((h t ht).1 p hm)

structure Ready (W : World) (s : St) (k : Kind) (e : Id) : Prop where
  roots : Roots W s
  decl : ∀ p ∈ declared W k e, Known W s p
  ment : ∀ p, Mentions W k e p → Known W s p

theorem lookup_isSome : ∀ (mp : List (Id × Ref)) (x : Id) (r : Ref), (x, r) ∈ mp →
    (mp.lookup x).isSome = true
  | [], _, _, h => by cases h
  | (y, r') :: l, x, r, hr => by
    simp only [List.lookup]
    cases hxy : x == y with
    | true => rfl
    | false =>
      simp only []
      rcases List.mem_cons.mp hr with h | h
      · cases h; simp at hxy
      · exact lookup_isSome l x r h

theorem acquire_keep {W D ds} {s : St} {k : Kind} (hk : single k = false) {es : List Id}
    (hl : es.length < 512) (hD : ∀ x ∈ es, D k x)
    (hm : ∀ x ∈ es, ∀ p, Mentions W k x p → Okp W s ds p) :
    Keep W D ds s (acquire s k es).2 ∧ (acquire s k es).1.extra ≠ paramIndex ∧
      ∀ x ∈ es, ((acquire s k es).2.search k x).isSome = true ∧
        ∃ i, (k, i, x) ∈ (acquire s k es).2.queue := by
  cases hes : es with
  | nil =>
    refine ⟨Keep.refl s, ?_, fun x hx => by cases hx⟩
    show (0 : Nat) % 2 ^ 3 ≠ 5
    decide
  | cons e0 es0 =>
    rw [← hes]
    have hne : es.isEmpty = false := by rw [hes]; rfl
    unfold acquire
    simp only [hne, Bool.false_eq_true, if_false]
    have hcount : (Ref.of (s.rows k).length es.length (extra k)).count = es.length := by
      rw [ref_count]; exact Nat.mod_eq_of_lt hl
    rw [hcount]
    generalize hhere : (List.range es.length).zip es = here
    have hmem : ∀ x ∈ es, ∃ i, (i, x) ∈ here := by
      intro x hx
      obtain ⟨i, hi⟩ := List.mem_iff_getElem?.mp hx
      have hlt := (List.getElem?_eq_some_iff.mp hi).1
      exact ⟨i, by rw [← hhere]; exact zip_range_mem es _ i x hlt hi⟩
    have hhere' : ∀ q ∈ here, q.2 ∈ es := by
      intro q hq
      rw [← hhere] at hq
      exact (List.of_mem_zip hq).2
    generalize hmp : (here.map fun p : Nat × Id => (p.2,
      Ref.of ((Ref.of (s.rows k).length es.length (extra k)).index + p.1) 1 (extra k))).reverse
      = mp
    have hin : ∀ x r, (x, r) ∈ mp → x ∈ es ∧ r.extra = extra k ∧ r.count = 1 := by
      intro x r h
      rw [← hmp] at h
      simp only [List.mem_reverse, List.mem_map, Prod.mk.injEq] at h
      obtain ⟨q, hq, rfl, rfl⟩ := h
      exact ⟨hhere' q hq, ref_extra _ _ _, rfl⟩
    have hlook : ∀ x ∈ es, (mp.lookup x).isSome = true := by
      intro x hx
      obtain ⟨i, hi⟩ := hmem x hx
      have : ∃ r, (x, r) ∈ mp := by
        rw [← hmp]
        exact ⟨_, List.mem_reverse.mpr (List.mem_map.mpr ⟨(i, x), hi, rfl⟩)⟩
      obtain ⟨r, hr⟩ := this
      exact lookup_isSome mp x r hr
    generalize hs' : ({ rows := upd s.rows k (s.rows k ++ es.map fun _ => [])
                        map := upd s.map k (mp ++ s.map k)
                        queue := s.queue ++ here.map fun p => (k, (s.rows k).length + p.1, p.2) } : St)
      = s'
    have hse : ∀ k' x, s'.search k' x =
        if k' = k then (mp.lookup x).or (s.search k x) else s.search k' x := by
      intro k' x
      rw [← hs']
      simp only [St.search]
      by_cases h : k' = k
      · subst h; rw [if_pos rfl, upd_same, lookup_append']
      · rw [if_neg h, upd_ne _ _ h]
    have hmono : ∀ k' x, (s.search k' x).isSome = true → (s'.search k' x).isSome = true := by
      intro k' x h
      rw [hse]
      split
      · rename_i hh; subst hh
        cases hm : mp.lookup x with
        | some r => rfl
        | none => simpa using h
      · exact h
    have hq : s'.queue = s.queue ++ here.map fun p => (k, (s.rows k).length + p.1, p.2) := by
      rw [← hs']
    have hinq : ∀ x ∈ es, ∃ i, (k, i, x) ∈ s'.queue := by
      intro x hx
      obtain ⟨i, hi⟩ := hmem x hx
      exact ⟨(s.rows k).length + i, by
        rw [hq]
        exact List.mem_append_right _ (List.mem_map.mpr ⟨(i, x), hi, rfl⟩)⟩
    refine ⟨⟨hmono, ⟨_, hq, ?_⟩, ?_, ?_, ?_⟩, ?_, ?_⟩
    · intro q hq'
      obtain ⟨z, hz, rfl⟩ := List.mem_map.mp hq'
      have hx := hhere' z hz
      exact ⟨hD _ hx, fun p hp => (hm _ hx p hp).imp id (Or.imp (hmono _ _) id)⟩
    · intro _ h k' row hr f c hc
      rw [← hs'] at hr
      have hr : row ∈ upd s.rows k (s.rows k ++ es.map fun _ => []) k' := hr
      by_cases hkk : k' = k
      · subst hkk
        rw [upd_same] at hr
        rcases List.mem_append.mp hr with hr | hr
        · exact h k' row hr f c hc
        · obtain ⟨_, _, rfl⟩ := List.mem_map.mp hr
          cases hc
      · rw [upd_ne _ _ hkk] at hr
        exact h k' row hr f c hc
    · intro h k' x r hr
      rw [hse] at hr
      split at hr
      · rename_i hh; subst hh
        cases hmx : mp.lookup x with
        | some r' =>
          rw [hmx] at hr
          cases hr
          exact (hin x r (mem_of_lookup _ _ _ hmx)).2
        | none =>
          rw [hmx] at hr
          exact h _ x r (by simpa using hr)
      · exact h k' x r hr
    · intro m h
      rw [hse] at h
      split at h
      · rename_i hh; subst hh
        cases hmx : mp.lookup m with
        | some r' => exact .inr (hinq m (hin m r' (mem_of_lookup _ _ _ hmx)).1)
        | none => rw [hmx] at h; exact .inl (by simpa using h)
      · exact .inl h
    · rw [ref_extra]; exact extra_ne k
    · intro x hx
      refine ⟨?_, by have := hinq x hx; rwa [hq] at this⟩
      rw [hse, if_pos rfl]
      have := hlook x hx
      cases hmx : mp.lookup x with
      | some r => rfl
      | none => rw [hmx] at this; cases this

/-- A cell without reference. -/
theorem cellRead_text (k f s) : CellRead k f (.text s) := fun r h => by cases h
theorem cellRead_num (k f n) : CellRead k f (.num n) := fun r h => by cases h

theorem cellRead_plain {k f r} (h : r.extra ≠ paramIndex) (h1 : k ≠ .typeRef)
    (h2 : k ≠ .nestType) : CellRead k f (.ref r) := by
  intro r' hr
  cases hr
  exact ⟨fun h' => absurd h' h, fun h' => absurd h' h1, fun h' => absurd h' h2⟩

/-- The type named in a column. -/
theorem named_keep {W D} (L : Legal W D) {s : St} (hT : AllTypes W s) {k e f t}
    (hD : D k e) (hn : Names W k e f t) (hr : Ready W s k e)
    (hf : ¬ foreign W k f t) :
    ∃ r s', commitType W s (some t) = .ok (r, s') ∧ Keep W D (declared W k e) s s' ∧
      (Maps s → r.extra ≠ paramIndex ∧
        (W.gtype t = .general false → r.extra = 1 ∧ r.count = 1) ∧
        (W.gtype t = .general true → r.extra = 0)) := by
  refine commitType_keep L hT (fun k' h => L.names k e f t k' hD hn h) ?_ ?_
  · intro hp
    by_cases hd : t ∈ declared W k e
    · exact hr.decl t hd
    · exact hr.ment t (.param hn hp hd hf)
  · intro k' p hk hne hmn
    by_cases hd : p ∈ declared W k e
    · exact .inr (.inr hd)
    · exact .inr (.inl (hr.ment p (.type hn hk hne hmn hd)))

theorem act_ok {W D} (L : Legal W D) (hw : ShortLists W) {s : St} {k e f a} (hD : D k e)
    (hcol : Compat k f a) (hT : AllTypes W s)
    (hS : ∀ p, Mentions W k e p → Okp W s (declared W k e) p)
    (hr : quiet a = true ∨ Ready W s k e) :
    ∃ c s', act W s e f a = .ok (c, s') ∧ Keep W D (declared W k e) s s' ∧
      (Maps s → CellRead k f c) ∧
      ∀ k', child a = some k' → ∀ x ∈ W.many e f, (s'.search k' x).isSome = true ∧
        ∃ i, (k', i, x) ∈ s'.queue := by
  have parts : ∀ k', (f, k') ∈ lists k → single k' = false → k ≠ .typeRef → k ≠ .nestType →
      Keep W D (declared W k e) s (acquire s k' (W.many e f)).2 ∧
      CellRead k f (.ref (acquire s k' (W.many e f)).1) ∧
      ∀ x ∈ W.many e f, ((acquire s k' (W.many e f)).2.search k' x).isSome = true ∧
        ∃ i, (k', i, x) ∈ (acquire s k' (W.many e f)).2.queue := by
    intro k' hk' hs' h1 h2
    have := acquire_keep (W := W) (D := D) (ds := declared W k e) (s := s) hs' (hw e f)
      (fun x hx => L.lists k e f k' x hD hk' hx) (by
        intro x hx p hp
        by_cases hd : p ∈ declared W k e
        · exact .inr (.inr hd)
        · exact hS p (.part hk' hx hp hd))
    exact ⟨this.1, cellRead_plain this.2.1 h1 h2, this.2.2⟩
  cases a with
  | text must =>
    simp only [act]
    rw [if_neg]
    · exact ⟨_, _, rfl, Keep.refl s, fun _ => cellRead_text _ _ _, fun k' h => by cases h⟩
    · intro h
      simp only [Bool.and_eq_true] at h
      exact L.requiredNames k e f hD (hcol h.1) (by simpa using h.2)
  | num => exact ⟨_, _, rfl, Keep.refl s, fun _ => cellRead_num _ _ _, fun k' h => by cases h⟩
  | type must =>
    have hr := hr.resolve_left (by simp [quiet])
    simp only [act]
    obtain ⟨hc1, hc2, hc3, hc4⟩ := hcol
    rw [if_neg]
    · cases ho : W.one e f with
      | none =>
        refine ⟨_, _, rfl, Keep.refl s, fun _ => ?_, fun k' h => by cases h⟩
        intro r h
        cases h
        exact ⟨fun h => absurd h (by decide), fun _ _ => .inl rfl, fun h => absurd h hc3⟩
      | some t =>
        have hn : Names W k e f t := .column hc1 ho
        by_cases hf : foreign W k f t
        · obtain ⟨hk, hft, j, hj⟩ := hf
          obtain ⟨r, hct⟩ := commitType_foreign (s := s) hj
          refine ⟨.ref r, s, by simp only [hct], Keep.refl s, fun _ => ?_, fun k' h => by cases h⟩
          intro r' h
          exact ⟨fun _ => ⟨hk, hft⟩, fun h' => (by rcases hk with rfl | rfl <;> cases h'),
            fun h' => (by rcases hk with rfl | rfl <;> cases h')⟩
        · obtain ⟨r, s', hct, hkeep, hrd⟩ := named_keep L hT hD hn hr hf
          refine ⟨.ref r, s', by simp only [hct], hkeep, fun hM => ?_, fun k' h => by cases h⟩
          intro r' h
          cases h
          refine ⟨fun h => absurd h (hrd hM).1, fun h1 h2 => ?_, fun h => absurd h hc3⟩
          subst h1; subst h2
          exact .inr ((hrd hM).2.1 (L.foreignHost e t hD ho))
    · intro h
      simp only [Bool.and_eq_true] at h
      obtain ⟨t, ht⟩ := L.requiredTypes k e f hD (hc2 h.1)
      rw [ht] at h
      exact absurd h.2 (by simp)
  | itself =>
    have hr := hr.resolve_left (by simp [quiet])
    have hn : Names W k e "" e := .element hcol
    obtain ⟨r, s', hct, hkeep, hrd⟩ := named_keep L hT hD hn hr (by rintro ⟨_, h, _⟩; exact absurd h (by decide))
    simp only [act, hct]
    refine ⟨_, _, rfl, hkeep, fun hM => ?_, fun k' h => by cases h⟩
    intro r' h
    cases h
    refine ⟨fun h => absurd h (hrd hM).1, fun h => ?_, fun h => ?_⟩
    · rcases hcol with rfl | rfl | rfl <;> cases h
    · subst h
      exact (hrd hM).2.2 (L.nested e hD)
  | touch =>
    obtain ⟨rfl, rfl⟩ := hcol
    simp only [act]
    cases ho : W.one e "host" with
    | none => exact ⟨_, _, rfl, Keep.refl s, fun _ => cellRead_num _ _ _, fun k' h => by cases h⟩
    | some h =>
      obtain ⟨h1, h2⟩ := L.host e h (.inl hD) ho
      obtain ⟨r, s', hct, hkeep, _⟩ := commitType_keep (ds := declared W .type e) L hT (t := h)
        (fun k' hk => by rw [h2] at hk; cases hk; exact h1)
        (fun hp => by rw [h2] at hp; cases hp)
        (fun k' p hk hne _ => by rw [h2] at hk; cases hk; exact absurd rfl hne)
      simp only [hct]
      exact ⟨_, _, rfl, hkeep, fun _ => cellRead_num _ _ _, fun k' h => by cases h⟩
  | method must =>
    have hr := hr.resolve_left (by simp [quiet])
    obtain ⟨hc1, hc2, hc3, hc4⟩ := hcol
    simp only [act]
    rw [if_neg]
    · cases ho : W.one e f with
      | none =>
        exact ⟨_, _, rfl, Keep.refl s, fun _ => cellRead_plain (by decide) hc3 hc4,
          fun k' h => by cases h⟩
      | some m =>
        obtain ⟨hown, t, ht, hm⟩ := L.methods k e f m hD hc1 ho
        have := (hr.roots t ht).2.1 m hm
        cases hs : s.search .method m with
        | none => rw [hs] at this; cases this
        | some r =>
          simp only [commitMethod, hown, if_true, hs]
          refine ⟨_, _, rfl, Keep.refl s, fun hM => cellRead_plain ?_ hc3 hc4,
            fun k' h => by cases h⟩
          rw [(hM _ _ _ hs).1]; decide
    · intro h
      simp only [Bool.and_eq_true] at h
      obtain ⟨rfl, rfl⟩ := hc2 h.1
      obtain ⟨_, c, hc, _⟩ := L.attributes e hD
      rw [hc] at h
      exact absurd h.2 (by simp)
  | constant =>
    have hr := hr.resolve_left (by simp [quiet])
    obtain ⟨hc1, hc2, hc3⟩ := hcol
    simp only [act]
    cases ho : W.one e f with
    | none =>
      refine ⟨_, _, rfl, Keep.refl s, fun _ => cellRead_plain ?_ hc2 hc3, fun k' h => by cases h⟩
      show (0 : Nat) % 2 ^ 3 ≠ 5
      decide
    | some c =>
      simp only [commitConstant]
      cases hs : s.search .constant c with
      | some r =>
        refine ⟨_, _, rfl, Keep.refl s, fun hM => cellRead_plain ?_ hc2 hc3,
          fun k' h => by cases h⟩
        rw [(hM _ _ _ hs).1]; decide
      | none =>
        simp only []
        -- the new row
        have hse : ∀ k' e', (s.append .constant c).search k' e' =
            if k' = .constant ∧ e' = c then
              some (Ref.of (s.rows .constant).length 1 (extra .constant))
            else s.search k' e' := fun k' e' => search_append s .constant k' c e'
        have hmono : ∀ k' e', (s.search k' e').isSome = true →
            ((s.append .constant c).search k' e').isSome = true := by
          intro k' e' h
          rw [hse]; split
          · rfl
          · exact h
        have h0 : Keep W D (declared W k e) s (s.append .constant c) := by
          refine ⟨hmono, ⟨[], by simp [St.append], fun q hq => by cases hq⟩, ?_, ?_, ?_⟩
          · intro _ h k' row hr f c' hc'
            have hr : row ∈ upd s.rows .constant (s.rows .constant ++ [[]]) k' := hr
            by_cases hkk : k' = .constant
            · subst hkk
              rw [upd_same] at hr
              rcases List.mem_append.mp hr with hr | hr
              · exact h _ row hr f c' hc'
              · simp only [List.mem_singleton] at hr
                subst hr; cases hc'
            · rw [upd_ne _ _ hkk] at hr
              exact h k' row hr f c' hc'
          · intro h k' e' r hr
            rw [hse] at hr
            split at hr
            · rename_i hh
              obtain ⟨rfl, rfl⟩ := hh
              cases hr
              exact ⟨ref_extra _ _ _, rfl⟩
            · exact h k' e' r hr
          · intro m h
            rw [hse] at h
            simp only [reduceCtorEq, false_and, if_false] at h
            exact .inl h
        have hT0 : AllTypes W (s.append .constant c) := fun t ht => hmono _ _ (hT t ht)
        have hr0 : Ready W (s.append .constant c) k e :=
          ⟨fun t ht => (hr.roots t ht).mono hmono, fun p hp => hmono _ _ (hr.decl p hp),
            fun p hp => hmono _ _ (hr.ment p hp)⟩
        have key : ∃ rt s1, commitType W (s.append .constant c) (W.one c "type") = .ok (rt, s1) ∧
            Keep W D (declared W k e) (s.append .constant c) s1 ∧
            (Maps (s.append .constant c) → rt.extra ≠ paramIndex) := by
          cases hct : W.one c "type" with
          | none => exact ⟨_, _, rfl, Keep.refl _, fun _ => by decide⟩
          | some t =>
            obtain ⟨r, s', h1, h2, h3⟩ := named_keep L hT0 hD (.constant hc1 ho hct) hr0 (by
              rintro ⟨h, _⟩
              rcases h with rfl | rfl <;> simp [constantColumns] at hc1)
            exact ⟨r, s', h1, h2, fun hM => (h3 hM).1⟩
        obtain ⟨rt, s1, h1, h2, h3⟩ := key
        simp only [h1]
        have h4 := h0.trans h2
        refine ⟨_, _, rfl, ⟨h4.mono, h4.que, ?_, h4.maps, h4.meth⟩,
          fun hM => cellRead_plain ?_ hc2 hc3, fun k' h => by cases h⟩
        · intro hM h k' row hr f c' hc'
          have hold := h4.rows hM h
          by_cases hkk : k' = .constant
          · subst hkk
            have hr : row ∈ upd s1.rows .constant ((s1.rows .constant).set
              (s.rows .constant).length
              [("value", .num (W.num c "value")), ("type", .ref rt)]) .constant := hr
            rw [upd_same] at hr
            rcases List.mem_or_eq_of_mem_set hr with hr | hr
            · exact hold _ row hr f c' hc'
            · subst hr
              intro r hrr
              subst hrr
              simp only [List.lookup] at hc'
              split at hc'
              · cases hc'
              · split at hc'
                · cases hc'
                  exact cellRead_plain (k := .constant) (f := f) (h3 (h0.maps hM)) (by decide) (by decide) _ rfl
                · cases hc'
          · have hr : row ∈ s1.rows k' := by
              have hr : row ∈ upd s1.rows .constant _ k' := hr
              rwa [upd_ne _ _ hkk] at hr
            exact hold k' row hr f c' hc'
        · rw [ref_extra]; decide
  | assembly =>
    obtain ⟨rfl, rfl⟩ := hcol
    obtain ⟨b, hb, hbD⟩ := L.assembly e hD
    have hnm : ∀ x p, ¬ Mentions W .assemblyRef x p := by
      intro x p h
      generalize hkk : Kind.assemblyRef = kk at h
      cases h with
      | param hn _ _ _ =>
        subst hkk
        cases hn with
        | column h1 _ => simp [typeColumns] at h1
        | element h1 => rcases h1 with h1 | h1 | h1 <;> cases h1
        | constant h1 _ _ => simp [constantColumns] at h1
      | type hn _ _ _ _ =>
        subst hkk
        cases hn with
        | column h1 _ => simp [typeColumns] at h1
        | element h1 => rcases h1 with h1 | h1 | h1 <;> cases h1
        | constant h1 _ _ => simp [constantColumns] at h1
      | part h1 _ _ _ => subst hkk; simp [lists] at h1
    simp only [act, hb, commitAssembly]
    have h := commitOne_keep (ds := declared W .typeRef e) (s := s) (k := .assemblyRef) (by decide)
      hbD (fun _ p hp => absurd hp (hnm b p))
    refine ⟨_, _, rfl, h.1, fun hM => ?_, fun k' h => by cases h⟩
    intro r hr
    cases hr
    exact ⟨fun h' => (by rw [(h.2 hM).1] at h'; cases h'), fun _ h' => (by simp at h'),
      fun h' => (by cases h')⟩
  | many k' =>
    obtain ⟨h1, h2, h3, h4⟩ := hcol
    obtain ⟨p1, p2, p3⟩ := parts k' h1 h2 h3 h4
    exact ⟨_, _, rfl, p1, fun _ => p2, fun k'' h => by cases h; exact p3⟩
  | nest =>
    obtain ⟨rfl, rfl⟩ := hcol
    obtain ⟨p1, p2, p3⟩ := parts .nestType (by simp [lists]) rfl (by decide) (by decide)
    simp only [act]
    rw [if_neg]
    · exact ⟨_, _, rfl, p1, fun _ => p2, fun k'' h => by cases h; exact p3⟩
    · intro h
      rw [List.any_eq_true] at h
      obtain ⟨x, hx, h⟩ := h
      have := L.nested x (L.lists .type e _ .nestType x hD (by simp [lists]) hx)
      simp [this] at h
  | arguments =>
    obtain ⟨rfl, rfl⟩ := hcol
    obtain ⟨p1, p2, p3⟩ := parts .attributeArgument (by simp [lists]) rfl (by decide) (by decide)
    obtain ⟨_, c, hc, hlen, hle⟩ := L.attributes e hD
    simp only [act, hc]
    rw [if_neg]
    · exact ⟨_, _, rfl, p1, fun _ => p2, fun k'' h => by cases h; exact p3⟩
    · intro h
      apply h
      rw [hlen]
      cases hl : W.many e "arguments" with
      | nil => rfl
      | cons a l =>
        rw [hl] at hle
        simp only [List.length_cons] at hle
        have : l.length = 0 := by omega
        simp [sizeOf, this]
  | attributeType =>
    have hr := hr.resolve_left (by simp [quiet])
    obtain ⟨rfl, rfl⟩ := hcol
    obtain ⟨t, ht⟩ := L.requiredTypes .attribute e "type" hD (by simp [requiredTypes])
    obtain ⟨⟨b, hb⟩, hg⟩ := (L.attributes e hD).1 t ht
    obtain ⟨r, s', hct, hkeep, hrd⟩ := named_keep L hT hD (.column (by simp [typeColumns]) ht) hr
      (by rintro ⟨h, _⟩; rcases h with h | h <;> cases h)
    simp only [act, ht, hb, hg, List.isEmpty_nil, if_true, hct]
    exact ⟨_, _, rfl, hkeep, fun hM => cellRead_plain (hrd hM).1 (by decide) (by decide),
      fun k' h => by cases h⟩
  | refParam =>
    have hr := hr.resolve_left (by simp [quiet])
    obtain ⟨rfl, rfl⟩ := hcol
    obtain ⟨t, ht⟩ := L.requiredTypes .methodRefParam e "type" hD (by simp [requiredTypes])
    by_cases hg : ∃ j, W.gtype t = .genericParam j
    · obtain ⟨j, hj⟩ := hg
      simp only [act, ht, hj]
      refine ⟨_, _, rfl, Keep.refl s, fun _ => ?_, fun k' h => by cases h⟩
      intro r _
      exact ⟨fun _ => ⟨.inr rfl, rfl⟩, fun h => (by cases h), fun h => (by cases h)⟩
    · obtain ⟨r, s', hct, hkeep, hrd⟩ := named_keep L hT hD
        (.column (by simp [typeColumns]) ht) hr (by rintro ⟨_, _, h⟩; exact hg h)
      have : act W s e "type" .refParam = .ok (.ref r, s') := by
        simp only [act, ht]
        cases hx : W.gtype t <;> simp only [hct]
        exact absurd ⟨_, hx⟩ hg
      exact ⟨_, _, this, hkeep, fun hM => cellRead_plain (hrd hM).1 (by decide) (by decide),
        fun k' h => by cases h⟩

end Verif.Asm
