import Verif.Spec.Mref
import Verif.Proof.Rt

namespace Verif.Mref

open Verif.Asm Verif.Rt Verif.Rt.Spec Verif.Mref.Spec

abbrev Ext := Verif.Rt.Ext

/-! ## Managers of classes that are not nested -/

theorem singles_all {t : Tables} {gs : List Nat} (h : ∀ g ∈ gs, ¬ Pack t g) :
    singles t gs = gs := by
  simp only [singles]
  induction gs with
  | nil => rfl
  | cons g gs ih =>
    rw [List.takeWhile_cons_of_pos (by simpa using h g (List.mem_cons_self ..)),
      ih (fun x hx => h x (List.mem_cons_of_mem _ hx))]

theorem appendArgs_atypes {t : Tables} :
    ∀ (gs : List Nat) (os : List Obj) (m m' : Mgr), appendArgs t gs os m = .ok m' →
      (∀ g ∈ gs, ¬ Pack t g) → m'.atypes = m.atypes ++ os.take gs.length
  | [], os, m, m', h, _ => by simp only [appendArgs] at h; cases h; simp
  | g :: gs, os, m, m', h, hp => by
    simp only [appendArgs] at h
    split at h
    · cases h
    · rename_i row hr
      obtain ⟨_, rfl⟩ := rowAt_ok hr
      rw [if_neg (show ¬ numAt _ _ = packKind from hp g (List.mem_cons_self ..))] at h
      cases os with
      | nil => cases h
      | cons o os =>
        simp only at h
        split at h
        · cases h
        · rename_i m1 hm
          rw [appendArgs_atypes gs os m1 m' h (fun g hg => hp g (List.mem_cons_of_mem _ hg)),
            (append_ok hm).2.2.2]
          simp

theorem appendHolders_total {t : Tables} :
    ∀ (gs : List Nat) (m : Mgr) (P : Pool) (names : List String), Keys m names →
      (∀ g ∈ gs, g < (t .genericParam).length) → (names ++ gs.map (nameOf t)).Nodup →
      ∃ m' P' os, appendHolders t gs m P = .ok (m', P') ∧ Ext P P' ∧
        m'.atypes = m.atypes ++ os ∧ os.length = gs.length ∧
        (∀ (j : Nat) o, os[j]? = some o → P'[o]? = some (.holder (m.atypes.length + j))) ∧
        (∀ nm o, m.typeAt nm = some o → m'.typeAt nm = some o) ∧
        ∀ (j : Nat) g, gs[j]? = some g → m'.typeAt (nameOf t g) = os[j]?
  | [], m, P, names, _, _, _ =>
    ⟨m, P, [], rfl, Ext.refl _, by simp, rfl, by intro j o h; simp at h, fun _ _ h => h,
      by intro j g h; simp at h⟩
  | g :: gs, m, P, names, hk, hl, hd => by
    have hr := rowAt_eq (hl g (List.mem_cons_self ..))
    have hnew : nameOf t g ∉ names := by
      intro hm
      rw [List.nodup_append] at hd
      exact hd.2.2 _ hm _ (by simp) rfl
    have hlk : (m.map.lookup (nameOf t g)).isSome = false := by
      cases hx : (m.map.lookup (nameOf t g)).isSome with
      | false => rfl
      | true => exact absurd (hk _ hx) hnew
    generalize hh : make P (.holder m.atypes.length) = h
    have hat : h.2[h.1]? = some (.holder m.atypes.length) := by rw [← hh]; exact make_at _ _
    have hex : Ext P h.2 := by rw [← hh]; exact make_ext _ _
    have hap : m.append (nameOf t g) h.1 = .ok { m with
        map := (nameOf t g, h.1) :: m.map, atypes := m.atypes ++ [h.1] } := by
      simp only [Mgr.append, hlk]; rfl
    have hk' : Keys { m with map := (nameOf t g, h.1) :: m.map, atypes := m.atypes ++ [h.1] }
        (names ++ [nameOf t g]) := by
      intro nm hnm
      have hnm : (((nameOf t g, h.1) :: m.map).lookup nm).isSome := hnm
      rw [List.lookup_cons] at hnm
      split at hnm
      · rename_i he
        rw [beq_iff_eq] at he
        subst he
        simp
      · exact List.mem_append_left _ (hk nm hnm)
    obtain ⟨m', P', os, e1, e2, e3, e4, e5, e6, e7⟩ := appendHolders_total gs _ h.2
      (names ++ [nameOf t g]) hk' (fun g hg => hl g (List.mem_cons_of_mem _ hg))
      (by simpa using hd)
    refine ⟨m', P', h.1 :: os, ?_, hex.trans e2, by rw [e3]; simp, by simp [e4], ?_, ?_, ?_⟩
    · simp only [appendHolders, hr, hh]
      simp only [nameOf] at hap e1
      simp only [hap]
      exact e1
    · intro j o ho
      cases j with
      | zero => simp at ho; subst ho; exact e2 _ _ hat
      | succ j =>
        have := e5 j o (by simpa using ho)
        rw [this]; simp; omega
    · intro nm o hno
      exact e6 nm o (append_keeps hap hno)
    · intro j g' hg'
      cases j with
      | zero =>
        simp at hg'
        subst hg'
        rw [e6 _ h.1 (append_at hap)]; rfl
      | succ j => rw [e7 j g' (by simpa using hg')]; rfl

/-- What `importType` gives for a class that is not nested. -/
theorem top_import {S : System} {b i : Nat} {gs : List Nat} {u : Ty} {vs : List Ty}
    (h : Top S b i gs u vs) {P : Pool} (good : Good P) {o : Obj} {x : Shape}
    (hx : P[o]? = some x) (hi : Is P o u) :
    ∃ m P', (∀ n, importType S b (n + 1) x P = .ok (m, P')) ∧ Good P' ∧ Ext P P' ∧
      ValidMgr m P'.length ∧ Agrees P' m (S.tables b) (At gs vs) ∧ AreAll P' m.atypes vs := by
  have hok := mem_shapeOk good (List.mem_of_getElem? hx)
  cases h with
  | cls hps hhost hnp hd =>
    obtain ⟨hgs, hl⟩ := params_eq hps
    cases hi with
    | cls hi =>
      rw [hx] at hi
      cases hi
      obtain ⟨m', P', os, e1, e2, e3, e4, e5, _, e7⟩ := appendHolders_total
        (t := S.tables b) gs {} P [] (by intro nm h; cases h) hl (by simpa using hd)
      have hq : ∀ n, importType S b (n + 1) (.general b i) P = .ok (m', P') := by
        intro n
        simp only [importType, hostOf, hhost, Option.map_none, appendType, ← hgs, e1]
      obtain ⟨g1, x1, v1⟩ := importType_good _ _ _ _ _ good hok (hq 0)
      have hole : ∀ (j : Nat) o, os[j]? = some o → Is P' o (.hole j) := by
        intro j o ho
        have := e5 j o ho
        simp at this
        exact .hole this
      have hat : m'.atypes = os := by rw [e3]; rfl
      refine ⟨m', P', hq, g1, x1, v1, ?_, ?_⟩
      · rintro p us ⟨j, u, h1, h2, rfl⟩
        refine ⟨?_, fun hp => absurd hp (hnp p (List.mem_of_getElem? h1))⟩
        intro _
        obtain ⟨oj, hoj⟩ := get_some (xs := os) (k := j) (by rw [e4]; exact get_lt h1)
        refine ⟨oj, u, rfl, by rw [e7 j p h1, hoj], ?_⟩
        rw [List.getElem?_map, List.getElem?_range (get_lt h1)] at h2
        cases h2
        exact hole j oj hoj
      · rw [hat]
        refine ⟨by simp [e4], ?_⟩
        intro k o u ho hu
        rw [List.getElem?_map, List.getElem?_range (by rw [← e4]; exact get_lt ho)] at hu
        cases hu
        exact hole k o ho
  | inst hps hnp hd hlen =>
    obtain ⟨hgs, hl⟩ := params_eq hps
    cases hi with
    | @inst _ ot _ _ hh os _ _ h1 h2 h3 h4 h5 h6 =>
      rw [hx] at h1
      cases h1
      cases hh with
      | some _ => cases h3
      | none =>
        obtain ⟨m', e1, _⟩ := appendArgs_total (t := S.tables b) gs os {} []
          (by intro nm h; cases h) hl (by rw [singles_all hnp, h5, hlen]; exact Nat.le_refl _)
          (by rw [singles_all hnp]; simpa using hd)
        have hq : ∀ n, importType S b (n + 1) (.generic ot none os) P = .ok (m', P) := by
          intro n
          rw [hgs] at e1
          simp only [importType, hostOf, Option.bind_none, appendType, h2, e1]
        obtain ⟨g1, x1, v1⟩ := importType_good _ _ _ _ _ good hok (hq 0)
        refine ⟨m', P, hq, g1, x1, v1, ?_, ?_⟩
        · rintro p us ⟨j, u, k1, k2, rfl⟩
          refine ⟨?_, fun hp => absurd hp (hnp p (List.mem_of_getElem? k1))⟩
          intro _
          obtain ⟨o1, ho1, ho2⟩ := appendArgs_own j _ _ _ _ e1 k1
            (fun j q _ hq => hnp q (List.mem_of_getElem? hq))
          exact ⟨o1, u, rfl, ho2, h6 j o1 u ho1 k2⟩
        · have hat : m'.atypes = os := by
            rw [appendArgs_atypes _ _ _ _ e1 hnp, ← hlen, ← h5]; simp
          rw [hat]
          exact ⟨h5, h6⟩

/-! ## The types of signatures -/

theorem agrees_false (P : Pool) (m : Mgr) (t : Tables) : Agrees P m t (fun _ _ => False) :=
  fun _ _ h => h.elim

/-- A lookup that finds an object for the type from some amount of fuel on, starting with any
    pool that has the objects of `P0`. -/
def FindsOpt (S : System) (a : Nat) (m : Mgr) (P0 : Pool) (r : Ref) (u : Option Ty) : Prop :=
  ∃ N, ∀ f, N ≤ f → ∀ P, Good P → Ext P0 P →
    ∃ o P', Rt.getType S a m f r P = .ok (o, P') ∧ Good P' ∧ Ext P P' ∧
      o.isSome = u.isSome ∧ ∀ o' u', o = some o' → u = some u' → Is P' o' u'

theorem FindsOpt.of_finds {S : System} {a : Nat} {m : Mgr} {P0 : Pool} {r : Ref} {u : Ty}
    (v : ValidMgr m P0.length) (h : Finds S a m P0 r u) : FindsOpt S a m P0 r (some u) := by
  obtain ⟨N, h⟩ := h
  refine ⟨N, ?_⟩
  intro f hf P g e
  obtain ⟨o, P', h1, h2, h3⟩ := h f hf P e
  obtain ⟨g', _, _⟩ := getType_good _ _ _ _ _ g (v.mono e.len) h1
  refine ⟨some o, P', h1, g', h3, rfl, ?_⟩
  intro o' u' e1 e2
  cases e1; cases e2
  exact h2

theorem refType_finds {S : System} {a : Nat} {m : Mgr} {P0 : Pool} {vs : List Ty}
    (v : ValidMgr m P0.length) (pos : AreAll P0 m.atypes vs) {r : Ref} {u : Ty}
    (h : RefType S a vs r u) : FindsOpt S a m P0 r (some u) := by
  rcases h with ⟨h1, h2, h3⟩ | ⟨n, h1, h2⟩
  · refine ⟨1, ?_⟩
    intro f hf P g e
    obtain ⟨f, rfl⟩ := Nat.exists_eq_add_of_le' hf
    obtain ⟨o, ho⟩ := get_some (xs := m.atypes) (k := r.index) (by rw [pos.1]; exact get_lt h3)
    refine ⟨some o, P, ?_, g, Ext.refl _, rfl, ?_⟩
    · simp only [Rt.getType, h1, h2, Mgr.typeAtIndex, ho]
      simp
    · intro o' u' e1 e2
      cases e1; cases e2
      exact (pos.2 _ _ _ ho h3).mono e
  · exact .of_finds v (means_get (agrees_false _ _ _) h2 r h1)

theorem null_finds {S : System} {a : Nat} {m : Mgr} {P0 : Pool} {r : Ref}
    (h : r.isNull = true) : FindsOpt S a m P0 r none := by
  refine ⟨1, ?_⟩
  intro f hf P g e
  obtain ⟨f, rfl⟩ := Nat.exists_eq_add_of_le' hf
  refine ⟨none, P, ?_, g, Ext.refl _, rfl, ?_⟩
  · simp only [Rt.getType, h, if_true]
  · intro o' u' e1; cases e1

theorem declType_finds {S : System} {b : Nat} {m : Mgr} {P0 : Pool}
    {bind : Nat → List Ty → Prop} (v : ValidMgr m P0.length)
    (ag : Agrees P0 m (S.tables b) bind) {r : Ref} {u : Ty} (h : DeclType S b bind r u) :
    FindsOpt S b m P0 r (some u) := by
  obtain ⟨n, h1, _, h2⟩ := h
  exact .of_finds v (means_get ag h2 r h1)

/-- The objects of a prototype stand for the types of the signature. -/
structure ProtoIs (P : Pool) (p : Proto) (s : Sig) : Prop where
  name : p.name = s.name
  count : p.count = s.count
  ret : p.ret.isSome = s.ret.isSome ∧ ∀ o u, p.ret = some o → s.ret = some u → Is P o u
  params : Pairs (fun x y => x.1 = y.1 ∧ ∃ o, x.2 = some o ∧ Is P o y.2) p.params s.params

theorem pairs_mono {α β : Type} {R R' : α → β → Prop} (h : ∀ x y, R x y → R' x y) {xs ys}
    (p : Pairs R xs ys) : Pairs R' xs ys := by
  induction p with
  | nil => exact .nil
  | cons h1 _ ih => exact .cons (h _ _ h1) ih

theorem pairs_length {α β : Type} {R : α → β → Prop} {xs ys} (p : Pairs R xs ys) :
    xs.length = ys.length := by
  induction p with
  | nil => rfl
  | cons _ _ ih => simp [ih]

theorem ProtoIs.mono {P Q : Pool} {p s} (h : ProtoIs P p s) (e : Ext P Q) : ProtoIs Q p s :=
  ⟨h.name, h.count, ⟨h.ret.1, fun o u h1 h2 => (h.ret.2 o u h1 h2).mono e⟩,
    pairs_mono (fun _ _ ⟨h1, o, h2, h3⟩ => ⟨h1, o, h2, h3.mono e⟩) h.params⟩

theorem protoParams_finds {S : System} {a : Nat} {m : Mgr} {P0 : Pool} {vs : List Ty}
    (v : ValidMgr m P0.length) (pos : AreAll P0 m.atypes vs) {gs : List Nat}
    {ps : List (Nat × Ty)}
    (h : Pairs (fun g p => g < ((S.tables a) .methodRefParam).length ∧
      numAt (rowOf (S.tables a) (.methodRefParam, g)) "ptype" = p.1 ∧
      RefType S a vs (refAt (rowOf (S.tables a) (.methodRefParam, g)) "type") p.2) gs ps) :
    ∃ N, ∀ f, N ≤ f → ∀ P, Good P → Ext P0 P →
      ∃ qs P', protoParams S a m f gs P = .ok (qs, P') ∧ Good P' ∧ Ext P P' ∧
        Pairs (fun (x : Nat × Option Obj) (y : Nat × Ty) =>
          x.1 = y.1 ∧ ∃ o, x.2 = some o ∧ Is P' o y.2) qs ps := by
  induction h with
  | nil => exact ⟨0, fun f _ P g _ => ⟨[], P, rfl, g, Ext.refl _, .nil⟩⟩
  | @cons g p gs ps hr _ ih =>
    obtain ⟨h1, h2, h3⟩ := hr
    obtain ⟨N1, f1⟩ := refType_finds v pos h3
    obtain ⟨N2, f2⟩ := ih
    refine ⟨N1 + N2, ?_⟩
    intro f hf P gd e
    obtain ⟨o, P1, g1, d1, x1, s1, i1⟩ := f1 f (by omega) P gd e
    cases o with
    | none => cases s1
    | some o =>
      obtain ⟨qs, P2, g2, d2, x2, i2⟩ := f2 f (by omega) P1 d1 (e.trans x1)
      refine ⟨(p.1, some o) :: qs, P2, ?_, d2, x1.trans x2,
        .cons ⟨rfl, o, rfl, (i1 o p.2 rfl rfl).mono x2⟩ i2⟩
      simp only [protoParams, rowAt_eq h1, g1, g2, h2]

theorem protoParams_mono {S : System} {a : Nat} {m : Mgr} {n n' : Nat} (hn : n ≤ n') :
    ∀ {gs : List Nat} {P : Pool} {r}, protoParams S a m n gs P = .ok r →
      protoParams S a m n' gs P = .ok r
  | [], P, r, h => h
  | g :: gs, P, r, h => by
    simp only [protoParams] at h ⊢
    cases h1 : rowAt (S.tables a) .methodRefParam g with
    | error x => simp only [h1] at h; cases h
    | ok row =>
      simp only [h1] at h ⊢
      cases h2 : Rt.getType S a m n (refAt row "type") P with
      | error x => simp only [h2] at h; cases h
      | ok q =>
        obtain ⟨o, P1⟩ := q
        simp only [h2] at h
        simp only [getType_mono hn h2]
        cases h3 : protoParams S a m n gs P1 with
        | error x => simp only [h3] at h; cases h
        | ok q =>
          simp only [h3] at h
          simp only [protoParams_mono hn h3]
          exact h

/-! ## Comparison -/

theorem is_eq {P : Pool} (g : Good P) {o o' : Obj} {u v : Ty} (h : Is P o u) (h' : Is P o' v) :
    o = o' ↔ u = v := by
  constructor
  · intro e; subst e; exact h.fun h'
  · intro e; subst e; exact h.inj g.nodup h'

/-- The comparison gives this answer from some amount of fuel on. -/
def Answers (P0 : Pool) (f : Nat → Pool → Except Rt.Err (Bool × Pool)) (c : Prop) : Prop :=
  ∃ N, ∀ n, N ≤ n → ∀ P, Good P → Ext P0 P →
    ∃ r P', f n P = .ok (r, P') ∧ Good P' ∧ Ext P P' ∧ (r = true ↔ c)

theorem compareParams_answers {S : System} {b : Nat} {m : Mgr} {P0 : Pool}
    {bind : Nat → List Ty → Prop} (v : ValidMgr m P0.length)
    (ag : Agrees P0 m (S.tables b) bind) {gs : List Nat} {ps : List (Nat × Ty)}
    (h : Pairs (fun g p => g < ((S.tables b) .param).length ∧
      numAt (rowOf (S.tables b) (.param, g)) "param_type" = p.1 ∧
      DeclType S b bind (refAt (rowOf (S.tables b) (.param, g)) "type") p.2) gs ps) :
    ∀ {qs : List (Nat × Option Obj)} {ps' : List (Nat × Ty)},
      Pairs (fun (x : Nat × Option Obj) (y : Nat × Ty) =>
        x.1 = y.1 ∧ ∃ o, x.2 = some o ∧ Is P0 o y.2) qs ps' → ps'.length = ps.length →
      Answers P0 (fun n P => compareParams S b m n gs qs P) (ps = ps') := by
  induction h with
  | nil =>
    intro qs ps' hq hl
    have : ps' = [] := List.length_eq_zero_iff.mp (by simpa using hl)
    subst this
    exact ⟨0, fun n _ P g _ => ⟨true, P, rfl, g, Ext.refl _, by simp⟩⟩
  | @cons g p gs ps hr _ ih =>
    intro qs ps' hq hl
    obtain ⟨h1, h2, h3⟩ := hr
    cases hq with
    | nil => simp at hl
    | @cons x y qs ps' hxy hqs =>
      obtain ⟨k, xo⟩ := x
      obtain ⟨hk, o, ho, hio⟩ := hxy
      simp only at hk ho
      subst ho
      obtain ⟨N1, f1⟩ := declType_finds v ag h3
      obtain ⟨N2, f2⟩ := ih hqs (by simpa using hl)
      refine ⟨N1 + N2, ?_⟩
      intro n hn P gd e
      obtain ⟨nd, hn1, hn2, _⟩ := h3
      simp only [compareParams, rowAt_eq h1]
      by_cases hpk : p.1 = y.1
      · rw [if_neg (by rw [h2, hk, hpk]; simp)]
        simp only [packName_type hn1 hn2]
        obtain ⟨o1, P1, g1, d1, x1, s1, i1⟩ := f1 n (by omega) P gd e
        cases o1 with
        | none => cases s1
        | some o1 =>
          simp only [g1]
          have hi1 := i1 o1 p.2 rfl rfl
          have hi2 := hio.mono (e.trans x1)
          have heq := is_eq d1 hi1 hi2
          by_cases hty : p.2 = y.2
          · have : o1 = o := heq.mpr hty
            rw [if_neg (by rw [this]; simp)]
            obtain ⟨r, P2, g2, d2, x2, i2⟩ := f2 n (by omega) P1 d1 (e.trans x1)
            refine ⟨r, P2, g2, d2, x1.trans x2, ?_⟩
            rw [i2]
            have hp : p = y := Prod.ext hpk hty
            subst hp
            simp
          · have : ¬ o1 = o := fun h => hty (heq.mp h)
            rw [if_pos (by simpa using this)]
            refine ⟨false, P1, rfl, d1, x1, ?_⟩
            simp only [Bool.false_eq_true, false_iff]
            intro hc
            injection hc with hc _
            exact hty (by rw [hc])
      · rw [if_pos (by rw [h2, hk]; exact hpk)]
        refine ⟨false, P, rfl, gd, Ext.refl _, ?_⟩
        simp only [Bool.false_eq_true, false_iff]
        intro hc
        injection hc with hc _
        exact hpk (by rw [hc])

theorem compareTo_answers {S : System} {b : Nat} {m : Mgr} {P0 : Pool}
    {bind : Nat → List Ty → Prop} (v : ValidMgr m P0.length)
    (ag : Agrees P0 m (S.tables b) bind) {i : Nat} {s s' : Sig} (h : DeclSig S b bind i s)
    {p : Proto} (hp : ProtoIs P0 p s') :
    Answers P0 (fun n P => compareTo S b m n i p P) (s = s') := by
  obtain ⟨_, h1, h2, h3, h4⟩ := h
  have hret : FindsOpt S b m P0 (refAt (rowOf (S.tables b) (.method, i)) "type") s.ret := by
    cases hs : s.ret with
    | none => rw [hs] at h3; exact null_finds h3
    | some u => rw [hs] at h3; exact declType_finds v ag h3
  obtain ⟨N1, f1⟩ := hret
  have hcount : (refAt (rowOf (S.tables b) (.method, i)) "params").count = s.params.length := by
    rw [← pairs_length h4]; simp [rows]
  have hq : ∃ N2, ∀ n, N2 ≤ n → ∀ P, Good P → Ext P0 P → s'.params.length = s.params.length →
      ∃ r P', compareParams S b m n (rows (refAt (rowOf (S.tables b) (.method, i)) "params"))
        p.params P = .ok (r, P') ∧ Good P' ∧ Ext P P' ∧ (r = true ↔ s.params = s'.params) := by
    by_cases hl : s'.params.length = s.params.length
    · obtain ⟨N2, f2⟩ := compareParams_answers v ag h4 hp.params hl
      exact ⟨N2, fun n hn P g e _ => f2 n hn P g e⟩
    · exact ⟨0, fun n hn P g e h => absurd h hl⟩
  obtain ⟨N2, f2⟩ := hq
  refine ⟨N1 + N2, ?_⟩
  intro n hn P gd e
  simp only [compareTo]
  have no : ∀ {P1}, Good P1 → Ext P P1 → ¬ s = s' →
      ∃ r P', (Except.ok (ε := Rt.Err) (false, P1)) = .ok (r, P') ∧ Good P' ∧ Ext P P' ∧
        (r = true ↔ s = s') := by
    intro P1 g1 e1 hne
    exact ⟨false, P1, rfl, g1, e1, by simp [hne]⟩
  by_cases c1 : s.name = s'.name
  · rw [if_neg (by rw [h1, hp.name, c1]; simp)]
    by_cases c2 : s'.count = s.count
    · rw [if_neg (by rw [h2, hp.count, c2]; simp)]
      by_cases c3 : s'.params.length = s.params.length
      · rw [if_neg (by rw [hcount, pairs_length hp.params, c3]; simp)]
        obtain ⟨o1, P1, g1, d1, x1, s1, i1⟩ := f1 n (by omega) P gd e
        simp only [g1]
        by_cases c4 : s.ret = s'.ret
        · have ho : p.ret = o1 := by
            have hp1 := hp.ret.1
            rw [← c4, ← s1] at hp1
            cases hpr : p.ret with
            | none =>
              rw [hpr] at hp1
              cases o1 with
              | none => rfl
              | some _ => cases hp1
            | some op =>
              rw [hpr] at hp1
              cases o1 with
              | none => cases hp1
              | some o1 =>
                cases hsr : s.ret with
                | none => rw [hsr] at s1; cases s1
                | some u =>
                  have hi1 := i1 o1 u rfl hsr
                  have hi2 := (hp.ret.2 op u hpr (by rw [← c4, hsr])).mono (e.trans x1)
                  rw [(is_eq d1 hi2 hi1).mpr rfl]
          rw [if_neg (by rw [ho]; simp)]
          obtain ⟨r, P2, g2, d2, x2, i2⟩ := f2 n (by omega) P1 d1 (e.trans x1) c3
          refine ⟨r, P2, g2, d2, x1.trans x2, ?_⟩
          rw [i2]
          constructor
          · intro h
            cases s; cases s'
            simp only at c1 c2 c4 h
            subst c1; subst c2; subst c4; subst h
            rfl
          · intro h; rw [h]
        · have ho : ¬ p.ret = o1 := by
            intro ho
            apply c4
            cases hpr : p.ret with
            | none =>
              have e1 : s'.ret.isSome = false := by rw [← hp.ret.1, hpr]; rfl
              have e2 : s.ret.isSome = false := by rw [← s1, ← ho, hpr]; rfl
              cases hx : s.ret with
              | some _ => rw [hx] at e2; cases e2
              | none =>
                cases hy : s'.ret with
                | some _ => rw [hy] at e1; cases e1
                | none => rfl
            | some op =>
              have e1 : s'.ret.isSome = true := by rw [← hp.ret.1, hpr]; rfl
              have e2 : s.ret.isSome = true := by rw [← s1, ← ho, hpr]; rfl
              cases hx : s.ret with
              | none => rw [hx] at e2; cases e2
              | some u =>
                cases hy : s'.ret with
                | none => rw [hy] at e1; cases e1
                | some u' =>
                  have hi1 := i1 op u (by rw [← ho, hpr]) hx
                  have hi2 := (hp.ret.2 op u' hpr hy).mono (e.trans x1)
                  rw [hi1.fun hi2]
          rw [if_pos (by simpa using ho)]
          exact no d1 x1 (fun h => c4 (by rw [h]))
      · rw [if_pos (by rw [hcount, pairs_length hp.params]; exact c3)]
        exact no gd (Ext.refl _) (fun h => c3 (by rw [h]))
    · rw [if_pos (by rw [h2, hp.count]; exact c2)]
      exact no gd (Ext.refl _) (fun h => c2 (by rw [h]))
  · rw [if_pos (by rw [h1, hp.name]; exact c1)]
    exact no gd (Ext.refl _) (fun h => c1 (by rw [h]))

theorem findMethod_first {S : System} {b : Nat} {m : Mgr} {P0 : Pool}
    {bind : Nat → List Ty → Prop} (v : ValidMgr m P0.length)
    (ag : Agrees P0 m (S.tables b) bind) {s : Sig} {p : Proto} (hp : ProtoIs P0 p s)
    {is : List Nat} {k : Nat} (h : First S b bind s is k) :
    ∃ N, ∀ n, N ≤ n → ∀ P, Good P → Ext P0 P →
      ∃ P', findMethod S b m n p is P = .ok (some k, P') ∧ Good P' ∧ Ext P P' := by
  induction h with
  | @here i is hd =>
    obtain ⟨N, f⟩ := compareTo_answers v ag hd hp
    refine ⟨N, ?_⟩
    intro n hn P g e
    obtain ⟨r, P', h1, h2, h3, h4⟩ := f n hn P g e
    have : r = true := h4.mpr rfl
    subst this
    refine ⟨P', ?_, h2, h3⟩
    simp only [findMethod]
    rw [if_neg (by have := hd.1; omega)]
    have h1 : compareTo S b m n i p P = .ok (true, P') := h1
    simp only [h1]
  | @later i is k s' hd hne _ ih =>
    obtain ⟨N1, f1⟩ := compareTo_answers v ag hd hp
    obtain ⟨N2, f2⟩ := ih
    refine ⟨N1 + N2, ?_⟩
    intro n hn P g e
    obtain ⟨r, P1, h1, h2, h3, h4⟩ := f1 n (by omega) P g e
    have : r = false := by
      cases r with
      | false => rfl
      | true => exact absurd (h4.mp rfl) hne
    subst this
    obtain ⟨P2, g2, d2, x2⟩ := f2 n (by omega) P1 h2 (e.trans h3)
    refine ⟨P2, ?_, d2, h3.trans x2⟩
    simp only [findMethod]
    rw [if_neg (by have := hd.1; omega)]
    have h1 : compareTo S b m n i p P = .ok (false, P1) := h1
    simp only [h1]
    exact g2

theorem findMethod_none {S : System} {b : Nat} {m : Mgr} {P0 : Pool}
    {bind : Nat → List Ty → Prop} (v : ValidMgr m P0.length)
    (ag : Agrees P0 m (S.tables b) bind) {s : Sig} {p : Proto} (hp : ProtoIs P0 p s)
    (is : List Nat) (h : ∀ i ∈ is, ∃ s', DeclSig S b bind i s' ∧ s' ≠ s) :
    ∃ N, ∀ n, N ≤ n → ∀ P, Good P → Ext P0 P →
      ∃ P', findMethod S b m n p is P = .ok (none, P') := by
  induction is with
  | nil => exact ⟨0, fun n _ P _ _ => ⟨P, rfl⟩⟩
  | cons i is ih =>
    obtain ⟨s', hd, hne⟩ := h i (List.mem_cons_self ..)
    obtain ⟨N1, f1⟩ := compareTo_answers v ag hd hp
    obtain ⟨N2, f2⟩ := ih (fun i hi => h i (List.mem_cons_of_mem _ hi))
    refine ⟨N1 + N2, ?_⟩
    intro n hn P g e
    obtain ⟨r, P1, h1, h2, h3, h4⟩ := f1 n (by omega) P g e
    have : r = false := by
      cases r with
      | false => rfl
      | true => exact absurd (h4.mp rfl) hne
    subst this
    obtain ⟨P2, g2⟩ := f2 n (by omega) P1 h2 (e.trans h3)
    refine ⟨P2, ?_⟩
    simp only [findMethod]
    rw [if_neg (by have := hd.1; omega)]
    have h1 : compareTo S b m n i p P = .ok (false, P1) := h1
    simp only [h1]
    exact g2

theorem top_class {S : System} {b i : Nat} {gs : List Nat} {u : Ty} {vs : List Ty}
    (h : Top S b i gs u vs) {P : Pool} {o : Obj} {x : Shape}
    (hx : P[o]? = some x) (hi : Is P o u) : classOf P x = some (b, i) := by
  cases h with
  | cls =>
    cases hi with
    | cls hi => rw [hx] at hi; cases hi; rfl
  | inst =>
    cases hi with
    | inst h1 h2 => rw [hx] at h1; cases h1; simp only [classOf, h2]

/-- Everything `getMethod` does before it looks for the method. -/
theorem getMethod_proto {S : System} {a : Nat} {P : Pool} {m0 : Mgr} (g0 : Good P)
    (v0 : ValidMgr m0 P.length) {bind0 : Nat → List Ty → Prop}
    (agree : Agrees P m0 (S.tables a) bind0) {r : Ref}
    (hr : r.index < (S.tables a .methodRef).length) {n : Node} {u : Ty}
    (hn : Asm.getType (S.tables a) (refAt (rowOf (S.tables a) (.methodRef, r.index)) "host") =
      .ok (some n)) (hu : Means S a bind0 n u) {b i : Nat} {gs : List Nat} {vs : List Ty}
    (top : Top S b i gs u vs) (hab : b ≠ a) {s : Sig} (hs : RefSig S a vs r.index s)
    (out : Option Nat)
    (look : ∀ (P0 : Pool) (m : Mgr) (p : Proto), ValidMgr m P0.length →
      Agrees P0 m (S.tables b) (At gs vs) → ProtoIs P0 p s →
      ∃ N, ∀ n, N ≤ n → ∀ P, Good P → Ext P0 P → ∃ P', findMethod S b m n p
        (rows (refAt (rowOf (S.tables b) (.type, i)) "methods")) P = .ok (out, P')) :
    ∃ N, ∀ fuel, N ≤ fuel →
      (∃ k P', out = some k ∧ getMethod S a m0 fuel r P = .ok ((b, k), P')) ∨
      (out = none ∧ getMethod S a m0 fuel r P = .error .assertion) := by
  -- the class, once and for all: the object does not depend on the fuel
  obtain ⟨N1, f1⟩ := means_get agree hu _ hn
  obtain ⟨o, P1, h1, hi1, x1⟩ := f1 N1 (Nat.le_refl _) P (Ext.refl _)
  obtain ⟨g1, _, _⟩ := getType_good _ _ _ _ _ g0 v0 h1
  obtain ⟨x, hx⟩ := get_some (xs := P1) (k := o) hi1.lt
  obtain ⟨m, P2, himp, g2, x2, v2, ag2, pos2⟩ := top_import top g1 hx hi1
  obtain ⟨hs1, hs2, hs3, hs4⟩ := hs
  have hret : FindsOpt S a m P2
      (refAt (rowOf (S.tables a) (.methodRef, r.index)) "type") s.ret := by
    cases hc : s.ret with
    | none => rw [hc] at hs3; exact null_finds hs3
    | some u => rw [hc] at hs3; exact refType_finds v2 pos2 hs3
  obtain ⟨N2, f2⟩ := hret
  obtain ⟨ro, P3, h3, g3, x3, s3, i3⟩ := f2 N2 (Nat.le_refl _) P2 g2 (Ext.refl _)
  obtain ⟨N3, f3⟩ := protoParams_finds v2 pos2 hs4
  obtain ⟨qs, P4, h4, g4, x4, i4⟩ := f3 N3 (Nat.le_refl _) P3 g3 x3
  have hp : ProtoIs P4 ⟨s.name, s.count, ro, qs⟩ s :=
    ⟨rfl, rfl, ⟨s3, fun o u e1 e2 => (i3 o u e1 e2).mono x4⟩, i4⟩
  obtain ⟨N4, f4⟩ := look P4 m _ (v2.mono (x3.trans x4).len) (ag2.mono (x3.trans x4)) hp
  refine ⟨N1 + N2 + N3 + N4 + 1, ?_⟩
  intro fuel hf
  obtain ⟨P5, h5⟩ := f4 fuel (by omega) P4 g4 (Ext.refl _)
  have q1 := getType_mono (show N1 ≤ fuel by omega) h1
  have q2 : importType S b fuel x P1 = .ok (m, P2) := by
    obtain ⟨k, rfl⟩ : ∃ k, fuel = k + 1 := ⟨fuel - 1, by omega⟩
    exact himp k
  have q3 := getType_mono (show N2 ≤ fuel by omega) h3
  have q4 := protoParams_mono (show N3 ≤ fuel by omega) h4
  have hcl := top_class top hx hi1
  cases out with
  | none =>
    refine Or.inr ⟨rfl, ?_⟩
    simp only [getMethod, rowAt_eq hr, q1, hx, hcl, if_neg hab, q2, q3, q4, hs1, hs2, h5]
  | some k =>
    refine Or.inl ⟨k, P5, rfl, ?_⟩
    simp only [getMethod, rowAt_eq hr, q1, hx, hcl, if_neg hab, q2, q3, q4, hs1, hs2, h5]

end Verif.Mref
