/-
  Nodes lie on the elements as the parts of the program do.
-/
import Verif.Spec.Elems
import Verif.Proof.Anl

namespace Verif.Elems.Proof

open Verif.Gram Verif.Anl Verif.Anl.Spec Verif.Anl.Proof Verif.Elems Verif.Elems.Spec

variable {σ ν : Type}

/-- What lies on the elements from `i` to `j`. -/
inductive Lay (H : Items ν) : Nat → Nat → List (Piece ν) → Prop where
  | nil (i : Nat) : Lay H i i []
  | raw {i j ps} : H.flags i = [] → Lay H (i + 1) j ps → Lay H i j (.raw i :: ps)
  | node {i j ps f fs} : H.flags i = f :: fs → i < f.stop → Lay H f.stop j ps →
      Lay H i j (.node f.node :: ps)

theorem lay_le {H : Items ν} {i j : Nat} {ps : List (Piece ν)} (h : Lay H i j ps) : i ≤ j := by
  induction h with
  | nil => omega
  | raw _ _ ih => omega
  | node _ hs _ ih => omega

theorem lay_append {H : Items ν} {i j k : Nat} {ps qs : List (Piece ν)} (h : Lay H i j ps)
    (h' : Lay H j k qs) : Lay H i k (ps ++ qs) := by
  induction h with
  | nil => exact h'
  | raw hf _ ih => exact .raw hf (ih h')
  | node hf hs _ ih => exact .node hf hs (ih h')

theorem lay_frame {H H' : Items ν} {i j : Nat} {ps : List (Piece ν)} (h : Lay H i j ps) :
    (∀ k, i ≤ k → k < j → H'.flags k = H.flags k) → Lay H' i j ps := by
  induction h with
  | nil => intro _; exact .nil _
  | @raw i j ps hf hr ih =>
    intro e
    have := lay_le hr
    exact .raw (by rw [e i (by omega) (by omega), hf]) (ih fun k h1 h2 => e k (by omega) h2)
  | @node i j ps f fs hf hs hr ih =>
    intro e
    have := lay_le hr
    exact .node (by rw [e i (by omega) (by omega), hf]) hs (ih fun k h1 h2 => e k (by omega) h2)

theorem walk_lay {H : Items ν} {i j : Nat} {ps : List (Piece ν)} (h : Lay H i j ps) :
    j < H.size → ∀ n, j - i < n → H.walk n i j = .ok ps := by
  induction h with
  | nil i =>
    intro hj n hn
    cases n with
    | zero => omega
    | succ n => simp [Items.walk]
  | @raw i j ps hf hr ih =>
    intro hj n hn
    have := lay_le hr
    cases n with
    | zero => omega
    | succ n =>
      have ha : H.after i = i + 1 := by simp [Items.after, hf]
      have hp : H.at i = .raw i := by simp [Items.at, hf]
      rw [Items.walk, if_neg (by omega), ha, if_neg (by omega), ih hj n (by omega), hp]
  | @node i j ps f fs hf hs hr ih =>
    intro hj n hn
    have := lay_le hr
    cases n with
    | zero => omega
    | succ n =>
      have ha : H.after i = f.stop := by simp [Items.after, hf]
      have hp : H.at i = .node f.node := by simp [Items.at, hf]
      rw [Items.walk, if_neg (by omega), ha, if_neg (by omega), ih hj n (by omega), hp]

theorem all_append (B : Builder σ ν) : ∀ (as bs : List Action) (H : Items ν) (s : σ) (H' s'),
    all B as H s = .ok (H', s') → all B (as ++ bs) H s = all B bs H' s'
  | [], bs, H, s, H', s', h => by
    simp only [all, Except.ok.injEq, Prod.mk.injEq] at h
    obtain ⟨rfl, rfl⟩ := h
    rfl
  | .chose _ _ :: as, bs, H, s, H', s', h => by
    rw [all] at h
    rw [List.cons_append, all]
    exact all_append B as bs H s H' s' h
  | .matched r i j :: as, bs, H, s, H', s', h => by
    rw [all] at h
    rw [List.cons_append, all]
    cases ho : one B r i j H s with
    | error e => simp [ho] at h
    | ok p =>
      simp only [ho] at h
      exact all_append B as bs _ _ H' s' h

theorem all_reports (B : Builder σ ν) : ∀ (as : List Action) (H : Items ν) (s : σ),
    all B (reports as) H s = all B as H s
  | [], _, _ => rfl
  | .chose _ _ :: as, H, s => by rw [all, reports, all_reports B as]
  | .matched r i j :: as, H, s => by
    rw [all, reports, all]
    cases one B r i j H s with
    | error e => rfl
    | ok p => exact all_reports B as _ _

/-- The parts lie where they were reported. -/
theorem reading_lay {Γ : Nat → Option Graph} {g : Graph} {us : List Nat} {i : Nat} {w : List Nat}
    {as : List Action} (h : Reading Γ g us i w as) :
    ∃ ks, Derives Γ g us i w ks ∧ ∀ {σ ν : Type} (B : Builder σ ν) (H : Items ν) (s : σ),
      (∀ k, i ≤ k → H.flags k = []) → i + w.length < H.size →
      ∃ H', all B as H s = .ok (H', (partsOf B ks s).1) ∧ H'.size = H.size ∧
        (∀ k, k < i ∨ i + w.length ≤ k → H'.flags k = H.flags k) ∧
        Lay H' i (i + w.length) (partsOf B ks s).2 := by
  induction h with
  | stop hu hl =>
    exact ⟨[], .stop hu hl, fun B H s _ _ => ⟨H, rfl, rfl, fun _ _ => rfl, .nil _⟩⟩
  | @tok g us i u t w as hu hl _ ih =>
    obtain ⟨ks, hd, hb⟩ := ih
    refine ⟨_, .tok hu hl hd, fun B H s he hz => ?_⟩
    rw [List.length_cons] at hz
    obtain ⟨H', ha, hs, hk, hy⟩ := hb B H s (fun k h => he k (by omega)) (by omega)
    refine ⟨H', ha, hs, fun k h => hk k ?_, ?_⟩
    · rw [List.length_cons] at h
      omega
    · have e : i + (t :: w).length = i + 1 + w.length := by rw [List.length_cons]; omega
      rw [e]
      exact .raw (by rw [hk i (by omega), he i (Nat.le_refl _)]) hy
  | @ref g us i u r h v w as bs hu hl hr hv _ _ ih1 ih2 =>
    obtain ⟨js, hd1, hb1⟩ := ih1
    obtain ⟨ks, hd2, hb2⟩ := ih2
    refine ⟨_, .ref hu hl hr hv hd1 hd2, fun {σ ν} B H s he hz => ?_⟩
    rw [List.length_append] at hz ⊢
    have hv' : 0 < v.length := List.length_pos_iff.mpr hv
    obtain ⟨H1, ha1, hs1, hk1, hy1⟩ := hb1 B H s he (by omega)
    -- the instance
    have inst : ∃ H2, one B r i (i + v.length) H1 (partsOf B js s).1 =
        .ok (H2, (partOf B (.inst r js) s).1) ∧ H2.size = H.size ∧
        (∀ k, k < i ∨ i + v.length ≤ k → H2.flags k = H.flags k) ∧
        Lay H2 i (i + v.length) (partOf B (.inst r js) s).2 := by
      rw [one, walk_lay hy1 (by omega) _ (by omega), partOf.eq_def]
      cases hm : B.make r (partsOf B js s).2 (partsOf B js s).1 with
      | mk s' o =>
        cases o with
        | none =>
          refine ⟨H1, ?_, hs1, hk1, ?_⟩
          · simp only [hm]
          · simpa only [hm] using hy1
        | some x =>
          refine ⟨⟨H1.size, fun k => if k = i then ⟨x, i + v.length⟩ :: H1.flags i
              else H1.flags k⟩, ?_, hs1, fun k h => ?_, ?_⟩
          · simp only [hm, Items.append]
            rw [if_neg (by omega)]
          · simp only
            rw [if_neg (by omega)]
            exact hk1 k h
          · simp only [hm]
            exact .node (f := ⟨x, i + v.length⟩) (fs := H1.flags i) (by simp) (by simp; omega)
              (.nil _)
    obtain ⟨H2, ho, hs2, hk2, hy2⟩ := inst
    obtain ⟨H3, ha3, hs3, hk3, hy3⟩ := hb2 B H2 (partOf B (.inst r js) s).1
      (fun k h => by rw [hk2 k (by omega), he k (by omega)]) (by omega)
    have e1 : (partsOf B (.inst r js :: ks) s).1 = (partsOf B ks (partOf B (.inst r js) s).1).1 := by
      rw [partsOf]
    have e2 : (partsOf B (.inst r js :: ks) s).2 =
        (partOf B (.inst r js) s).2 ++ (partsOf B ks (partOf B (.inst r js) s).1).2 := by
      rw [partsOf]
    refine ⟨H3, ?_, by omega, fun k h => ?_, ?_⟩
    · rw [all_append B _ _ _ _ _ _ ha1, all, ho, e1]
      exact ha3
    · rw [hk3 k (by omega), hk2 k (by omega)]
    · rw [e2, show i + (v.length + w.length) = i + v.length + w.length by omega]
      refine lay_append (lay_frame hy2 fun k h1 h2 => hk3 k (by omega)) hy3

theorem build_whole {Γ : Nat → Option Graph} {g : Graph} {us : List Nat} {w : List Nat}
    {as : List Action} (h : Reading Γ g us 0 w (reports as)) (hw : w ≠ []) :
    ∃ ks, Derives Γ g us 0 w ks ∧ ∀ {σ ν : Type} (B : Builder σ ν) (s : σ),
      build B as w.length s = .ok ((wholeOf B ks s).1, some (wholeOf B ks s).2) := by
  obtain ⟨ks, hd, hb⟩ := reading_lay h
  refine ⟨ks, hd, fun {σ ν} B s => ?_⟩
  have hw' : 0 < w.length := List.length_pos_iff.mpr hw
  obtain ⟨H', ha, hs, _, hy⟩ := hb B ⟨w.length + 1, fun _ => []⟩ s (fun _ _ => rfl)
    (by simp)
  rw [all_reports] at ha
  simp only at hs
  rw [build, ha]
  simp only
  rw [hs, Nat.add_sub_cancel]
  rw [Nat.zero_add] at hy
  rw [walk_lay hy (by omega) _ (by omega), wholeOf]
  simp only [Items.append]
  rw [if_neg (by omega)]
  simp

/-! ## Programs that are not read to their end -/

variable {S : Sys}

theorem lay_raw {H : Items ν} : ∀ (m i : Nat), (∀ k, i ≤ k → k < i + m → H.flags k = []) →
    ∃ ps, Lay H i (i + m) ps
  | 0, i, _ => ⟨[], .nil i⟩
  | m + 1, i, h => by
    obtain ⟨ps, hp⟩ := lay_raw m (i + 1) fun k h1 h2 => h k (by omega) (by omega)
    refine ⟨.raw i :: ps, .raw (h i (by omega) (by omega)) ?_⟩
    rw [show i + (m + 1) = i + 1 + m by omega]
    exact hp

/-- What lies on the elements after some of the reports. -/
structure Laid (B : Builder σ ν) (pre : List Action) (H : Items ν) (s : σ) (i m : Nat)
    (H' : Items ν) (s' : σ) (ps : List (Piece ν)) : Prop where
  run : all B pre H s = .ok (H', s')
  size : H'.size = H.size
  frame : ∀ k, k < i ∨ i + m ≤ k → H'.flags k = H.flags k
  lay : Lay H' i (i + m) ps

theorem laid_more {B : Builder σ ν} {pre : List Action} {H H' : Items ν} {s s' : σ} {i m m' : Nat}
    {ps : List (Piece ν)} (h : Laid B pre H s i m H' s' ps)
    (he : ∀ k, i ≤ k → H.flags k = []) : ∃ qs, Laid B pre H s i (m + m') H' s' (ps ++ qs) := by
  obtain ⟨qs, hq⟩ := lay_raw (H := H') m' (i + m) fun k h1 _ => by
    rw [h.frame k (by omega), he k (by omega)]
  exact ⟨qs, h.run, h.size, fun k hk => h.frame k (by omega), by
    rw [← Nat.add_assoc]; exact lay_append h.lay hq⟩

theorem laid_then {B : Builder σ ν} {pre pre' : List Action} {H H1 H2 : Items ν} {s s1 s2 : σ}
    {i m m' : Nat} {ps qs : List (Piece ν)} (h : Laid B pre H s i m H1 s1 ps)
    (h' : Laid B pre' H1 s1 (i + m) m' H2 s2 qs) :
    Laid B (pre ++ pre') H s i (m + m') H2 s2 (ps ++ qs) where
  run := by rw [all_append B _ _ _ _ _ _ h.run]; exact h'.run
  size := by rw [h'.size, h.size]
  frame k hk := by rw [h'.frame k (by omega), h.frame k (by omega)]
  lay := by
    rw [← Nat.add_assoc]
    exact lay_append (lay_frame h.lay fun k _ h2 => h'.frame k (by omega)) h'.lay

theorem laid_inst {B : Builder σ ν} {pre : List Action} {H H1 : Items ν} {s s1 : σ} {i m r : Nat}
    {ps : List (Piece ν)} (h : Laid B pre H s i m H1 s1 ps) (hm : 0 < m) (hz : i + m < H.size) :
    ∃ H2 s2 qs, Laid B (pre ++ [.matched r i (i + m)]) H s i m H2 s2 qs := by
  have hz1 := h.size
  cases hk : B.make r ps s1 with
  | mk s2 o =>
    have ho : one B r i (i + m) H1 s1 = match o with
        | none => .ok (H1, s2)
        | some x => match H1.append i (i + m) x with
          | .error e => .error e
          | .ok H => .ok (H, s2) := by
      rw [one, walk_lay h.lay (by omega) _ (by omega)]
      simp only [hk]
      cases o <;> rfl
    cases o with
    | none =>
      refine ⟨H1, s2, ps, ?_, h.size, h.frame, h.lay⟩
      rw [all_append B _ _ _ _ _ _ h.run, all, ho]
      rfl
    | some x =>
      refine ⟨⟨H1.size, fun k => if k = i then ⟨x, i + m⟩ :: H1.flags i else H1.flags k⟩, s2,
        [.node x], ?_, h.size, fun k hk => ?_, ?_⟩
      · rw [all_append B _ _ _ _ _ _ h.run, all, ho]
        simp only [Items.append]
        rw [if_neg (by omega)]
        rfl
      · simp only
        rw [if_neg (by omega)]
        exact h.frame k hk
      · exact .node (f := ⟨x, i + m⟩) (fs := H1.flags i) (by simp) (by simp; omega) (.nil _)

/-- Some of the reports of a part, from the first on. -/
theorem upto_laid {p : Pos} {i : Nat} {w : List Nat} {as : List Action} (h : Upto S p i w as) :
    ∀ {pre post}, as = pre ++ post → ∀ {σ ν : Type} (B : Builder σ ν) (H : Items ν) (s : σ),
      (∀ k, i ≤ k → H.flags k = []) → i + w.length < H.size →
      ∃ H' s' ps, Laid B pre H s i w.length H' s' ps := by
  induction h with
  | init r i =>
    intro pre post e σ ν B H s he hz
    obtain ⟨rfl, rfl⟩ := List.append_eq_nil_iff.mp e.symm
    exact ⟨H, s, [], rfl, rfl, fun _ _ => rfl, .nil _⟩
  | @tok r x i w as u t _ _ _ ih =>
    intro pre post e σ ν B H s he hz
    rw [List.length_append] at hz ⊢
    obtain ⟨H', s', ps, hl⟩ := ih e B H s he (by omega)
    obtain ⟨qs, hq⟩ := laid_more (m' := [t].length) hl he
    exact ⟨H', s', _, hq⟩
  | @ref r x i w as u p v bs _ _ _ hp he' ih1 ih2 =>
    intro pre post e σ ν B H s he hz
    rw [List.length_append] at hz ⊢
    have hv : 0 < v.length := List.length_pos_iff.mpr (upto_ne hp (by
      intro hn
      simp [Sys.ends, hn] at he'))
    rcases List.append_eq_append_iff.mp e with ⟨cs, e1, e2⟩ | ⟨cs, e1, e2⟩
    · -- all of the reports before the instance
      obtain ⟨H1, s1, ps, hl1⟩ := ih1 (pre := as) (post := []) (by simp) B H s he (by omega)
      have he1 : ∀ k, i + w.length ≤ k → H1.flags k = [] := fun k hk => by
        rw [hl1.frame k (by omega), he k (by omega)]
      have hz1 := hl1.size
      subst e1
      rcases List.append_eq_append_iff.mp e2 with ⟨ds, e3, e4⟩ | ⟨ds, e3, e4⟩
      · obtain ⟨H2, s2, qs, hl2⟩ := ih2 (pre := bs) (post := []) (by simp) B H1 s1 he1 (by omega)
        subst e3
        cases ds with
        | nil =>
          exact ⟨H2, s2, _, by simpa using laid_then hl1 hl2⟩
        | cons d ds =>
          rw [List.cons_append, List.cons.injEq] at e4
          obtain ⟨e5, e6⟩ := e4
          obtain ⟨rfl, rfl⟩ := List.append_eq_nil_iff.mp e6.symm
          subst e5
          obtain ⟨H3, s3, rs, hl3⟩ := laid_inst (r := p.rule) hl2 hv (by omega)
          exact ⟨H3, s3, _, laid_then hl1 hl3⟩
      · obtain ⟨H2, s2, qs, hl2⟩ := ih2 e3 B H1 s1 he1 (by omega)
        exact ⟨H2, s2, _, laid_then hl1 hl2⟩
    · obtain ⟨H1, s1, ps, hl1⟩ := ih1 e1 B H s he (by omega)
      obtain ⟨qs, hq⟩ := laid_more (m' := v.length) hl1 he
      exact ⟨H1, s1, _, hq⟩

theorem valid_laid {st : List Entry} {w : List Nat} {as : List Action} (h : Valid S st w as) :
    ∀ {pre post}, as = pre ++ post → ∀ {σ ν : Type} (B : Builder σ ν) (H : Items ν) (s : σ),
      (∀ k, H.flags k = []) → w.length < H.size →
      ∃ H' s' ps, Laid B pre H s 0 w.length H' s' ps := by
  induction h with
  | base _ hu =>
    intro pre post e σ ν B H s he hz
    exact upto_laid hu e B H s (fun k _ => he k) (by omega)
  | @over e e' rest v as w bs _ _ hu ih =>
    intro pre post e σ ν B H s he hz
    rw [List.length_append] at hz ⊢
    rcases List.append_eq_append_iff.mp e with ⟨cs, e1, e2⟩ | ⟨cs, e1, e2⟩
    · obtain ⟨H1, s1, ps, hl1⟩ := ih (pre := as) (post := []) (by simp) B H s he (by omega)
      have hz1 := hl1.size
      subst e1
      obtain ⟨H2, s2, qs, hl2⟩ := upto_laid hu e2 B H1 s1 (fun k hk => by
        rw [hl1.frame k (by omega), he k]) (by omega)
      exact ⟨H2, s2, _, laid_then hl1 (by simpa using hl2)⟩
    · obtain ⟨H1, s1, ps, hl1⟩ := ih e1 B H s he (by omega)
      obtain ⟨qs, hq⟩ := laid_more (m' := w.length) hl1 fun k _ => he k
      exact ⟨H1, s1, _, hq⟩

theorem build_always {st : List Entry} {w : List Nat} {as cs : List Action}
    (h : Valid S st w (reports as ++ cs)) (hw : w ≠ []) (B : Builder σ ν) (s : σ) :
    ∃ s' x, build B as w.length s = .ok (s', some x) := by
  have hw' : 0 < w.length := List.length_pos_iff.mpr hw
  obtain ⟨H', s', ps, hl⟩ := valid_laid h rfl B ⟨w.length + 1, fun _ => []⟩ s (fun _ => rfl)
    (by simp)
  have hs := hl.size
  have ha := hl.run
  rw [all_reports] at ha
  simp only at hs
  have hy := hl.lay
  rw [Nat.zero_add] at hy
  refine ⟨(B.root ps s').1, (B.root ps s').2, ?_⟩
  rw [build, ha]
  simp only
  rw [hs, Nat.add_sub_cancel, walk_lay hy (by omega) _ (by omega)]
  simp only [Items.append]
  rw [if_neg (by omega)]
  simp

end Verif.Elems.Proof
