import Verif.Proof.Refs

/-! Compiled expressions over references, for C109. -/

namespace Verif.Refs

open Verif.Fold Spec

/-- The code does what the expression says. -/
def Good (w : World) (Γ : List Ty) (want : Want) (e : E) (code : List Ins) : Prop :=
  loads code = true ∧ ∀ vs h st r, evalAs w Γ want e vs h = some r → exec w 0 code ⟨st, vs, h⟩ = fin st r

theorem good_fold {lvl : Nat} {w : World} {Γ : List Ty} {want : Want} {e : E} {k : Unit → Option (List Ins)} {code : List Ins}
    (hok : ok lvl w Γ want e = true) (hc : foldOr lvl want (execute e) k = some code)
    (hk : ∀ c, k () = some c → Good w Γ want e c) : Good w Γ want e code := by
  unfold foldOr at hc
  split at hc
  · rename_i hl
    cases hv : execute e with
    | none => rw [hv] at hc; simp at hc
    | some v =>
      rw [hv] at hc
      by_cases hn : v = .nan
      · subst hn; exact hk _ hc
      · exact run_fold hl hok hv hn (by cases v <;> simp_all)
  · exact hk _ hc

theorem good_post {lvl : Nat} {w : World} {Γ : List Ty} {want : Want} {e : E} {t : Ty} {c : List Ins}
    (hok : ok lvl w Γ want e = true) (ht : ty w Γ e = some t) (hg : Good w Γ none e c) : Good w Γ want e (post want t c) := by
  obtain ⟨t', h1, hf⟩ := ok_ty hok
  rw [ht] at h1
  simp only [Option.some.injEq] at h1
  subst h1
  refine ⟨loads_post hf hg.1, fun vs h st r hr => ?_⟩
  obtain ⟨r0, g1, g2⟩ := evalAs_some ht hr
  exact run_post hf (hg.2 vs h st r0 g1) g2

theorem good_call {lvl : Nat} {w : World} {Γ : List Ty} {want : Want} {e : E} {t : Ty} {c : List Ins}
    (hf : fitsCall want t = true) (ht : ty w Γ e = some t) (hg : Good w Γ none e c) :
    Good w Γ want e (afterCall want t c) := by
  rw [afterCall_eq hf]
  refine ⟨hg.1, fun vs h st r hr => ?_⟩
  obtain ⟨r0, g1, g2⟩ := evalAs_some ht hr
  have : r = r0 := by
    cases want with
    | none => cases r0 <;> simpa [andThen, wanted] using g2.symm
    | some p =>
      simp only [fitsCall, beq_iff_eq] at hf
      have hr := xil_ref hf
      cases r0 with
      | thrown => simpa [andThen] using g2.symm
      | ok v vs h =>
        simp only [andThen, wanted, coerce, hr, hf, if_true] at g2
        split at g2 <;> simpa using g2.symm
  subst this
  exact hg.2 vs h st r g1

theorem run_expr {lvl : Nat} {w : World} {Γ : List Ty} (e : E) : ∀ {want : Want} {code : List Ins},
    ok lvl w Γ want e = true → compile lvl w Γ want e = some code → Good w Γ want e code := by
  induction e <;> intro want code hok hc <;> rw [compile] at hc
  case null =>
    simp only [Option.some.injEq] at hc; subst hc
    refine good_post hok rfl ⟨rfl, fun vs h st r hr => ?_⟩
    simp only [evalAs, eval, Option.some.injEq] at hr; subst hr; rfl
  case str s =>
    simp only [Option.some.injEq] at hc; subst hc
    refine good_post hok rfl ⟨rfl, fun vs h st r hr => ?_⟩
    simp only [evalAs, eval, Option.some.injEq] at hr; subst hr; rfl
  case num t v =>
    simp only [Option.bind_eq_bind, Option.bind_eq_some_iff, Option.some.injEq] at hc
    obtain ⟨c, h1, rfl⟩ := hc
    have hok' := hok
    rw [ok] at hok'
    simp only [Bool.and_eq_true, beq_iff_eq] at hok'
    have : c = [.pushNum t v] := by
      cases want with
      | none => simpa [cvalue] using h1.symm
      | some p =>
        cases hx : p.xil with
        | object => simpa [cvalue, hx] using h1.symm
        | string => simp [cvalue, hx] at h1
        | unknown => simp [cvalue, hx] at h1
        | num t' =>
          simp only [cvalue, Option.map_some, hx, Option.some.injEq, reduceCtorEq, if_false] at h1
          have hp : p.isRef = false := by cases p <;> simp_all [Ty.xil, Ty.isRef]
          have hf := hok'.1
          simp only [fits, hp, Bool.false_eq_true, if_false, Bool.and_eq_true, beq_iff_eq, hx] at hf
          have htt : t = t' := by simpa [Ty.xil] using hf.2
          rw [← htt, hok'.2] at h1
          exact h1.symm
    subst this
    refine good_post hok rfl ⟨rfl, fun vs h st r hr => ?_⟩
    simp only [evalAs, eval, Option.some.injEq] at hr; subst hr; rfl
  case var x =>
    simp only [Option.bind_eq_bind, Option.bind_eq_some_iff, Option.some.injEq] at hc
    obtain ⟨t, h1, rfl⟩ := hc
    refine good_post hok h1 ⟨rfl, fun vs h st r hr => ?_⟩
    simp only [evalAs, eval] at hr
    split at hr
    · rename_i v hv
      simp only [Option.some.injEq] at hr; subst hr
      simp [exec, step, hv, fin]
    · simp at hr
  case call k =>
    split at hc
    · simp only [Option.some.injEq] at hc; subst hc
      rw [ok] at hok
      refine good_call (lvl := lvl) hok rfl ⟨rfl, fun vs h st r hr => ?_⟩
      simp only [evalAs, eval, called] at hr
      revert hr
      cases hcall : w.call k [] h <;> intro hr <;> simp only [Option.some.injEq] at hr <;> subst hr <;>
        simp [exec, step, hcall, fin]
    · simp at hc
  case call1 k a ih =>
    simp only [Option.bind_eq_bind, Option.bind_eq_some_iff, Option.some.injEq] at hc
    obtain ⟨p, hp, ca, hca, rfl⟩ := hc
    rw [ok] at hok
    simp only [Bool.and_eq_true, hp] at hok
    have ga := good_fold hok.2 hca fun c hc => ih hok.2 hc
    refine good_call (lvl := lvl) hok.1 rfl ⟨by rw [loads_append, ga.1]; rfl, fun vs h st r hr => ?_⟩
    obtain ⟨ta, hta, _⟩ := ok_ty hok.2
    simp only [evalAs, eval, hp, hta] at hr
    have hr' : andThen (evalAs w Γ (some p) a vs h) (fun v vs h => called (w.call k [v] h) vs) = some r := by
      simp only [evalAs, hta]
      rw [← hr]
      cases eval w Γ a vs h with
      | none => rfl
      | some r0 => cases r0 <;> rfl
    obtain ⟨r0, g1, g2⟩ := andThen_some hr'
    refine exec_then (ga.2 vs h st r0 g1) g2 fun v vs h hx => ?_
    simp only [called] at hx
    revert hx
    cases hcall : w.call k [v] h <;> intro hx <;> simp only [Option.some.injEq] at hx <;> subst hx <;>
      simp [exec, step, hcall, fin]
  case add a b iha ihb =>
    refine good_fold hok hc fun c hc => ?_
    simp only [Option.bind_eq_bind, Option.bind_eq_some_iff, Option.some.injEq] at hc
    obtain ⟨t, ht, ca, hca, cb, hcb, rfl⟩ := hc
    refine good_post hok ht ?_
    rw [ok] at hok
    simp only [Bool.and_eq_true] at hok
    have ga := iha hok.1.1.1.1 hca
    have gb := ihb hok.1.1.1.2 hcb
    refine ⟨by rw [loads_append, loads_append, ga.1, gb.1]; rfl, fun vs h st r hr => ?_⟩
    simp only [evalAs, eval] at hr
    obtain ⟨r0, g1, g2⟩ := andThen_some hr
    rw [List.append_assoc]
    refine exec_then (ga.2 vs h st r0 g1) g2 fun v vs h hx => ?_
    obtain ⟨r1, k1, k2⟩ := andThen_some hx
    have e1 := gb.2 vs h (v :: st) r1 k1
    cases r1 with
    | thrown e vs h =>
      simp only [andThen, Option.some.injEq] at k2; subst k2
      exact exec_raised e1
    | ok v' vs h =>
      rw [exec_done e1]
      simp only [andThen] at k2
      split at k2
      · simp only [Option.some.injEq] at k2; subst k2; simp [exec, step, fin]
      · simp at k2
  case coal a b iha ihb =>
    refine good_fold hok hc fun c hc => ?_
    simp only [Option.bind_eq_bind, Option.bind_eq_some_iff, Option.some.injEq] at hc
    obtain ⟨ta, hta, tb, htb, ca, hca, cb, hcb, c, hc', t, ht, rfl⟩ := hc
    refine good_post hok ht ?_
    rw [ok] at hok
    simp only [Bool.and_eq_true] at hok
    have ga := iha hok.1.1.1 hca
    have gb := ihb hok.1.1.2 hcb
    unfold coalIns at hc'
    split at hc'
    · split at hc'
      · rename_i hn
        have := execute_null hn.2
        subst this
        simp only [Option.some.injEq] at hc'; subst hc'
        refine ⟨gb.1, fun vs h st r hr => ?_⟩
        simp only [evalAs, eval, andThen] at hr
        exact gb.2 vs h st r hr
      · split at hc'
        · rename_i hn
          have := execute_null hn.2
          subst this
          simp only [Option.some.injEq] at hc'; subst hc'
          refine ⟨ga.1, fun vs h st r hr => ?_⟩
          simp only [evalAs, eval] at hr
          obtain ⟨r0, g1, g2⟩ := andThen_some hr
          have : r0 = r := by
            cases r0 with
            | thrown => simpa [andThen] using g2
            | ok v vs h =>
              simp only [andThen] at g2
              split at g2 <;> simpa using g2
          subst this
          exact ga.2 vs h st r0 g1
        · simp only [Option.some.injEq] at hc'; subst hc'
          refine ⟨by rw [loads_append, loads_append, ga.1, gb.1]; rfl, fun vs h st r hr => ?_⟩
          simp only [evalAs, eval] at hr
          obtain ⟨r0, g1, g2⟩ := andThen_some hr
          rw [List.append_assoc]
          refine exec_then (ga.2 vs h st r0 g1) g2 fun v vs h hx => ?_
          split at hx
          · simp only [List.cons_append, List.nil_append, exec, step, if_true]
            exact gb.2 vs h st r hx
          · rename_i r' hne
            have hne : ¬ (Ref.null = r') := fun h => hne h.symm
            simp only [Option.some.injEq] at hx; subst hx
            simp only [List.cons_append, List.nil_append, exec, step, hne, if_false, if_true]
            rw [exec_skip' cb]; rfl
          · simp at hx
    · simp at hc'
  case coalAssign => simp [ok] at hok
  case assign x a ih =>
    refine good_fold hok hc fun c hc => ?_
    simp only [Option.bind_eq_bind, Option.bind_eq_some_iff, Option.some.injEq] at hc
    obtain ⟨t, ht, ca, hca, rfl⟩ := hc
    refine good_post hok ht ?_
    rw [ok] at hok
    simp only [Bool.and_eq_true, ht] at hok
    have ga := ih hok.2.1 hca
    obtain ⟨ta, hta, _⟩ := ok_ty hok.2.1
    refine ⟨by rw [loads_append, ga.1]; rfl, fun vs h st r hr => ?_⟩
    simp only [evalAs, eval, ht, hta] at hr
    have hr' : andThen (evalAs w Γ (some t) a vs h) (fun v vs h => setVar x v vs h) = some r := by
      simp only [evalAs, hta]
      rw [← hr]
      cases eval w Γ a vs h with
      | none => rfl
      | some r0 => cases r0 <;> rfl
    obtain ⟨r0, g1, g2⟩ := andThen_some hr'
    refine exec_then (ga.2 vs h st r0 g1) g2 fun v vs h hx => ?_
    simp only [setVar] at hx
    split at hx
    · rename_i hlt
      simp only [Option.some.injEq] at hx; subst hx
      simp [exec, step, hlt, fin]
    · simp at hx
  case «is» a t ih =>
    refine good_fold hok hc fun c hc => ?_
    simp only [Option.bind_eq_bind, Option.bind_eq_some_iff, Option.some.injEq] at hc
    obtain ⟨r', ht, ca, hca, rfl⟩ := hc
    refine good_post hok ht ?_
    rw [ok] at hok
    simp only [Bool.and_eq_true] at hok
    have ga := ih hok.1.1.1.1 hca
    refine ⟨by rw [loads_append, ga.1]; rfl, fun vs h st r hr => ?_⟩
    simp only [evalAs, eval] at hr
    obtain ⟨r0, g1, g2⟩ := andThen_some hr
    refine exec_then (ga.2 vs h st r0 g1) g2 fun v vs h hx => ?_
    split at hx
    · simp only [Option.some.injEq] at hx; subst hx; simp [exec, step, fin]
    · rename_i r1 hne
      have hne : ¬ (r1 = Ref.null) := hne
      simp only [instance?] at hx
      cases hty : tyOf h r1 with
      | none => rw [hty] at hx; simp at hx
      | some t' =>
        simp only [hty, Option.map_some, Option.some.injEq] at hx; subst hx
        simp [exec, step, hne, hty, fin]
    · simp at hx
  case «as» a t ih =>
    refine good_fold hok hc fun c hc => ?_
    simp only [Option.bind_eq_bind, Option.bind_eq_some_iff, Option.some.injEq] at hc
    obtain ⟨ca, hca, rfl⟩ := hc
    refine good_post hok rfl ?_
    rw [ok] at hok
    simp only [Bool.and_eq_true] at hok
    have ga := ih hok.1.1.1.1 hca
    refine ⟨by rw [loads_append, ga.1]; rfl, fun vs h st r hr => ?_⟩
    simp only [evalAs, eval] at hr
    obtain ⟨r0, g1, g2⟩ := andThen_some hr
    refine exec_then (ga.2 vs h st r0 g1) g2 fun v vs h hx => ?_
    split at hx
    · simp only [Option.some.injEq] at hx; subst hx; simp [exec, step, fin]
    · rename_i r1 hne
      have hne : ¬ (r1 = Ref.null) := hne
      simp only [instance?] at hx
      cases hty : tyOf h r1 with
      | none => rw [hty] at hx; simp at hx
      | some t' =>
        simp only [hty, Option.map_some, Option.some.injEq] at hx; subst hx
        simp [exec, step, hne, hty, fin]
    · simp at hx
  case cast t a ih =>
    simp only [Option.bind_eq_bind] at hc
    rw [Option.bind_eq_some_iff] at hc
    obtain ⟨ta, hta, hc⟩ := hc
    have hc' : ∃ c, (if t.isRef then
          if ta.isValue then (compile lvl w Γ none a).map (· ++ [.box ta])
          else (compile lvl w Γ none a).map (· ++ [.castTo t])
        else if ta.isRef then (compile lvl w Γ none a).map (· ++ [.unbox t])
        else compile lvl w Γ (some t) a) = some c ∧ post want t c = code := by
      revert hc
      cases t.isRef <;> cases ta.isValue <;> cases ta.isRef <;>
        simp [Option.bind_eq_some_iff] <;> (intro x hx hp; exact ⟨_, ⟨x, hx, rfl⟩, hp⟩)
    clear hc
    obtain ⟨c, hc, rfl⟩ := hc'
    refine good_post hok rfl ?_
    rw [ok] at hok
    simp only [Bool.and_eq_true, hta] at hok
    have hk := hok.2
    split at hc
    · rename_i htr
      simp only [htr, if_true, Bool.and_eq_true, Bool.or_eq_true] at hk
      split at hc
      · rename_i hv
        rw [Option.map_eq_some_iff] at hc
        obtain ⟨ca, hca, rfl⟩ := hc
        have hnr : ta.isRef = false := by cases ta <;> simp_all [Ty.isRef, Ty.isValue]
        have htest : w.test ta t = true := by simpa [hnr, hv] using hk.2
        have ga := ih hk.1 hca
        refine ⟨by rw [loads_append, ga.1]; rfl, fun vs h st r hr => ?_⟩
        simp only [evalAs, eval, hta] at hr
        obtain ⟨r0, g1, g2⟩ := andThen_some hr
        refine exec_then (ga.2 vs h st r0 g1) g2 fun v vs h hx => ?_
        simp only [htr, if_true, coerce, hnr, Bool.false_eq_true, if_false] at hx
        cases v with
        | ref => simp [andThen] at hx
        | num t' x =>
          cases ta <;> simp [Ty.isValue] at hv
          simp only [Ty.xil, XT.num.injEq] at hx
          split at hx
          · rename_i heq; subst heq
            simp only [andThen, instance?, tyOf, List.getElem?_concat_length, Option.map_some, htest, if_true,
              Option.some.injEq] at hx
            subst hx
            simp [exec, step, fin]
          · simp [andThen] at hx
      · rename_i hv
        rw [Option.map_eq_some_iff] at hc
        obtain ⟨ca, hca, rfl⟩ := hc
        have hnr : ta.isRef = true := by simpa [hv] using hk.2
        have ga := ih hk.1 hca
        refine ⟨by rw [loads_append, ga.1]; rfl, fun vs h st r hr => ?_⟩
        simp only [evalAs, eval, hta] at hr
        obtain ⟨r0, g1, g2⟩ := andThen_some hr
        refine exec_then (ga.2 vs h st r0 g1) g2 fun v vs h hx => ?_
        simp only [htr, if_true, coerce, hnr, andThen] at hx
        split at hx
        · simp only [Option.some.injEq] at hx; subst hx; simp [exec, step, fin]
        · rename_i r1 hne
          have hne : ¬ (r1 = Ref.null) := fun h => hne (by rw [h])
          simp only [instance?] at hx
          cases hty : tyOf h r1 with
          | none => rw [hty] at hx; simp at hx
          | some t' =>
            simp only [hty, Option.map_some, Option.some.injEq] at hx; subst hx
            by_cases hw : w.test t' t = true <;> simp [exec, step, hne, hty, hw, fin]
        · simp at hx
    · rename_i htr
      split at hc
      · rename_i hnr
        rw [Option.map_eq_some_iff] at hc
        obtain ⟨ca, hca, rfl⟩ := hc
        simp only [htr, hnr, Bool.false_eq_true, if_false, if_true] at hk
        have ga := ih hk hca
        refine ⟨by rw [loads_append, ga.1]; rfl, fun vs h st r hr => ?_⟩
        simp only [evalAs, eval, hta] at hr
        obtain ⟨r0, g1, g2⟩ := andThen_some hr
        refine exec_then (ga.2 vs h st r0 g1) g2 fun v vs h hx => ?_
        simp only [htr, hnr, Bool.false_eq_true, if_false, Bool.not_true] at hx
        split at hx
        · simp only [Option.some.injEq] at hx; subst hx; simp [exec, step, fin]
        · simp only [Option.some.injEq] at hx; subst hx; simp [exec, step, fin]
        · rename_i n x hxil
          cases hn : h[n]? with
          | none => rw [hn] at hx; simp at hx
          | some o =>
            simp only [hn, Option.map_some, Option.some.injEq] at hx
            subst hx
            by_cases ho : o.ty = t
            · simp [exec, step, hn, ho, hxil, fin]
            · simp [exec, step, hn, ho, hxil, fin]
        · simp at hx
      · rename_i hnr
        simp only [htr, hnr, Bool.false_eq_true, if_false] at hk
        have ga := ih hk hc
        refine ⟨ga.1, fun vs h st r hr => ?_⟩
        apply ga.2 vs h st r
        simp only [evalAs, eval, hta] at hr ⊢
        simpa [htr, hnr] using hr

/-- How the machine is after a statement. -/
def finSt (st : List Val) : Res → Out
  | .ok _ vs h => .done ⟨st, vs, h⟩
  | .thrown e vs h => .raised e vs h

/-- A statement does what it says, and leaves the stack as it was. -/
theorem run_st {lvl : Nat} {w : World} {Γ : List Ty} (s : St) {code : List Ins}
    (hok : okSt lvl w Γ s = true) (hc : compileSt lvl w Γ s = some code) :
    loads code = true ∧ ∀ vs h st r, eval w Γ (St.exp s) vs h = some r → exec w 0 code ⟨st, vs, h⟩ = finSt st r := by
  have pop : ∀ e c, Good w Γ none e c → loads (c ++ [.popEmpty]) = true ∧ ∀ vs h st r, eval w Γ e vs h = some r →
      exec w 0 (c ++ [.popEmpty]) ⟨st, vs, h⟩ = finSt st r := by
    intro e c g
    refine ⟨by rw [loads_append, g.1]; rfl, fun vs h st r hr => ?_⟩
    have := g.2 vs h st r hr
    cases r with
    | thrown => exact exec_raised this
    | ok v vs h => rw [exec_done this]; rfl
  -- from level 1 on the statement has no constant value
  have nofold : ∀ e, (execute e = some .nan ∨ (∃ t v, execute e = some (.num t v)) ∨ (∃ s, execute e = some (.str s)) ∨
      execute e = none ∨ execute e = some .null) := by
    intro e
    cases he : execute e with
    | none => exact .inr (.inr (.inr (.inl rfl)))
    | some v =>
      rcases execute_cases he with rfl | ⟨rfl, _⟩ | ⟨s, rfl⟩ | ⟨t, x, rfl⟩
      · exact .inl rfl
      · exact .inr (.inr (.inr (.inr rfl)))
      · exact .inr (.inr (.inl ⟨s, rfl⟩))
      · exact .inr (.inl ⟨t, x, rfl⟩)
  have ns : ∀ e, noString lvl e = true → (∀ t v, execute e ≠ some (.num t v)) → execute e ≠ some .null →
      ∀ k, foldOr lvl none (execute e) k = some code → k () = some code := by
    intro e h1 h2 h3 k hk
    unfold foldOr at hk
    split at hk
    · rename_i hl
      rcases nofold e with h | ⟨t, v, h⟩ | ⟨s, h⟩ | h | h
      · rw [h] at hk; exact hk
      · exact absurd h (h2 _ _)
      · simp only [noString, h, Bool.or_false, beq_iff_eq] at h1; omega
      · rw [h] at hk; simp at hk
      · exact absurd h h3
    · exact hk
  have bin : ∀ a b, (∀ t x, executeBin a b (fun _ _ _ _ => .nan) ≠ .num t x) ∧ executeBin a b (fun _ _ _ _ => .nan) ≠ .null := by
    intro a b
    rcases executeBin_cases a b (fun _ _ _ _ => .nan) with ⟨s, hs⟩ | ⟨_, _, _, _, _, _, hs⟩ | hs <;> rw [hs] <;> simp
  cases s with
  | call k =>
    simp only [compileSt, Option.bind_eq_bind, Option.bind_eq_some_iff, Option.some.injEq] at hc
    obtain ⟨c, hc, rfl⟩ := hc
    exact pop _ _ (run_expr _ hok hc)
  | call1 k a =>
    simp only [compileSt, Option.bind_eq_bind, Option.bind_eq_some_iff, Option.some.injEq] at hc
    obtain ⟨c, hc, rfl⟩ := hc
    exact pop _ _ (run_expr _ hok hc)
  | assign x a =>
    have hok : ok lvl w Γ none (.assign x a) = true := hok
    rw [ok] at hok
    simp only [Bool.and_eq_true] at hok
    simp only [compileSt] at hc
    have hc := ns _ hok.1 (by
        intro t v h; rw [execute] at h
        simp only [Option.bind_eq_bind, Option.bind_eq_some_iff, Option.some.injEq] at h
        obtain ⟨_, _, h⟩ := h; exact (bin _ _).1 _ _ h) (by
        intro h; rw [execute] at h
        simp only [Option.bind_eq_bind, Option.bind_eq_some_iff, Option.some.injEq] at h
        obtain ⟨_, _, h⟩ := h; exact (bin _ _).2 h) _ hc
    simp only [Option.bind_eq_bind, Option.bind_eq_some_iff, Option.some.injEq] at hc
    obtain ⟨t, ht, ca, hca, rfl⟩ := hc
    simp only [ht, Bool.and_eq_true] at hok
    have ga := run_expr _ hok.2.1 hca
    obtain ⟨ta, hta, _⟩ := ok_ty hok.2.1
    refine ⟨by rw [loads_append, ga.1]; rfl, fun vs h st r hr => ?_⟩
    simp only [St.exp, eval, ht, hta] at hr
    have hr' : andThen (evalAs w Γ (some t) a vs h) (fun v vs h => setVar x v vs h) = some r := by
      simp only [evalAs, hta]
      rw [← hr]
      cases eval w Γ a vs h with
      | none => rfl
      | some r0 => cases r0 <;> rfl
    obtain ⟨r0, g1, g2⟩ := andThen_some hr'
    have e1 := ga.2 vs h st r0 g1
    cases r0 with
    | thrown => simp only [andThen, Option.some.injEq] at g2; subst g2; exact exec_raised e1
    | ok v vs h =>
      rw [exec_done e1]
      simp only [andThen, setVar] at g2
      split at g2
      · rename_i hlt
        simp only [Option.some.injEq] at g2; subst g2
        simp [exec, step, hlt, finSt]
      · simp at g2
  | coalAssign x a =>
    simp only [okSt, Bool.and_eq_true] at hok
    simp only [compileSt] at hc
    replace hc := ns _ hok.2 (by
        intro t v h; rw [execute] at h
        simp only [Option.bind_eq_bind, Option.bind_eq_some_iff, Option.some.injEq] at h
        obtain ⟨_, _, h⟩ := h; exact (bin _ _).1 _ _ h) (by
        intro h; rw [execute] at h
        simp only [Option.bind_eq_bind, Option.bind_eq_some_iff, Option.some.injEq] at h
        obtain ⟨_, _, h⟩ := h; exact (bin _ _).2 h) _ hc
    simp only [Option.bind_eq_bind, Option.bind_eq_some_iff] at hc
    obtain ⟨t, ht, ta, hta, ca, hca, hc'⟩ := hc
    have ga := run_expr _ hok.1 hca
    unfold coalAssignIns at hc'
    split at hc'
    · split at hc'
      · rename_i hn
        have := execute_null hn.2
        subst this
        simp only [Option.some.injEq] at hc'; subst hc'
        refine ⟨rfl, fun vs h st r hr => ?_⟩
        simp only [St.exp, eval] at hr
        split at hr
        · rename_i hv
          simp only [andThen, setVar] at hr
          split at hr
          · rename_i hlt
            simp only [Option.some.injEq] at hr; subst hr
            have : vs.set x (.ref .null) = vs := by
              apply List.ext_getElem?
              intro i
              rw [List.getElem?_set]
              split
              · rename_i hi; subst hi; rw [hv]
              · rfl
            simp [exec, finSt, this]
          · simp at hr
        · simp only [Option.some.injEq] at hr; subst hr; rfl
        · simp at hr
      · simp only [Option.some.injEq] at hc'; subst hc'
        refine ⟨by rw [loads_append, loads_append, ga.1]; rfl, fun vs h st r hr => ?_⟩
        simp only [St.exp, eval] at hr
        split at hr
        · rename_i hv
          obtain ⟨r0, g1, g2⟩ := andThen_some hr
          simp only [List.cons_append, List.nil_append, exec, step, hv, if_true]
          have e1 := ga.2 vs h st r0 g1
          simp only [Int.one_ne_zero, if_false]
          cases r0 with
          | thrown => simp only [andThen, Option.some.injEq] at g2; subst g2; exact exec_raised e1
          | ok v vs h =>
            rw [exec_done e1]
            simp only [andThen, setVar] at g2
            split at g2
            · rename_i hlt
              simp only [Option.some.injEq] at g2; subst g2
              simp [exec, step, hlt, finSt]
            · simp at g2
        · rename_i r1 hne hv
          have hne : ¬ (Ref.null = r1) := by intro h; exact hne h.symm
          simp only [Option.some.injEq] at hr; subst hr
          simp only [List.cons_append, List.nil_append, exec, step, hv, hne, if_true, if_false]
          have := exec_skip' (w := w) (ca ++ [.popPar false x]) ⟨st, vs, h⟩
          simpa [finSt] using this
        · simp at hr
    · simp at hc'

/-- The body of a method. -/
theorem run_body {lvl : Nat} {w : World} {Γ : List Ty} {r : Ty} (e : E) : ∀ (ss : List St) {code : List Ins},
    (∀ s ∈ ss, okSt lvl w Γ s = true) → ok lvl w Γ (some r) e = true → compileBody lvl w Γ r ss e = some code →
    loads code = true ∧ ∀ vs h st res, Spec.run w Γ r ss e vs h = some res → exec w 0 code ⟨st, vs, h⟩ = fin st res
  | [], code, _, hok, hc => run_expr e hok hc
  | s :: rest, code, hss, hok, hc => by
    rw [compileBody] at hc
    simp only [Option.bind_eq_bind, Option.bind_eq_some_iff, Option.some.injEq] at hc
    obtain ⟨c1, h1, c2, h2, rfl⟩ := hc
    have g1 := run_st s (hss s (by simp)) h1
    have g2 := run_body e rest (fun s hs => hss s (by simp [hs])) hok h2
    refine ⟨by rw [loads_append, g1.1, g2.1]; rfl, fun vs h st res hr => ?_⟩
    rw [Spec.run] at hr
    obtain ⟨r0, k1, k2⟩ := andThen_some hr
    have e1 := g1.2 vs h st r0 k1
    cases r0 with
    | thrown => simp only [andThen, Option.some.injEq] at k2; subst k2; exact exec_raised e1
    | ok v vs h => rw [exec_done e1]; exact g2.2 vs h st res k2

end Verif.Refs
