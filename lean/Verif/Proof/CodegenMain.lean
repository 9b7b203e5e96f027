import Verif.Proof.CodegenSim

/-! # Helper lemmas: every statement is followed -/

namespace Verif.Stmt

variable {A S : Type}

/-! ## Cases -/

/-- The statements of a case. -/
def nthBody : Cases A → Nat → Stmts A
  | .nil, _ => .nil
  | .cons _ body _, 0 => body
  | .cons _ _ rest, k + 1 => nthBody rest k

theorem run_single (I : Interp A S) (n : Nat) (cs : Cases A) (h : single cs = true ∨ allLeave cs = true)
    (k : Nat) (s : S) : cs.run I n k s = (nthBody cs k).run I n s := by
  match cs, k with
  | .nil, k => rw [Cases.run, nthBody, Stmts.run]
  | .cons ls body rest, 0 =>
    rw [Cases.run, nthBody]
    rcases h with h | h
    · cases rest with
      | nil =>
        split
        · rename_i h1; rw [Cases.run, h1]
        · rfl
      | cons => simp [single] at h
    · rw [allLeave, Bool.and_eq_true] at h
      split
      · rename_i h1; exact absurd h1 (leaves_run I n body h.1 _ _)
      · rfl
  | .cons ls body rest, k + 1 =>
    rw [Cases.run, nthBody]
    rcases h with h | h
    · cases rest with
      | nil => rw [Cases.run, nthBody, Stmts.run]
      | cons => simp [single] at h
    · rw [allLeave, Bool.and_eq_true] at h
      exact run_single I n rest (Or.inr h.2) k s

theorem nthBody_leaves (I : Interp A S) (n : Nat) : ∀ (cs : Cases A), allLeave cs = true → ∀ k, k < cs.size →
    ∀ s s', (nthBody cs k).run I n s ≠ some (.pass, s')
  | .nil, _, k, hk, s, s' => by simp [Cases.size] at hk
  | .cons ls body rest, h, 0, hk, s, s' => by
    rw [allLeave, Bool.and_eq_true] at h
    rw [nthBody]
    exact leaves_run I n body h.1 _ _
  | .cons ls body rest, h, k + 1, hk, s, s' => by
    rw [allLeave, Bool.and_eq_true] at h
    rw [nthBody]
    rw [Cases.size] at hk
    exact nthBody_leaves I n rest h.2 k (by omega) s s'

theorem caseNull_body : ∀ (cs : Cases A) (k : Nat), caseNull cs k = true → nthBody cs k = .nil
  | .nil, k, h => by simp [caseNull] at h
  | .cons ls body rest, 0, h => by
    cases body with
    | nil => rfl
    | cons => simp [caseNull] at h
  | .cons ls body rest, k + 1, h => by
    rw [nthBody]
    apply caseNull_body
    cases body <;> simpa [caseNull] using h

/-- The last default is the only one. -/
theorem lastDefault_eq : ∀ (cs : Cases A) (k : Nat) (r : Option Nat), cs.defaults ≤ 1 →
    lastDefault cs k r = ((pickCase.index none cs).map (k + ·)).or r
  | .nil, k, r, h => by simp [lastDefault, pickCase.index]
  | .cons ls body rest, k, r, h => by
    rw [Cases.defaults] at h
    rw [lastDefault, pickCase.index]
    by_cases hm : none ∈ ls
    · have h1 : 0 < ls.count none := List.count_pos_iff.mpr hm
      have h0 : rest.defaults = 0 := by omega
      rw [lastDefault_eq rest _ _ (by omega), index_default h0]
      simp [hm]
    · rw [lastDefault_eq rest _ _ (by omega)]
      simp only [hm, List.contains_eq_mem, decide_false, Bool.false_eq_true, ↓reduceIte, Option.map_map]
      cases pickCase.index none rest with
      | none => rfl
      | some j => simp; omega

theorem rowCount_zero : ∀ (cs : Cases A), rowCount cs = 0 → ∀ v, pickCase.index (some v) cs = none
  | .nil, _, v => rfl
  | .cons ls body rest, h, v => by
    rw [rowCount] at h
    have h1 : (ls.filter Option.isSome).length = 0 := by omega
    have h2 := rowCount_zero rest (by omega) v
    rw [pickCase.index, if_neg, h2]
    · rfl
    · intro hm
      have : some v ∈ ls.filter Option.isSome := List.mem_filter.mpr ⟨hm, rfl⟩
      rw [List.length_eq_zero_iff.mp h1] at this
      cases this

theorem lastConst_zero : ∀ (cs : Cases A) (k : Nat) (r), rowCount cs = 0 → lastConst cs k r = r
  | .nil, _, r, _ => rfl
  | .cons ls body rest, k, r, h => by
    rw [rowCount] at h
    have h1 : (ls.filter Option.isSome).length = 0 := by omega
    have h1' : ∀ l ∈ ls, l = none := by
      intro l hl
      cases l with
      | none => rfl
      | some v =>
        have : some v ∈ ls.filter Option.isSome := List.mem_filter.mpr ⟨hl, rfl⟩
        rw [List.length_eq_zero_iff.mp h1] at this
        cases this
    rw [lastConst, lastConst_zero rest _ _ (by omega)]
    clear h h1
    induction ls with
    | nil => rfl
    | cons l ls ih =>
      rw [List.foldl_cons, h1' l (by simp)]
      exact ih (fun l hl => h1' l (by simp [hl]))

theorem foldl_const (k : Nat) (v : BitVec 32) : ∀ (ls : List (Option (BitVec 32))) (r : Option (Nat × BitVec 32)),
    ls.filter Option.isSome = [some v] →
    ls.foldl (lastOf k) r = some (k, v)
  | [], r, h => by simp at h
  | l :: ls, r, h => by
    cases l with
    | none =>
      rw [List.foldl_cons]
      exact foldl_const k v ls r (by simpa using h)
    | some w =>
      simp only [List.filter_cons, Option.isSome_some, ↓reduceIte, List.cons.injEq] at h
      obtain ⟨h1, h2⟩ := h
      injection h1 with h1
      subst h1
      rw [List.foldl_cons]
      have : ∀ l ∈ ls, l = none := by
        intro l hl
        cases l with
        | none => rfl
        | some u =>
          have : some u ∈ ls.filter Option.isSome := List.mem_filter.mpr ⟨hl, rfl⟩
          rw [h2] at this
          cases this
      clear h2
      induction ls with
      | nil => rfl
      | cons l ls ih =>
        rw [List.foldl_cons, this l (by simp)]
        exact ih (fun l hl => this l (by simp [hl]))

theorem lastConst_one : ∀ (cs : Cases A) (k : Nat) (r), rowCount cs = 1 →
    ∃ i v, lastConst cs k r = some (k + i, v) ∧ pickCase.index (some v) cs = some i ∧
      ∀ w, w ≠ v → pickCase.index (some w) cs = none
  | .nil, _, r, h => by simp [rowCount] at h
  | .cons ls body rest, k, r, h => by
    rw [rowCount] at h
    by_cases h0 : rowCount rest = 0
    · have h1 : (ls.filter Option.isSome).length = 1 := by omega
      obtain ⟨x, hx⟩ := List.length_eq_one_iff.mp h1
      have hxm : x ∈ ls.filter Option.isSome := by rw [hx]; simp
      obtain ⟨hxm, hxs⟩ := List.mem_filter.mp hxm
      obtain ⟨v, rfl⟩ := Option.isSome_iff_exists.mp hxs
      refine ⟨0, v, ?_, ?_, ?_⟩
      · rw [lastConst, lastConst_zero rest _ _ h0, foldl_const k v ls r hx, Nat.add_zero]
      · rw [pickCase.index, if_pos hxm]
      · intro w hw
        rw [pickCase.index, if_neg, rowCount_zero rest h0]
        · rfl
        · intro hm
          have : some w ∈ ls.filter Option.isSome := List.mem_filter.mpr ⟨hm, rfl⟩
          rw [hx] at this
          simp at this
          exact hw this
    · have h1 : (ls.filter Option.isSome).length = 0 := by omega
      have hno : ∀ w, some w ∉ ls := by
        intro w hm
        have : some w ∈ ls.filter Option.isSome := List.mem_filter.mpr ⟨hm, rfl⟩
        rw [List.length_eq_zero_iff.mp h1] at this
        cases this
      obtain ⟨i, v, e1, e2, e3⟩ := lastConst_one rest (k + 1)
        (ls.foldl (lastOf k) r) (by omega)
      refine ⟨i + 1, v, ?_, ?_, ?_⟩
      · rw [lastConst, e1]; congr 2; omega
      · rw [pickCase.index, if_neg (hno v), e2]; rfl
      · intro w hw
        rw [pickCase.index, if_neg (hno w), e3 w hw]; rfl

/-- The label of the place of a case. -/
def caseLabel (o : Opts) (F : Folder A) : Cases A → Nat → Nat → Option Nat
  | .nil, _, _ => none
  | .cons _ _ _, m, 0 => some (m + 1)
  | .cons _ body rest, m, k + 1 => caseLabel o F rest (compileAll o F false body (m + 1)).2 k

theorem rows_mem (o : Opts) (F : Folder A) : ∀ (cs : Cases A) (m : Nat) (v : BitVec 32),
    (∀ k, pickCase.index (some v) cs = some k → ∃ l, caseLabel o F cs m k = some l ∧
      (v, l) ∈ (compileCases o F cs m).rows) ∧
    (pickCase.index (some v) cs = none → ∀ l, (v, l) ∉ (compileCases o F cs m).rows)
  | .nil, m, v => by simp [pickCase.index, compileCases]
  | .cons ls body rest, m, v => by
    obtain ⟨h1, h2⟩ := rows_mem o F rest (compileAll o F false body (m + 1)).2 v
    rw [pickCase.index, compileCases]
    simp only
    by_cases hm : some v ∈ ls
    · rw [if_pos hm]
      constructor
      · intro k hk
        injection hk with hk; subst hk
        refine ⟨m + 1, rfl, List.mem_append_left _ ?_⟩
        rw [rowsOf, List.mem_filterMap]
        exact ⟨some v, hm, rfl⟩
      · intro h; cases h
    · rw [if_neg hm]
      constructor
      · intro k hk
        obtain ⟨j, hj, rfl⟩ := Option.map_eq_some_iff.mp hk
        obtain ⟨l, e1, e2⟩ := h1 j hj
        exact ⟨l, e1, List.mem_append_right _ e2⟩
      · intro hn l hl
        rw [Option.map_eq_none_iff] at hn
        rcases List.mem_append.mp hl with hl | hl
        · rw [rowsOf, List.mem_filterMap] at hl
          obtain ⟨a, ha, hb⟩ := hl
          obtain ⟨w, rfl, hw⟩ := Option.map_eq_some_iff.mp hb
          injection hw with e1 e2
          subst e1
          exact hm ha
        · exact h2 hn l hl

theorem dflts_mem (o : Opts) (F : Folder A) : ∀ (cs : Cases A) (m : Nat),
    (∀ k, pickCase.index none cs = some k → ∃ l ls, caseLabel o F cs m k = some l ∧
      (compileCases o F cs m).dflts = l :: ls) ∧
    (pickCase.index none cs = none → (compileCases o F cs m).dflts = [])
  | .nil, m => by simp [pickCase.index, compileCases]
  | .cons ls body rest, m => by
    obtain ⟨h1, h2⟩ := dflts_mem o F rest (compileAll o F false body (m + 1)).2
    rw [pickCase.index, compileCases]
    simp only
    by_cases hm : none ∈ ls
    · rw [if_pos hm]
      constructor
      · intro k hk
        injection hk with hk; subst hk
        have : (none : Option (BitVec 32)) ∈ ls.filter (·.isNone) := List.mem_filter.mpr ⟨hm, rfl⟩
        cases hf : ls.filter (·.isNone) with
        | nil => rw [hf] at this; cases this
        | cons x xs => exact ⟨m + 1, _, rfl, by simp; rfl⟩
      · intro h; cases h
    · rw [if_neg hm]
      have hf : ls.filter (·.isNone) = [] := by
        rw [List.filter_eq_nil_iff]
        intro a ha
        cases a with
        | none => exact absurd ha hm
        | some => simp
      rw [hf]
      constructor
      · intro k hk
        obtain ⟨j, hj, rfl⟩ := Option.map_eq_some_iff.mp hk
        obtain ⟨l, ls', e1, e2⟩ := h1 j hj
        exact ⟨l, ls', e1, by simpa using e2⟩
      · intro hn
        rw [Option.map_eq_none_iff] at hn
        simpa using h2 hn

theorem rows_length (o : Opts) (F : Folder A) : ∀ (cs : Cases A) (m : Nat),
    (compileCases o F cs m).rows.length = rowCount cs
  | .nil, m => by simp [compileCases, rowCount]
  | .cons ls body rest, m => by
    rw [compileCases, rowCount]
    simp only [List.length_append, rows_length o F rest]
    congr 1
    induction ls with
    | nil => rfl
    | cons l ls ih => cases l <;> simp_all [rowsOf]

/-- Labelled cases without constants and with at most one default. -/
theorem one_case (cs : Cases A) (h1 : labelled cs = true) (h2 : cs.defaults ≤ 1) (h3 : rowCount cs = 0) :
    cs = .nil ∨ ∃ ls body, cs = .cons ls body .nil ∧ none ∈ ls := by
  have key : ∀ (ls : List (Option (BitVec 32))), (!ls.isEmpty) = true →
      (ls.filter Option.isSome).length = 0 → none ∈ ls := by
    intro ls h0 h1
    cases ls with
    | nil => simp at h0
    | cons l ls =>
      cases l with
      | none => simp
      | some v => simp at h1
  match cs with
  | .nil => exact Or.inl rfl
  | .cons ls body .nil =>
    simp only [labelled, Bool.and_eq_true] at h1
    simp only [rowCount, Nat.add_zero] at h3
    exact Or.inr ⟨ls, body, rfl, key ls h1.1 h3⟩
  | .cons ls body (.cons ls' body' rest) =>
    simp only [labelled, Bool.and_eq_true] at h1
    simp only [rowCount] at h3
    simp only [Cases.defaults] at h2
    have a := key ls h1.1 (by omega)
    have b := key ls' h1.2.1 (by omega)
    have a' : 0 < ls.count none := List.count_pos_iff.mpr a
    have b' : 0 < ls'.count none := List.count_pos_iff.mpr b
    omega

/-! ## The simulation -/

theorem resolve_nil (b c : Option Nat) : resolve b c ([] : List (X A)) = [] := rfl

theorem resolve_headTest (b c : Option Nat) (o : Opts) (F : Folder A) (e l) :
    resolve b c (headTest o F e l) = headTest o F e l := by
  rw [headTest]; split
  · rfl
  · exact resolve_condJmp ..

theorem resolve_doTail (b c : Option Nat) (o : Opts) (F : Folder A) (e l) :
    resolve b c (doTail o F e l) = doTail o F e l := by
  rw [doTail]; split
  · rfl
  · split
    · rfl
    · exact resolve_condJmp ..

theorem resolve_untilTail (b c : Option Nat) (o : Opts) (F : Folder A) (e l) :
    resolve b c (untilTail o F e l) = untilTail o F e l := by
  rw [untilTail]; split
  · rfl
  · split
    · rfl
    · exact resolve_condJmp ..

theorem resolve_jmp (b c : Option Nat) (m l) : (X.jmp m l : X A).resolve b c = .jmp m l := rfl
theorem resolve_label (b c : Option Nat) (l) : (X.label l : X A).resolve b c = .label l := rfl

section
variable {prog : List (X A)} {cmds : List (Cmd A)} (P : Placed prog cmds) {I : Interp A S}
  {F : Folder A} (hF : Agrees F I) {o : Opts} (n : Nat)

theorem simple_follows (P : Placed prog cmds) {i : Nat} {e : List A} {b c : Option Nat}
    (h : Seg prog i (acts e)) (s : S) :
    Follows I prog cmds i (i + e.length) b c n s (Stmt.run.simple I .pass e s) := by
  rw [Stmt.run.simple]
  split
  · rename_i he; exact P.acts_ok I h he
  · rename_i he; exact P.acts_error I h he

theorem switch_follows (P : Placed prog cmds) (hF : Agrees F I) (e : List A) (cases : Cases A)
    (m i : Nat) (b c : Option Nat) (h1 : labelled cases = true) (h2 : cases.defaults ≤ 1)
    (h3 : rowCount cases < 65536)
    (h4 : (!(o.switchToIf && rowCount cases == 1) || single cases || allLeave cases) = true)
    (hNth : ∀ (k m i : Nat) (b c : Option Nat), Seg prog i (resolve b c (compileNth o F cases k m).1) →
      ∀ s, Follows I prog cmds i (i + size (compileNth o F cases k m).1) b c n s
        ((nthBody cases k).run I n s))
    (hCases : ∀ (m i : Nat) (b c : Option Nat), Seg prog i (resolve b c (compileCases o F cases m).code) →
      (∀ s, Follows I prog cmds i (i + size (compileCases o F cases m).code) b c n s (cases.run I n 0 s)) ∧
      ∀ k, k < cases.size → ∃ l p, caseLabel o F cases m k = some l ∧ labelIdx prog 0 l = some p ∧
        ∀ s, Follows I prog cmds p (i + size (compileCases o F cases m).code) b c n s
          (cases.run I n k s))
    (hs : Seg prog i (resolve b c (compile o F (.switch e cases) m).1)) (s : S) :
    Follows I prog cmds i (i + size (compile o F (.switch e cases) m).1) b c n s
      ((Stmt.switch e cases).run I n s) := by
  rw [Stmt.run]
  rw [compile.eq_def] at hs ⊢
  dsimp only at hs ⊢
  have hdrop : ∀ xs : List (X A), size (.drop :: xs) = 1 + size xs := by
    intro xs; rw [size_cons, size_one _ rfl]
  have hrd : ∀ b c, (X.drop : X A).resolve b c = .drop := fun _ _ => rfl
  by_cases c0 : o.switchToIf = true ∧ rowCount cases = 0
  · rw [if_pos c0] at hs ⊢
    have hidx := rowCount_zero cases c0.2
    rcases one_case cases h1 h2 c0.2 with rfl | ⟨ls, body, rfl, hn⟩
    · rw [if_pos (by simp)] at hs ⊢
      simp only [resolve_append, resolve_acts, size_append, size_acts] at hs ⊢
      have hd := hs.right
      rw [size_acts] at hd
      split
      · rename_i he; exact P.acts_error I hs.left he
      · rename_i s1 he
        exact (P.acts_ok I hs.left he).trans (P.drop I hd s1)
    · have hpick : ∀ v, pickCase v (.cons ls body .nil : Cases A) = some 0 := by
        intro v
        rw [pickCase, hidx v, pickCase.index, if_pos hn]; rfl
      by_cases cn : caseNull (.cons ls body .nil : Cases A) 0 = true
      · rw [if_pos (Or.inl cn)] at hs ⊢
        simp only [resolve_append, resolve_acts, size_append, size_acts] at hs ⊢
        have hd := hs.right
        rw [size_acts] at hd
        split
        · rename_i he; exact P.acts_error I hs.left he
        · rename_i s1 he
          rw [hpick]
          simp only
          rw [run_single I n _ (Or.inl rfl), caseNull_body _ _ cn, Stmts.run]
          exact (P.acts_ok I hs.left he).trans (P.drop I hd s1)
      · rw [if_neg (by simp [cn])] at hs ⊢
        simp only [List.cons_append, List.append_assoc, resolve_append, resolve_acts, size_append,
          size_acts, resolve_cons, resolve_resolve, resolve_label, Option.some_or, Option.none_or,
          resolve_nil, hrd, hdrop, size_resolve, size_label, size_nil, Nat.add_zero] at hs ⊢
        have hd := hs.right
        rw [size_acts] at hd
        have hb := (hd.tail rfl).left
        have hl := seg_label P.nodup (hd.tail rfl).right
        rw [size_resolve] at hl
        split
        · rename_i he; exact P.acts_error I hs.left he
        · rename_i s1 he
          rw [hpick]
          simp only
          rw [run_single I n _ (Or.inl rfl)]
          refine Follows.after ((P.acts_ok I hs.left he).trans (P.drop I hd.head s1)) ?_
          rw [← Nat.add_assoc, ← Nat.add_assoc]
          exact (hNth _ _ _ _ _ hb _).leave hl
  · rw [if_neg c0] at hs ⊢
    by_cases c1 : o.switchToIf = true ∧ rowCount cases = 1
    · rw [if_pos c1] at hs ⊢
      have h4' : single cases = true ∨ allLeave cases = true := by
        simpa [c1.1, c1.2] using h4
      obtain ⟨ci, k, e1, e2, e3⟩ := lastConst_one cases 0 none c1.2
      rw [Nat.zero_add] at e1
      have hld : lastDefault cases 0 none = pickCase.index none cases := by
        rw [lastDefault_eq cases 0 none h2]; simp
      simp only [e1, hld] at hs ⊢
      have hci := index_lt e2
      have hpick : ∀ v, pickCase v cases = if v = k then some ci else pickCase.index none cases := by
        intro v
        rw [pickCase]
        by_cases hv : v = k
        · rw [if_pos hv, hv, e2]; rfl
        · rw [if_neg hv, e3 v hv]; rfl
      generalize hdd : pickCase.index none cases = d at *
      by_cases c2 : d = some ci ∨ (caseNull cases ci = true ∧ (d = none ∨ d.any (caseNull cases) = true))
      · rw [if_pos c2] at hs ⊢
        simp only [List.cons_append, List.append_assoc, resolve_append, resolve_acts, size_append,
          size_acts, resolve_cons, resolve_resolve, resolve_label, Option.some_or, Option.none_or,
          resolve_nil, hrd, hdrop, size_resolve, size_label, size_nil, Nat.add_zero] at hs ⊢
        have hd := hs.right
        rw [size_acts] at hd
        have hb := (hd.tail rfl).left
        have hl := seg_label P.nodup (hd.tail rfl).right
        rw [size_resolve] at hl
        split
        · rename_i he; exact P.acts_error I hs.left he
        · rename_i s1 he
          have hsame : ∀ s2, (match pickCase (I.popInt s1).1 cases with
              | none => some (Out.pass, s2)
              | some k => leaveSwitch (cases.run I n k s2)) =
              leaveSwitch ((nthBody cases ci).run I n s2) := by
            intro s2
            rw [hpick]
            by_cases hv : (I.popInt s1).1 = k
            · rw [if_pos hv]; simp only; rw [run_single I n _ h4']
            · rw [if_neg hv]
              rcases c2 with rfl | ⟨c2, rfl | c3⟩
              · simp only; rw [run_single I n _ h4']
              · simp only; rw [caseNull_body _ _ c2, Stmts.run]; rfl
              · cases d with
                | none => simp at c3
                | some j =>
                  simp only [Option.any_some] at c3
                  simp only
                  rw [run_single I n _ h4', caseNull_body _ _ c2, caseNull_body _ _ c3]
          refine cast (congrArg (Follows I prog cmds i _ b c n s) (hsame (I.popInt s1).2).symm) ?_
          refine Follows.after ((P.acts_ok I hs.left he).trans (P.drop I hd.head s1)) ?_
          rw [← Nat.add_assoc, ← Nat.add_assoc]
          exact (hNth _ _ _ _ _ hb _).leave hl
      · rw [if_neg c2] at hs ⊢
        generalize hvv : (if o.removeUnreached = true then Option.map (fun x => x == k) (F.int e) else none) = vv at *
        have known : ∀ bb, vv = some bb → ∃ v s1, I.eval e s = .ok s1 ∧ I.popInt s1 = (v, s) ∧ (v == k) = bb := by
          intro bb hb
          rw [← hvv] at hb
          split at hb
          · obtain ⟨v, hv1, hv2⟩ := Option.map_eq_some_iff.mp hb
            obtain ⟨s1, q1, q2⟩ := hF.int e v hv1 s
            exact ⟨v, s1, q1, q2, hv2⟩
          · cases hb
        match vv, known with
        | some true, known =>
          obtain ⟨v, s1, q1, q2, q3⟩ := known true rfl
          simp only [resolve_append, resolve_cons, resolve_resolve, resolve_label, Option.some_or,
            Option.none_or, resolve_nil, size_append, size_resolve, size_label, size_nil, Nat.add_zero] at hs ⊢
          have hl := seg_label P.nodup hs.right
          rw [size_resolve] at hl
          rw [q1]
          simp only
          rw [q2]
          simp only
          rw [hpick, if_pos (by simpa using q3)]
          simp only
          rw [run_single I n _ h4']
          exact (hNth _ _ _ _ _ hs.left _).leave hl
        | some false, known =>
          obtain ⟨v, s1, q1, q2, q3⟩ := known false rfl
          rw [q1]
          simp only
          rw [q2]
          simp only
          rw [hpick, if_neg (by simpa using q3)]
          cases d with
          | none => exact Reach.refl _
          | some j =>
            simp only [Option.elim_some, resolve_append, resolve_cons, resolve_resolve, resolve_label, Option.some_or,
              Option.none_or, resolve_nil, size_append, size_resolve, size_label, size_nil, Nat.add_zero] at hs ⊢
            have hl := seg_label P.nodup hs.right
            rw [size_resolve] at hl
            rw [run_single I n _ h4']
            exact (hNth _ _ _ _ _ hs.left _).leave hl
        | none, known =>
          have hze : ∃ zc z, d.elim ([], (compileNth o F cases ci (m + 1)).2)
              (fun j => compileNth o F cases j (compileNth o F cases ci (m + 1)).2) = (zc, z) ∧
              (∀ b c i', Seg prog i' (resolve b c zc) → ∀ s2,
                Follows I prog cmds i' (i' + size zc) b c n s2
                  (match d with
                    | none => some (Out.pass, s2)
                    | some k => (nthBody cases k).run I n s2)) ∧ (d = none → zc = []) := by
            cases d with
            | none => exact ⟨[], _, rfl, fun _ _ _ _ s2 => Reach.refl _, fun _ => rfl⟩
            | some j =>
              exact ⟨_, _, rfl, fun b c i' h s2 => hNth _ _ _ _ _ h s2, (by intro h; cases h)⟩
          obtain ⟨zc, z, hz1, hz2, hz3⟩ := hze
          simp only [hz1] at hs ⊢
          have heq : ∀ l (xs : List (X A)), size (.eqInt k :: .jmp .ifFalse l :: xs) = 2 + size xs := by
            intro l xs
            rw [size_cons, size_cons (.jmp _ _), size_one _ rfl, size_one _ rfl]; omega
          have hr1 : ∀ b c, (X.eqInt k : X A).resolve b c = .eqInt k := fun _ _ => rfl
          simp only [List.cons_append, List.append_assoc, resolve_append, resolve_acts, size_append,
            size_acts, resolve_cons, resolve_resolve, resolve_label, resolve_jmp, Option.some_or,
            Option.none_or, hr1, resolve_nil, heq, size_resolve, size_label, size_nil, Nat.add_zero] at hs ⊢
          have hq := hs.right
          rw [size_acts] at hq
          have hj := (hq.tail rfl)
          have hy := hj.tail rfl
          have hle := hy.right
          rw [size_resolve] at hle
          have hlz := hle.tail_label
          have hlb := seg_label P.nodup hlz.right
          rw [size_resolve] at hlb
          have hle := seg_label P.nodup hle.head
          obtain ⟨t, f1, f2⟩ := P.ifFalse I hj.head
          rw [hle] at f1; injection f1 with f1; subst f1
          split
          · rename_i he; exact P.acts_error I hs.left he
          · rename_i s1 he
            have r1 := (P.acts_ok I hs.left he).trans (P.eqInt I hq.head s1)
            have r2 := r1.trans (f2 _).reach
            rw [I.pop_push] at r2
            simp only at r2
            have hend : i + (e.length + (2 + (size (compileNth o F cases ci (m + 1)).1 + size zc))) =
              i + e.length + 1 + 1 + size (compileNth o F cases ci (m + 1)).1 + size zc := by omega
            rw [hend]
            rw [hpick]
            by_cases hv : (I.popInt s1).1 = k
            · rw [if_pos hv]
              have hv' : ((I.popInt s1).1 == k) = true := by simp [hv]
              rw [hv'] at r2
              simp only [↓reduceIte] at r2 ⊢
              rw [run_single I n _ h4']
              refine Follows.after r2 ((Follows.on (hNth _ _ _ _ _ hy.left _) ?_).leave hlb)
              intro s' hpass
              rcases h4' with h4' | h4'
              · have hcs : d = none ∨ d = some 0 := by
                  match cases, h4' with
                  | .cons ls body .nil, _ =>
                    rw [← hdd, pickCase.index, pickCase.index]
                    split
                    · exact Or.inr rfl
                    · exact Or.inl rfl
                have hci0 : ci = 0 := by
                  match cases, h4' with
                  | .cons ls body .nil, _ => simp [Cases.size] at hci; exact hci
                rcases hcs with hcs | hcs
                · rw [hz3 hcs]; exact Reach.refl _
                · exact absurd (Or.inl (by rw [hcs, hci0])) c2
              · exact absurd hpass (nthBody_leaves I n cases h4' ci hci _ _)
            · rw [if_neg hv]
              have hv' : ((I.popInt s1).1 == k) = false := by simp [hv]
              rw [hv'] at r2
              simp only [Bool.false_eq_true, ↓reduceIte] at r2
              refine Follows.after r2 ?_
              have := (hz2 _ _ _ hlz.left (I.popInt s1).2).leave (b := b) hlb
              cases d with
              | none => exact this
              | some j =>
                simp only at this ⊢
                rw [run_single I n _ h4']
                exact this
    · rw [if_neg c1] at hs ⊢
      by_cases c2 : (compileCases o F cases m).dflts.length ≤ 1 ∧
          ((compileCases o F cases m).rows.map (·.1)).Nodup
      · rw [if_pos c2] at hs ⊢
        obtain ⟨t1, t2⟩ := table_sorted _ c2.2 (by rw [rows_length]; exact h3)
        have hsw : ∀ r d (xs : List (X A)), size (.switch r d :: xs) = 1 + size xs := by
          intro r d xs; rw [size_cons, size_one _ rfl]
        have hrs : ∀ b c r d, (X.switch r d : X A).resolve b c = .switch r d := fun _ _ _ _ => rfl
        cases hdf : (compileCases o F cases m).dflts with
        | nil =>
          simp only [hdf] at hs ⊢
          simp only [List.cons_append, List.append_assoc, resolve_append, resolve_acts, size_append,
            size_acts, resolve_cons, resolve_resolve, resolve_label, hrs, Option.some_or,
            Option.none_or, hsw, resolve_nil, size_resolve, size_label, size_nil, Nat.add_zero] at hs ⊢
          have hq := hs.right
          rw [size_acts] at hq
          have hb := (hq.tail rfl).left
          have hl1 := (hq.tail rfl).right
          rw [size_resolve] at hl1
          have hl2 := seg_label P.nodup hl1.tail_label
          have hl1 := seg_label P.nodup hl1.head
          obtain ⟨_, g2⟩ := hCases _ _ _ _ hb
          split
          · rename_i he; exact P.acts_error I hs.left he
          · rename_i s1 he
            have r1 := P.acts_ok I hs.left he
            obtain ⟨k1, k2⟩ := P.switch I hq.head t1 s1
            have hdn : pickCase.index (none : Option (BitVec 32)) cases = none := by
              cases hx : pickCase.index (none : Option (BitVec 32)) cases with
              | none => rfl
              | some j =>
                obtain ⟨l, ls, _, w⟩ := (dflts_mem o F cases m).1 j hx
                rw [hdf] at w; cases w
            rw [pickCase, hdn, Option.or_none]
            rw [← Nat.add_assoc, ← Nat.add_assoc]
            cases hx : pickCase.index (some (I.popInt s1).1) cases with
            | none =>
              obtain ⟨t, w1, w2⟩ := k2 (fun l hl => (rows_mem o F cases m _).2 hx l ((t2 _).mp hl))
              rw [hl2] at w1; injection w1 with w1; subst w1
              exact r1.trans w2
            | some j =>
              obtain ⟨l, w1, w2⟩ := (rows_mem o F cases m _).1 j hx
              obtain ⟨t, w3, w4⟩ := k1 l ((t2 _).mpr w2)
              obtain ⟨l', p, w5, w6, w7⟩ := g2 j (index_lt hx)
              rw [w1] at w5; injection w5 with w5; subst w5
              rw [w3] at w6; injection w6 with w6; subst w6
              exact Follows.after (r1.trans w4) ((w7 _).leave hl1)
        | cons dl dls =>
          simp only [hdf] at hs ⊢
          simp only [List.cons_append, List.append_assoc, resolve_append, resolve_acts, size_append,
            size_acts, resolve_cons, resolve_resolve, resolve_label, hrs, Option.some_or,
            Option.none_or, hsw, resolve_nil, size_resolve, size_label, size_nil, Nat.add_zero] at hs ⊢
          have hq := hs.right
          rw [size_acts] at hq
          have hb := (hq.tail rfl).left
          have hl1 := (hq.tail rfl).right
          rw [size_resolve] at hl1
          have hl1 := seg_label P.nodup hl1.head
          obtain ⟨_, g2⟩ := hCases _ _ _ _ hb
          split
          · rename_i he; exact P.acts_error I hs.left he
          · rename_i s1 he
            have r1 := P.acts_ok I hs.left he
            obtain ⟨k1, k2⟩ := P.switch I hq.head t1 s1
            rw [pickCase]
            rw [← Nat.add_assoc, ← Nat.add_assoc]
            cases hx : pickCase.index (some (I.popInt s1).1) cases with
            | none =>
              obtain ⟨t, w1, w2⟩ := k2 (fun l hl => (rows_mem o F cases m _).2 hx l ((t2 _).mp hl))
              cases hy : pickCase.index (none : Option (BitVec 32)) cases with
              | none => rw [(dflts_mem o F cases m).2 hy] at hdf; cases hdf
              | some j =>
                obtain ⟨l, ls, w3, w4⟩ := (dflts_mem o F cases m).1 j hy
                rw [hdf] at w4; injection w4 with w4 _; subst w4
                obtain ⟨l', p, w5, w6, w7⟩ := g2 j (index_lt hy)
                rw [w3] at w5; injection w5 with w5; subst w5
                rw [w1] at w6; injection w6 with w6; subst w6
                exact Follows.after (r1.trans w2) ((w7 _).leave hl1)
            | some j =>
              obtain ⟨l, w1, w2⟩ := (rows_mem o F cases m _).1 j hx
              obtain ⟨t, w3, w4⟩ := k1 l ((t2 _).mpr w2)
              obtain ⟨l', p, w5, w6, w7⟩ := g2 j (index_lt hx)
              rw [w1] at w5; injection w5 with w5; subst w5
              rw [w3] at w6; injection w6 with w6; subst w6
              exact Follows.after (r1.trans w4) ((w7 _).leave hl1)
      · rw [if_neg c2] at hs
        exact (P.fail hs).elim

mutual

theorem follow (P : Placed prog cmds) (hF : Agrees F I) (t : Stmt A) (m i : Nat) (b c : Option Nat)
    (hp : plain o F t = true)
    (hs : Seg prog i (resolve b c (compile o F t m).1)) (s : S) :
    Follows I prog cmds i (i + size (compile o F t m).1) b c n s (t.run I n s) := by
  match t with
  | .expr e =>
    rw [compile] at hs ⊢
    rw [Stmt.run]
    simp only [resolve_acts, size_acts] at hs ⊢
    exact simple_follows n P hs s
  | .typeDef => rw [compile, Stmt.run]; exact Reach.refl _
  | .decl inits =>
    rw [compile] at hs ⊢
    rw [Stmt.run]
    simp only [resolve_acts, size_acts] at hs ⊢
    exact simple_follows n P hs s
  | .brk =>
    rw [compile] at hs
    rw [Stmt.run]
    cases b with
    | none => exact (P.point hs).elim
    | some l =>
      obtain ⟨t, h1, h2⟩ := P.always I hs
      exact ⟨l, t, rfl, h1, (h2 s).reach⟩
  | .cont =>
    rw [compile] at hs
    rw [Stmt.run]
    cases c with
    | none => exact (P.point hs).elim
    | some l =>
      obtain ⟨t, h1, h2⟩ := P.always I hs
      exact ⟨l, t, rfl, h1, h2 s⟩
  | .thr e =>
    rw [compile] at hs
    rw [Stmt.run, Stmt.run.simple]
    simp only [resolve_append, resolve_acts] at hs
    have h2 := hs.right
    rw [size_acts] at h2
    split
    · rename_i he; exact (P.acts_ok I hs.left he).trans (P.thr I h2 _)
    · rename_i he; exact P.acts_error I hs.left he
  | .goto_ l => simp [plain] at hp
  | .ret e =>
    rw [compile] at hs
    rw [Stmt.run, Stmt.run.simple]
    simp only [resolve_append, resolve_acts] at hs
    have h2 := hs.right
    rw [size_acts] at h2
    split
    · rename_i he; exact (P.acts_ok I hs.left he).trans (P.ret I h2 _)
    · rename_i he; exact P.acts_error I hs.left he
  | .block body =>
    rw [compile] at hs ⊢
    rw [Stmt.run]
    rw [plain, Bool.and_eq_true] at hp
    exact followAll P hF body o.removeUnreached m i b c hp.1
      (by intro h; rw [h] at hp; simpa using hp.2) hs s
  | .doWhile cond body =>
    rw [plain, Bool.and_eq_true] at hp
    rw [compile] at hs ⊢
    rw [Stmt.run]
    simp only [List.cons_append, List.append_assoc, resolve_cons, resolve_append, resolve_resolve,
      resolve_doTail, resolve_label, resolve_nil, Option.some_or] at hs
    simp only [List.cons_append, List.append_assoc, size_label, size_append, size_resolve, size_nil,
      Nat.add_zero]
    have hlc := seg_label P.nodup hs.head
    have hb := hs.tail_label
    have ht := hb.right.left
    have he := seg_label P.nodup hb.right.right
    simp only [size_resolve] at ht he
    rw [← Nat.add_assoc]
    refine roundsDo_follows he hlc
      (fun s => follow P hF body (m + 1) i _ _ hp.1 hb.left s) ?_ ?_ n (Nat.le_refl _) s
    · cases hh : hasCont body with
      | false => exact Or.inl (fun s s' => noCont I n body hh s s')
      | true =>
        right
        have := hp.2
        simp only [hh, Bool.not_true, Bool.false_or, decide_eq_true_eq] at this
        exact test_always hF this
    · exact fun s => P.doTail hF ht hlc s
  | .loopUntil cond body =>
    rw [plain, Bool.and_eq_true] at hp
    rw [compile] at hs ⊢
    simp only [List.cons_append, List.append_assoc, resolve_cons, resolve_append, resolve_resolve,
      resolve_untilTail, resolve_label, resolve_nil, Option.some_or] at hs
    simp only [List.cons_append, List.append_assoc, size_label, size_append, size_resolve, size_nil,
      Nat.add_zero]
    have hlc := seg_label P.nodup hs.head
    have hb := hs.tail_label
    have ht := hb.right.left
    have he := seg_label P.nodup hb.right.right
    simp only [size_resolve] at ht he
    rw [← Nat.add_assoc]
    match cond with
    | none =>
      have e1 : untilTail o F (none : Option (List A)) (m + 1) = doTail o F none (m + 1) := by
        simp [untilTail, doTail]
      rw [e1] at ht he ⊢
      rw [Stmt.run]
      exact roundsDo_follows he hlc
        (fun s => follow P hF body (m + 1) i _ _ hp.1 hb.left s) (Or.inr (fun s => rfl))
        (fun s => P.doTail hF ht hlc s) n (Nat.le_refl _) s
    | some ex =>
      rw [Stmt.run]
      refine roundsDo_follows he hlc
        (fun s => follow P hF body (m + 1) i _ _ hp.1 hb.left s) ?_ ?_ n (Nat.le_refl _) s
      · cases hh : hasCont body with
        | false => exact Or.inl (fun s s' => noCont I n body hh s s')
        | true =>
          right
          have := hp.2
          simp only [hh, Bool.not_true, Bool.false_or, decide_eq_true_eq, reduceCtorEq, or_false] at this
          exact test_known hF this
      · exact fun s => P.untilTail hF ht hlc s
  | .while_ cond body =>
    rw [plain] at hp
    rw [Stmt.run]
    by_cases hc : o.cond F cond = some false
    · rw [compile, if_pos hc]
      cases n with
      | zero => exact ⟨i, s, rfl⟩
      | succ n => rw [rounds, ocond P hF hc]; exact Reach.refl _
    · rw [compile, if_neg hc] at hs ⊢
      simp only [List.cons_append, List.append_assoc, resolve_cons, resolve_append, resolve_resolve,
        resolve_headTest, resolve_label, resolve_jmp, resolve_nil, Option.some_or] at hs
      have hsz : ∀ l l', size ([.jmp .always l, .label l'] : List (X A)) = 1 := fun _ _ => rfl
      simp only [List.cons_append, List.append_assoc, size_label, size_append, size_resolve, hsz]
      have hlc := seg_label P.nodup hs.head
      have hh := hs.tail_label
      have hb := hh.right.left
      have hj := hh.right.right.head
      have hlb := seg_label P.nodup (hh.right.right.tail rfl)
      simp only [size_resolve] at hj hlb
      obtain ⟨t, e1, e2⟩ := P.always I hj
      rw [hlc] at e1; injection e1 with e1; subst e1
      rw [← Nat.add_assoc, ← Nat.add_assoc]
      exact rounds_follows (fun s => P.headTest hF hh.left hlb s)
        (fun s => (follow P hF body (m + 1) _ _ _ hp hb s).body hlb hlc e2)
        (fun s => Reach.refl _) n (Nat.le_refl _) s
  | .for_ init cond inc body =>
    rw [plain] at hp
    rw [Stmt.run]
    by_cases hc : o.cond F cond = some false
    · rw [compile, if_pos hc] at hs ⊢
      simp only [resolve_acts, size_acts] at hs ⊢
      split
      · rename_i he; exact P.acts_error I hs he
      · rename_i he
        refine Follows.after (P.acts_ok I hs he) ?_
        cases n with
        | zero => exact ⟨_, _, rfl⟩
        | succ n => rw [rounds, ocond P hF hc]; exact Reach.refl _
    · rw [compile, if_neg hc] at hs ⊢
      have hite : resolve b c (if inc.isSome then [X.jmp .always (m + 1)] else [] : List (X A)) =
          if inc.isSome then [X.jmp .always (m + 1)] else [] := by split <;> rfl
      simp only [List.cons_append, List.append_assoc, resolve_cons, resolve_append, resolve_resolve,
        resolve_headTest, resolve_label, resolve_jmp, resolve_nil, Option.some_or, resolve_acts,
        hite] at hs
      have hsz : ∀ l l', size ([.jmp .always l, .label l'] : List (X A)) = 1 := fun _ _ => rfl
      simp only [List.cons_append, List.append_assoc, size_label, size_append, size_resolve, hsz,
        size_acts]
      have hi := hs.left
      have h1 := hs.right
      rw [size_acts] at h1
      have hjc := h1.left
      have h2 := h1.right
      generalize hJ : size (if inc.isSome then [X.jmp .always (m + 1)] else [] : List (X A)) = J at *
      have hlc := seg_label P.nodup h2.head
      have h3 := h2.tail_label
      have hinc := h3.left
      have h4 := h3.right
      rw [size_acts] at h4
      have hlcond := seg_label P.nodup h4.head
      have hh := h4.tail_label
      have hb := hh.right.left
      have hj := hh.right.right.head
      have hlb := seg_label P.nodup (hh.right.right.tail rfl)
      simp only [size_resolve] at hj hlb
      obtain ⟨t, e1, e2⟩ := P.always I hj
      rw [hlc] at e1; injection e1 with e1; subst e1
      split
      · rename_i he; exact P.acts_error I hi he
      · rename_i s1 he
        have r1 := P.acts_ok I hi he
        have r2 : Reach I.machine cmds (.at_ (i + init.length) s1)
            (.at_ (i + init.length + J + (inc.getD []).length) s1) := by
          cases inc with
          | none =>
            have : J = 0 := by rw [← hJ]; rfl
            subst this
            exact Reach.refl _
          | some e =>
            obtain ⟨t, e3, e4⟩ := P.always I hjc
            rw [hlcond] at e3; injection e3 with e3
            rw [e3]
            exact (e4 s1).reach
        refine Follows.after (r1.trans r2) ?_
        have hend : i + (init.length + (J + ((inc.getD []).length + (size (headTest o F cond
            ((compile o F body (m + 2)).2 + 1)) + (size (compile o F body (m + 2)).1 + 1))))) =
            i + init.length + J + (inc.getD []).length + size (headTest o F cond
            ((compile o F body (m + 2)).2 + 1)) + size (compile o F body (m + 2)).1 + 1 := by omega
        rw [hend]
        refine rounds_follows (fun s => P.headTest hF hh.left hlb s)
          (fun s => (follow P hF body (m + 2) _ _ _ hp hb s).body hlb hlc e2)
          (fun s => ?_) n (Nat.le_refl _) s1
        rw [Interp.evalOpt]
        split
        · rename_i he; exact P.acts_error I hinc he
        · rename_i he; exact P.acts_ok I hinc he
  | .if_ cond yes no =>
    rw [plain, Bool.and_eq_true] at hp
    rw [Stmt.run]
    by_cases h1 : o.cond F cond = some true
    · rw [compile, if_pos h1] at hs ⊢
      rw [ocond P hF h1]
      exact follow P hF yes m i b c hp.1 hs s
    · by_cases h2 : o.cond F cond = some false
      · rw [compile, if_neg h1, if_pos h2] at hs ⊢
        rw [ocond P hF h2]
        exact follow P hF no m i b c hp.2 hs s
      · rw [compile, if_neg h1, if_neg h2] at hs ⊢
        simp only [List.cons_append, List.append_assoc, resolve_cons, resolve_append,
          resolve_condJmp, resolve_label, resolve_jmp, resolve_nil] at hs
        have hsz : ∀ l l' (xs : List (X A)), size (.jmp .always l :: .label l' :: xs) = 1 + size xs := by
          intro l l' xs
          rw [size_cons, size_label, size_one _ rfl]
        simp only [List.cons_append, List.append_assoc, size_append, hsz, size_label, size_nil,
          Nat.add_zero]
        have hy := hs.right.left
        have hj := hs.right.right.head
        have hle := (hs.right.right.tail rfl).head
        have hz := (hs.right.right.tail rfl).tail_label
        have hlend := seg_label P.nodup hz.right
        have hle := seg_label P.nodup hle
        simp only [size_resolve] at hj hle hlend
        have hz := hz.left
        rw [size_resolve] at hz
        obtain ⟨t, e1, e2⟩ := P.always I hj
        rw [hlend] at e1; injection e1 with e1; subst e1
        have ht := P.condFalse (I := I) hs.left hle s
        rw [← Nat.add_assoc, ← Nat.add_assoc, ← Nat.add_assoc]
        cases htt : I.test cond s with
        | error s' => rw [htt] at ht; exact ht
        | ok p =>
          obtain ⟨bb, s'⟩ := p
          rw [htt] at ht
          cases bb with
          | true =>
            exact Follows.after ht ((follow P hF yes (m + 2) _ b c hp.1 hy s').on
              (fun s'' _ => (e2 s'').reach))
          | false => exact Follows.after ht (follow P hF no _ _ b c hp.2 hz s')
  | .switch e cases =>
    rw [plain] at hp
    simp only [Bool.and_eq_true, decide_eq_true_eq] at hp
    exact switch_follows n P hF e cases m i b c hp.1.1.1.2 hp.1.1.2 hp.1.2 hp.2
      (fun k m i b c h s => followNth P hF cases k m i b c hp.1.1.1.1 h s)
      (fun m i b c h => followCases P hF cases m i b c hp.1.1.1.1 h) hs s
  | .try_ _ _ _ => simp [plain] at hp
  | .empty => rw [compile, Stmt.run]; exact Reach.refl _

theorem followAll (P : Placed prog cmds) (hF : Agrees F I) (ts : Stmts A) (cut : Bool) (m i : Nat)
    (b c : Option Nat) (hp : plains o F ts = true) (hcut : cut = true → tidys F ts = true)
    (hs : Seg prog i (resolve b c (compileAll o F cut ts m).1)) (s : S) :
    Follows I prog cmds i (i + size (compileAll o F cut ts m).1) b c n s (ts.run I n s) := by
  match ts with
  | .nil => rw [compileAll, Stmts.run]; exact Reach.refl _
  | .cons t rest =>
    rw [plains, Bool.and_eq_true] at hp
    rw [compileAll] at hs ⊢
    rw [Stmts.run]
    by_cases hx : cut = true ∧ unreached (exitType F t) = true
    · rw [if_pos hx] at hs ⊢
      have ht := hcut hx.1
      rw [tidys, Bool.and_eq_true] at ht
      have h1 := follow P hF t m i b c hp.1 hs s
      split
      · rename_i s' hr
        have := sound hF t ht.1 n s _ _ hr
        exact (not_pass_of_unreached hx.2 this).elim
      · exact h1
    · rw [if_neg hx] at hs ⊢
      simp only [resolve_append, size_append] at hs ⊢
      have h1 := follow P hF t m i b c hp.1 hs.left s
      have h2 := hs.right
      rw [size_resolve] at h2
      split
      · rename_i s' hr
        rw [hr] at h1
        rw [← Nat.add_assoc]
        exact Follows.after h1 (followAll P hF rest cut _ _ b c hp.2
          (by intro h; have := hcut h; rw [tidys, Bool.and_eq_true] at this; exact this.2) h2 s')
      · rename_i hr
        exact h1.on (fun s' h' => absurd h' (hr s'))

theorem followNth (P : Placed prog cmds) (hF : Agrees F I) (cs : Cases A) (k m i : Nat)
    (b c : Option Nat) (hp : plainCases o F cs = true)
    (hs : Seg prog i (resolve b c (compileNth o F cs k m).1)) (s : S) :
    Follows I prog cmds i (i + size (compileNth o F cs k m).1) b c n s ((nthBody cs k).run I n s) := by
  match cs, k with
  | .nil, k => rw [compileNth, nthBody, Stmts.run]; exact Reach.refl _
  | .cons _ body rest, 0 =>
    rw [plainCases, Bool.and_eq_true] at hp
    rw [compileNth] at hs ⊢
    rw [nthBody]
    exact followAll P hF body false m i b c hp.1 (by simp) hs s
  | .cons _ body rest, k + 1 =>
    rw [plainCases, Bool.and_eq_true] at hp
    rw [compileNth] at hs ⊢
    rw [nthBody]
    exact followNth P hF rest k m i b c hp.2 hs s

theorem followCases (P : Placed prog cmds) (hF : Agrees F I) (cs : Cases A) (m i : Nat)
    (b c : Option Nat) (hp : plainCases o F cs = true)
    (hs : Seg prog i (resolve b c (compileCases o F cs m).code)) :
    (∀ s, Follows I prog cmds i (i + size (compileCases o F cs m).code) b c n s (cs.run I n 0 s)) ∧
    ∀ k, k < cs.size → ∃ l p, caseLabel o F cs m k = some l ∧ labelIdx prog 0 l = some p ∧
      ∀ s, Follows I prog cmds p (i + size (compileCases o F cs m).code) b c n s (cs.run I n k s) := by
  match cs with
  | .nil =>
    refine ⟨fun s => ?_, fun k hk => by simp [Cases.size] at hk⟩
    rw [compileCases, Cases.run]
    exact Reach.refl _
  | .cons ls body rest =>
    rw [plainCases, Bool.and_eq_true] at hp
    rw [compileCases] at hs ⊢
    simp only [List.cons_append, resolve_cons, resolve_append, resolve_label, size_label,
      size_append] at hs ⊢
    have hl := seg_label P.nodup hs.head
    have h1 := hs.tail_label
    have hb := h1.left
    have hr := h1.right
    rw [size_resolve] at hr
    obtain ⟨q1, q2⟩ := followCases P hF rest _ _ b c hp.2 hr
    rw [← Nat.add_assoc]
    have h0 : ∀ s, Follows I prog cmds i (i + size (compileAll o F false body (m + 1)).1 +
        size (compileCases o F rest (compileAll o F false body (m + 1)).2).code) b c n s
        ((Cases.cons ls body rest).run I n 0 s) := by
      intro s
      rw [Cases.run]
      have h2 := followAll P hF body false (m + 1) i b c hp.1 (by simp) hb s
      split
      · rename_i s' hx
        rw [hx] at h2
        exact Follows.after h2 (q1 s')
      · rename_i hx
        exact h2.on (fun s' h' => absurd h' (hx s'))
    refine ⟨h0, ?_⟩
    intro k hk
    cases k with
    | zero => exact ⟨m + 1, i, rfl, hl, h0⟩
    | succ k =>
      rw [Cases.size] at hk
      obtain ⟨l, p, e1, e2, e3⟩ := q2 k (by omega)
      refine ⟨l, p, e1, e2, fun s => ?_⟩
      rw [Cases.run]
      exact e3 s

end

end

end Verif.Stmt
