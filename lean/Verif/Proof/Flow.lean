import Verif.Spec.Flow
import Verif.Proof.Expr6
import Verif.Props.Codegen

/-! Lemmas about constant expressions, runs of statements and what they append, for `Verif.Props.Flow`. -/

namespace Verif.Flow

open Verif.Fold Verif.Expr Verif.Expr.Spec Verif.Flow.Spec

/-- A constant expression can be evaluated; it has the value of the constant and no effects. -/
theorem execute_total {lvl : Level} {p : Expr.Prog} {m : Expr.Method} {call : Nat → List Int → Option Int} (e : Exp) :
    ∀ {k : Const} (ρ : Env), safe lvl p m e = true → execute e = some (some k) → eval p call m e ρ = some (k, ρ) := by
  induction e using Exp.induct with
  | const c =>
    intro k ρ _ h
    rw [execute] at h; rw [eval]
    simp only [Option.some.injEq] at h
    rw [h]
  | var x => intro k ρ _ h; rw [execute] at h; simp at h
  | bin o a b iha ihb =>
    intro k ρ hs h
    obtain ⟨s1, s2, ⟨t1, t2, r, h1, h2, h3, h4, h5⟩, _⟩ := safe_bin hs
    obtain ⟨x, y, ex, ey, hf⟩ := execute_bin h
    obtain ⟨e1, _, v1⟩ := execute_ty a s1 ex
    obtain ⟨e2, _, v2⟩ := execute_ty b s2 ey
    rw [h1] at e1; rw [h2] at e2
    simp only [Option.some.injEq] at e1 e2
    subst e1; subst e2
    have hz := folded_binary o x y h3 h5 hf
    have ea := iha ρ s1 ex
    have eb := ihb ρ s2 ey
    cases o with
    | and =>
      obtain ⟨b1, b2, _⟩ := logic_types (.inl rfl) h5 h3
      obtain ⟨g1, g2⟩ := operate_and b1 b2 (b2 ▸ v2) (b1 ▸ v1) hz
      rw [eval, ea]
      simp only [Option.bind_eq_bind, Option.bind_some]
      split
      · rename_i hc; rw [g1 hc]
      · rename_i hc; rw [eb, g2 hc]
    | or =>
      obtain ⟨b1, b2, _⟩ := logic_types (.inr rfl) h5 h3
      obtain ⟨g1, g2⟩ := operate_or b1 b2 (b2 ▸ v2) (b1 ▸ v1) hz
      rw [eval, ea]
      simp only [Option.bind_eq_bind, Option.bind_some]
      split
      · rename_i hc; rw [eb, g1 hc]
      · rename_i hc; rw [g2 hc]
    | arith q =>
      rw [eval, ea]
      · simp only [Option.bind_eq_bind, Option.bind_some, eb, hz]
      · simp
      · simp
    | cmp q =>
      rw [eval, ea]
      · simp only [Option.bind_eq_bind, Option.bind_some, eb, hz]
      · simp
      · simp
  | un o a ih =>
    intro k ρ hs h
    obtain ⟨s1, t, r, h1, h2, h3⟩ := safe_un hs
    obtain ⟨x, ex, hf⟩ := execute_un h
    obtain ⟨e1, e2, _⟩ := execute_ty a s1 ex
    rw [h1] at e1
    simp only [Option.some.injEq] at e1
    subst e1
    have hz := folded_unary o x e2 h2 hf
    rw [eval, ih ρ s1 ex]
    simp only [Option.bind_eq_bind, Option.bind_some, hz]
  | assign x e _ =>
    intro k ρ _ h; rw [execute] at h; simp [Option.bind_eq_some_iff] at h
  | opAssign o x e _ =>
    intro k ρ _ h; rw [execute] at h; simp [Option.bind_eq_some_iff] at h
  | inc post dec x => intro k ρ _ h; rw [execute] at h; simp at h
  | cond c a b ihc iha ihb =>
    intro k ρ hs h
    obtain ⟨s1, s2, s3, _, h2⟩ := safe_cond hs
    obtain ⟨v, ec, h4⟩ := execute_cond h
    rw [eval, ihc ρ s1 ec]
    simp only [Option.bind_eq_bind, Option.bind_some]
    split at h4
    · rename_i hv; rw [if_pos hv]; exact ihb ρ s3 h4
    · rename_i hv; rw [if_neg hv]; exact iha ρ s2 h4
  | cast t e ih =>
    intro k ρ hs h
    obtain ⟨h1, h2⟩ := safe_cast hs
    obtain ⟨x, ex, hk⟩ := execute_cast h
    subst hk
    rw [eval, ih ρ h1 ex]
    rfl
  | call f args => intro k ρ _ h; rw [execute] at h; simp at h

/-! ## Runs of statements depend only on what their expressions do -/

section
variable {A S : Type} {I I' : Stmt.Interp A S} {n : Nat}

open Verif.Stmt (Interp Out)

/-- Two meanings that differ in actions only. -/
structure Like (I I' : Interp A S) : Prop where
  popBool : I.popBool = I'.popBool
  popInt : I.popInt = I'.popInt
  accepts : I.accepts = I'.accepts

theorem eval_congr (e : List A) (h : ∀ a ∈ e, I.act a = I'.act a) (s : S) : I.eval e s = I'.eval e s := by
  induction e generalizing s with
  | nil => rfl
  | cons a e ih =>
    simp only [Interp.eval]
    rw [h a List.mem_cons_self]
    split
    · exact ih (fun b hb => h b (List.mem_cons_of_mem _ hb)) _
    · rfl

theorem test_congr (L : Like I I') (c : Option (List A)) (h : ∀ a ∈ c.getD [], I.act a = I'.act a) :
    I.test c = I'.test c := by
  funext s
  cases c with
  | none => rfl
  | some e =>
    simp only [Interp.test]
    rw [eval_congr e h, L.popBool]

theorem simple_congr (o : Out) (e : List A) (h : ∀ a ∈ e, I.act a = I'.act a) (s : S) :
    Stmt.Stmt.run.simple I o e s = Stmt.Stmt.run.simple I' o e s := by
  unfold Stmt.Stmt.run.simple
  rw [eval_congr e h]

mutual

theorem run_congr (L : Like I I') (t : Stmt.Stmt A) (h : ∀ a ∈ tasks t, I.act a = I'.act a) (s : S) :
    t.run I n s = t.run I' n s := by
  match t with
  | .expr e => simp only [Stmt.Stmt.run]; exact simple_congr _ _ (by simpa [tasks] using h) s
  | .typeDef => rfl
  | .decl inits => simp only [Stmt.Stmt.run]; exact simple_congr _ _ (by simpa only [tasks] using h) s
  | .brk => rfl
  | .cont => rfl
  | .thr e => simp only [Stmt.Stmt.run]; exact simple_congr _ _ (by simpa only [tasks] using h) s
  | .goto_ l => rfl
  | .ret e => simp only [Stmt.Stmt.run]; exact simple_congr _ _ (by simpa only [tasks] using h) s
  | .block body =>
    simp only [Stmt.Stmt.run]
    exact runAll_congr L body (by simpa only [tasks] using h) s
  | .doWhile c body =>
    simp only [tasks, List.mem_append] at h
    have hb : body.run I n = body.run I' n := by
      funext s'; exact run_congr L body (fun a ha => h a (.inr ha)) s'
    simp only [Stmt.Stmt.run]
    rw [test_congr L c (fun a ha => h a (.inl ha)), hb]
  | .loopUntil c body =>
    simp only [tasks, List.mem_append] at h
    have hb : body.run I n = body.run I' n := by
      funext s'; exact run_congr L body (fun a ha => h a (.inr ha)) s'
    have ht := test_congr L c (fun a ha => h a (.inl ha))
    cases c <;> simp only [Stmt.Stmt.run] <;> rw [ht, hb]
  | .while_ c body =>
    simp only [tasks, List.mem_append] at h
    have hb : body.run I n = body.run I' n := by
      funext s'; exact run_congr L body (fun a ha => h a (.inr ha)) s'
    simp only [Stmt.Stmt.run]
    rw [test_congr L c (fun a ha => h a (.inl ha)), hb]
  | .for_ init c inc body =>
    simp only [tasks, List.mem_append] at h
    have hb : body.run I n = body.run I' n := by
      funext s'; exact run_congr L body (fun a ha => h a (.inr ha)) s'
    have hi : I.evalOpt inc = I'.evalOpt inc := by
      funext s'; exact eval_congr _ (fun a ha => h a (.inl (.inr ha))) s'
    simp only [Stmt.Stmt.run]
    rw [test_congr L c (fun a ha => h a (.inl (.inl (.inr ha)))), hb, hi,
      eval_congr init (fun a ha => h a (.inl (.inl (.inl ha))))]
  | .if_ c yes no =>
    simp only [tasks, List.mem_append] at h
    have hy : yes.run I n = yes.run I' n := by
      funext s'; exact run_congr L yes (fun a ha => h a (.inl (.inr ha))) s'
    have hz : no.run I n = no.run I' n := by
      funext s'; exact run_congr L no (fun a ha => h a (.inr ha)) s'
    simp only [Stmt.Stmt.run]
    rw [test_congr L c (fun a ha => h a (.inl (.inl ha))), hy, hz]
  | .switch e cases =>
    simp only [tasks, List.mem_append] at h
    have hc : ∀ k, cases.run I n k = cases.run I' n k := by
      intro k; funext s'; exact runCases_congr L cases (fun a ha => h a (.inr ha)) k s'
    simp only [Stmt.Stmt.run]
    rw [eval_congr e (fun a ha => h a (.inl ha)), L.popInt]
    simp only [hc]
  | .try_ body catches fin =>
    simp only [tasks, List.mem_append] at h
    have h1 : body.run I n = body.run I' n := by
      funext s'; exact run_congr L body (fun a ha => h a (.inl (.inl ha))) s'
    have h2 : catches.run I n = catches.run I' n := by
      funext s'; exact runCatches_congr L catches (fun a ha => h a (.inl (.inr ha))) s'
    have h3 : fin.run I n = fin.run I' n := by
      funext s'; exact run_congr L fin (fun a ha => h a (.inr ha)) s'
    simp only [Stmt.Stmt.run]
    rw [h1, h2, h3]
  | .empty => rfl

theorem runAll_congr (L : Like I I') (ts : Stmt.Stmts A) (h : ∀ a ∈ tasksAll ts, I.act a = I'.act a) (s : S) :
    ts.run I n s = ts.run I' n s := by
  match ts with
  | .nil => rfl
  | .cons t rest =>
    simp only [tasksAll, List.mem_append] at h
    have hr : rest.run I n = rest.run I' n := by
      funext s'; exact runAll_congr L rest (fun a ha => h a (.inr ha)) s'
    simp only [Stmt.Stmts.run]
    rw [run_congr L t (fun a ha => h a (.inl ha)), hr]

theorem runCases_congr (L : Like I I') (cs : Stmt.Cases A) (h : ∀ a ∈ tasksCases cs, I.act a = I'.act a) (k : Nat)
    (s : S) : cs.run I n k s = cs.run I' n k s := by
  match cs, k with
  | .nil, _ => rfl
  | .cons labels body rest, k + 1 =>
    simp only [tasksCases, List.mem_append] at h
    simp only [Stmt.Cases.run]
    exact runCases_congr L rest (fun a ha => h a (.inr ha)) k s
  | .cons labels body rest, 0 =>
    simp only [tasksCases, List.mem_append] at h
    have hr : rest.run I n 0 = rest.run I' n 0 := by
      funext s'; exact runCases_congr L rest (fun a ha => h a (.inr ha)) 0 s'
    simp only [Stmt.Cases.run]
    rw [runAll_congr L body (fun a ha => h a (.inl ha)), hr]

theorem runCatches_congr (L : Like I I') (cs : Stmt.Catches A) (h : ∀ a ∈ tasksCatches cs, I.act a = I'.act a) (s : S) :
    cs.run I n s = cs.run I' n s := by
  match cs with
  | .nil => rfl
  | .cons type body rest =>
    simp only [tasksCatches, List.mem_append] at h
    simp only [Stmt.Catches.run]
    rw [run_congr L body (fun a ha => h a (.inl ha)), runCatches_congr L rest (fun a ha => h a (.inr ha)), L.accepts]

end

end

/-! ## A meaning that agrees with folding for all expressions -/

/-- As `act`, but an expression that is not safe has the value that folding gives it. -/
def act' (lvl : Level) (p : Expr.Prog) (call : Nat → List Int → Option Int) (m : Expr.Method) (t : Task) (s : St) : St :=
  if safeTask lvl p m t then act p call m t s
  else
    match t with
    | .test e | .choose e =>
      match execute e with
      | some (some c) => { s with values := c :: s.values }
      | _ => act p call m t s
    | _ => act p call m t s

/-- The meaning with it. -/
def interp' (lvl : Level) (p : Expr.Prog) (call : Nat → List Int → Option Int) (m : Expr.Method) : Stmt.Interp Task St :=
  { interp p call m with act := fun t s => .ok (act' lvl p call m t s) }

theorem agrees (lvl : Level) (p : Expr.Prog) (call : Nat → List Int → Option Int) (m : Expr.Method) :
    Stmt.Agrees folder (interp' lvl p call m) := by
  constructor
  · intro e b hb s
    simp only [folder] at hb
    split at hb
    · rename_i e
      split at hb
      · rename_i v hv
        simp only [Option.some.injEq] at hb
        refine ⟨_, rfl, ?_⟩
        simp only [interp', act']
        have key : (if safeTask lvl p m (.test e) = true then act p call m (.test e) s else
            { s with values := ⟨.bool, v⟩ :: s.values }) = { s with values := ⟨.bool, v⟩ :: s.values } := by
          split
          · rename_i hs
            simp only [safeTask, Bool.and_eq_true] at hs
            simp only [act, execute_total e s.env hs.1 hv, evaluated]
          · rfl
        rw [hv]
        simp only
        rw [key]
        simp only [interp, popBool, hb]
      · simp at hb
    · simp at hb
  · intro e b hb s
    simp only [folder] at hb
    split at hb
    · rename_i e
      split at hb
      · rename_i v hv
        simp only [Option.some.injEq] at hb
        refine ⟨_, rfl, ?_⟩
        simp only [interp', act']
        have key : (if safeTask lvl p m (.choose e) = true then act p call m (.choose e) s else
            { s with values := ⟨.int32, v⟩ :: s.values }) = { s with values := ⟨.int32, v⟩ :: s.values } := by
          split
          · rename_i hs
            simp only [safeTask, Bool.and_eq_true] at hs
            simp only [act, execute_total e s.env hs.1 hv, evaluated]
          · rfl
        rw [hv]
        simp only
        rw [key]
        simp only [interp, popInt, hb]
      · simp at hb
    · simp at hb

/-- Supported methods run the same with both. -/
theorem run_interp' {lvl : Level} {p : Expr.Prog} {call : Nat → List Int → Option Int} {m : Expr.Method}
    (ts : Stmt.Stmts Task) (h : ∀ t ∈ tasksAll ts, safeTask lvl p m t = true) (n : Nat) (s : St) :
    ts.run (interp p call m) n s = ts.run (interp' lvl p call m) n s := by
  apply runAll_congr (I := interp p call m) (I' := interp' lvl p call m) ⟨rfl, rfl, rfl⟩
  intro t ht
  funext s
  simp only [interp, interp', act', h t ht, if_true]

/-! ## What statements append are their expressions -/

section
variable {A : Type}

open Verif.Stmt (X Opts Folder acts resolve condJmp)

theorem mem_acts {a : A} {e : List A} : X.act a ∈ acts e ↔ a ∈ e := by simp [acts]

theorem mem_resolve {a : A} {b c : Option Nat} {xs : List (X A)} : X.act a ∈ resolve b c xs ↔ X.act a ∈ xs := by
  simp only [resolve, List.mem_map]
  constructor
  · rintro ⟨x, hx, h⟩
    cases x with
    | point q => cases q <;> cases b <;> cases c <;> simp [X.resolve] at h
    | act a' => simp only [X.resolve] at h; exact h ▸ hx
    | _ => simp [X.resolve] at h
  · intro h; exact ⟨_, h, rfl⟩

theorem mem_condJmp {a : A} {c : Option (List A)} {m : Stmt.JmpModel} {l : Nat} (h : X.act a ∈ condJmp c m l) :
    a ∈ c.getD [] := by
  cases c with
  | none => simp [condJmp] at h
  | some e => simpa [condJmp, mem_acts] using h

theorem mem_headTest {a : A} {o : Opts} {F : Folder A} {c : Option (List A)} {l : Nat}
    (h : X.act a ∈ Stmt.headTest o F c l) : a ∈ c.getD [] := by
  unfold Stmt.headTest at h
  split at h
  · simp at h
  · exact mem_condJmp h

theorem mem_doTail {a : A} {o : Opts} {F : Folder A} {c : Option (List A)} {l : Nat}
    (h : X.act a ∈ Stmt.doTail o F c l) : a ∈ c.getD [] := by
  unfold Stmt.doTail at h
  split at h
  · simp at h
  · split at h
    · simp at h
    · exact mem_condJmp h

theorem mem_untilTail {a : A} {o : Opts} {F : Folder A} {c : Option (List A)} {l : Nat}
    (h : X.act a ∈ Stmt.untilTail o F c l) : a ∈ c.getD [] := by
  unfold Stmt.untilTail at h
  split at h
  · simp at h
  · split at h
    · simp at h
    · exact mem_condJmp h

variable {o : Opts} {F : Folder A}

mutual

theorem mem_compile (t : Stmt.Stmt A) (n : Nat) (a : A) (h : X.act a ∈ (Stmt.compile o F t n).1) : a ∈ tasks t := by
  match t with
  | .expr e => simpa only [Stmt.compile, tasks, mem_acts] using h
  | .typeDef => simp [Stmt.compile] at h
  | .decl inits => simpa only [Stmt.compile, tasks, mem_acts] using h
  | .brk => simp [Stmt.compile] at h
  | .cont => simp [Stmt.compile] at h
  | .thr e => simpa [Stmt.compile, tasks, mem_acts] using h
  | .goto_ l => simp [Stmt.compile] at h
  | .ret e => simpa [Stmt.compile, tasks, mem_acts] using h
  | .block body =>
    simp only [Stmt.compile] at h
    exact mem_compileAll body _ n a h
  | .doWhile c body =>
    simp only [Stmt.compile, List.mem_append, List.mem_cons, mem_resolve, reduceCtorEq, false_or, or_false,
      List.not_mem_nil, List.cons_append] at h
    simp only [tasks, List.mem_append]
    rcases h with h | h
    · exact .inr (mem_compile body _ a h)
    · exact .inl (mem_doTail h)
  | .loopUntil c body =>
    simp only [Stmt.compile, List.mem_append, List.mem_cons, mem_resolve, reduceCtorEq, false_or, or_false,
      List.not_mem_nil, List.cons_append] at h
    simp only [tasks, List.mem_append]
    rcases h with h | h
    · exact .inr (mem_compile body _ a h)
    · exact .inl (mem_untilTail h)
  | .while_ c body =>
    rw [Stmt.compile] at h
    simp only [tasks, List.mem_append]
    split at h
    · simp at h
    · simp only [List.mem_append, List.mem_cons, mem_resolve, reduceCtorEq, false_or, or_false,
        List.not_mem_nil, List.cons_append] at h
      rcases h with h | h
      · exact .inl (mem_headTest h)
      · exact .inr (mem_compile body _ a h)
  | .for_ init c inc body =>
    rw [Stmt.compile] at h
    simp only [tasks, List.mem_append]
    split at h
    · exact .inl (.inl (.inl (mem_acts.1 h)))
    · simp only [List.mem_append, List.mem_cons, mem_resolve, reduceCtorEq, false_or, or_false,
        List.not_mem_nil, List.cons_append, List.append_assoc] at h
      rcases h with h | h | h | h | h
      · exact .inl (.inl (.inl (mem_acts.1 h)))
      · split at h <;> simp at h
      · exact .inl (.inr (mem_acts.1 h))
      · exact .inl (.inl (.inr (mem_headTest h)))
      · exact .inr (mem_compile body _ a h)
  | .if_ c yes no =>
    rw [Stmt.compile] at h
    simp only [tasks, List.mem_append]
    split at h
    · exact .inl (.inr (mem_compile yes _ a h))
    · split at h
      · exact .inr (mem_compile no _ a h)
      · simp only [List.mem_append, List.mem_cons, reduceCtorEq, false_or, or_false,
          List.not_mem_nil, List.cons_append, List.append_assoc] at h
        rcases h with h | h | h
        · exact .inl (.inl (mem_condJmp h))
        · exact .inl (.inr (mem_compile yes _ a h))
        · exact .inr (mem_compile no _ a h)
  | .switch e cases =>
    rw [Stmt.compile.eq_def] at h
    dsimp only at h
    simp only [tasks, List.mem_append]
    split at h
    · revert h
      refine (?_ : ∀ p [Decidable p], X.act a ∈ (if p then _ else _ : List (X A) × Nat).1 → _) _
      intro p _ h
      split at h
      · simp only [List.mem_append, List.mem_cons, reduceCtorEq, or_false, List.not_mem_nil] at h
        exact .inl (mem_acts.1 h)
      · simp only [List.mem_append, List.mem_cons, reduceCtorEq, or_false, false_or, List.not_mem_nil, mem_resolve,
          List.cons_append, List.append_assoc] at h
        rcases h with h | h
        · exact .inl (mem_acts.1 h)
        · exact .inr (mem_compileNth cases _ _ a h)
    · split at h
      · split at h
        · simp at h
        · simp only [List.mem_append, List.mem_cons, reduceCtorEq, or_false, List.not_mem_nil, mem_resolve] at h
          split at h
          · simp only [List.mem_append, List.mem_cons, reduceCtorEq, false_or] at h
            rcases h with h | h
            · exact .inl (mem_acts.1 h)
            · exact .inr (mem_compileNth cases _ _ a h)
          · split at h
            · exact .inr (mem_compileNth cases _ _ a h)
            · rename_i i k _ _ _ _
              cases hd : Stmt.lastDefault cases 0 none with
              | none => rw [hd] at h; simp at h
              | some j => rw [hd] at h; exact .inr (mem_compileNth cases _ _ a h)
            · simp only [List.mem_append, List.mem_cons, reduceCtorEq, false_or, List.cons_append, List.append_assoc] at h
              rcases h with h | h | h
              · exact .inl (mem_acts.1 h)
              · exact .inr (mem_compileNth cases _ _ a h)
              · cases hd : Stmt.lastDefault cases 0 none with
                | none => rw [hd] at h; simp at h
                | some j => rw [hd] at h; exact .inr (mem_compileNth cases _ _ a h)
      · split at h
        · split at h
          · simp only [List.mem_append, List.mem_cons, reduceCtorEq, or_false, false_or, List.not_mem_nil, mem_resolve,
              List.cons_append, List.append_assoc] at h
            rcases h with h | h
            · exact .inl (mem_acts.1 h)
            · exact .inr (mem_compileCases cases _ a h)
          · simp only [List.mem_append, List.mem_cons, reduceCtorEq, or_false, false_or, List.not_mem_nil, mem_resolve,
              List.cons_append, List.append_assoc] at h
            rcases h with h | h
            · exact .inl (mem_acts.1 h)
            · exact .inr (mem_compileCases cases _ a h)
        · simp at h
  | .try_ body catches fin => simp [Stmt.compile] at h
  | .empty => simp [Stmt.compile] at h

theorem mem_compileAll (ts : Stmt.Stmts A) (cut : Bool) (n : Nat) (a : A)
    (h : X.act a ∈ (Stmt.compileAll o F cut ts n).1) : a ∈ tasksAll ts := by
  match ts with
  | .nil => simp [Stmt.compileAll] at h
  | .cons t rest =>
    rw [Stmt.compileAll] at h
    simp only [tasksAll, List.mem_append]
    split at h
    · exact .inl (mem_compile t _ a h)
    · simp only [List.mem_append] at h
      rcases h with h | h
      · exact .inl (mem_compile t _ a h)
      · exact .inr (mem_compileAll rest _ _ a h)

theorem mem_compileNth (cs : Stmt.Cases A) (k n : Nat) (a : A)
    (h : X.act a ∈ (Stmt.compileNth o F cs k n).1) : a ∈ tasksCases cs := by
  match cs, k with
  | .nil, _ => simp [Stmt.compileNth] at h
  | .cons labels body rest, 0 =>
    simp only [Stmt.compileNth] at h
    simp only [tasksCases, List.mem_append]
    exact .inl (mem_compileAll body _ _ a h)
  | .cons labels body rest, k + 1 =>
    simp only [Stmt.compileNth] at h
    simp only [tasksCases, List.mem_append]
    exact .inr (mem_compileNth rest k n a h)

theorem mem_compileCases (cs : Stmt.Cases A) (n : Nat) (a : A)
    (h : X.act a ∈ (Stmt.compileCases o F cs n).code) : a ∈ tasksCases cs := by
  match cs with
  | .nil => simp [Stmt.compileCases] at h
  | .cons labels body rest =>
    simp only [Stmt.compileCases, List.mem_append, List.mem_cons, List.cons_append, reduceCtorEq, false_or] at h
    simp only [tasksCases, List.mem_append]
    rcases h with h | h
    · exact .inl (mem_compileAll body _ _ a h)
    · exact .inr (mem_compileCases rest _ a h)

end

end

end Verif.Flow
