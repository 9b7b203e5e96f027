import Verif.Proof.Expr5

/-! Running compiled bodies and calls, for `Verif.Props.Expr`. -/

namespace Verif.Expr

open Verif.Fold Spec

/-- An expression as a statement. -/
theorem run_stmt {lvl : Level} {p : Prog} {img : Image} {junk : Junk} {m : Method} {call : Nat → List Int → Option Int}
    (hm : Supported lvl p m) (hret : ∀ (f : Nat) (m' : Method), p[f]? = some m' → plain m'.ret = true)
    (hcall : ∀ (f : Nat) (m' : Method) vs v, p[f]? = some m' → call f vs = some v → vs.length = m'.params.length →
      CallOK img junk f m' vs v) {marked : List Nat} {e : Exp} {code : List Ins} {ρ ρ' : Env} {c : Const} {s : State}
    (hc : compileStmtExp lvl p m marked e = some code) (hs : safe lvl p m e = true)
    (hv : eval p call m e ρ = some (c, ρ')) (hat : CodeAt img.code s.pc (code.map (create m)))
    (hf : Frame m s.lp s.mem ρ) (hle : s.lp + m.units ≤ s.top) :
    ∃ s', Steps img junk s s' ∧ Out m s s' code.length 0 ρ' := by
  unfold compileStmtExp at hc
  split at hc
  · rename_i x e
    obtain ⟨s1, t, h1, h2, h3⟩ := safe_assign hs
    rcases foldOr_some hc with ⟨_, k, hk, _⟩ | ⟨hc, _⟩
    · exact absurd hk compile_assign_execute
    · simp only [h1, Option.bind_eq_bind, Option.bind_some, Option.bind_eq_some_iff, Option.some.injEq] at hc
      obtain ⟨ce, hce, rfl⟩ := hc
      rw [eval] at hv
      simp only [h1, Option.bind_eq_bind, Option.bind_some, Option.bind_eq_some_iff, Option.some.injEq,
        Prod.mk.injEq] at hv
      obtain ⟨⟨y, ρ1⟩, ey, rfl, rfl⟩ := hv
      simp only [List.map_append, List.map_cons, List.map_nil] at hat
      obtain ⟨sa, ra, oa, va⟩ := run_expr (junk := junk) hm hret hcall e (some t) marked ce ρ ρ1 y s hce s1
        (by intro t' ht'; simp only [Option.some.injEq] at ht'; subst ht'; exact h3) ey hat.left hf hle
      obtain ⟨s', g1, g2, g3⟩ := finish_store (junk := junk) hm oa (pick := false)
        (by rw [oa.pc]; simpa using hat.right.head) h1 h2 va hle
      exact ⟨s', ra.trans g1, by simpa using g2⟩
  · rename_i o x e
    obtain ⟨s1, ⟨t, te, h1, h2, _, _⟩, _⟩ := safe_opAssign hs
    rcases foldOr_some hc with ⟨_, k, hk, _⟩ | ⟨hc, _⟩
    · exact absurd hk compile_opAssign_execute
    · simp only [h1] at hc
      simp only [Option.bind_eq_bind, Option.bind_some] at hc
      rw [← Option.bind_assoc, Option.bind_eq_some_iff] at hc
      obtain ⟨ce, hce, hc⟩ := hc
      simp only [Option.some.injEq] at hc
      subst hc
      rw [eval] at hv
      simp only [h1, Option.bind_eq_bind, Option.bind_some, Option.bind_eq_some_iff, Option.some.injEq,
        Prod.mk.injEq] at hv
      obtain ⟨v, hv, ⟨y, ρ1⟩, ey, z, hz, rfl, rfl⟩ := hv
      simp only [List.map_append, List.map_cons, List.map_nil] at hat
      obtain ⟨sa, ra, oa, va⟩ := run_opAssign hm (run_expr (junk := junk) hm hret hcall e) hs h1 hce hv ey hz hat.left hf hle
      obtain ⟨s', g1, g2, g3⟩ := finish_store (junk := junk) hm oa (pick := false)
        (by rw [oa.pc]; simpa using hat.right.head) h1 (plain_of_int h2) va hle
      exact ⟨s', ra.trans g1, by simpa using g2⟩
  · rename_i post dec x
    rw [safe] at hs
    obtain ⟨t, h1, h2⟩ := intVar_some hs
    rw [eval] at hv
    simp only [h1, Option.bind_eq_bind, Option.bind_some, Option.bind_eq_some_iff, Option.some.injEq,
      Prod.mk.injEq] at hc hv
    obtain ⟨ins, hi, rfl⟩ := hc
    obtain ⟨v, hv, z, hz, rfl, rfl⟩ := hv
    simp only [List.map_cons, List.map_nil] at hat
    obtain ⟨sa, ra, oa, va⟩ := run_inc (junk := junk) hm hi h1 h2 hv hz hat hf hle
    obtain ⟨s', g1, g2, g3⟩ := finish_store (junk := junk) hm oa (pick := false)
      (by rw [oa.pc]; exact hat.tail.tail.tail.head) h1 (plain_of_int h2) va hle
    exact ⟨s', ra.trans g1, g2⟩
  · rename_i f args
    cases hf' : p[f]? with
    | none => rw [hf'] at hc; simp at hc
    | some m' =>
      rw [hf'] at hc
      simp only [Option.bind_eq_bind, Option.bind_eq_some_iff, Option.some.injEq] at hc
      obtain ⟨ca, hca, rfl⟩ := hc
      have hce : compile lvl p m marked none (.call f args) = some (ca ++ [.call f]) := by
        rw [compile, hf']; simp [hca]
      have e : (ca ++ [Ins.call f, Ins.popEmpty]).map (create m) =
          (ca ++ [Ins.call f]).map (create m) ++ [Cmd.popEmpty] := by simp [create]
      rw [e] at hat
      obtain ⟨sa, ra, oa, va⟩ := run_expr (junk := junk) hm hret hcall (.call f args) none marked _ ρ ρ' c s hce hs
        (by simp) hv hat.left hf hle
      have hcmd : img.code[sa.pc]? = some .popEmpty := by
        have := hat.right.head
        rw [oa.pc]; simpa using this
      have htop := oa.top
      refine ⟨{ sa with pc := sa.pc + 1, top := sa.top - 1 }, ra.trans (.one hcmd rfl), ⟨?_, oa.lp, ?_, oa.keeps, oa.frame⟩⟩
      · simp only; rw [oa.pc]; simp only [List.length_append, List.length_cons, List.length_nil]; omega
      · simp only; omega
  · simp at hc

/-- A body runs to a `ret` with the result on top of the stack. -/
theorem run_body {lvl : Level} {p : Prog} {img : Image} {junk : Junk} {m : Method} {call : Nat → List Int → Option Int}
    (hm : Supported lvl p m) (hret : ∀ (f : Nat) (m' : Method), p[f]? = some m' → plain m'.ret = true)
    (hcall : ∀ (f : Nat) (m' : Method) vs v, p[f]? = some m' → call f vs = some v → vs.length = m'.params.length →
      CallOK img junk f m' vs v) : ∀ (body : List Stmt) (marked : List Nat) (code : List Ins) (ρ : Env) (v : Int) (s : State),
    compileBody lvl p m marked body = some code → (∀ st ∈ body, safeStmt lvl p m st = true) →
    runBody p call m body ρ = some v → CodeAt img.code s.pc (code.map (create m)) → Frame m s.lp s.mem ρ →
    s.lp + m.units = s.top →
    ∃ s', Steps img junk s s' ∧ img.code[s'.pc]? = some (.ret m.units m.params.length) ∧ s'.lp = s.lp ∧
      s'.top = s.top + 1 ∧ Keeps m s.lp s.top s.mem s'.mem ∧ readAt m.ret s'.mem (8 * s.top) = v := by
  intro body
  induction body with
  | nil => intro marked code ρ v s _ _ hv; simp [runBody] at hv
  | cons st rest ih =>
    intro marked code ρ v s hc hs hv hat hf hle
    have hrest : ∀ st ∈ rest, safeStmt lvl p m st = true := fun st h => hs st (List.mem_cons_of_mem _ h)
    have hst := hs st List.mem_cons_self
    -- the rest of the body
    have next : ∀ (marked' : List Nat) (cs : List Ins) (sa : State) (ρ1 : Env) (len : Nat),
        compileBody lvl p m marked' rest = some cs → runBody p call m rest ρ1 = some v → Steps img junk s sa →
        Out m s sa len 0 ρ1 → CodeAt img.code (s.pc + len) (cs.map (create m)) →
        ∃ s', Steps img junk s s' ∧ img.code[s'.pc]? = some (.ret m.units m.params.length) ∧ s'.lp = s.lp ∧
          s'.top = s.top + 1 ∧ Keeps m s.lp s.top s.mem s'.mem ∧ readAt m.ret s'.mem (8 * s.top) = v := by
      intro marked' cs sa ρ1 len hcs hv1 ra oa hat1
      have hlp := oa.lp
      have htop := oa.top
      obtain ⟨s', g1, g2, g3, g4, g5, g6⟩ := ih marked' cs ρ1 v sa hcs hrest hv1 (by rw [oa.pc]; exact hat1)
        (by rw [hlp]; exact oa.frame) (by omega)
      rw [htop, Nat.add_zero] at g4 g5 g6
      rw [hlp] at g3 g5
      exact ⟨s', ra.trans g1, g2, g3, g4, oa.keeps.trans g5, g6⟩
    cases st with
    | init i e =>
      simp only [safeStmt, Bool.and_eq_true] at hst
      obtain ⟨s1, s2⟩ := hst
      rw [compileBody] at hc
      rw [runBody] at hv
      cases ht : m.tyOf (.loc i) with
      | none => rw [ht] at s2; simp at s2
      | some t =>
        rw [ht] at s2
        simp only at s2
        simp only [ht, Option.bind_eq_bind, Option.bind_some, Option.bind_eq_some_iff] at hc hv
        obtain ⟨ce, hce, hc⟩ := hc
        obtain ⟨⟨x, ρ1⟩, ex, hv⟩ := hv
        have hcs : ∃ marked' cs, compileBody lvl p m marked' rest = some cs ∧ code = ce ++ [.popLocal i t] ++ cs := by
          split at hc
          · simp only [Option.bind_eq_some_iff, Option.some.injEq] at hc
            obtain ⟨_, _, cs, hcs, rfl⟩ := hc
            exact ⟨_, cs, hcs, rfl⟩
          · simp only [Option.bind_eq_some_iff, Option.some.injEq] at hc
            obtain ⟨cs, hcs, rfl⟩ := hc
            exact ⟨_, cs, hcs, rfl⟩
        obtain ⟨marked', cs, hcs, rfl⟩ := hcs
        simp only [List.map_append, List.append_assoc, List.map_cons, List.map_nil] at hat
        obtain ⟨sa, ra, oa, va⟩ := run_expr (junk := junk) hm hret hcall e (some t) marked ce ρ ρ1 x s hce s1
          (by intro t' ht'; simp only [Option.some.injEq] at ht'; subst ht'; exact s2) ex hat.left hf (by omega)
        have hpt : plain t = true := by
          obtain ⟨_, _, h, _⟩ := fits_some s2
          exact (sameKind_plain h).1
        obtain ⟨s', g1, g2, g3⟩ := finish_store (junk := junk) hm oa (pick := false) (x := .loc i)
          (by rw [oa.pc]; simpa [storeIns] using hat.right.left.head) ht hpt va (by omega)
        refine next marked' cs s' _ _ hcs hv (ra.trans g1) g2 ?_
        have := hat.right.right
        simpa [Nat.add_assoc] using this
    | exp e =>
      simp only [safeStmt] at hst
      rw [compileBody] at hc
      rw [runBody] at hv
      simp only [Option.bind_eq_bind, Option.bind_eq_some_iff, Option.some.injEq] at hc hv
      obtain ⟨ce, hce, cs, hcs, rfl⟩ := hc
      obtain ⟨⟨x, ρ1⟩, ex, hv⟩ := hv
      simp only [List.map_append] at hat
      obtain ⟨sa, ra, oa⟩ := run_stmt (junk := junk) hm hret hcall hce hst ex hat.left hf (by omega)
      exact next marked cs sa ρ1 _ hcs hv ra oa (by simpa using hat.right)
    | ret e =>
      simp only [safeStmt, Bool.and_eq_true] at hst
      obtain ⟨s1, s2⟩ := hst
      rw [compileBody] at hc
      rw [runBody] at hv
      simp only [Option.bind_eq_bind, Option.bind_eq_some_iff, Option.some.injEq] at hc hv
      obtain ⟨ce, hce, cs, hcs, rfl⟩ := hc
      obtain ⟨⟨x, ρ1⟩, ex, rfl⟩ := hv
      simp only [List.map_append, List.append_assoc, List.map_cons, List.map_nil, create] at hat
      obtain ⟨sa, ra, oa, va⟩ := run_expr (junk := junk) hm hret hcall e (some m.ret) marked ce ρ ρ1 x s hce s1
        (by intro t' ht'; simp only [Option.some.injEq] at ht'; subst ht'; exact s2) ex hat.left hf (by omega)
      exact ⟨sa, ra, by rw [oa.pc]; simpa using hat.right.left.head, oa.lp, oa.top, oa.keeps, va⟩

/-! ## The image -/

theorem compileAll_get {lvl : Level} {p : Prog} : ∀ (ms : List Method) (cs : List (List Cmd)), compileAll lvl p ms = some cs →
    ∀ (f : Nat) (m : Method), ms[f]? = some m → ∃ c, compileBody lvl p m [] m.body = some c ∧ cs[f]? = some (c.map (create m))
  | [], cs, h, f, m, hf => by simp at hf
  | m0 :: ms, cs, h, f, m, hf => by
    rw [compileAll] at h
    simp only [Option.bind_eq_bind, Option.bind_eq_some_iff, Option.some.injEq] at h
    obtain ⟨c, hc, cs', hcs, rfl⟩ := h
    cases f with
    | zero =>
      simp only [List.getElem?_cons_zero, Option.some.injEq] at hf
      subst hf
      exact ⟨c, hc, rfl⟩
    | succ f =>
      simp only [List.getElem?_cons_succ] at hf ⊢
      exact compileAll_get ms cs' hcs f m hf

theorem entries_get : ∀ (ms : List Method) (cs : List (List Cmd)) (start f : Nat) (m : Method) (c : List Cmd),
    ms[f]? = some m → cs[f]? = some c →
    ∃ pc, (entries start ms cs)[f]? = some (start + pc, m.units) ∧ CodeAt cs.flatten pc c
  | [], cs, start, f, m, c, hm, hc => by simp at hm
  | m0 :: ms, [], start, f, m, c, hm, hc => by simp at hc
  | m0 :: ms, c0 :: cs, start, f, m, c, hm, hc => by
    rw [entries]
    cases f with
    | zero =>
      simp only [List.getElem?_cons_zero, Option.some.injEq] at hm hc
      subst hm; subst hc
      refine ⟨0, rfl, ?_⟩
      intro i k hi
      have := (List.getElem?_eq_some_iff.1 hi).1
      rw [Nat.zero_add, List.flatten_cons, List.getElem?_append_left this]
      exact hi
    | succ f =>
      simp only [List.getElem?_cons_succ] at hm hc ⊢
      obtain ⟨pc, h1, h2⟩ := entries_get ms cs (start + c0.length) f m c hm hc
      refine ⟨c0.length + pc, by rw [h1, Nat.add_assoc], ?_⟩
      intro i k hi
      rw [List.flatten_cons, List.getElem?_append_right (by omega)]
      have := h2 i k hi
      rw [← this]
      congr 1
      omega

theorem build_get {lvl : Level} {p : Prog} {img : Image} (hb : build lvl p = some img) {f : Nat} {m : Method}
    (hf : p[f]? = some m) : ∃ pc c, img.entry[f]? = some (pc, m.units) ∧ compileBody lvl p m [] m.body = some c ∧
      CodeAt img.code pc (c.map (create m)) := by
  unfold build at hb
  simp only [Option.bind_eq_bind, Option.bind_eq_some_iff, Option.some.injEq] at hb
  obtain ⟨cs, hcs, rfl⟩ := hb
  obtain ⟨c, h1, h2⟩ := compileAll_get p cs hcs f m hf
  obtain ⟨pc, h3, h4⟩ := entries_get p cs 0 f m _ hf h2
  exact ⟨pc, c, by simpa using h3, h1, h4⟩

theorem writeStub_out {mem : Mem} {a lp current x : Nat} (h : ¬ (a ≤ x ∧ x < a + 24)) : writeStub mem a lp current x = mem x := by
  unfold writeStub
  rw [if_neg (by omega), if_neg h]

/-- Every call of a program. -/
theorem run_call {lvl : Level} {p : Prog} {img : Image} (junk : Junk) (hb : build lvl p = some img)
    (hs : ∀ m ∈ p, Supported lvl p m) : ∀ (depth f : Nat) (m : Method) (vs : List Int) (v : Int),
    p[f]? = some m → run p depth f vs = some v → CallOK img junk f m vs v := by
  have hret : ∀ (f : Nat) (m' : Method), p[f]? = some m' → plain m'.ret = true :=
    fun f m' h => (hs m' (List.mem_of_getElem? h)).ret
  intro depth
  induction depth with
  | zero => intro f m vs v _ hv; simp [run] at hv
  | succ depth ih =>
    intro f m vs v hf hv s hcmd hn harg
    have hm := hs m (List.mem_of_getElem? hf)
    rw [run] at hv
    simp only [hf, Option.bind_eq_bind, Option.bind_some] at hv
    split at hv
    · rename_i hlen
      obtain ⟨start, c, he, hc, hat⟩ := build_get hb hf
      -- entering the method
      have r0 : Steps img junk s ⟨start, s.top + 3, s.top + 3 + m.units, writeStub s.mem (8 * s.top) s.lp (s.pc + 1)⟩ := by
        refine .one hcmd ?_
        simp only [exec, he, Option.bind_eq_bind, Option.bind_some, stubSize]
      have hf0 : Frame m (s.top + 3) (writeStub s.mem (8 * s.top) s.lp (s.pc + 1)) ⟨fun _ => none, fun i => vs[i]?⟩ := by
        refine ⟨by omega, ?_, ?_⟩
        · intro i t off w _ h; simp at h
        · intro i t w h1 h2
          have hi := (List.getElem?_eq_some_iff.1 h1).1
          have e : s.top + 3 - (argOffset m.params i + stubSize) = s.top - m.params.length + i := by
            simp only [argOffset, stubSize]; omega
          rw [e, ← harg i t w h1 h2]
          apply readAt_congr
          intro x hx1 hx2
          have := bytes_le t
          exact writeStub_out (by omega)
      obtain ⟨s1, g1, g2, g3, g4, g5, g6⟩ := run_body (junk := junk) hm hret (fun f m' vs v h1 h2 _ => ih f m' vs v h1 h2)
        m.body [] c _ v ⟨start, s.top + 3, s.top + 3 + m.units, writeStub s.mem (8 * s.top) s.lp (s.pc + 1)⟩ hc hm.body hv hat hf0 rfl
      simp only at g3 g4 g5 g6
      -- the stub
      have hstub : s1.mem (8 * s.top) = .stub s.lp (s.pc + 1) := by
        rw [g5 (8 * s.top) (.inr (.inl ⟨by omega, by omega⟩))]
        simp [writeStub]
      refine ⟨⟨s.pc + 1, s.lp, s.top - m.params.length + 1,
        copyUnit s1.mem (s.top + 3 + m.units) (s.top - m.params.length)⟩, (r0.trans g1).trans (.one g2 ?_), rfl, rfl, rfl, ?_, ?_⟩
      · have e1 : 8 * (s1.lp - stubSize) = 8 * s.top := by rw [g3]; simp [stubSize]
        have e2 : s1.top - (m.params.length + stubSize + m.units) = s.top - m.params.length + 1 := by
          rw [g4]; simp only [stubSize]; omega
        have e3 : s.top - m.params.length + 1 + (m.params.length + stubSize + m.units) - 1 = s.top + 3 + m.units := by
          simp only [stubSize]; omega
        simp only [exec, e1, hstub, e2, e3, Nat.add_sub_cancel]
      · rw [← g6]
        simp only [readAt]
        congr 2
        have : ∀ n k, k + n ≤ 8 → load (copyUnit s1.mem (s.top + 3 + m.units) (s.top - m.params.length))
            (8 * (s.top - m.params.length) + k) n = load s1.mem (8 * (s.top + 3 + m.units) + k) n := by
          intro n
          induction n with
          | zero => intro k _; rfl
          | succ n ihn =>
            intro k hk
            simp only [load]
            rw [Nat.add_assoc _ k 1, Nat.add_assoc _ k 1, ihn (k + 1) (by omega)]
            congr 2
            unfold copyUnit
            rw [if_pos (by omega)]
            congr 1
            omega
        have := this (bytes m.ret) 0 (by have := bytes_le m.ret; omega)
        simpa using this
      · intro x hx
        simp only [copyUnit]
        rw [if_neg (by omega), g5 x (.inl (by omega)), writeStub_out (by omega)]
    · simp at hv

end Verif.Expr
