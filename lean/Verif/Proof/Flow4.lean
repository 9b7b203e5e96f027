import Verif.Proof.Flow3
import Verif.Props.Codegen

/-! Calls of compiled methods, for `Verif.Props.Flow`. -/

namespace Verif.Flow

open Verif.Fold Verif.Expr Verif.Expr.Spec Verif.Flow.Spec

open Verif.Stmt (size labels labelIdx Seg X Placed)

section
variable {lvl : Level} {p : Expr.Prog} {m : Expr.Method} {call : Nat → List Int → Option Int}

/-- What has no meaning does not get one. -/
theorem act_ok (t : Task) (st : St) (h : (act p call m t st).ok = true) : st.ok = true := by
  have key : ∀ (r : Option (Const × Env)) (k : Const → Env → St), (evaluated r st k).ok = true →
      (∀ c ρ, (k c ρ).ok = st.ok) → st.ok = true := by
    intro r k h hk
    cases r with
    | none => simp [evaluated] at h
    | some x => simp only [evaluated, hk] at h; exact h
  cases t with
  | init i e =>
    simp only [act] at h
    split at h
    · exact key _ _ h (fun _ _ => rfl)
    · simp at h
  | exp e => exact key _ _ h (fun _ _ => rfl)
  | test e => exact key _ _ h (fun _ _ => rfl)
  | ret e => exact key _ _ h (fun _ _ => rfl)
  | choose e => exact key _ _ h (fun _ _ => rfl)

theorem act'_ok (t : Task) (st : St) (h : (act' lvl p call m t st).ok = true) : st.ok = true := by
  unfold act' at h
  split at h
  · exact act_ok t st h
  · split at h
    · split at h
      · exact h
      · exact act_ok _ st h
    · split at h
      · exact h
      · exact act_ok _ st h
    · exact act_ok _ st h

theorem popBool_ok (st : St) (h : (popBool st).2.ok = true) : st.ok = true := by
  unfold popBool at h
  split at h
  · exact h
  · simp at h

theorem popInt_ok (st : St) (h : (popInt st).2.ok = true) : st.ok = true := by
  unfold popInt at h
  split at h
  · exact h
  · simp at h

theorem jumpTo_state {S : Type} {pc i : Nat} {step : Int} {s s' : S} (h : Stmt.jumpTo pc step s = .at_ i s') : s' = s := by
  simp only [Stmt.jumpTo] at h
  split at h
  · cases h
  · cases h; rfl

theorem next_ok {cmds : List (Stmt.Cmd Task)} {i i' : Nat} {st st' : St}
    (h : Stmt.next (interp' lvl p call m).machine cmds (.at_ i st) = .at_ i' st') (hok : st'.ok = true) : st.ok = true := by
  rw [Stmt.next] at h
  cases hc : cmds[i]? with
  | none => rw [hc] at h; cases h
  | some c =>
    rw [hc] at h
    simp only at h
    cases c with
    | act t =>
      simp only [Stmt.exec, Stmt.Interp.machine, interp'] at h
      cases h
      exact act'_ok t st hok
    | eqInt k =>
      simp only [Stmt.exec, Stmt.Interp.machine, interp', interp] at h
      cases h
      exact popInt_ok st hok
    | drop =>
      simp only [Stmt.exec, Stmt.Interp.machine, interp', interp] at h
      cases h
      exact popInt_ok st hok
    | jmp k step =>
      cases k with
      | always => exact jumpTo_state h ▸ hok
      | ifTrue =>
        simp only [Stmt.exec] at h
        split at h
        · exact popBool_ok st (jumpTo_state h ▸ hok)
        · cases h; exact popBool_ok st hok
      | ifFalse =>
        simp only [Stmt.exec] at h
        split at h
        · cases h; exact popBool_ok st hok
        · exact popBool_ok st (jumpTo_state h ▸ hok)
    | switch rows d => exact popInt_ok st (jumpTo_state h ▸ hok)
    | ret => cases h
    | thr => cases h

theorem steps_end {A S : Type} {M : Stmt.Machine A S} {cmds : List (Stmt.Cmd A)} : ∀ (n : Nat) {c : Stmt.Conf S},
    (∀ i s, c ≠ .at_ i s) → Stmt.steps M cmds n c = c
  | 0, _, _ => rfl
  | n + 1, c, h => by
    rw [Stmt.steps]
    have : Stmt.next M cmds c = c := by
      cases c with
      | at_ i s => exact absurd rfl (h i s)
      | _ => rfl
    rw [this]
    exact steps_end n h

theorem steps_ok {cmds : List (Stmt.Cmd Task)} : ∀ (n : Nat) {i : Nat} {st st' : St},
    Stmt.steps (interp' lvl p call m).machine cmds n (.at_ i st) = .returned st' → st'.ok = true → st.ok = true := by
  intro n
  induction n with
  | zero => intro i st st' h; cases h
  | succ n ih =>
    intro i st st' h hok
    rw [Stmt.steps] at h
    cases hn : Stmt.next (interp' lvl p call m).machine cmds (.at_ i st) with
    | at_ i1 st1 =>
      rw [hn] at h
      exact next_ok hn (ih h hok)
    | returned s1 =>
      rw [hn, steps_end n (by intro _ _ h; cases h)] at h
      cases h
      rw [Stmt.next] at hn
      cases hc : cmds[i]? with
      | none => rw [hc] at hn; cases hn
      | some c =>
        rw [hc] at hn
        simp only at hn
        have noJump : ∀ {pc : Nat} {step : Int} {x : St}, Stmt.jumpTo pc step x ≠ .returned st' := by
          intro pc step x hj
          simp only [Stmt.jumpTo] at hj
          split at hj <;> cases hj
        cases c with
        | ret => cases hn; exact hok
        | jmp k step =>
          cases k with
          | always => exact absurd hn noJump
          | ifTrue =>
            simp only [Stmt.exec] at hn
            split at hn
            · exact absurd hn noJump
            · cases hn
          | ifFalse =>
            simp only [Stmt.exec] at hn
            split at hn
            · cases hn
            · exact absurd hn noJump
        | switch rows d => exact absurd hn noJump
        | act t => cases hn
        | eqInt k => cases hn
        | drop => cases hn
        | thr => cases hn
    | thrown s1 =>
      rw [hn, steps_end n (by intro _ _ h; cases h)] at h
      cases h
    | lost =>
      rw [hn, steps_end n (by intro _ _ h; cases h)] at h
      cases h

/-- The machine follows the statements to their `return`. -/
theorem sim_run {img : Image} {junk : Junk} {zs : List Pair} {cmds : List (Stmt.Cmd Task)} {cmds2 : List (Stmt.Cmd Ins)}
    {base lp : Nat} {mem0 : Mem} (C : Ctx lvl p m img zs cmds cmds2 base) (hm : Expr.Spec.Supported lvl p m)
    (hret : ∀ (f : Nat) (m' : Expr.Method), p[f]? = some m' → plain m'.ret = true)
    (hcall : ∀ (f : Nat) (m' : Expr.Method) vs v, p[f]? = some m' → call f vs = some v → vs.length = m'.params.length →
      CallOK img junk f m' vs v) : ∀ (n : Nat) {i : Nat} {st st' : St} {s : State},
    Sim m zs base lp mem0 i st s →
    Stmt.steps (interp' lvl p call m).machine cmds n (.at_ i st) = .returned st' → st'.ok = true →
    ∃ s' i', Steps img junk s s' ∧ Sim m zs base lp mem0 i' st' s' ∧
      img.code[s'.pc]? = some (.ret m.units m.params.length) := by
  intro n
  induction n with
  | zero => intro i st st' s _ h; cases h
  | succ n ih =>
    intro i st st' s S h hok
    rw [Stmt.steps] at h
    have step := sim_step (junk := junk) C hm hret hcall S
    cases hn : Stmt.next (interp' lvl p call m).machine cmds (.at_ i st) with
    | at_ i1 st1 =>
      rw [hn] at h step
      obtain ⟨s1, r1, S1⟩ := step (steps_ok n h hok)
      obtain ⟨s2, i2, r2, S2, h2⟩ := ih S1 h hok
      exact ⟨s2, i2, r1.trans r2, S2, h2⟩
    | returned s1 =>
      rw [hn] at step
      rw [hn, steps_end n (by intro _ _ h; cases h)] at h
      cases h
      obtain ⟨rfl, hc⟩ := step
      exact ⟨s, i, .refl _, S, hc⟩
    | thrown s1 =>
      rw [hn, steps_end n (by intro _ _ h; cases h)] at h
      cases h
    | lost =>
      rw [hn, steps_end n (by intro _ _ h; cases h)] at h
      cases h

end

/-! ## The image -/

theorem compileAll_get {lvl : Level} {p : Prog} : ∀ (ms : List Method) (cs : List (List Expr.Cmd)),
    compileAll lvl p ms = some cs → ∀ (f : Nat) (m : Method), ms[f]? = some m →
      ∃ c, compileMethod lvl p m = some c ∧ cs[f]? = some c
  | [], cs, h, f, m, hf => by simp at hf
  | m0 :: ms, cs, h, f, m, hf => by
    rw [compileAll] at h
    simp only [Option.bind_eq_bind, Option.bind_eq_some_iff, Option.some.injEq] at h
    obtain ⟨c, hc, cs', hcs, rfl⟩ := h
    cases f with
    | zero =>
      simp only [List.getElem?_cons_zero, Option.some.injEq] at hf
      subst hf
      exact ⟨c, hc, rfl⟩
    | succ f =>
      simp only [List.getElem?_cons_succ] at hf ⊢
      exact compileAll_get ms cs' hcs f m hf

theorem sigs_get {p : Prog} {f : Nat} {m : Method} (h : p[f]? = some m) : (sigs p)[f]? = some m.sig := by
  simp [sigs, h]

theorem build_get {lvl : Level} {p : Prog} {img : Image} (hb : build lvl p = some img) {f : Nat} {m : Method}
    (hf : p[f]? = some m) : ∃ pc c, img.entry[f]? = some (pc, m.units) ∧ compileMethod lvl p m = some c ∧
      CodeAt img.code pc c := by
  unfold build at hb
  simp only [Option.bind_eq_bind, Option.bind_eq_some_iff, Option.some.injEq] at hb
  obtain ⟨cs, hcs, rfl⟩ := hb
  obtain ⟨c, h1, h2⟩ := compileAll_get p cs hcs f m hf
  obtain ⟨pc, h3, h4⟩ := entries_get (sigs p) cs 0 f m.sig _ (sigs_get hf) h2
  exact ⟨pc, c, by rw [Nat.zero_add] at h3; exact h3, h1, h4⟩

/-- A compiled method that is supported has a context. -/
theorem context {lvl : Level} {p : Prog} {img : Image} {m : Method} {base : Nat} {c : List Expr.Cmd}
    (hs : Spec.Supported lvl p m) (hc : compileMethod lvl p m = some c) (hat : CodeAt img.code base c) :
    ∃ zs cmds cmds2, Ctx lvl (sigs p) m.sig img zs cmds cmds2 base ∧ xsOf zs = appended lvl m := by
  unfold compileMethod at hc
  simp only [Option.bind_eq_bind, Option.bind_eq_some_iff, Option.some.injEq] at hc
  obtain ⟨ys, hw, cmds2, hc2, rfl⟩ := hc
  have hshort := hs.short ys hw
  obtain ⟨zs, h1, h2, h3⟩ := expand_chunked _ _ _ hw
  have hc2' : Stmt.commit ys = .ok cmds2 := by
    cases hx : Stmt.commit ys with
    | error e => rw [hx] at hc2; cases hc2
    | ok y => rw [hx] at hc2; cases hc2; rfl
  have hn : (labels (xsOf zs)).Nodup := by
    rw [h1]; exact (Stmt.freshAll (opts lvl) folder m.body false 0).2.1
  subst h2
  obtain ⟨cmds, hx⟩ := commit_of h3 hn hshort hc2'
  refine ⟨zs, cmds, cmds2, ⟨h3, hn, hshort, hx, hc2', hat, ?_⟩, h1⟩
  intro t ht
  rw [h1] at ht
  exact hs.tasks t (mem_compileAll _ _ _ _ ht)

/-- Every call of a program. -/
theorem run_call {lvl : Level} {p : Prog} {img : Image} (junk : Junk) (hb : build lvl p = some img)
    (hs : ∀ m ∈ p, Spec.Supported lvl p m) : ∀ (depth f : Nat) (m : Method) (vs : List Int) (v : Int),
    p[f]? = some m → Spec.run p depth f vs = some v → CallOK img junk f m.sig vs v := by
  have hret : ∀ (f : Nat) (m' : Expr.Method), (sigs p)[f]? = some m' → plain m'.ret = true := by
    intro f m' h
    simp only [sigs, List.getElem?_map, Option.map_eq_some_iff] at h
    obtain ⟨m, hm, rfl⟩ := h
    exact (hs m (List.mem_of_getElem? hm)).sig.ret
  intro depth
  induction depth with
  | zero => intro f m vs v _ hv; simp [Spec.run] at hv
  | succ depth ih =>
    intro f m vs v hf hv s hcmd hn harg
    have hm := hs m (List.mem_of_getElem? hf)
    rw [Spec.run] at hv
    simp only [hf, Option.bind_eq_bind, Option.bind_some] at hv
    split at hv
    · rename_i hlen
      obtain ⟨start, c, he, hc, hat⟩ := build_get hb hf
      obtain ⟨zs, cmds, cmds2, C, hxs⟩ := context hm hc hat
      -- entering the method
      have r0 : Steps img junk s ⟨start, s.top + 3, s.top + 3 + m.units, writeStub s.mem (8 * s.top) s.lp (s.pc + 1)⟩ := by
        refine .one hcmd ?_
        simp only [Expr.exec, he, Option.bind_eq_bind, Option.bind_some, stubSize]
      have hf0 : Frame m.sig (s.top + 3) (writeStub s.mem (8 * s.top) s.lp (s.pc + 1)) ⟨fun _ => none, fun i => vs[i]?⟩ := by
        refine ⟨by omega, ?_, ?_⟩
        · intro i t off w _ h; simp at h
        · intro i t w h1 h2
          have hi := (List.getElem?_eq_some_iff.1 h1).1
          have e : s.top + 3 - (argOffset m.sig.params i + stubSize) = s.top - m.sig.params.length + i := by
            simp only [argOffset, stubSize]; omega
          rw [e, ← harg i t w h1 h2]
          apply readAt_congr
          intro x hx1 hx2
          have := bytes_le t
          exact writeStub_out (by omega)
      have hcallOK : ∀ (f : Nat) (m' : Expr.Method) vs v, (sigs p)[f]? = some m' → Spec.run p depth f vs = some v →
          vs.length = m'.params.length → CallOK img junk f m' vs v := by
        intro f m' vs v h1 h2 _
        simp only [sigs, List.getElem?_map, Option.map_eq_some_iff] at h1
        obtain ⟨m1, hm1, rfl⟩ := h1
        exact ih f m1 vs v hm1 h2
      -- the run of the statements
      rw [run_interp' m.body hm.tasks] at hv
      have hrun := Verif.Stmt.Props.method_run (agrees lvl (sigs p) (Spec.run p depth) m.sig) m.body cmds
        (by
          have := C.xs
          rw [hxs] at this
          exact this) hm.body (by
          have := Nat.lt_of_le_of_lt (length_ysOf C.chunked) C.short
          rw [hxs] at this
          exact this) depth ⟨true, ⟨fun _ => none, fun i => vs[i]?⟩, []⟩
      split at hv
      · rename_i ρ' cv hr
        rw [hr] at hrun
        simp only at hrun
        obtain ⟨k, hk⟩ := hrun
        obtain ⟨s1, i1, g1, S1, g2⟩ := sim_run (junk := junk) (lp := s.top + 3)
          (mem0 := writeStub s.mem (8 * s.top) s.lp (s.pc + 1)) C hm.sig hret hcallOK k
          (i := 0) (st := ⟨true, ⟨fun _ => none, fun i => vs[i]?⟩, []⟩)
          (s := ⟨start, s.top + 3, s.top + 3 + m.units, writeStub s.mem (8 * s.top) s.lp (s.pc + 1)⟩)
          ⟨⟨0, ⟨[], zs, rfl, rfl, rfl⟩, rfl⟩, rfl, rfl, .refl _ _ _ _, hf0, trivial⟩ hk rfl
        have hty : cv.ty = m.ret ∧ cv.v = v := by
          split at hv
          · simp only [Option.some.injEq] at hv; exact ⟨by assumption, hv⟩
          · simp at hv
        have g3 := S1.at_
        have g4 := S1.above
        have g5 := S1.keeps
        have g6 := S1.vals.1
        simp only [List.length_cons, List.length_nil, hty.1, hty.2] at g4 g6
        have eu : m.sig.units = m.units := rfl
        have ep : m.sig.params = m.params := rfl
        have er : m.sig.ret = m.ret := rfl
        simp only [eu, ep] at g2 g4 g5 g6 hn harg ⊢
        -- the stub
        have hstub : s1.mem (8 * s.top) = .stub s.lp (s.pc + 1) := by
          rw [g5 (8 * s.top) (.inr (.inl ⟨by omega, by omega⟩))]
          simp [writeStub]
        refine ⟨⟨s.pc + 1, s.lp, s.top - m.params.length + 1,
          copyUnit s1.mem (s.top + 3 + m.units) (s.top - m.params.length)⟩, (r0.trans g1).trans (.one g2 ?_), rfl, rfl, rfl,
          ?_, ?_⟩
        · have e1 : 8 * (s1.lp - stubSize) = 8 * s.top := by rw [g3]; simp [stubSize]
          have e2 : s1.top - (m.params.length + stubSize + m.units) = s.top - m.params.length + 1 := by
            rw [g4]; simp only [stubSize]; omega
          have e3 : s.top - m.params.length + 1 + (m.params.length + stubSize + m.units) - 1 = s.top + 3 + m.units := by
            simp only [stubSize]; omega
          simp only [Expr.exec, e1, hstub, e2, e3, Nat.add_sub_cancel]
        · rw [← g6]
          simp only [readAt, er]
          congr 2
          have : ∀ n k, k + n ≤ 8 → load (copyUnit s1.mem (s.top + 3 + m.units) (s.top - m.params.length))
              (8 * (s.top - m.params.length) + k) n = load s1.mem (8 * (s.top + 3 + m.units) + k) n := by
            intro n
            induction n with
            | zero => intro k _; rfl
            | succ n ihn =>
              intro k hk
              simp only [load]
              rw [Nat.add_assoc _ k 1, Nat.add_assoc _ k 1, ihn (k + 1) (by omega)]
              congr 2
              unfold copyUnit
              rw [if_pos (by omega)]
              congr 1
              omega
          have := this (bytes m.ret) 0 (by have := bytes_le m.ret; omega)
          simpa using this
        · intro x hx
          simp only [copyUnit]
          rw [if_neg (by omega), g5 x (.inl (by rw [ep]; omega)), writeStub_out (by omega)]
      · simp at hv
    · simp at hv

end Verif.Flow
