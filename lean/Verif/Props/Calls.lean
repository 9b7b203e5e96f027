import Verif.Proof.Calls

/-!
# C112: calls, `ref` parameters and delegates

The machine with one stack of units does what the machine with separate calls does (`Verif/Spec/Calls.lean`), for the programs
in which no ordinary parameter and `ref` parameter share a command and whose delegates are of methods of instances that are not
overridden.  For the others it does not.
-/

namespace Verif.Calls

open Spec (Val Place Frame)

theorem step_eq {P : Program} {c : St} (inv : Inv P c.parsed c.cache) {m : MRef} {M : Meth} {pc : Nat} {i : Instr}
    (hm : P.info m = some M) (hp : (c.parsed.lookup m).isSome) (hcur : c.cur = (m, pc)) (hi : M.body[pc]? = some i)
    (hh : c.halted = false) :
    ∃ k cmd, build P M i = some (k, cmd) ∧ step P c = exec P { c with cur := (m, pc + 1) } cmd := by
  obtain ⟨cs, hcs, cmd, k, hc, hb⟩ := fetch inv hm hp hi
  refine ⟨k, cmd, hb, ?_⟩
  simp [step, hh, hcur, hcs, hc]

/-- The value returned is what the caller gets, and its own units are as they were. -/
theorem exec_ret {P : Program} {s s' : Spec.St} {f : Frame} {r : List Frame} {c : St}
    (h : Sim P { s with frames := f :: r } c) {M : Meth} (hM : P.methods[f.m]? = some M)
    (he : Spec.exec P s f r .ret = some s') :
    ∃ c', exec P c (.ret M.locals M.units (if M.result then 1 else 0)) = some c' ∧ Sim P s' c' := by
  obtain ⟨h1, h2, hlp, _⟩ := h.arg hM
  have here := h.lay.2
  have htop : c.top = topOf r + M.units + 3 + M.locals + f.stack.length := by
    rw [h.top]; simp only [topOf, size, h1, h2]; omega
  cases r with
  | nil => simp [Spec.exec, hM] at he
  | cons g r' =>
    have e3 : c.mem (c.lp - 3) = .addr (lpTop (g :: r')) := by
      rw [show c.lp - 3 = topOf (g :: r') + f.args.length from by omega]; exact here.lp
    have e2 : c.mem (c.lp - 2) = .code (.meth g.m) g.pc := by
      rw [show c.lp - 2 = topOf (g :: r') + f.args.length + 1 from by omega]; exact here.code
    have okg : ∀ x ∈ g :: r', FrameOk P c.parsed x := fun x hx => h.ok x (List.mem_cons_of_mem _ hx)
    cases hr : M.result with
    | true =>
      simp only [Spec.exec, hM, hr] at he
      have : ∃ v, f.stack = [v] := by
        cases hs : f.stack with
        | nil => simp [hs] at he
        | cons a b =>
          cases b with
          | nil => exact ⟨a, rfl⟩
          | cons b' b'' => simp [hs] at he
      obtain ⟨v, hs⟩ := this
      simp only [hs] at he
      split at he <;> try simp at he
      rename_i hv
      simp only [Spec.St.top, Option.some.injEq] at he
      subst he
      rw [hs] at htop
      simp only [List.length_singleton] at htop
      have base : Sim P { s with frames := g :: r' }
          { c with top := topOf (g :: r'), lp := lpTop (g :: r'), cur := (.meth g.m, g.pc) } :=
        ⟨h.inv, h.lay.1, rfl, rfl, rfl, okg, h.fresh, h.out, h.halted⟩
      have hval : Rel P (cell (g :: r')) v (c.mem (c.top - 1)) := by
        have := (h.pop hs).2.1
        exact this.plain hv
      have := base.push hval
      refine ⟨_, ?_, this⟩
      simp only [exec, if_true, stub]
      rw [if_pos ⟨by omega, by omega⟩, e3, e2]
      simp only [St.push, Option.some.injEq]
      congr 1
      · rw [if_neg (by omega), show c.top - (M.units + 3 + M.locals) - 1 = topOf (g :: r') from by omega]
      · omega
    | false =>
      simp only [Spec.exec, hM, hr] at he
      have hs : f.stack = [] := by
        cases hs : f.stack with
        | nil => rfl
        | cons a b => simp [hs] at he
      simp only [hs, Spec.St.top, Option.some.injEq] at he
      subst he
      rw [hs] at htop
      simp only [List.length_nil] at htop
      refine ⟨{ c with top := topOf (g :: r'), lp := lpTop (g :: r'), cur := (.meth g.m, g.pc) }, ?_,
        ⟨h.inv, h.lay.1, rfl, rfl, rfl, okg, h.fresh, h.out, h.halted⟩⟩
      · show exec P c (.ret M.locals M.units 0) = _
        have hcond : 3 ≤ c.lp ∧ M.units + stub + M.locals + 0 ≤ c.top := ⟨by omega, by simp only [stub]; omega⟩
        have ht : c.top - (M.units + stub + M.locals) = topOf (g :: r') := by simp only [stub]; omega
        rw [exec, if_pos hcond, e3, e2]
        simp only [if_true, ht]

/-- A delegate variable is given an instance and a method. -/
theorem exec_ctor {P : Program} (fine : Fine P) {s s' : Spec.St} {f : Frame} {r : List Frame} {c : St}
    (h : Sim P { s with frames := f :: r } c) (hh : c.halted = false)
    (he : Spec.exec P s f r (.call .delegateCtor) = some s') :
    ∃ n c', (exec P c (.call .delegateCtor)).bind (run P n) = some c' ∧ Sim P s' c' := by
  simp only [Spec.exec] at he
  split at he <;> try simp at he
  rename_i m v d i st hs
  obtain ⟨hv, he⟩ := he
  cases hs1 : Spec.store ({ f with stack := st } :: r) d (.loc i) v with
  | none => simp [hs1] at he
  | some fs1 =>
  cases hs2 : Spec.store fs1 d (.loc (i + 1)) (.meth m) with
  | none => simp [hs1, hs2] at he
  | some fs2 =>
  simp only [hs1, hs2, Option.bind_some, Option.map_some, Option.some.injEq] at he
  subst he
  -- what the operands are
  have p1 := h.pop hs
  have p2 := p1.2.2.pop (v := v) (st := .var d (.loc i) :: st) rfl
  have p3 := p2.2.2.pop (v := .var d (.loc i)) (st := st) rfl
  obtain ⟨a, ha, hca⟩ := p3.2.1
  have hm := p1.2.1
  have hvr := p2.2.1
  have sim3 := p3.2.2
  have t1 := p1.1
  have t2 := p2.1
  have t3 := p3.1
  simp only at ha hm hvr t2 t3 sim3
  obtain ⟨parsed', cache', hent, inv', hp', hmono⟩ := enter_eq fine h.inv (m := .delegateCtor) rfl
  -- the machine after the call
  obtain ⟨k1, cmd1, hb1, hst1⟩ := step_eq (P := P) (c := { c with
      mem := upd (upd (upd c.mem c.top (.addr c.lp)) (c.top + 1) (.code c.cur.1 c.cur.2)) (c.top + 2) (.exec .delegateCtor)
      top := c.top + 3 + 0, lp := c.top + 3, cur := (.delegateCtor, 0), parsed := parsed', cache := cache' })
    inv' (m := .delegateCtor) rfl hp' rfl (i := .delegateInit) rfl hh
  have hc1 : cmd1 = .delegateInit 5 4 6 := by
    have : build P ⟨false, 2, 0, false, [.delegateInit, .ret]⟩ .delegateInit = some (.delegateInit 3, .delegateInit 5 4 6) := rfl
    rw [this] at hb1
    simp only [Option.some.injEq, Prod.mk.injEq] at hb1
    exact hb1.2.symm
  subst hc1
  have hinst : c.top + 3 - 5 = c.top - 2 := by omega
  have hmeth : c.top + 3 - 4 = c.top - 1 := by omega
  have hthis : c.top + 3 - 6 = c.top - 3 := by omega
  have ha' : c.mem (c.top - 3) = .addr a := by rw [show c.top - 3 = c.top - 1 - 1 - 1 from by omega]; exact ha
  have hv' : Rel P (cell (f :: r)) v (c.mem (c.top - 2)) := by rw [show c.top - 2 = c.top - 1 - 1 from by omega]; exact hvr
  -- the two stores
  have simS : Sim P { s with frames := { f with stack := st } :: r } { c with top := c.top - 3 } := by
    have := sim3
    rwa [show c.top - 1 - 1 - 1 = c.top - 3 from by omega] at this
  have hca' : cell ({ f with stack := st } :: r) d (.loc i) = some a := by rw [cell_stack]; exact hca
  obtain ⟨simA, same⟩ := simS.store hv hv' hs1 hca'
  have hcb : cell fs1 d (.loc (i + 1)) = some (a + 1) := by
    have hcf : cell fs1 d (.loc i) = some a := by rw [same.cell]; exact hca'
    have : ∃ b, cell fs1 d (.loc (i + 1)) = some b := store_cell hs2
    obtain ⟨b, hb⟩ := this
    rw [hb, cell_next hcf hb]
  obtain ⟨simB, _⟩ := simA.store rfl hm hs2 hcb
  have hlt : a + 1 < c.top - 3 := by
    have := cell_lt hcb
    rw [same.top, ← simS.top] at this
    exact this
  -- the steps
  refine ⟨2, { c with
      mem := upd (upd (upd (upd (upd c.mem c.top (.addr c.lp)) (c.top + 1) (.code c.cur.1 c.cur.2)) (c.top + 2)
        (.exec .delegateCtor)) a (c.mem (c.top - 2))) (a + 1) (c.mem (c.top - 1))
      top := c.top - 3, parsed := parsed', cache := cache' }, ?_, ?_⟩
  · show (c.enter P .delegateCtor).bind _ = _
    rw [hent]
    simp only [Option.bind_some, run]
    have : step P { c with
        mem := upd (upd (upd c.mem c.top (.addr c.lp)) (c.top + 1) (.code c.cur.1 c.cur.2)) (c.top + 2) (.exec .delegateCtor)
        top := c.top + 3 + 0, lp := c.top + 3, cur := (.delegateCtor, 0), parsed := parsed', cache := cache' } = some { c with
        mem := upd (upd (upd (upd (upd c.mem c.top (.addr c.lp)) (c.top + 1) (.code c.cur.1 c.cur.2)) (c.top + 2)
          (.exec .delegateCtor)) a (c.mem (c.top - 2))) (a + 1) (c.mem (c.top - 1))
        top := c.top + 3 + 0, lp := c.top + 3, cur := (.delegateCtor, 1), parsed := parsed', cache := cache' } := by
      rw [hst1]
      simp only [exec]
      rw [if_pos ⟨by omega, by omega, by omega⟩, hthis, hinst, hmeth]
      rw [upd_ne (by omega), upd_ne (by omega), upd_ne (by omega), ha']
      simp only [Option.some.injEq]
      rw [upd_ne (a := c.top + 2) (x := c.top - 2) (by omega), upd_ne (a := c.top + 1) (x := c.top - 2) (by omega),
        upd_ne (a := c.top) (x := c.top - 2) (by omega), upd_ne (a := c.top + 2) (x := c.top - 1) (by omega),
        upd_ne (a := c.top + 1) (x := c.top - 1) (by omega), upd_ne (a := c.top) (x := c.top - 1) (by omega)]
    rw [this, Option.bind_some]
    obtain ⟨k2, cmd2, hb2, hst2⟩ := step_eq (P := P) (c := { c with
        mem := upd (upd (upd (upd (upd c.mem c.top (.addr c.lp)) (c.top + 1) (.code c.cur.1 c.cur.2)) (c.top + 2)
          (.exec .delegateCtor)) a (c.mem (c.top - 2))) (a + 1) (c.mem (c.top - 1))
        top := c.top + 3 + 0, lp := c.top + 3, cur := (.delegateCtor, 1), parsed := parsed', cache := cache' })
      inv' (m := .delegateCtor) rfl hp' rfl (i := .ret) rfl hh
    have hc2 : cmd2 = .ret 0 3 0 := by
      have : build P ⟨false, 2, 0, false, [.delegateInit, .ret]⟩ .ret = some (.ret 0 3 0, .ret 0 3 0) := rfl
      rw [this] at hb2
      simp only [Option.some.injEq, Prod.mk.injEq] at hb2
      exact hb2.2.symm
    subst hc2
    rw [hst2]
    simp only [exec, stub]
    rw [if_pos ⟨by omega, by omega⟩]
    rw [show c.top + 3 - 3 = c.top from by omega, show c.top + 3 - 2 = c.top + 1 from by omega]
    rw [upd_ne (a := a + 1) (x := c.top) (by omega), upd_ne (a := a) (x := c.top) (by omega),
      upd_ne (a := c.top + 2) (x := c.top) (by omega), upd_ne (a := c.top + 1) (x := c.top) (by omega), upd_same,
      upd_ne (a := a + 1) (x := c.top + 1) (by omega), upd_ne (a := a) (x := c.top + 1) (by omega),
      upd_ne (a := c.top + 2) (x := c.top + 1) (by omega), upd_same]
    simp only [Option.bind_some, if_true, Option.some.injEq]
    congr 1
  · refine ⟨inv', simB.lay.mem ?_, simB.top, simB.lp, simB.cur, fun g hg => (simB.ok g hg).mono hmono, simB.fresh, simB.out,
      simB.halted⟩
    intro x hx
    rw [← simB.top] at hx
    simp only at hx ⊢
    by_cases e1 : x = a + 1
    · subst e1; rw [upd_same, upd_same]
    · rw [upd_ne e1, upd_ne e1]
      by_cases e2 : x = a
      · subst e2; rw [upd_same, upd_same]
      · rw [upd_ne e2, upd_ne e2, upd_ne (by omega), upd_ne (by omega), upd_ne (by omega)]

/-- The method of a delegate takes the place of the delegate's own. -/
theorem exec_invoke {P : Program} (fine : Fine P) {s s' : Spec.St} {f : Frame} {r : List Frame} {c : St}
    (h : Sim P { s with frames := f :: r } c) (hh : c.halted = false) {n : Nat} {b : Bool}
    (he : Spec.exec P s f r (.call (.delegateInvoke n b)) = some s') :
    ∃ n' c', (exec P c (.call (.delegateInvoke n b))).bind (run P n') = some c' ∧ Sim P s' c' := by
  simp only [Spec.exec] at he
  split at he <;> try simp at he
  rename_i hn
  split at he <;> try simp at he
  rename_i d i hd
  split at he <;> try simp at he
  rename_i v m hv hm
  split at he <;> try simp at he
  rename_i M hM
  -- the delegate
  obtain ⟨a, ha⟩ := load_cell hv
  obtain ⟨b1, hb1⟩ := load_cell hm
  have hb1' := cell_next ha hb1
  subst hb1'
  have hmr := load_rel h.lay hm hb1
  have hvr := load_rel h.lay hv ha
  obtain ⟨hmu, ⟨N, hN, hns⟩, hov⟩ := hmr
  have : N = M := Option.some.inj (hN.symm.trans hM)
  subst this
  have hdis : Spec.dispatch P m v = m := by cases v <;> simp [Spec.dispatch, hov]
  rw [hdis] at he
  simp only [hns, Spec.enter, hM] at he
  obtain ⟨fs, hfs, rfl⟩ := he
  simp only [Bool.false_eq_true, if_false] at hfs
  split at hfs <;> try simp at hfs
  rename_i hlen
  subst hfs
  have hlen' : n + 1 = N.units := by simpa [Nat.min_eq_left (Nat.le_of_lt hn)] using hlen
  -- the operands
  obtain ⟨htop, htopn, lay⟩ := h.drop (n := n + 1) hn
  have hself : Rel P (cell (f :: r)) (.var d (.loc i)) (c.mem (c.top - (n + 1))) := by
    have := (args_rel h (n := n + 1) hn (i := 0) (v := .var d (.loc i)) (by
      rw [List.getElem?_reverse (by simp; omega), List.getElem?_take]
      simp only [List.length_take]
      rw [if_pos (by omega), show min (n + 1) f.stack.length - 1 - 0 = n from by omega]
      exact hd)).2
    simpa using this
  obtain ⟨a', hself, ha'⟩ := hself
  have : a' = a := Option.some.inj (ha'.symm.trans ha)
  subst this
  obtain ⟨parsed', cache', hent, inv', hp', hmono⟩ := enter_eq fine h.inv (m := .delegateInvoke n b) rfl
  obtain ⟨k1, cmd1, hb1', hst1⟩ := step_eq (P := P) (c := { c with
      mem := upd (upd (upd c.mem c.top (.addr c.lp)) (c.top + 1) (.code c.cur.1 c.cur.2)) (c.top + 2) (.exec (.delegateInvoke n b))
      top := c.top + 3 + 0, lp := c.top + 3, cur := (.delegateInvoke n b, 0), parsed := parsed', cache := cache' })
    inv' (m := .delegateInvoke n b) rfl hp' rfl (i := .delegateInvoke) rfl hh
  have hc1 : cmd1 = .delegateInvoke (n + 1 + 3) := by
    have : build P ⟨false, n, 0, b, [.delegateInvoke, .ret]⟩ .delegateInvoke =
        some (.delegateInvoke (n + 1), .delegateInvoke (n + 1 + 3)) := by
      simp [build, Meth.offsetOf, Meth.units, stub]
    rw [this] at hb1'
    simp only [Option.some.injEq, Prod.mk.injEq] at hb1'
    exact hb1'.2.symm
  subst hc1
  have hinfo : P.info (.meth m) = some N := hM
  obtain ⟨cs, parsed'', cache'', hl, inv'', hp'', hmono'⟩ := load_ok (s := { c with
      mem := upd (upd (upd c.mem c.top (.addr c.lp)) (c.top + 1) (.code c.cur.1 c.cur.2)) (c.top + 2) (.exec (.delegateInvoke n b))
      top := c.top + 3 + 0, lp := c.top + 3, cur := (.delegateInvoke n b, 0 + 1), parsed := parsed', cache := cache' }) fine inv' hinfo
  have hbt : a' + 1 < c.top := by rw [h.top]; exact cell_lt hb1
  refine ⟨1, { c with
      mem := upd (upd (upd (upd (upd c.mem c.top (.addr c.lp)) (c.top + 1) (.code c.cur.1 c.cur.2)) (c.top + 2)
        (.exec (.delegateInvoke n b))) (c.top - (n + 1)) (c.mem a')) (c.top + 2) (.exec (.meth m))
      top := c.top + 3 + N.locals, lp := c.top + 3, cur := (.meth m, 0), parsed := parsed'', cache := cache'' }, ?_, ?_⟩
  · show (c.enter P (.delegateInvoke n b)).bind _ = _
    rw [hent]
    simp only [Option.bind_some, run]
    rw [hst1]
    simp only [exec]
    rw [if_pos ⟨by omega, by omega⟩]
    rw [show c.top + 3 - (n + 1 + 3) = c.top - (n + 1) from by omega, show c.top + 3 - 1 = c.top + 2 from by omega]
    rw [upd_ne (a := c.top + 2) (x := c.top - (n + 1)) (by omega), upd_ne (a := c.top + 1) (x := c.top - (n + 1)) (by omega),
      upd_ne (a := c.top) (x := c.top - (n + 1)) (by omega), hself]
    simp only
    rw [upd_same, upd_ne (a := c.top + 2) (x := a' + 1) (by omega), upd_ne (a := c.top + 1) (x := a' + 1) (by omega),
      upd_ne (a := c.top) (x := a' + 1) (by omega), hmu]
    simp only [hinfo, Program.info, hl, Option.bind_eq_bind, Option.bind_some, Option.some.injEq, hM]
    rw [upd_ne (a := c.top + 2) (x := a') (by omega), upd_ne (a := c.top + 1) (x := a') (by omega),
      upd_ne (a := c.top) (x := a') (by omega)]
    rfl
  · have agree : ∀ x, x < c.top - (n + 1) →
        upd (upd (upd (upd (upd c.mem c.top (.addr c.lp)) (c.top + 1) (.code c.cur.1 c.cur.2)) (c.top + 2)
          (.exec (.delegateInvoke n b))) (c.top - (n + 1)) (c.mem a')) (c.top + 2) (.exec (.meth m)) x = c.mem x := by
      intro x hx
      rw [upd_ne (by omega), upd_ne (by omega), upd_ne (by omega), upd_ne (by omega), upd_ne (by omega)]
    have lay' := lay.mem (mem' := upd (upd (upd (upd (upd c.mem c.top (.addr c.lp)) (c.top + 1) (.code c.cur.1 c.cur.2)) (c.top + 2)
          (.exec (.delegateInvoke n b))) (c.top - (n + 1)) (c.mem a')) (c.top + 2) (.exec (.meth m)))
      (fun x hx => agree x (by rw [htopn] at hx; exact hx))
    have hal : (v :: (f.stack.take n).reverse).length = n + 1 := by simp; omega
    refine ⟨inv'', ?_, ?_, ?_, rfl, ?_, h.fresh, h.out, h.halted⟩
    · refine lay_new lay' N.locals ?_ ?_ ?_ ?_
      · intro j u hj
        rw [cell_stack, htopn]
        cases j with
        | zero =>
          simp only [List.getElem?_cons_zero, Option.some.injEq] at hj
          subst hj
          simp only [Nat.add_zero]
          rw [upd_ne (by omega), upd_same]
          exact hvr
        | succ j =>
          simp only [List.getElem?_cons_succ] at hj
          obtain ⟨hjn, hrel⟩ := args_rel h (Nat.le_of_lt hn) hj
          rw [show c.top - (n + 1) + (j + 1) = c.top - n + j from by omega]
          rw [upd_ne (by omega), upd_ne (by omega), upd_ne (by omega), upd_ne (by omega), upd_ne (by omega)]
          exact hrel
      · rw [hal, htopn, show c.top - (n + 1) + (n + 1) = c.top from by omega]
        rw [upd_ne (by omega), upd_ne (by omega), upd_ne (by omega), upd_ne (by omega), upd_same, h.lp]
        rfl
      · rw [hal, htopn, show c.top - (n + 1) + (n + 1) + 1 = c.top + 1 from by omega]
        rw [upd_ne (by omega), upd_ne (by omega), upd_ne (by omega), upd_same, h.cur]
        rfl
      · rw [hal, htopn, show c.top - (n + 1) + (n + 1) + 2 = c.top + 2 from by omega]
        rw [upd_same]
    · rw [topOf_pos]
      simp only [lpOf, hal, htopn, List.length_replicate, List.length_nil]
      omega
    · simp only [lpTop, lpOf, hal, htopn]
      omega
    · intro g hg
      rcases List.mem_cons.1 hg with rfl | hg
      · exact ⟨hp'', N, hM, by simpa using hal.trans hlen', by simp⟩
      · exact (ok_stack h.ok _ g hg).mono fun x hx => hmono' x (hmono x hx)

theorem item_rel {P : Program} {cl : Nat → Place → Option Nat} {v : Val} {w : Unit64} {it : Item} (h : Rel P cl v w)
    (e : v.item = some it) : w.item = some it := by
  cases v with
  | int n => rw [show w = .int n from h]; exact e
  | null => rw [show w = .null from h]; exact e
  | obj i c => rw [show w = .obj i c from h]; exact e
  | meth m => exact absurd e (by intro e; cases e)
  | var d k => exact absurd e (by intro e; cases e)

/-- What is done at an instruction. -/
theorem exec_ok {P : Program} (fine : Fine P) {s s' : Spec.St} {f : Frame} {r : List Frame} {c : St}
    (h : Sim P { s with frames := f :: r } c) (hh : c.halted = false) {M : Meth} (hM : P.methods[f.m]? = some M) {i : Instr}
    (hi : i ∈ M.body) {k : Key} {cmd : Cmd} (hb : build P M i = some (k, cmd)) (he : Spec.exec P s f r i = some s') :
    ∃ n c', (exec P c cmd).bind (run P n) = some c' ∧ Sim P s' c' := by
  have zero : (∃ c', exec P c cmd = some c' ∧ Sim P s' c') → ∃ n c', (exec P c cmd).bind (run P n) = some c' ∧ Sim P s' c' :=
    fun ⟨c', e, h⟩ => ⟨0, c', by simp [e, run], h⟩
  have fits := fine.fits M (List.mem_of_getElem? hM) i hi
  obtain ⟨hal, hll, hlp, harg⟩ := h.arg hM
  have hlp' : c.lp = lpOf f r := h.lp
  cases i with
  | const n =>
    simp only [build, Option.some.injEq, Prod.mk.injEq] at hb
    obtain ⟨rfl, rfl⟩ := hb
    simp only [Spec.exec, Spec.St.top, Option.some.injEq] at he
    subst he
    exact zero ⟨_, rfl, h.push rfl⟩
  | null =>
    simp only [build, Option.some.injEq, Prod.mk.injEq] at hb
    obtain ⟨rfl, rfl⟩ := hb
    simp only [Spec.exec, Spec.St.top, Option.some.injEq] at he
    subst he
    exact zero ⟨_, rfl, h.push rfl⟩
  | new cls =>
    simp only [build, Option.some.injEq, Prod.mk.injEq] at hb
    obtain ⟨rfl, rfl⟩ := hb
    simp only [Spec.exec, Option.some.injEq] at he
    subst he
    have hf : c.fresh = s.fresh := h.fresh
    have := h.push (v := .obj s.fresh cls) (w := .obj c.fresh cls) (by rw [hf]; rfl)
    exact zero ⟨_, rfl, this.inv, this.lay, this.top, this.lp, this.cur, this.ok, by simp [hf], this.out, this.halted⟩
  | method m =>
    simp only [build, Option.some.injEq, Prod.mk.injEq] at hb
    obtain ⟨rfl, rfl⟩ := hb
    simp only [Spec.exec, Spec.St.top, Option.some.injEq] at he
    subst he
    exact zero ⟨_, rfl, h.push ⟨rfl, fits⟩⟩
  | «local» i =>
    simp only [build, Option.some.injEq, Prod.mk.injEq] at hb
    obtain ⟨rfl, rfl⟩ := hb
    simp only [Spec.exec, Spec.St.top, Option.bind_eq_some_iff, Option.some.injEq, Option.join_eq_some_iff] at he
    obtain ⟨v, hv, rfl⟩ := he
    obtain ⟨hp, hr⟩ := h.lay.2.locals i v hv
    exact zero ⟨_, rfl, h.push (by rw [hlp']; exact hr.plain hp)⟩
  | arg t i =>
    have hlt : i < M.units := fits
    simp only [build, offsetOf_lt hlt, Option.map_some, Option.some.injEq, Prod.mk.injEq] at hb
    obtain ⟨rfl, rfl⟩ := hb
    simp only [Spec.exec, Spec.St.top, Option.bind_eq_some_iff, Option.some.injEq] at he
    obtain ⟨v, hv, rfl⟩ := he
    obtain ⟨ho, ha⟩ := harg i hlt
    refine zero ⟨c.push (c.mem (c.lp - (M.units - i + stub))), by simp only [exec]; rw [if_pos ho], h.push ?_⟩
    rw [ha]
    exact (h.lay.2.args i v hv).mono cell_mono
  | content t i =>
    have hlt : i < M.units := fits
    simp only [build, offsetOf_lt hlt, Option.map_some, Option.some.injEq, Prod.mk.injEq] at hb
    obtain ⟨rfl, rfl⟩ := hb
    simp only [Spec.exec] at he
    split at he <;> try simp at he
    rename_i d k hv
    simp only [Spec.St.top, Option.bind_eq_some_iff, Option.some.injEq] at he
    obtain ⟨v, hl, rfl⟩ := he
    obtain ⟨ho, ha⟩ := harg i hlt
    obtain ⟨a, hua, hca⟩ := h.lay.2.args i _ hv
    have hca' : cell (f :: r) d k = some a := cell_mono _ _ _ hca
    refine zero ⟨c.push (c.mem a), ?_, h.push (load_rel h.lay hl hca')⟩
    simp only [exec]
    rw [if_pos ho, ha, hua]
  | localAddr i =>
    simp only [build, Option.some.injEq, Prod.mk.injEq] at hb
    obtain ⟨rfl, rfl⟩ := hb
    simp only [Spec.exec] at he
    split at he <;> try simp at he
    rename_i hlt
    simp only [Spec.St.top, Option.some.injEq] at he
    subst he
    refine zero ⟨_, rfl, h.push ⟨c.lp + i, rfl, ?_⟩⟩
    rw [cell_cons, if_pos rfl]
    simp only
    rw [if_pos hlt, hlp']
  | argAddr i =>
    have hlt : i < M.units := fits
    simp only [build, offsetOf_lt hlt, Option.map_some, Option.some.injEq, Prod.mk.injEq] at hb
    obtain ⟨rfl, rfl⟩ := hb
    simp only [Spec.exec] at he
    split at he <;> try simp at he
    rename_i hlt'
    simp only [Spec.St.top, Option.some.injEq] at he
    subst he
    obtain ⟨ho, ha⟩ := harg i hlt
    refine zero ⟨c.push (.addr (c.lp - (M.units - i + stub))), by simp only [exec]; rw [if_pos ho], h.push ⟨_, rfl, ?_⟩⟩
    rw [cell_cons, if_pos rfl]
    simp only
    rw [if_pos hlt', ha]
  | popLocal i =>
    simp only [build, Option.some.injEq, Prod.mk.injEq] at hb
    obtain ⟨rfl, rfl⟩ := hb
    simp only [Spec.exec] at he
    split at he <;> try simp at he
    rename_i v st hs
    obtain ⟨⟨hv, hlt⟩, he⟩ := he
    simp only [Spec.St.top, Option.some.injEq] at he
    subst he
    obtain ⟨h1, hr, hp⟩ := h.pop hs
    have hcell : cell ({ f with stack := st } :: r) r.length (.loc i) = some (c.lp + i) := by
      rw [cell_cons, if_pos rfl]
      simp only
      rw [if_pos hlt, hlp']
      rfl
    have := (hp.store hv hr (k := .loc i) (d := r.length) (by rw [store_cons, if_pos rfl]; simp only; rw [if_pos hlt]) hcell).1
    refine zero ⟨_, ?_, this⟩
    simp only [exec]
    rw [if_pos h1]
  | popArg t i =>
    have hlt : i < M.units := fits
    simp only [build, offsetOf_lt hlt, Option.map_some, Option.some.injEq, Prod.mk.injEq] at hb
    obtain ⟨rfl, rfl⟩ := hb
    simp only [Spec.exec] at he
    split at he <;> try simp at he
    rename_i v st hs
    obtain ⟨⟨hv, hlt'⟩, he⟩ := he
    simp only [Spec.St.top, Option.some.injEq] at he
    subst he
    obtain ⟨h1, hr, hp⟩ := h.pop hs
    obtain ⟨ho, ha⟩ := harg i hlt
    have hcell : cell ({ f with stack := st } :: r) r.length (.arg i) = some (topOf r + i) := by
      rw [cell_cons, if_pos rfl]
      simp only
      rw [if_pos hlt']
    have := (hp.store hv hr (k := .arg i) (d := r.length) (by rw [store_cons, if_pos rfl]; simp only; rw [if_pos hlt']) hcell).1
    refine zero ⟨_, ?_, this⟩
    simp only [exec]
    rw [if_pos ⟨h1, ho⟩, ha]
  | popArgAddr t i =>
    have hlt : i < M.units := fits
    simp only [build, offsetOf_lt hlt, Option.map_some, Option.some.injEq, Prod.mk.injEq] at hb
    obtain ⟨rfl, rfl⟩ := hb
    simp only [Spec.exec] at he
    split at he <;> try simp at he
    rename_i v st d k hs ha0
    obtain ⟨hv, fs, hst, rfl⟩ := he
    obtain ⟨h1, hr, hp⟩ := h.pop hs
    obtain ⟨ho, ha⟩ := harg i hlt
    obtain ⟨a, hua, hca⟩ := h.lay.2.args i _ ha0
    have hca' : cell ({ f with stack := st } :: r) d k = some a := by rw [cell_stack]; exact cell_mono _ _ _ hca
    refine zero ⟨_, ?_, (hp.store hv hr hst hca').1⟩
    simp only [exec]
    rw [if_pos ⟨h1, ho⟩, ha, hua]
  | pickArg t i =>
    have hlt : i < M.units := fits
    simp only [build, offsetOf_lt hlt, Option.map_some, Option.some.injEq, Prod.mk.injEq] at hb
    obtain ⟨rfl, rfl⟩ := hb
    simp only [Spec.exec] at he
    split at he <;> try simp at he
    rename_i v st hs
    obtain ⟨⟨hv, hlt'⟩, he⟩ := he
    simp only [Spec.St.top, Option.some.injEq] at he
    subst he
    obtain ⟨h1, hr, _⟩ := h.pop hs
    obtain ⟨ho, ha⟩ := harg i hlt
    have hcell : cell (f :: r) r.length (.arg i) = some (topOf r + i) := by
      rw [cell_cons, if_pos rfl]
      simp only
      rw [if_pos hlt']
    have := (h.store hv hr (k := .arg i) (d := r.length) (by rw [store_cons, if_pos rfl]; simp only; rw [if_pos hlt']) hcell).1
    refine zero ⟨_, ?_, this⟩
    simp only [exec]
    rw [if_pos ⟨h1, ho⟩, ha]
  | pickArgAddr t i => simp [build] at hb
  | popEmpty =>
    simp only [build, Option.some.injEq, Prod.mk.injEq] at hb
    obtain ⟨rfl, rfl⟩ := hb
    simp only [Spec.exec] at he
    split at he <;> try simp at he
    rename_i v st hs
    simp only [Spec.St.top, Option.some.injEq] at he
    subst he
    obtain ⟨h1, hr, hp⟩ := h.pop hs
    refine zero ⟨_, ?_, hp⟩
    simp only [exec]
    rw [if_pos h1]
  | bin o =>
    simp only [build, Option.some.injEq, Prod.mk.injEq] at hb
    obtain ⟨rfl, rfl⟩ := hb
    simp only [Spec.exec] at he
    split at he <;> try simp at he
    rename_i y x st hs
    simp only [Spec.St.top, Option.some.injEq] at he
    subst he
    obtain ⟨h1, hy, hp⟩ := h.pop hs
    obtain ⟨h2, hx, hp2⟩ := hp.pop (v := .int x) (st := st) rfl
    have hy' : c.mem (c.top - 1) = .int y := hy
    have hx' : c.mem (c.top - 2) = .int x := hx
    simp only at h2
    refine zero ⟨_, ?_, hp2.push (v := .int (o.eval x y)) (w := .int (o.eval x y)) rfl⟩
    simp only [exec]
    rw [if_pos (by omega), hx', hy']
    simp only [St.push, Option.some.injEq]
    rw [show c.top - 1 - 1 = c.top - 2 from by omega, show c.top - 2 + 1 = c.top - 1 from by omega]
  | jump d =>
    simp only [build, Option.some.injEq, Prod.mk.injEq] at hb
    obtain ⟨rfl, rfl⟩ := hb
    simp only [Spec.exec, Spec.St.top, Option.some.injEq] at he
    subst he
    have hcur : c.cur = (.meth f.m, f.pc) := h.cur
    refine zero ⟨_, ?_, h.pc _⟩
    simp only [exec, hcur]
  | jumpFalse d =>
    simp only [build, Option.some.injEq, Prod.mk.injEq] at hb
    obtain ⟨rfl, rfl⟩ := hb
    simp only [Spec.exec] at he
    split at he <;> try simp at he
    rename_i x st hs
    simp only [Spec.St.top, Option.some.injEq] at he
    subst he
    have hcur : c.cur = (.meth f.m, f.pc) := h.cur
    obtain ⟨h1, hx, hp⟩ := h.pop hs
    have hx' : c.mem (c.top - 1) = .int x := hx
    refine zero ⟨_, ?_, hp.pc _⟩
    simp only [exec, hcur]
    rw [if_pos h1, hx']
    rfl
  | call m =>
    simp only [build, Option.some.injEq, Prod.mk.injEq] at hb
    obtain ⟨rfl, rfl⟩ := hb
    cases m with
    | meth m =>
      simp only [Spec.exec] at he
      split at he <;> try simp at he
      rename_i N hN
      obtain ⟨hn, fs, hfs, rfl⟩ := he
      simp only [Spec.enter, hN] at hfs
      split at hfs <;> try simp at hfs
      subst hfs
      exact zero (h.enter fine hN hn)
    | delegateCtor => exact exec_ctor fine h hh he
    | delegateInvoke n b => exact exec_invoke fine h hh he
  | callVirtual m =>
    obtain ⟨N, hN, hpos⟩ := fits
    simp only [build, hN, Option.bind_some, offsetOf_lt hpos, Option.map_some, Option.some.injEq, Prod.mk.injEq] at hb
    obtain ⟨rfl, rfl⟩ := hb
    simp only [Spec.exec, hN] at he
    split at he <;> try simp at he
    rename_i hn
    split at he <;> try simp at he
    rename_i o cls args hargs
    obtain ⟨fs, hfs, rfl⟩ := he
    simp only [Spec.enter] at hfs
    split at hfs <;> try simp at hfs
    rename_i K hK
    obtain ⟨hlen, rfl⟩ := hfs
    have hl := congrArg List.length hargs
    simp only [List.length_reverse, List.length_take, List.length_cons] at hl
    have hKN : K.units = N.units := by omega
    have hobj := (args_rel h hn (i := 0) (v := .obj o cls) (by rw [hargs]; rfl)).2
    have hobj' : c.mem (c.top - N.units) = .obj o cls := hobj
    have htop := (h.drop hn).1
    have := h.enter fine hK (by omega)
    rw [hKN, hargs] at this
    obtain ⟨c', e, hsim⟩ := this
    refine zero ⟨c', ?_, hsim⟩
    simp only [exec, Nat.sub_zero]
    rw [if_pos htop, hobj']
    exact e
  | ret =>
    simp only [build, Option.some.injEq, Prod.mk.injEq] at hb
    obtain ⟨rfl, rfl⟩ := hb
    exact zero (exec_ret h hM he)
  | «show» =>
    simp only [build, Option.some.injEq, Prod.mk.injEq] at hb
    obtain ⟨rfl, rfl⟩ := hb
    simp only [Spec.exec] at he
    split at he <;> try simp at he
    rename_i v st hs
    obtain ⟨it, hit, rfl⟩ := he
    obtain ⟨h1, hr, hp⟩ := h.pop hs
    have hitem : (c.mem (c.top - 1)).item = some it := item_rel hr hit
    refine zero ⟨{ c with top := c.top - 1, out := c.out ++ [it] }, ?_, ⟨hp.inv, hp.lay, hp.top, hp.lp, hp.cur, hp.ok, hp.fresh, ?_, hp.halted⟩⟩
    · simp only [exec]
      rw [if_pos h1, hitem]
      rfl
    · have : c.out = s.out := h.out
      simp [this]
  | halt =>
    simp only [build, Option.some.injEq, Prod.mk.injEq] at hb
    obtain ⟨rfl, rfl⟩ := hb
    simp only [Spec.exec, Option.some.injEq] at he
    subst he
    exact zero ⟨_, rfl, h.inv, h.lay, h.top, h.lp, h.cur, h.ok, h.fresh, h.out, rfl⟩
  | delegateInit => exact absurd fits id
  | delegateInvoke => exact absurd fits id

/-- One instruction is one command or more. -/
theorem step_ok {P : Program} (fine : Fine P) {s s' : Spec.St} {c : St} (h : Sim P s c) (hh : s.halted = false)
    (he : Spec.step P s = some s') : ∃ n c', run P (n + 1) c = some c' ∧ Sim P s' c' := by
  simp only [Spec.step, hh, Bool.false_eq_true, if_false] at he
  split at he <;> try simp at he
  rename_i f r hfs
  split at he <;> try simp at he
  rename_i M hM
  simp only [Option.bind_eq_some_iff] at he
  obtain ⟨i, hi, he⟩ := he
  have h' : Sim P { s with frames := f :: r } c := by rw [← hfs]; exact h
  have hcur : c.cur = (.meth f.m, f.pc) := h'.cur
  have hch : c.halted = false := h.halted.trans hh
  obtain ⟨k, cmd, hb, hst⟩ := step_eq h.inv (m := .meth f.m) (M := M) hM (h'.ok f (by simp)).1 hcur hi hch
  obtain ⟨n, c', hr, hs⟩ := exec_ok fine (h'.pc (f.pc + 1)) hch (M := M) hM (List.mem_of_getElem? hi) hb he
  refine ⟨n, c', ?_, hs⟩
  rw [run, hst]
  exact hr

theorem run_add {P : Program} : ∀ (n m : Nat) (c : St), run P (n + m) c = (run P n c).bind (run P m)
  | 0, m, c => by simp [run]
  | n + 1, m, c => by
    rw [Nat.add_right_comm, run, run]
    cases step P c with
    | none => rfl
    | some c' => simp only [Option.bind_some]; exact run_add n m c'

theorem spec_halted {P : Program} : ∀ {n : Nat} {s s' : Spec.St}, s.halted = true → Spec.run P n s = some s' → s' = s
  | 0, _, _, _, h => by simpa [Spec.run] using h.symm
  | n + 1, s, s', hh, h => by
    simp only [Spec.run, Spec.step, hh, if_true, Option.bind_some] at h
    exact spec_halted hh h

theorem run_ok {P : Program} (fine : Fine P) : ∀ {n : Nat} {s s' : Spec.St} {c : St}, Sim P s c → Spec.run P n s = some s' →
    ∃ n' c', run P n' c = some c' ∧ Sim P s' c' ∧ (s'.halted = false → n ≤ n')
  | 0, s, s', c, h, e => by
    simp only [Spec.run, Option.some.injEq] at e
    subst e
    exact ⟨0, c, rfl, h, fun _ => Nat.le_refl _⟩
  | n + 1, s, s', c, h, e => by
    cases hh : s.halted with
    | true =>
      have := spec_halted hh e
      subst this
      exact ⟨0, c, rfl, h, fun h => by rw [hh] at h; cases h⟩
    | false =>
      simp only [Spec.run, Option.bind_eq_some_iff] at e
      obtain ⟨s1, e1, e⟩ := e
      obtain ⟨n1, c1, hr1, h1⟩ := step_ok fine h hh e1
      obtain ⟨n2, c2, hr2, h2, hle⟩ := run_ok fine h1 e
      refine ⟨n1 + 1 + n2, c2, ?_, h2, fun hf => ?_⟩
      · rw [run_add, hr1]; exact hr2
      · have := hle hf; omega

/-- The machine starts with the call of the method 0. -/
theorem start_ok {P : Program} (fine : Fine P) {s : Spec.St} (h : Spec.start P = some s) (garbage : Nat → Unit64) :
    ∃ c, start P garbage = some c ∧ Sim P s c := by
  simp only [Spec.start, Spec.enter] at h
  cases hM : P.methods[0]? with
  | none => simp [hM] at h
  | some M =>
    simp only [hM, List.length_nil] at h
    split at h <;> try simp at h
    rename_i hu
    subst h
    obtain ⟨parsed', cache', hl, inv, hp, _⟩ := enter_eq fine
      (c := { mem := garbage, top := 0, lp := 0, cur := (.meth 0, 0) }) ⟨by simp, by simp⟩ (m := .meth 0) (M := M) hM
    refine ⟨_, hl, inv, lay_new (P := P) (fs := []) trivial M.locals (by simp) ?_ ?_ ?_, ?_, ?_, rfl, ?_, rfl, rfl, rfl⟩
    · simp [topOf, upd, lpTop]
    · simp [topOf, upd, retOf]
    · simp [topOf, upd]
    · simp [topOf, size]
    · simp [lpTop, lpOf, topOf]
    · intro g hg
      simp only [List.mem_singleton] at hg
      subst hg
      exact ⟨hp, M, hM, by simpa using hu, by simp⟩

/-! ## C112 -/

/-- The machine, on a stack with anything in it, gets so far. -/
def Shows (P : Program) (garbage : Nat → Unit64) (out : List Item) (halted : Bool) : Prop :=
  ∃ n s, (start P garbage).bind (run P n) = some s ∧ s.out = out ∧ s.halted = halted

/-- **C112, partial**: what a program shows and whether it ends is what its calls say, each with its own variables, whatever the
stack held before.  Missing: the programs that are not `Fine`, of which the refutations below show some. -/
theorem calls_partial {P : Program} (fine : Fine P) {out : List Item} {halted : Bool} (h : Spec.Shows P out halted)
    (garbage : Nat → Unit64) : Shows P garbage out halted := by
  obtain ⟨n, s, e, rfl, rfl⟩ := h
  simp only [Option.bind_eq_some_iff] at e
  obtain ⟨s0, h0, e⟩ := e
  obtain ⟨c0, hc0, sim0⟩ := start_ok fine h0 garbage
  obtain ⟨n', c', hr, sim, _⟩ := run_ok fine sim0 e
  exact ⟨n', c', by rw [hc0]; exact hr, sim.out, sim.halted⟩

theorem run_halted {P : Program} : ∀ (n : Nat) {c : St}, c.halted = true → run P n c = some c
  | 0, _, _ => rfl
  | n + 1, c, h => by
    have : step P c = some c := by simp [step, h]
    rw [run, this, Option.bind_some, run_halted n h]

theorem bind_run_add {P : Program} (o : Option St) (n m : Nat) : o.bind (run P (n + m)) = (o.bind (run P n)).bind (run P m) := by
  cases o with
  | none => rfl
  | some c => exact run_add n m c

/-- A program has one end. -/
theorem shows_unique {P : Program} {garbage : Nat → Unit64} {o o' : List Item} (h : Shows P garbage o true)
    (h' : Shows P garbage o' true) : o = o' := by
  obtain ⟨n, s, e, rfl, hs⟩ := h
  obtain ⟨n', s', e', rfl, hs'⟩ := h'
  have h1 := bind_run_add (P := P) (start P garbage) n n'
  have h2 := bind_run_add (P := P) (start P garbage) n' n
  rw [e, Option.bind_some, run_halted _ hs] at h1
  rw [e', Option.bind_some, run_halted _ hs', Nat.add_comm, h1] at h2
  rw [Option.some.inj h2]

/-- **C112, partial**: a program whose calls go on for ever runs for ever, and does not fail. -/
theorem endless_partial {P : Program} (fine : Fine P)
    (h : ∀ n, ∃ s, (Spec.start P).bind (Spec.run P n) = some s ∧ s.halted = false) (garbage : Nat → Unit64) (n : Nat) :
    ∃ s, (start P garbage).bind (run P n) = some s ∧ s.halted = false := by
  obtain ⟨s, e, hs⟩ := h n
  simp only [Option.bind_eq_some_iff] at e
  obtain ⟨s0, h0, e⟩ := e
  obtain ⟨c0, hc0, sim0⟩ := start_ok fine h0 garbage
  obtain ⟨n', c', hr, sim, hle⟩ := run_ok fine sim0 e
  have hle := hle hs
  obtain ⟨k, rfl⟩ := Nat.exists_eq_add_of_le hle
  rw [run_add] at hr
  rw [hc0, Option.bind_some]
  cases hc : run P n c0 with
  | none => simp [hc] at hr
  | some c =>
    refine ⟨c, rfl, ?_⟩
    rw [hc, Option.bind_some] at hr
    cases hh : c.halted with
    | false => rfl
    | true =>
      rw [run_halted _ hh] at hr
      cases hr
      rw [sim.halted, hs] at hh
      cases hh

/-- A program whose machine fails does not end. -/
theorem not_shows {P : Program} {garbage : Nat → Unit64} {n : Nat} (h : (start P garbage).bind (run P n) = none)
    (o : List Item) : ¬ Shows P garbage o true := by
  rintro ⟨n', s, e, -, hs⟩
  have h1 := bind_run_add (P := P) (start P garbage) n n'
  have h2 := bind_run_add (P := P) (start P garbage) n' n
  rw [h, Option.bind_none] at h1
  rw [e, Option.bind_some, run_halted _ hs, Nat.add_comm, h1] at h2
  cases h2

/-! ### Programs -/

theorem spec_shows {P : Program} {n : Nat} {o : List Item} {h : Bool}
    (e : ((Spec.start P).bind (Spec.run P n)).map (fun s => (s.out, s.halted)) = some (o, h)) : Spec.Shows P o h := by
  simp only [Option.map_eq_some_iff, Prod.mk.injEq] at e
  obtain ⟨s, e, rfl, rfl⟩ := e
  exact ⟨n, s, e, rfl, rfl⟩

/-- `static int fac(int n) { if (n) return n * fac(n - 1); return 1; }`, and `main` shows `fac(20)`. -/
def fac : Program where
  methods := [
    ⟨true, 0, 0, false, [.const 20, .call (.meth 1), .show, .halt]⟩,
    ⟨true, 1, 0, true, [.arg .int64 0, .jumpFalse 8, .arg .int64 0, .arg .int64 0, .const 1, .bin .sub, .call (.meth 1), .bin .mul,
      .ret, .const 1, .ret]⟩]
  override := fun _ m => m

theorem fac_fine : Fine fac := by
  refine ⟨by simp [fac, Fits, Meth.units], by simp [fac]⟩

example (garbage : Nat → Unit64) : Shows fac garbage [.int 2432902008176640000] true :=
  calls_partial fac_fine (spec_shows (n := 230) (by decide +kernel)) garbage

/-- `main` has a variable that `twice(ref x)` doubles, an object of a class that overrides the method 2 with the method 3, and a delegate
of the method 4 of an object. -/
def tour : Program where
  methods := [
    ⟨true, 0, 4, false, [
      .const 21, .popLocal 0, .localAddr 0, .call (.meth 1), .local 0, .show,
      .new 1, .popLocal 1, .local 1, .callVirtual 2, .show,
      .localAddr 2, .local 1, .method 4, .call .delegateCtor,
      .const 100, .localAddr 2, .const 5, .call (.delegateInvoke 1 true), .bin .add, .show, .halt]⟩,
    ⟨true, 1, 0, false, [.content .int64 0, .content .int64 0, .bin .add, .popArgAddr .int64 0, .ret]⟩,
    ⟨false, 0, 0, true, [.const 2, .ret]⟩,
    ⟨false, 0, 0, true, [.const 3, .ret]⟩,
    ⟨false, 1, 1, true, [.arg .object 0, .show, .arg .int64 1, .popLocal 0, .local 0, .local 0, .bin .mul, .ret]⟩]
  override := fun c m => if c = 1 ∧ m = 2 then 3 else m

theorem tour_fine : Fine tour := by
  refine ⟨by simp [tour, Fits, Meth.units, Delegable], by simp [tour]⟩

example (garbage : Nat → Unit64) : Shows tour garbage [.int 42, .int 3, .obj 0, .int 125] true :=
  calls_partial tour_fine (spec_shows (n := 60) (by decide +kernel)) garbage

/-- `while (true) { }` in a method that is called. -/
def loop : Program where
  methods := [⟨true, 0, 0, false, [.call (.meth 1), .halt]⟩, ⟨true, 0, 0, false, [.jump 0]⟩]
  override := fun _ m => m

theorem loop_runs : ∀ n, Spec.run loop n { frames := [⟨1, 0, [], [], []⟩, ⟨0, 1, [], [], []⟩] } =
    some { frames := [⟨1, 0, [], [], []⟩, ⟨0, 1, [], [], []⟩] }
  | 0 => rfl
  | n + 1 => loop_runs n

example (garbage : Nat → Unit64) (n : Nat) : ∃ s, (start loop garbage).bind (run loop n) = some s ∧ s.halted = false := by
  refine endless_partial ⟨by simp [loop, Fits], by simp [loop]⟩ (fun n => ?_) garbage n
  cases n with
  | zero => exact ⟨_, rfl, rfl⟩
  | succ n => exact ⟨_, loop_runs n, rfl⟩

/-! ### What does not hold -/

/-- `static void f(int a) { a = 5; }`, `static void g(ref int a) { a = 100; }`, and `main` calls `f(2)` and `g(ref x)`, and shows `x`. -/
def refs : Program where
  methods := [
    ⟨true, 0, 1, false, [.const 1, .popLocal 0, .const 2, .call (.meth 1), .localAddr 0, .call (.meth 2), .local 0, .show, .halt]⟩,
    ⟨true, 1, 0, false, [.const 5, .popArg .int64 0, .ret]⟩,
    ⟨true, 1, 0, false, [.const 100, .popArgAddr .int64 0, .ret]⟩]
  override := fun _ m => m

/-- **C112 refuted** for `ref`: an assignment to a `ref` parameter does not reach the variable of the caller when an ordinary
parameter of the same type at the same place was assigned to before. -/
theorem ref_refuted (garbage : Nat → Unit64) :
    Spec.Shows refs [.int 100] true ∧ Shows refs garbage [.int 1] true ∧ ¬ Shows refs garbage [.int 100] true := by
  have h : Shows refs garbage [.int 1] true := ⟨20, _, rfl, rfl, rfl⟩
  refine ⟨(spec_shows (n := 20) (by decide +kernel)), h, fun h' => ?_⟩
  have := shows_unique h h'
  revert this
  decide +kernel

/-- The same the other way round: `g(ref x)` and then `f(2)`. -/
def refs2 : Program where
  methods := [
    ⟨true, 0, 1, false, [.const 1, .popLocal 0, .localAddr 0, .call (.meth 2), .const 2, .call (.meth 1), .local 0, .show, .halt]⟩,
    ⟨true, 1, 0, false, [.const 5, .popArg .int64 0, .ret]⟩,
    ⟨true, 1, 0, false, [.const 100, .popArgAddr .int64 0, .ret]⟩]
  override := fun _ m => m

/-- **C112 refuted** for ordinary parameters: after an assignment to a `ref` parameter, one to an ordinary parameter of the same type
at the same place writes where its value, taken as an address, points to. -/
theorem ref_fault_refuted (garbage : Nat → Unit64) :
    Spec.Shows refs2 [.int 100] true ∧ ∀ o, ¬ Shows refs2 garbage o true :=
  ⟨(spec_shows (n := 20) (by decide +kernel)), not_shows (n := 20) rfl⟩

/-- `static int f(int a) { return a; }`, `static void g(int a, int b) { show(a); }`, and `main` calls `g(7, d(2))` where `d` is a
delegate of `f`. -/
def statics : Program where
  methods := [
    ⟨true, 0, 2, false, [.localAddr 0, .null, .method 1, .call .delegateCtor, .const 7, .localAddr 0, .const 2,
      .call (.delegateInvoke 1 true), .call (.meth 2), .halt]⟩,
    ⟨true, 1, 0, true, [.arg .int64 0, .ret]⟩,
    ⟨true, 2, 0, false, [.arg .int64 0, .show, .ret]⟩]
  override := fun _ m => m

/-- **C112 refuted** for delegates of static methods: the unit of the instance stays on the stack when the method returns, and is what
`g` gets for its first argument. -/
theorem static_delegate_refuted (garbage : Nat → Unit64) :
    Spec.Shows statics [.int 7] true ∧ Shows statics garbage [.null] true ∧ ¬ Shows statics garbage [.int 7] true := by
  have h : Shows statics garbage [.null] true := ⟨30, _, rfl, rfl, rfl⟩
  refine ⟨(spec_shows (n := 30) (by decide +kernel)), h, fun h' => ?_⟩
  have := shows_unique h h'
  revert this
  decide +kernel

/-- The method 1 shows 1, the method 2, which overrides it in the class 1, shows 2; a delegate of the method 1 is made of an object of
the class 1. -/
def virtuals : Program where
  methods := [
    ⟨true, 0, 2, false, [.localAddr 0, .new 1, .method 1, .call .delegateCtor, .localAddr 0, .call (.delegateInvoke 0 false),
      .new 1, .callVirtual 1, .halt]⟩,
    ⟨false, 0, 0, false, [.const 1, .show, .ret]⟩,
    ⟨false, 0, 0, false, [.const 2, .show, .ret]⟩]
  override := fun c m => if c = 1 ∧ m = 1 then 2 else m

/-- **C112 refuted** for delegates of virtual methods: the delegate runs the method of the base class, where a call runs that of the
object. -/
theorem virtual_delegate_refuted (garbage : Nat → Unit64) :
    Spec.Shows virtuals [.int 2, .int 2] true ∧ Shows virtuals garbage [.int 1, .int 2] true ∧
      ¬ Shows virtuals garbage [.int 2, .int 2] true := by
  have h : Shows virtuals garbage [.int 1, .int 2] true := ⟨30, _, rfl, rfl, rfl⟩
  refine ⟨(spec_shows (n := 30) (by decide +kernel)), h, fun h' => ?_⟩
  have := shows_unique h h'
  revert this
  decide +kernel

/-- `static void g(ref int a, ref int b) { a = b = 5; }`. -/
def values : Program where
  methods := [
    ⟨true, 0, 2, false, [.localAddr 0, .localAddr 1, .call (.meth 1), .local 0, .show, .halt]⟩,
    ⟨true, 2, 0, false, [.const 5, .pickArgAddr .int64 1, .popArgAddr .int64 0, .ret]⟩]
  override := fun _ m => m

/-- **C112 refuted** for the value of an assignment to a `ref` parameter: the method that has one cannot be called. -/
theorem ref_value_refuted (garbage : Nat → Unit64) :
    Spec.Shows values [.int 5] true ∧ ∀ o, ¬ Shows values garbage o true :=
  ⟨(spec_shows (n := 20) (by decide +kernel)), not_shows (n := 20) rfl⟩

end Verif.Calls
