import Verif.Proof.Expr4

/-! Running compiled expressions, for `Verif.Props.Expr`. -/

namespace Verif.Expr

open Verif.Fold Spec

/-- After a piece of code: `n` more units on the stack. -/
structure Out (m : Method) (s s' : State) (len n : Nat) (ρ : Env) : Prop where
  pc : s'.pc = s.pc + len
  lp : s'.lp = s.lp
  top : s'.top = s.top + n
  keeps : Keeps m s.lp s.top s.mem s'.mem
  frame : Frame m s.lp s'.mem ρ

/-- The unit holds the value, as the type that is wanted. -/
def Val (want : Want) (c : Const) (mem : Mem) (a : Nat) : Prop :=
  match want with
  | none => readAt c.ty mem a = c.v
  | some t => readAt t mem a = conv t c.v

/-- A call of the method with these arguments runs to its end and leaves the result. -/
def CallOK (img : Image) (junk : Junk) (f : Nat) (m' : Method) (vs : List Int) (v : Int) : Prop :=
  ∀ s : State, img.code[s.pc]? = some (.call f) → m'.params.length ≤ s.top →
    (∀ (i : Nat) t w, m'.params[i]? = some t → vs[i]? = some w →
      readAt t s.mem (8 * (s.top - m'.params.length + i)) = w) →
    ∃ s', Steps img junk s s' ∧ s'.pc = s.pc + 1 ∧ s'.lp = s.lp ∧ s'.top = s.top - m'.params.length + 1 ∧
      readAt m'.ret s'.mem (8 * (s.top - m'.params.length)) = v ∧
      ∀ x, x < 8 * (s.top - m'.params.length) → s'.mem x = s.mem x

theorem Pushed.out {lvl : Level} {p : Prog} {m : Method} (hm : Supported lvl p m) {s s' : State} {len : Nat} {ρ : Env}
    (h : Pushed s s' len) (hf : Frame m s.lp s.mem ρ) (ht : s.lp + m.units ≤ s.top) : Out m s s' len 1 ρ :=
  ⟨h.pc, h.lp, h.top, .of_below h.mem ht, hf.of_below hm fun x hx => h.mem x (by omega)⟩

theorem Val.of_own {p : Prog} {m : Method} {e : Exp} {want : Want} {c : Const} {mem : Mem} {a : Nat}
    (h : readAt c.ty mem a = c.v) (ht : vty p m e = some c.ty) (hw : ∀ t, want = some t → fits p m t e = true)
    (hc : converted e = false) : Val want c mem a := by
  cases want with
  | none => exact h
  | some t =>
    obtain ⟨te, h1, h2, h3⟩ := fits_some (hw t rfl)
    rw [ht] at h1
    simp only [Option.some.injEq] at h1
    rw [hc] at h3
    simp only [Bool.false_eq_true, false_or] at h3
    simp only [Val]
    rw [← h]
    rcases sameKind_cases h2 with ⟨i1, i2⟩ | ⟨i1, i2⟩
    · rw [← h1] at i2 h3
      exact readAt_narrow i1 i2 h3 mem a
    · rw [i1, h1, i2]
      exact (readAt_valid rfl mem a).symm

theorem fits_plain {p : Prog} {m : Method} {e : Exp} {want : Want}
    (hw : ∀ t, want = some t → fits p m t e = true) : ∀ t, want = some t → plain t = true := by
  intro t ht
  obtain ⟨_, _, h, _⟩ := fits_some (hw t ht)
  exact (sameKind_plain h).1

/-- The conversion behind an expression. -/
theorem finish_post {lvl : Level} {p : Prog} {img : Image} {junk : Junk} {m : Method} (hm : Supported lvl p m) {want : Want}
    {t : VT} {c : Const} {c0 : List Ins} {s sa : State} {ρ : Env} (hct : c.ty = t) (oa : Out m s sa c0.length 1 ρ)
    (hat : CodeAt img.code s.pc ((post want t c0).map (create m))) (hw : ∀ w, want = some w → plain w = true)
    (h1 : want = none → readAt c.ty sa.mem (8 * s.top) = c.v)
    (h2 : ∀ w, want = some w → conv w (readAt c.ty sa.mem (8 * s.top)) = conv w c.v) (hle : s.lp + m.units ≤ s.top) :
    ∃ s', Steps img junk sa s' ∧ Out m s s' (post want t c0).length 1 ρ ∧ Val want c s'.mem (8 * s.top) := by
  subst hct
  obtain ⟨s', g1, g2, g3, g4, g5, g6, g7⟩ := run_post (junk := junk) oa.pc oa.top hat hw
  refine ⟨s', g1, ⟨g2, by rw [g3, oa.lp], g4, oa.keeps.trans (.of_below g5 hle),
    oa.frame.of_below hm fun x hx => g5 x (by omega)⟩, ?_⟩
  cases want with
  | none => simp only [Val]; rw [g6 rfl]; exact h1 rfl
  | some w => simp only [Val]; rw [g7 w rfl]; exact h2 w rfl

/-- The same for a value that is there as its own type. -/
theorem finish_own {lvl : Level} {p : Prog} {img : Image} {junk : Junk} {m : Method} (hm : Supported lvl p m) {want : Want}
    {t : VT} {c : Const} {c0 : List Ins} {s sa : State} {ρ : Env} (hct : c.ty = t) (oa : Out m s sa c0.length 1 ρ)
    (hat : CodeAt img.code s.pc ((post want t c0).map (create m))) (hw : ∀ w, want = some w → plain w = true)
    (h : readAt c.ty sa.mem (8 * s.top) = c.v) (hle : s.lp + m.units ≤ s.top) :
    ∃ s', Steps img junk sa s' ∧ Out m s s' (post want t c0).length 1 ρ ∧ Val want c s'.mem (8 * s.top) :=
  finish_post hm hct oa hat hw (fun _ => h) (fun w _ => by rw [h]) hle

/-- The same for a value that was pushed as the type that is wanted. -/
theorem finish_again {lvl : Level} {p : Prog} {img : Image} {junk : Junk} {m : Method} (hm : Supported lvl p m) {want : Want}
    {e : Exp} {t : VT} {c : Const} {c0 : List Ins} {s sa : State} {ρ : Env} (hct : c.ty = t)
    (oa : Out m s sa c0.length 1 ρ) (hat : CodeAt img.code s.pc ((post want t c0).map (create m)))
    (ht : vty p m e = some c.ty) (hw : ∀ w, want = some w → fits p m w e = true) (hv : conv c.ty c.v = c.v)
    (h : Val want c sa.mem (8 * s.top)) (hle : s.lp + m.units ≤ s.top) :
    ∃ s', Steps img junk sa s' ∧ Out m s s' (post want t c0).length 1 ρ ∧ Val want c s'.mem (8 * s.top) := by
  refine finish_post hm hct oa hat (fits_plain hw) (fun hn => by subst hn; exact h) (fun w hwt => ?_) hle
  subst hwt
  obtain ⟨te, e1, e2, _⟩ := fits_some (hw w rfl)
  rw [ht] at e1
  simp only [Option.some.injEq] at e1
  subst e1
  rcases sameKind_cases e2 with ⟨i1, i2⟩ | ⟨i1, i2⟩
  · exact again i2 i1 hv h
  · simp only [Val] at h
    rw [i1] at h ⊢
    rw [i2, h]
    exact conv_idem rfl _

/-- The code of an expression computes its value. -/
def RunsExpr (lvl : Level) (p : Prog) (img : Image) (junk : Junk) (m : Method) (call : Nat → List Int → Option Int)
    (e : Exp) : Prop :=
  ∀ (want : Want) (marked : List Nat) (code : List Ins) (ρ ρ' : Env) (c : Const) (s : State),
    compile lvl p m marked want e = some code → safe lvl p m e = true →
    (∀ t, want = some t → fits p m t e = true) → eval p call m e ρ = some (c, ρ') →
    CodeAt img.code s.pc (code.map (create m)) → Frame m s.lp s.mem ρ → s.lp + m.units ≤ s.top →
    ∃ s', Steps img junk s s' ∧ Out m s s' code.length 1 ρ' ∧ Val want c s'.mem (8 * s.top)

/-- The code of arguments computes their values. -/
def RunsArgs (lvl : Level) (p : Prog) (img : Image) (junk : Junk) (m : Method) (call : Nat → List Int → Option Int)
    (args : Args) : Prop :=
  ∀ (marked : List Nat) (ts : List VT) (code : List Ins) (ρ ρ' : Env) (vs : List Int) (s : State),
    compileArgs lvl p m marked ts args = some code → safeArgs lvl p m ts args = true →
    evalArgs p call m ts args ρ = some (vs, ρ') →
    CodeAt img.code s.pc (code.map (create m)) → Frame m s.lp s.mem ρ → s.lp + m.units ≤ s.top →
    vs.length = ts.length ∧ ∃ s', Steps img junk s s' ∧ Out m s s' code.length ts.length ρ' ∧
      ∀ (i : Nat) t w, ts[i]? = some t → vs[i]? = some w → readAt t s'.mem (8 * (s.top + i)) = w

/-- The operator of a binary operation. -/
theorem finish_bin {lvl : Level} {p : Prog} {img : Image} {junk : Junk} {m : Method} (hm : Supported lvl p m)
    {s sa sb : State} {la lb : Nat} {ρ1 ρ2 : Env} {op : Op} {x y c : Const} (oa : Out m s sa la 1 ρ1)
    (ob : Out m sa sb lb 1 ρ2) (hx : readAt x.ty sa.mem (8 * s.top) = x.v)
    (hy : readAt y.ty sb.mem (8 * (s.top + 1)) = y.v) (hc : img.code[sb.pc]? = some (.bin op x.ty y.ty))
    (hr : result (vmBinary op x y) = some c) (hp : plain c.ty = true) (hv : conv c.ty c.v = c.v)
    (hle : s.lp + m.units ≤ s.top) :
    ∃ s', Steps img junk sb s' ∧ Out m s s' (la + lb + 1) 1 ρ2 ∧ readAt c.ty s'.mem (8 * s.top) = c.v := by
  have kb : Keeps m s.lp (s.top + 1) sa.mem sb.mem := by
    have := ob.keeps
    rwa [oa.lp, oa.top] at this
  have hx' : readAt x.ty sb.mem (8 * s.top) = x.v := by rw [kb.read hle (by omega), hx]
  obtain ⟨s', g1, g2, g3, g4, g5, g6⟩ := run_bin (junk := junk) (hp := hp) hc (by rw [ob.top, oa.top]) hx' hy hr hv
  refine ⟨s', g1, ⟨?_, ?_, g4, ?_, ?_⟩, g6⟩
  · rw [g2, ob.pc, oa.pc]; omega
  · rw [g3, ob.lp, oa.lp]
  · exact (oa.keeps.trans (kb.mono (by omega))).trans (.of_below g5 hle)
  · have := ob.frame
    rw [oa.lp] at this
    exact this.of_below hm fun a ha => g5 a (by omega)

theorem result_bits {o : Arith} {t1 t2 r : VT} (h1 : t1.isInt = true) (h2 : t2.isInt = true)
    (hr : resultOf (.arith o) t1 t2 = some r) : r.isInt = true ∧ t1.bits ≤ r.bits := by
  rw [resultOf_int _ h1 h2] at hr
  have : ∀ t1 ∈ allVT, ∀ t2 ∈ allVT, t1.isInt = true → t2.isInt = true → ∀ r, lookup intRows t1 t2 = some r →
      r.isInt = true ∧ t1.bits ≤ r.bits := by
    intro t1 _ t2 _ h1 h2 r hr
    rw [table_common _ _ h1 h2] at hr
    simp only [Option.some.injEq] at hr
    subst hr
    revert h1 h2
    cases t1 <;> cases t2 <;> decide
  exact this t1 (mem_allVT _) t2 (mem_allVT _) h1 h2 r hr

/-- Reading a variable as its own type. -/
theorem run_var {lvl : Level} {p : Prog} {img : Image} {junk : Junk} {m : Method} (hm : Supported lvl p m)
    {marked : List Nat} {x : Var} {t : VT} {ins : Ins} {s : State} {ρ : Env} {v : Int}
    (hi : readIns marked none x t = some ins) (ht : m.tyOf x = some t) (hp : plain t = true)
    (hc : img.code[s.pc]? = some (create m ins)) (hf : Frame m s.lp s.mem ρ) (hle : s.lp + m.units ≤ s.top)
    (hv : ρ.get x = some v) :
    ∃ s', Steps img junk s s' ∧ Out m s s' 1 1 ρ ∧ readAt t s'.mem (8 * s.top) = v ∧ conv t v = v := by
  obtain ⟨s', h1, h2, h3⟩ := run_read (junk := junk) hi ht hc
  obtain ⟨h4, h5⟩ := h3 ρ v hf hv hp (by simp)
  refine ⟨s', h1, h2.out hm hf hle, ?_, h5⟩
  cases x with
  | loc i => simpa [h5] using h4
  | par i => exact h4

/-- The operation of a compound assignment. -/
theorem run_opAssign {lvl : Level} {p : Prog} {img : Image} {junk : Junk} {m : Method}
    {call : Nat → List Int → Option Int} (hm : Supported lvl p m) {marked : List Nat} {o : Arith} {x : Var} {e : Exp}
    (ih : RunsExpr lvl p img junk m call e) {t : VT} {code : List Ins} {ρ ρ1 : Env} {v : Int} {y z : Const} {s : State}
    (hs : safe lvl p m (.opAssign o x e) = true) (ht : m.tyOf x = some t)
    (hc : ((vty p m e).bind fun te => binIns (shortcut lvl (.arith o) (.var x) e) (.arith o) t te
      (fun _ => do some [← readIns marked none x t]) (fun _ => compile lvl p m marked none e)) = some code)
    (hv : ρ.get x = some v) (hy : eval p call m e ρ = some (y, ρ1)) (hz : operate (.arith o) ⟨t, v⟩ y = some z)
    (hat : CodeAt img.code s.pc (code.map (create m))) (hf : Frame m s.lp s.mem ρ) (hle : s.lp + m.units ≤ s.top) :
    ∃ s', Steps img junk s s' ∧ Out m s s' code.length 1 ρ1 ∧ readAt t s'.mem (8 * s.top) = conv t z.v := by
  obtain ⟨s1, ⟨t', te, g1, g2, g3, g4⟩, hn⟩ := safe_opAssign hs
  rw [ht] at g1; simp only [Option.some.injEq] at g1; subst g1
  have hpt := plain_of_int g2
  have ety := eval_ty e s1 hy
  rw [g3] at ety; simp only [Option.some.injEq] at ety; subst ety
  obtain ⟨z1, w, z2, z3⟩ := operate_ty hz
  obtain ⟨zi, zb⟩ := result_bits (o := o) g2 g4 z1
  rw [g3] at hc
  simp only [Option.bind_eq_bind, Option.bind_some] at hc
  cases hsh : shortcut lvl (.arith o) (.var x) e with
  | both =>
    simp only [hsh, binIns, Option.bind_eq_bind, Option.bind_eq_some_iff, Option.some.injEq] at hc
    obtain ⟨ca, ⟨ins, hi, rfl⟩, cb, hcb, rfl⟩ := hc
    simp only [List.map_append, List.append_assoc, List.map_cons, List.map_nil] at hat
    obtain ⟨sa, ra, oa, va, _⟩ := run_var (junk := junk) hm hi ht hpt hat.left.head hf hle hv
    obtain ⟨sb, rb, ob, vb⟩ := ih none marked cb ρ ρ1 y sa hcb s1 (by simp) hy
      (by rw [oa.pc]; simpa using hat.right.left) (by rw [oa.lp]; exact oa.frame) (by rw [oa.lp, oa.top]; omega)
    have hcmd : img.code[sb.pc]? = some (.bin (.arith o) t y.ty) := by
      have := hat.right.right.head
      rw [ob.pc, oa.pc]
      simpa [create] using this
    have hz' : result (vmBinary (BOp.arith o).op ⟨t, v⟩ y) = some z :=
      (result_vmBinary (.arith o) _ _ z1 (by simp [sameKind, g2, g4])).trans hz
    obtain ⟨s', r', o', v'⟩ := finish_bin (junk := junk) hm oa ob (x := ⟨t, v⟩) (y := y) (c := z) va
      (by rw [← oa.top]; exact vb) hcmd hz' (plain_of_int zi) (by rw [z3]; exact conv_idem (plain_of_int zi) _) hle
    refine ⟨s', (ra.trans rb).trans r', ?_, ?_⟩
    · have e : ([ins] ++ cb ++ [Ins.bin (.arith o) t y.ty]).length = 1 + cb.length + 1 := by simp; omega
      rw [e]; exact o'
    · rw [readAt_narrow g2 zi zb, v']
  | left =>
    simp only [hsh, binIns, Option.bind_eq_bind, Option.bind_eq_some_iff, Option.some.injEq] at hc
    obtain ⟨ins, hi, rfl⟩ := hc
    obtain ⟨sa, ra, oa, va, vv⟩ := run_var (junk := junk) hm hi ht hpt hat.head hf hle hv
    have hnt : z.ty = t := by
      simp only [neutral, hsh, vty, ht, g3, Option.bind_eq_bind, Option.bind_some, beq_iff_eq] at hn
      have : resultOf (BOp.arith o).op t y.ty = some z.ty := z1
      rw [this] at hn
      simpa using hn.symm
    have hcase := shortcut_cases.1 hsh
    have hk : ∃ k, execute e = some (some k) ∧ ((k.v = 0 ∧ (o = .add ∨ o = .sub ∨ o = .bitOr ∨ o = .shl ∨ o = .shr)) ∨
        (k.v = 1 ∧ (o = .mul ∨ o = .div))) := by
      rcases hcase with ⟨h1, h2⟩ | ⟨h1, h2⟩
      · obtain ⟨k, hk, h0⟩ := isValue_some h1
        exact ⟨k, hk, .inl ⟨h0, by simpa using h2⟩⟩
      · obtain ⟨k, hk, h0⟩ := isValue_some h1
        exact ⟨k, hk, .inr ⟨h0, by simpa using h2⟩⟩
    obtain ⟨k, hk, hk'⟩ := hk
    obtain ⟨rfl, rfl⟩ := execute_eval e s1 hk hy
    have := left_neutral hz g2 g4 hnt vv hk'
    subst this
    exact ⟨sa, ra, oa, by rw [va]; exact vv.symm⟩
  | right =>
    rcases shortcut_cases.2.1 hsh with ⟨h1, _⟩ | ⟨h1, _⟩ <;> simp [isValue, execute] at h1
  | negate =>
    have h1 := (shortcut_cases.2.2 hsh).1
    simp [isValue, execute] at h1

/-- The sum of an increment. -/
theorem run_inc {lvl : Level} {p : Prog} {img : Image} {junk : Junk} {m : Method} (hm : Supported lvl p m)
    {marked : List Nat} {dec : Bool} {x : Var} {t : VT} {ins : Ins} {ρ : Env} {v : Int} {z : Const} {s : State}
    {rest : List Cmd} (hi : readIns marked none x t = some ins) (ht : m.tyOf x = some t) (hti : t.isInt = true)
    (hv : ρ.get x = some v) (hz : operate (.arith (if dec then .sub else .add)) ⟨t, v⟩ ⟨.int32, 1⟩ = some z)
    (hat : CodeAt img.code s.pc (create m ins :: .pushConst .int32 1 ::
      .bin (.arith (if dec then .sub else .add)) t .int32 :: rest))
    (hf : Frame m s.lp s.mem ρ) (hle : s.lp + m.units ≤ s.top) :
    ∃ s', Steps img junk s s' ∧ Out m s s' 3 1 ρ ∧ readAt t s'.mem (8 * s.top) = conv t z.v := by
  obtain ⟨z1, w, z2, z3⟩ := operate_ty hz
  obtain ⟨zi, zb⟩ := result_bits (t2 := .int32) hti rfl z1
  obtain ⟨sa, ra, oa, va, _⟩ := run_var (junk := junk) hm hi ht (plain_of_int hti) hat.head hf hle hv
  obtain ⟨sb, rb, pb, vb⟩ := run_const (junk := junk) (img := img) (m := m) (want := none) (c := ⟨.int32, 1⟩) (s := sa)
    (by rw [oa.pc]; exact hat.tail.head) rfl rfl (by simp)
  have ob : Out m sa sb 1 1 ρ := pb.out hm (by rw [oa.lp]; exact oa.frame) (by rw [oa.lp, oa.top]; omega)
  have hcmd : img.code[sb.pc]? = some (.bin (.arith (if dec then .sub else .add)) t .int32) := by
    have := hat.tail.tail.head
    rw [ob.pc, oa.pc]
    exact this
  have hz' : result (vmBinary (BOp.arith (if dec then .sub else .add)).op ⟨t, v⟩ ⟨.int32, 1⟩) = some z :=
    (result_vmBinary (.arith _) _ _ z1 (by
      have h32 : VT.int32.isInt = true := rfl
      simp [sameKind, hti, h32])).trans hz
  obtain ⟨s', r', o', v'⟩ := finish_bin (junk := junk) hm oa ob (x := ⟨t, v⟩) (y := ⟨.int32, 1⟩) (c := z) va
    (by rw [← oa.top]; exact vb) hcmd hz' (plain_of_int zi) (by rw [z3]; exact conv_idem (plain_of_int zi) _) hle
  refine ⟨s', (ra.trans rb).trans r', o', ?_⟩
  rw [readAt_narrow hti zi zb, v']

/-- Storing the value on top of the stack. -/
theorem finish_store {lvl : Level} {p : Prog} {img : Image} {junk : Junk} {m : Method} (hm : Supported lvl p m) {pick : Bool}
    {x : Var} {t : VT} {s sa : State} {ρ : Env} {v : Int} {la : Nat} (oa : Out m s sa la 1 ρ)
    (hc : img.code[sa.pc]? = some (create m (storeIns pick x t))) (ht : m.tyOf x = some t) (hp : plain t = true)
    (hr : readAt t sa.mem (8 * s.top) = v) (hle : s.lp + m.units ≤ s.top) :
    ∃ s', Steps img junk sa s' ∧ Out m s s' (la + 1) (if pick then 1 else 0) (ρ.set x v) ∧
      readAt t s'.mem (8 * s.top) = v := by
  have hfr : Frame m sa.lp sa.mem ρ := by rw [oa.lp]; exact oa.frame
  have htop := oa.top
  have hlp := oa.lp
  obtain ⟨s', g1, g2, g3, g4, g5, g6⟩ := run_store (junk := junk) hm hc ht hfr hp (by omega)
    (show readAt t sa.mem (8 * (sa.top - 1)) = v by rw [htop, Nat.add_sub_cancel]; exact hr)
  rw [oa.lp] at g5 g6
  refine ⟨s', g1, ⟨?_, ?_, ?_, ?_, g6⟩, ?_⟩
  · rw [g2, oa.pc]; omega
  · rw [g3, oa.lp]
  · rw [g4, htop]; cases pick <;> rfl
  · exact oa.keeps.trans (g5.mono (by omega))
  · rw [g5.read hle (by omega)]; exact hr

theorem compile_assign_execute {x : Var} {e : Exp} {c : Const} : execute (.assign x e) ≠ some (some c) := by
  rw [execute]; simp [Option.bind_eq_some_iff]

theorem compile_opAssign_execute {o : Arith} {x : Var} {e : Exp} {c : Const} : execute (.opAssign o x e) ≠ some (some c) := by
  rw [execute]; simp [Option.bind_eq_some_iff]

/-- Every expression. -/
theorem run_expr {lvl : Level} {p : Prog} {img : Image} {junk : Junk} {m : Method} {call : Nat → List Int → Option Int}
    (hm : Supported lvl p m) (hret : ∀ (f : Nat) (m' : Method), p[f]? = some m' → plain m'.ret = true)
    (hcall : ∀ (f : Nat) (m' : Method) vs v, p[f]? = some m' → call f vs = some v → vs.length = m'.params.length →
      CallOK img junk f m' vs v) (e : Exp) : RunsExpr lvl p img junk m call e := by
  refine Exp.rec (motive_1 := RunsExpr lvl p img junk m call) (motive_2 := RunsArgs lvl p img junk m call)
    ?const ?var ?bin ?un ?assign ?opAssign ?inc ?cond ?cast ?call ?nil ?cons e
  case const =>
    intro k want marked code ρ ρ' c s hc hs hw hv hat hf hle
    rw [compile] at hc
    simp only [Option.some.injEq] at hc
    subst hc
    rw [eval] at hv
    simp only [Option.some.injEq, Prod.mk.injEq] at hv
    obtain ⟨rfl, rfl⟩ := hv
    rw [safe] at hs
    simp only [Bool.and_eq_true, beq_iff_eq] at hs
    obtain ⟨sa, h1, h2, h3⟩ := run_const (junk := junk) hat.before_post.head hs.1 hs.2 (fits_plain hw)
    obtain ⟨s', h4, h5, h6⟩ := finish_again (junk := junk) (c0 := [constIns want k]) (e := .const k) hm rfl
      (h2.out hm hf hle) hat (by rw [vty]) hw hs.2 (by cases want <;> exact h3) hle
    exact ⟨s', h1.trans h4, h5, h6⟩
  case var =>
    intro x want marked code ρ ρ' c s hc hs hw hv hat hf hle
    have hty := eval_ty (.var x) hs hv
    rw [compile] at hc
    simp only [Option.bind_eq_bind, Option.bind_eq_some_iff, Option.some.injEq] at hc
    obtain ⟨t, ht, ins, hi, rfl⟩ := hc
    rw [eval] at hv
    simp only [ht, Option.bind_eq_bind, Option.bind_some, Option.bind_eq_some_iff, Option.some.injEq, Prod.mk.injEq] at hv
    obtain ⟨v, hv, rfl, rfl⟩ := hv
    rw [safe] at hs
    obtain ⟨t', ht', hp⟩ := plainVar_some hs
    rw [ht] at ht'; simp only [Option.some.injEq] at ht'; subst ht'
    obtain ⟨sa, h1, h2, h3⟩ := run_read (junk := junk) hi ht hat.before_post.head
    obtain ⟨h4, h5⟩ := h3 ρ v hf hv hp (fits_plain hw)
    suffices hx : ∃ s', Steps img junk sa s' ∧ Out m s s' (post want t [ins]).length 1 ρ ∧
        Val want ⟨t, v⟩ s'.mem (8 * s.top) by
      obtain ⟨s', g1, g2, g3⟩ := hx
      exact ⟨s', h1.trans g1, g2, g3⟩
    cases x with
    | loc i =>
      refine finish_again (c0 := [ins]) (e := .var (.loc i)) hm rfl (h2.out hm hf hle) hat hty hw h5 ?_ hle
      cases want with
      | none => simpa [Val, h5] using h4
      | some t' => exact h4
    | par i => exact finish_own (c0 := [ins]) hm rfl (h2.out hm hf hle) hat (fits_plain hw) h4 hle
  case bin =>
    intro o a b iha ihb want marked code ρ ρ' c s hc hs hw hv hat hf hle
    have hty := eval_ty (.bin o a b) hs hv
    obtain ⟨s1, s2, ⟨t1, t2, r, h1, h2, h3, h4, h5⟩, hlazy, hn⟩ := safe_bin hs
    rw [compile] at hc
    rcases foldOr_some hc with ⟨_, k, hk, rfl⟩ | ⟨hc, hnot⟩
    · obtain ⟨rfl, rfl⟩ := execute_eval _ hs hk hv
      obtain ⟨_, e2, e3⟩ := execute_ty _ hs hk
      obtain ⟨s', g1, g2, g3⟩ := run_const (junk := junk) hat.head e2 e3 (fits_plain hw)
      exact ⟨s', g1, g2.out hm hf hle, by cases want <;> exact g3⟩
    · simp only [h1, h2, h4, Option.bind_eq_bind, Option.bind_some, Option.bind_eq_some_iff, Option.some.injEq] at hc
      obtain ⟨code, hc', rfl⟩ := hc
      replace hc := hc'
      suffices hown : ∃ s', Steps img junk s s' ∧ Out m s s' code.length 1 ρ' ∧ readAt c.ty s'.mem (8 * s.top) = c.v by
        obtain ⟨sa, q1, q2, q3⟩ := hown
        rw [h4] at hty; simp only [Option.some.injEq] at hty
        obtain ⟨s', q4, q5, q6⟩ := finish_own (junk := junk) hm hty.symm q2 hat (fits_plain hw) q3 hle
        exact ⟨s', q1.trans q4, q5, q6⟩
      replace hat := hat.before_post
      cases hsh : shortcut lvl o a b with
      | both =>
        simp only [hsh, binIns, Option.bind_eq_bind, Option.bind_eq_some_iff, Option.some.injEq] at hc
        obtain ⟨ca, hca, cb, hcb, rfl⟩ := hc
        simp only [List.map_append, List.append_assoc, List.map_cons, List.map_nil] at hat
        have hlen : (ca ++ cb ++ [Ins.bin o.op t1 t2]).length = ca.length + cb.length + 1 := by simp; omega
        rw [hlen]
        -- strict operators
        have strict : ∀ x y ρ1, eval p call m a ρ = some (x, ρ1) → eval p call m b ρ1 = some (y, ρ') →
            operate o.op x y = some c → ∃ s', Steps img junk s s' ∧ Out m s s' (ca.length + cb.length + 1) 1 ρ' ∧
              readAt c.ty s'.mem (8 * s.top) = c.v := by
          intro x y ρ1 ex ey hz
          have tx := eval_ty a s1 ex
          have tY := eval_ty b s2 ey
          rw [h1] at tx; rw [h2] at tY
          simp only [Option.some.injEq] at tx tY
          subst tx; subst tY
          obtain ⟨sa, ra, oa, va⟩ := iha none marked ca ρ ρ1 x s hca s1 (by simp) ex hat.left hf hle
          obtain ⟨sb, rb, ob, vb⟩ := ihb none marked cb ρ1 ρ' y sa hcb s2 (by simp) ey
            (by rw [oa.pc]; simpa using hat.right.left) (by rw [oa.lp]; exact oa.frame) (by rw [oa.lp, oa.top]; omega)
          have hcmd : img.code[sb.pc]? = some (.bin o.op x.ty y.ty) := by
            have := hat.right.right.head
            rw [ob.pc, oa.pc]
            simpa [create] using this
          obtain ⟨z1, w, _, z3⟩ := operate_ty hz
          have hpz := resultOf_plain _ h5 z1
          obtain ⟨s', r', o', v'⟩ := finish_bin (junk := junk) hm oa ob va (by rw [← oa.top]; exact vb) hcmd
            ((result_vmBinary o _ _ h3 h5).trans hz) hpz (by rw [z3]; exact conv_idem hpz _) hle
          exact ⟨s', (ra.trans rb).trans r', o', v'⟩
        -- the second operand of `&&` and `||`
        have lazy : ∀ x, (o = .and ∨ o = .or) → eval p call m a ρ = some (x, ρ') → c = x →
            (∀ y, y.ty = VT.bool → conv .bool y.v = y.v → operate o.op x y = some x) →
            ∃ s', Steps img junk s s' ∧ Out m s s' (ca.length + cb.length + 1) 1 ρ' ∧
              readAt c.ty s'.mem (8 * s.top) = c.v := by
          intro x ho ex hcx hop
          subst hcx
          have tx := eval_ty a s1 ex
          rw [h1] at tx
          simp only [Option.some.injEq] at tx
          subst tx
          obtain ⟨b1, b2, _⟩ := logic_types ho h5 h3
          obtain ⟨sa, ra, oa, va⟩ := iha none marked ca ρ ρ' c s hca s1 (by simp) ex hat.left hf hle
          obtain ⟨sb, rb, pb⟩ := run_quiet (junk := junk) hret b (want := none) (s := sa) (hlazy ho) s2 (by simp) hcb
            (by rw [oa.pc]; simpa using hat.right.left)
          have ob : Out m sa sb cb.length 1 ρ' :=
            pb.out hm (by rw [oa.lp]; exact oa.frame) (by rw [oa.lp, oa.top]; omega)
          have hcmd : img.code[sb.pc]? = some (.bin o.op c.ty t2) := by
            have := hat.right.right.head
            rw [ob.pc, oa.pc]
            simpa [create] using this
          have hz := hop ⟨t2, readAt t2 sb.mem (8 * (s.top + 1))⟩ b2 (by rw [b2]; exact readAt_valid rfl _ _)
          have hpz : plain c.ty = true := by rw [b1]; rfl
          have hcv : conv c.ty c.v = c.v := by
            rw [← show readAt c.ty sa.mem (8 * s.top) = c.v from va]; exact readAt_valid hpz _ _
          obtain ⟨s', r', o', v'⟩ := finish_bin (junk := junk) hm oa ob (y := ⟨t2, _⟩) va rfl hcmd
            ((result_vmBinary o _ _ h3 h5).trans hz) hpz hcv hle
          exact ⟨s', (ra.trans rb).trans r', o', v'⟩
        -- values of truth values
        have hav : ∀ x ρ1, eval p call m a ρ = some (x, ρ1) → plain x.ty = true → conv x.ty x.v = x.v := by
          intro x ρ1 ex hpx
          obtain ⟨sa, ra, oa, va⟩ := iha none marked ca ρ ρ1 x s hca s1 (by simp) ex hat.left hf hle
          rw [← show readAt x.ty sa.mem (8 * s.top) = x.v from va]; exact readAt_valid hpx _ _
        have hbv : ∀ x y ρ1, eval p call m a ρ = some (x, ρ1) → eval p call m b ρ1 = some (y, ρ') → plain y.ty = true →
            conv y.ty y.v = y.v := by
          intro x y ρ1 ex ey hpy
          obtain ⟨sa, ra, oa, va⟩ := iha none marked ca ρ ρ1 x s hca s1 (by simp) ex hat.left hf hle
          obtain ⟨sb, rb, ob, vb⟩ := ihb none marked cb ρ1 ρ' y sa hcb s2 (by simp) ey
            (by rw [oa.pc]; simpa using hat.right.left) (by rw [oa.lp]; exact oa.frame) (by rw [oa.lp, oa.top]; omega)
          rw [← show readAt y.ty sb.mem (8 * sa.top) = y.v from vb]; exact readAt_valid hpy _ _
        cases o with
        | and =>
          obtain ⟨b1, b2, _⟩ := logic_types (.inl rfl) h5 h3
          subst b1; subst b2
          rw [eval] at hv
          simp only [Option.bind_eq_bind, Option.bind_eq_some_iff] at hv
          obtain ⟨⟨x, ρ1⟩, ex, hv⟩ := hv
          simp only at hv
          have tx := eval_ty a s1 ex
          rw [h1] at tx; simp only [Option.some.injEq] at tx
          have vx := hav x ρ1 ex (by rw [← tx]; rfl)
          have tot : ∀ y : Const, y.ty = .bool → conv .bool y.v = y.v → ∃ k, operate .logicAnd x y = some k := by
            intro y hy _
            unfold operate
            rw [← tx, hy]
            exact ⟨_, rfl⟩
          split at hv
          · rename_i h0
            simp only [Option.some.injEq, Prod.mk.injEq] at hv
            obtain ⟨rfl, rfl⟩ := hv
            refine lazy x (.inl rfl) ex rfl ?_
            intro y hy hvy
            obtain ⟨k, hk⟩ := tot y hy hvy
            have := (operate_and tx.symm hy hvy (by rw [← tx] at vx; exact vx) hk).1 h0
            rw [← this]; exact this ▸ hk
          · rename_i h0
            have tY := eval_ty b s2 hv
            rw [h2] at tY; simp only [Option.some.injEq] at tY
            have vy := hbv x c ρ1 ex hv (by rw [← tY]; rfl)
            rw [← tY] at vy
            obtain ⟨k, hk⟩ := tot c tY.symm vy
            have := (operate_and tx.symm tY.symm vy (by rw [← tx] at vx; exact vx) hk).2 h0
            exact strict x c ρ1 ex hv (this ▸ hk)
        | or =>
          obtain ⟨b1, b2, _⟩ := logic_types (.inr rfl) h5 h3
          subst b1; subst b2
          rw [eval] at hv
          simp only [Option.bind_eq_bind, Option.bind_eq_some_iff] at hv
          obtain ⟨⟨x, ρ1⟩, ex, hv⟩ := hv
          simp only at hv
          have tx := eval_ty a s1 ex
          rw [h1] at tx; simp only [Option.some.injEq] at tx
          have vx := hav x ρ1 ex (by rw [← tx]; rfl)
          have tot : ∀ y : Const, y.ty = .bool → conv .bool y.v = y.v → ∃ k, operate .logicOr x y = some k := by
            intro y hy _
            unfold operate
            rw [← tx, hy]
            exact ⟨_, rfl⟩
          split at hv
          · rename_i h0
            have tY := eval_ty b s2 hv
            rw [h2] at tY; simp only [Option.some.injEq] at tY
            have vy := hbv x c ρ1 ex hv (by rw [← tY]; rfl)
            rw [← tY] at vy
            obtain ⟨k, hk⟩ := tot c tY.symm vy
            have := (operate_or tx.symm tY.symm vy (by rw [← tx] at vx; exact vx) hk).1 h0
            exact strict x c ρ1 ex hv (this ▸ hk)
          · rename_i h0
            simp only [Option.some.injEq, Prod.mk.injEq] at hv
            obtain ⟨rfl, rfl⟩ := hv
            refine lazy x (.inr rfl) ex rfl ?_
            intro y hy hvy
            obtain ⟨k, hk⟩ := tot y hy hvy
            have := (operate_or tx.symm hy hvy (by rw [← tx] at vx; exact vx) hk).2 h0
            exact this ▸ hk
        | arith q =>
          rw [eval] at hv
          · simp only [Option.bind_eq_bind, Option.bind_eq_some_iff, Option.some.injEq, Prod.mk.injEq] at hv
            obtain ⟨⟨x, ρ1⟩, ex, ⟨y, ρ2⟩, ey, z, hz, rfl, rfl⟩ := hv
            exact strict x y ρ1 ex ey hz
          · simp
          · simp
        | cmp q =>
          rw [eval] at hv
          · simp only [Option.bind_eq_bind, Option.bind_eq_some_iff, Option.some.injEq, Prod.mk.injEq] at hv
            obtain ⟨⟨x, ρ1⟩, ex, ⟨y, ρ2⟩, ey, z, hz, rfl, rfl⟩ := hv
            exact strict x y ρ1 ex ey hz
          · simp
          · simp
      | left =>
        simp only [hsh, binIns] at hc
        simp only [neutral, hsh, beq_iff_eq] at hn
        rw [h1, h4] at hn; simp only [Option.some.injEq] at hn; subst hn
        -- what the first operand is
        have main : ∀ x ρ1, eval p call m a ρ = some (x, ρ1) →
            ∃ s', Steps img junk s s' ∧ Out m s s' code.length 1 ρ1 ∧ readAt x.ty s'.mem (8 * s.top) = x.v ∧
              x.ty = t1 ∧ conv x.ty x.v = x.v := by
          intro x ρ1 ex
          obtain ⟨sa, ra, oa, va⟩ := iha none marked code ρ ρ1 x s hc s1 (by simp) ex hat hf hle
          have tx := eval_ty a s1 ex
          rw [h1] at tx; simp only [Option.some.injEq] at tx
          refine ⟨sa, ra, oa, va, tx.symm, ?_⟩
          rw [← show readAt x.ty sa.mem (8 * s.top) = x.v from va]
          exact readAt_valid (by rw [← tx]; exact (sameKind_plain h5).1) _ _
        have bval : ∃ k, execute b = some (some k) ∧ ((k.v = 0 ∧ (o = .arith .add ∨ o = .arith .sub ∨ o = .arith .bitOr ∨
            o = .arith .shl ∨ o = .arith .shr ∨ o = .or)) ∨ (k.v = 1 ∧ (o = .arith .mul ∨ o = .arith .div ∨ o = .and))) := by
          rcases shortcut_cases.1 hsh with ⟨g1, g2⟩ | ⟨g1, g2⟩
          · obtain ⟨k, hk, h0⟩ := isValue_some g1
            exact ⟨k, hk, .inl ⟨h0, g2⟩⟩
          · obtain ⟨k, hk, h0⟩ := isValue_some g1
            exact ⟨k, hk, .inr ⟨h0, g2⟩⟩
        obtain ⟨k, hk, hk'⟩ := bval
        obtain ⟨kt, _, kv⟩ := execute_ty b s2 hk
        rw [h2] at kt; simp only [Option.some.injEq] at kt; subst kt
        cases o with
        | cmp q => simp at hk'
        | and =>
          obtain ⟨b1, b2, _⟩ := logic_types (.inl rfl) h5 h3
          subst b1
          have k1 : k.v = 1 := by simpa using hk'
          rw [eval] at hv
          simp only [Option.bind_eq_bind, Option.bind_eq_some_iff] at hv
          obtain ⟨⟨x, ρ1⟩, ex, hv⟩ := hv
          obtain ⟨s', q1, q2, q3, q4, q5⟩ := main x ρ1 ex
          simp only at hv
          split at hv
          · simp only [Option.some.injEq, Prod.mk.injEq] at hv
            obtain ⟨rfl, rfl⟩ := hv
            exact ⟨s', q1, q2, q3⟩
          · rename_i h0
            obtain ⟨rfl, rfl⟩ := execute_eval b s2 hk hv
            have hx1 : x.v = 1 := by rw [← q5, q4, conv_bool, if_neg h0]
            refine ⟨s', q1, q2, ?_⟩
            rw [b2, k1, ← hx1, ← q4]
            exact q3
        | or =>
          obtain ⟨b1, b2, _⟩ := logic_types (.inr rfl) h5 h3
          subst b1
          have k1 : k.v = 0 := by simpa using hk'
          rw [eval] at hv
          simp only [Option.bind_eq_bind, Option.bind_eq_some_iff] at hv
          obtain ⟨⟨x, ρ1⟩, ex, hv⟩ := hv
          obtain ⟨s', q1, q2, q3, q4, q5⟩ := main x ρ1 ex
          simp only at hv
          split at hv
          · rename_i h0
            obtain ⟨rfl, rfl⟩ := execute_eval b s2 hk hv
            refine ⟨s', q1, q2, ?_⟩
            rw [b2, k1, ← h0, ← q4]
            exact q3
          · simp only [Option.some.injEq, Prod.mk.injEq] at hv
            obtain ⟨rfl, rfl⟩ := hv
            exact ⟨s', q1, q2, q3⟩
        | arith q =>
          rw [eval] at hv
          · simp only [Option.bind_eq_bind, Option.bind_eq_some_iff, Option.some.injEq, Prod.mk.injEq] at hv
            obtain ⟨⟨x, ρ1⟩, ex, ⟨y, ρ2⟩, ey, z, hz, rfl, rfl⟩ := hv
            obtain ⟨s', q1, q2, q3, q4, q5⟩ := main x ρ1 ex
            obtain ⟨rfl, rfl⟩ := execute_eval b s2 hk ey
            have hi : t1.isInt = true ∧ y.ty.isInt = true := by
              rcases sameKind_cases h5 with h | ⟨e1, e2⟩
              · exact h
              · rw [e1, e2] at h3; exact absurd h3 (by cases q <;> decide)
            have hzt := (operate_ty hz).1
            simp only at hzt hz
            rw [q4] at hzt
            have hzt' : z.ty = t1 := by rw [h3] at hzt; simpa using hzt.symm
            have := left_neutral hz (by rw [q4]; exact hi.1) hi.2 (by rw [hzt', q4]) q5 (by
              rcases hk' with ⟨g1, g2⟩ | ⟨g1, g2⟩
              · exact .inl ⟨g1, by simpa using g2⟩
              · exact .inr ⟨g1, by simpa using g2⟩)
            subst this
            exact ⟨s', q1, q2, q3⟩
          · simp
          · simp
      | right =>
        simp only [hsh, binIns] at hc
        simp only [neutral, hsh, beq_iff_eq] at hn
        rw [h2, h4] at hn; simp only [Option.some.injEq] at hn; subst hn
        have aval : ∃ k, execute a = some (some k) ∧ ((k.v = 0 ∧ (o = .arith .add ∨ o = .arith .bitOr ∨ o = .or)) ∨
            (k.v = 1 ∧ (o = .arith .mul ∨ o = .and))) := by
          rcases shortcut_cases.2.1 hsh with ⟨g1, g2⟩ | ⟨g1, g2⟩
          · obtain ⟨k, hk, h0⟩ := isValue_some g1
            exact ⟨k, hk, .inl ⟨h0, g2⟩⟩
          · obtain ⟨k, hk, h0⟩ := isValue_some g1
            exact ⟨k, hk, .inr ⟨h0, g2⟩⟩
        obtain ⟨k, hk, hk'⟩ := aval
        obtain ⟨kt, _, kv⟩ := execute_ty a s1 hk
        rw [h1] at kt; simp only [Option.some.injEq] at kt; subst kt
        have main : ∀ y ρ1, eval p call m b ρ = some (y, ρ1) →
            ∃ s', Steps img junk s s' ∧ Out m s s' code.length 1 ρ1 ∧ readAt y.ty s'.mem (8 * s.top) = y.v ∧
              y.ty = t2 ∧ conv y.ty y.v = y.v := by
          intro y ρ1 ey
          obtain ⟨sa, ra, oa, va⟩ := ihb none marked code ρ ρ1 y s hc s2 (by simp) ey hat hf hle
          have tx := eval_ty b s2 ey
          rw [h2] at tx; simp only [Option.some.injEq] at tx
          refine ⟨sa, ra, oa, va, tx.symm, ?_⟩
          rw [← show readAt y.ty sa.mem (8 * s.top) = y.v from va]
          exact readAt_valid (by rw [← tx]; exact (sameKind_plain h5).2) _ _
        cases o with
        | cmp q => simp at hk'
        | and =>
          have k1 : k.v = 1 := by simpa using hk'
          rw [eval] at hv
          simp only [Option.bind_eq_bind, Option.bind_eq_some_iff] at hv
          obtain ⟨⟨x, ρ1⟩, ex, hv⟩ := hv
          obtain ⟨rfl, rfl⟩ := execute_eval a s1 hk ex
          simp only at hv
          rw [k1, if_neg (by omega)] at hv
          obtain ⟨s', q1, q2, q3, _⟩ := main c ρ' hv
          exact ⟨s', q1, q2, q3⟩
        | or =>
          have k1 : k.v = 0 := by simpa using hk'
          rw [eval] at hv
          simp only [Option.bind_eq_bind, Option.bind_eq_some_iff] at hv
          obtain ⟨⟨x, ρ1⟩, ex, hv⟩ := hv
          obtain ⟨rfl, rfl⟩ := execute_eval a s1 hk ex
          simp only at hv
          rw [k1, if_pos rfl] at hv
          obtain ⟨s', q1, q2, q3, _⟩ := main c ρ' hv
          exact ⟨s', q1, q2, q3⟩
        | arith q =>
          rw [eval] at hv
          · simp only [Option.bind_eq_bind, Option.bind_eq_some_iff, Option.some.injEq, Prod.mk.injEq] at hv
            obtain ⟨⟨x, ρ1⟩, ex, ⟨y, ρ2⟩, ey, z, hz, rfl, rfl⟩ := hv
            obtain ⟨rfl, rfl⟩ := execute_eval a s1 hk ex
            obtain ⟨s', q1, q2, q3, q4, q5⟩ := main y ρ2 ey
            have hi : x.ty.isInt = true ∧ t2.isInt = true := by
              rcases sameKind_cases h5 with h | ⟨e1, e2⟩
              · exact h
              · rw [e1, e2] at h3; exact absurd h3 (by cases q <;> decide)
            have hzt := (operate_ty hz).1
            simp only at hzt hz
            rw [q4] at hzt
            have hzt' : z.ty = t2 := by rw [h3] at hzt; simpa using hzt.symm
            have := right_neutral hz hi.1 (by rw [q4]; exact hi.2) (by rw [hzt', q4]) q5 (by
              rcases hk' with ⟨g1, g2⟩ | ⟨g1, g2⟩
              · exact .inl ⟨g1, by simpa using g2⟩
              · exact .inr ⟨g1, by simpa using g2⟩)
            subst this
            exact ⟨s', q1, q2, q3⟩
          · simp
          · simp
      | negate =>
        obtain ⟨ha0, rfl⟩ := shortcut_cases.2.2 hsh
        simp only [hsh, binIns, Option.bind_eq_bind, Option.bind_eq_some_iff, Option.some.injEq] at hc
        obtain ⟨cb, hcb, rfl⟩ := hc
        simp only [neutral, hsh, Bool.and_eq_true, Bool.or_eq_true, beq_iff_eq] at hn
        rw [h1, h2] at hn
        simp only [Option.some.injEq] at hn
        obtain ⟨hn1, hn2⟩ := hn
        obtain ⟨k, hk, k0⟩ := isValue_some ha0
        obtain ⟨kt, _, kv⟩ := execute_ty a s1 hk
        rw [h1] at kt; simp only [Option.some.injEq] at kt
        rw [eval] at hv
        · simp only [Option.bind_eq_bind, Option.bind_eq_some_iff, Option.some.injEq, Prod.mk.injEq] at hv
          obtain ⟨⟨x, ρ1⟩, ex, ⟨y, ρ2⟩, ey, z, hz, rfl, rfl⟩ := hv
          obtain ⟨rfl, rfl⟩ := execute_eval a s1 hk ex
          simp only at ey hz
          simp only [List.map_append, List.map_cons, List.map_nil] at hat
          obtain ⟨sb, rb, ob, vb⟩ := ihb none marked cb _ _ y s hcb s2 (by simp) ey hat.left hf hle
          have tY := eval_ty b s2 ey
          rw [h2] at tY; simp only [Option.some.injEq] at tY
          have hpy : plain y.ty = true := by rw [← tY]; exact (sameKind_plain h5).2
          have vy : conv y.ty y.v = y.v := by
            rw [← show readAt y.ty sb.mem (8 * s.top) = y.v from vb]; exact readAt_valid hpy _ _
          have hz1 := negate_neutral hz (by rw [← kt, ← tY, hn1]) (by rw [← tY]; exact hn2) k0 vy
          obtain ⟨z1, w, _, z3⟩ := operate1_ty hz1
          have hpz := uresultOf_plain _ hpy z1
          have hcmd : img.code[sb.pc]? = some (.un .minus y.ty) := by
            have := hat.right.head
            rw [ob.pc, ← tY, ← hn1]
            simpa [create] using this
          obtain ⟨s', g1, g2, g3, g4, g5, g6⟩ := run_un (junk := junk) (hp := hpz) hcmd ob.top vb
            ((result_vmUnary .minus y hpy z1).trans hz1) (by rw [z3]; exact conv_idem hpz _)
          refine ⟨s', rb.trans g1, ⟨?_, ?_, g4, ?_, ?_⟩, g6⟩
          · rw [g2, ob.pc]; simp only [List.length_append, List.length_cons, List.length_nil]; omega
          · rw [g3, ob.lp]
          · exact ob.keeps.trans (.of_below g5 hle)
          · exact ob.frame.of_below hm fun x hx => g5 x (by omega)
        · simp
        · simp
  case un =>
    intro o a ih want marked code ρ ρ' c s hc hs hw hv hat hf hle
    have hty := eval_ty (.un o a) hs hv
    obtain ⟨s1, t, r, h1, h2, h3⟩ := safe_un hs
    rw [compile] at hc
    rcases foldOr_some hc with ⟨_, k, hk, rfl⟩ | ⟨hc, hnot⟩
    · obtain ⟨rfl, rfl⟩ := execute_eval _ hs hk hv
      obtain ⟨_, e2, e3⟩ := execute_ty _ hs hk
      obtain ⟨s', g1, g2, g3⟩ := run_const (junk := junk) hat.head e2 e3 (fits_plain hw)
      exact ⟨s', g1, g2.out hm hf hle, by cases want <;> exact g3⟩
    · simp only [h1, h3, Option.bind_eq_bind, Option.bind_some, Option.bind_eq_some_iff, Option.some.injEq] at hc
      obtain ⟨ca, hca, rfl⟩ := hc
      suffices hown : ∃ s', Steps img junk s s' ∧ Out m s s' (ca ++ [Ins.un o.op t]).length 1 ρ' ∧
          readAt c.ty s'.mem (8 * s.top) = c.v by
        obtain ⟨sa, q1, q2, q3⟩ := hown
        rw [h3] at hty; simp only [Option.some.injEq] at hty
        obtain ⟨s', q4, q5, q6⟩ := finish_own (junk := junk) hm hty.symm q2 hat (fits_plain hw) q3 hle
        exact ⟨s', q1.trans q4, q5, q6⟩
      replace hat := hat.before_post
      rw [eval] at hv
      simp only [Option.bind_eq_bind, Option.bind_eq_some_iff, Option.some.injEq, Prod.mk.injEq] at hv
      obtain ⟨⟨x, ρ1⟩, ex, z, hz, rfl, rfl⟩ := hv
      simp only [List.map_append, List.map_cons, List.map_nil] at hat
      obtain ⟨sa, ra, oa, va⟩ := ih none marked ca ρ ρ1 x s hca s1 (by simp) ex hat.left hf hle
      have tx := eval_ty a s1 ex
      rw [h1] at tx; simp only [Option.some.injEq] at tx; subst tx
      obtain ⟨t', e1, hpt⟩ := vty_plain hret a s1
      rw [h1] at e1; simp only [Option.some.injEq] at e1; subst e1
      obtain ⟨z1, w, _, z3⟩ := operate1_ty hz
      have hpz := uresultOf_plain _ hpt z1
      have hcmd : img.code[sa.pc]? = some (.un o.op x.ty) := by
        have := hat.right.head
        rw [oa.pc]
        simpa [create] using this
      obtain ⟨s', g1, g2, g3, g4, g5, g6⟩ := run_un (junk := junk) (hp := hpz) hcmd oa.top va
        ((result_vmUnary o x hpt z1).trans hz) (by rw [z3]; exact conv_idem hpz _)
      refine ⟨s', ra.trans g1, ⟨?_, ?_, g4, ?_, ?_⟩, g6⟩
      · rw [g2, oa.pc]; simp only [List.length_append, List.length_cons, List.length_nil]; omega
      · rw [g3, oa.lp]
      · exact oa.keeps.trans (.of_below g5 hle)
      · exact oa.frame.of_below hm fun x hx => g5 x (by omega)
  case assign =>
    intro x e ih want marked code ρ ρ' c s hc hs hw hv hat hf hle
    have hty := eval_ty (.assign x e) hs hv
    obtain ⟨s1, t, h1, h2, h3⟩ := safe_assign hs
    rw [compile] at hc
    rcases foldOr_some hc with ⟨_, k, hk, _⟩ | ⟨hc, _⟩
    · exact absurd hk compile_assign_execute
    · simp only [h1, Option.bind_eq_bind, Option.bind_some, Option.bind_eq_some_iff, Option.some.injEq] at hc
      obtain ⟨ce, hce, rfl⟩ := hc
      rw [eval] at hv
      simp only [h1, Option.bind_eq_bind, Option.bind_some, Option.bind_eq_some_iff, Option.some.injEq,
        Prod.mk.injEq] at hv
      obtain ⟨⟨y, ρ1⟩, ey, rfl, rfl⟩ := hv
      have hat0 := hat.before_post
      simp only [List.map_append, List.map_cons, List.map_nil] at hat0
      obtain ⟨sa, ra, oa, va⟩ := ih (some t) marked ce ρ ρ1 y s hce s1
        (by intro t' ht'; simp only [Option.some.injEq] at ht'; subst ht'; exact h3) ey hat0.left hf hle
      obtain ⟨sb, g1, g2, g3⟩ := finish_store (junk := junk) hm oa (pick := true)
        (by rw [oa.pc]; simpa using hat0.right.head) h1 h2 va hle
      obtain ⟨s', g4, g5, g6⟩ := finish_own (junk := junk) (c := ⟨t, conv t y.v⟩) hm rfl (by simpa using g2) hat
        (fits_plain hw) g3 hle
      exact ⟨s', (ra.trans g1).trans g4, g5, g6⟩
  case opAssign =>
    intro o x e ih want marked code ρ ρ' c s hc hs hw hv hat hf hle
    have hty := eval_ty (.opAssign o x e) hs hv
    obtain ⟨s1, ⟨t, te, h1, h2, _, _⟩, _⟩ := safe_opAssign hs
    rw [compile] at hc
    rcases foldOr_some hc with ⟨_, k, hk, _⟩ | ⟨hc, _⟩
    · exact absurd hk compile_opAssign_execute
    · simp only [h1] at hc
      simp only [Option.bind_eq_bind, Option.bind_some] at hc
      rw [← Option.bind_assoc, Option.bind_eq_some_iff] at hc
      obtain ⟨ce, hce, hc⟩ := hc
      simp only [hty, Option.bind_some, Option.some.injEq] at hc
      subst hc
      rw [eval] at hv
      simp only [h1, Option.bind_eq_bind, Option.bind_some, Option.bind_eq_some_iff, Option.some.injEq,
        Prod.mk.injEq] at hv
      obtain ⟨v, hv, ⟨y, ρ1⟩, ey, z, hz, rfl, rfl⟩ := hv
      have hat0 := hat.before_post
      simp only [List.map_append, List.map_cons, List.map_nil] at hat0
      obtain ⟨sa, ra, oa, va⟩ := run_opAssign hm ih hs h1 hce hv ey hz hat0.left hf hle
      obtain ⟨sb, g1, g2, g3⟩ := finish_store (junk := junk) hm oa (pick := true)
        (by rw [oa.pc]; simpa using hat0.right.head) h1 (plain_of_int h2) va hle
      obtain ⟨s', g4, g5, g6⟩ := finish_own (junk := junk) (c := ⟨t, conv t z.v⟩) hm rfl (by simpa using g2) hat
        (fits_plain hw) g3 hle
      exact ⟨s', (ra.trans g1).trans g4, g5, g6⟩
  case inc =>
    intro post dec x want marked code ρ ρ' c s hc hs hw hv hat hf hle
    have hty := eval_ty (.inc post dec x) hs hv
    rw [safe] at hs
    obtain ⟨t, h1, h2⟩ := intVar_some hs
    rw [compile] at hc
    rw [eval] at hv
    simp only [h1, Option.bind_eq_bind, Option.bind_some, Option.bind_eq_some_iff, Option.some.injEq,
      Prod.mk.injEq] at hc hv
    obtain ⟨ins, hi, _, hr, hc⟩ := hc
    rw [hty] at hr; simp only [Option.some.injEq] at hr; subst hr
    obtain ⟨v, hv, z, hz, rfl, rfl⟩ := hv
    cases post with
    | false =>
      simp only [Bool.false_eq_true, if_false, Option.some.injEq] at hc
      subst hc
      have hat0 := hat.before_post
      simp only [List.map_cons, List.map_nil] at hat0
      obtain ⟨sa, ra, oa, va⟩ := run_inc (junk := junk) hm hi h1 h2 hv hz hat0 hf hle
      obtain ⟨sb, g1, g2, g3⟩ := finish_store (junk := junk) hm oa (pick := true)
        (by rw [oa.pc]; exact hat0.tail.tail.tail.head) h1 (plain_of_int h2) va hle
      obtain ⟨s', g4, g5, g6⟩ := finish_own (junk := junk) (c := ⟨t, _⟩) hm rfl g2 hat (fits_plain hw) g3 hle
      exact ⟨s', (ra.trans g1).trans g4, g5, g6⟩
    | true =>
      simp only [if_true, Option.some.injEq] at hc
      subst hc
      have hat1 := hat
      replace hat := hat.before_post
      simp only [List.map_cons, List.map_nil] at hat
      obtain ⟨s0, r0, o0, v0, _⟩ := run_var (junk := junk) hm hi h1 (plain_of_int h2) hat.head hf hle hv
      have hf0 : Frame m s0.lp s0.mem ρ := by rw [o0.lp]; exact o0.frame
      have hle0 : s0.lp + m.units ≤ s0.top := by rw [o0.lp, o0.top]; omega
      obtain ⟨sa, ra, oa, va⟩ := run_inc (junk := junk) hm hi h1 h2 hv hz (by rw [o0.pc]; exact hat.tail) hf0 hle0
      obtain ⟨sb, g1, g2, g3⟩ := finish_store (junk := junk) hm oa (pick := false)
        (by rw [oa.pc, o0.pc]; exact hat.tail.tail.tail.tail.head) h1 (plain_of_int h2) va hle0
      have k' := g2.keeps
      rw [o0.lp, o0.top] at k'
      have g5 : Out m s sb 5 1 (ρ.set x (conv t z.v)) := by
        refine ⟨?_, ?_, ?_, ?_, ?_⟩
        · rw [g2.pc, o0.pc]
        · rw [g2.lp, o0.lp]
        · rw [g2.top, o0.top]; rfl
        · exact o0.keeps.trans (k'.mono (by omega))
        · have := g2.frame
          rw [o0.lp] at this; exact this
      obtain ⟨s', g6, g7, g8⟩ := finish_own (junk := junk) (c := ⟨t, v⟩) hm rfl g5 hat1 (fits_plain hw)
        (by rw [k'.read hle (by omega)]; exact v0) hle
      exact ⟨s', ((r0.trans ra).trans g1).trans g6, g7, g8⟩
  case cond =>
    intro ec ea eb ihc iha ihb want marked code ρ ρ' c s hc hs hw hv hat hf hle
    have hty := eval_ty (.cond ec ea eb) hs hv
    obtain ⟨s1, s2, s3, h4, h5⟩ := safe_cond hs
    suffices hown : ∃ s', Steps img junk s s' ∧ Out m s s' code.length 1 ρ' ∧ readAt c.ty s'.mem (8 * s.top) = c.v by
      obtain ⟨s', q1, q2, q3⟩ := hown
      exact ⟨s', q1, q2, Val.of_own (e := .cond ec ea eb) q3 hty hw rfl⟩
    rw [eval] at hv
    simp only [Option.bind_eq_bind, Option.bind_eq_some_iff] at hv
    obtain ⟨⟨x, ρ1⟩, ex, hv⟩ := hv
    simp only at hv
    rw [compile] at hc
    split at hc
    · simp at hc
    · rename_i v hk
      obtain ⟨rfl, rfl⟩ := execute_eval ec s1 hk ex
      simp only at hv
      split at hc
      · rename_i h0
        rw [if_pos h0] at hv
        exact ihb none marked code _ ρ' c s hc s3 (by simp) hv hat hf hle
      · rename_i h0
        rw [if_neg h0] at hv
        exact iha none marked code _ ρ' c s hc s2 (by simp) hv hat hf hle
    · simp only [Option.bind_eq_bind, Option.bind_eq_some_iff, Option.some.injEq] at hc
      obtain ⟨cc, hcc, ca, hca, cb, hcb, rfl⟩ := hc
      simp only [List.map_append, List.append_assoc, List.map_cons, List.map_nil, create] at hat
      obtain ⟨sc, rc, oc, vc⟩ := ihc none marked cc ρ ρ1 x s hcc s1 (by simp) ex hat.left hf hle
      have tx := eval_ty ec s1 ex
      rw [h4] at tx; simp only [Option.some.injEq] at tx
      have vb : readAt .bool sc.mem (8 * s.top) = x.v := by
        have := vc
        simp only [Val] at this
        rwa [← tx] at this
      have hcmd : img.code[sc.pc]? = some (.jmpFalse (ca.length + 1)) := by
        have := hat.right.left.head
        rw [oc.pc]; simpa using this
      have htp : top { sc with pc := sc.pc + 1 } .bool = x.v := by
        rw [← vb]; simp only [top, oc.top, Nat.add_sub_cancel]
      have rj : Steps img junk sc { sc with top := sc.top - 1, pc := if x.v = 0 then sc.pc + 1 + (ca.length + 1) else sc.pc + 1 } := by
        refine .one hcmd ?_
        simp only [exec, htp]
      have hlp := oc.lp
      have htop := oc.top
      have hpc := oc.pc
      have hfr : Frame m sc.lp sc.mem ρ1 := by rw [hlp]; exact oc.frame
      have hlen : (cc ++ [Ins.jmpFalse (ca.length + 1)] ++ ca ++ [Ins.jmp cb.length] ++ cb).length =
          cc.length + 1 + ca.length + 1 + cb.length := by
        simp only [List.length_append, List.length_cons, List.length_nil]
      rw [hlen]
      split at hv
      · rename_i h0
        rw [if_pos h0] at rj
        obtain ⟨sb, rb, ob, vb'⟩ := ihb none marked cb ρ1 ρ' c { sc with top := sc.top - 1, pc := sc.pc + 1 + (ca.length + 1) } hcb
          s3 (by simp) hv (by
            have := hat.right.right.right.right
            simp only [List.length_map, List.length_cons, List.length_nil] at this
            have e : sc.pc + 1 + (ca.length + 1) = s.pc + cc.length + (0 + 1) + ca.length + (0 + 1) := by omega
            simp only [e]; exact this) hfr (by simp only; omega)
        refine ⟨sb, (rc.trans rj).trans rb, ⟨?_, ?_, ?_, ?_, ?_⟩, ?_⟩
        · rw [ob.pc]; simp only; omega
        · rw [ob.lp]; exact hlp
        · rw [ob.top]; simp only; omega
        · refine oc.keeps.trans ?_
          have := ob.keeps
          simp only [hlp, htop, Nat.add_sub_cancel] at this
          exact this
        · have := ob.frame
          simp only [hlp] at this
          exact this
        · have := vb'
          simp only [Val, htop, Nat.add_sub_cancel] at this
          exact this
      · rename_i h0
        rw [if_neg h0] at rj
        obtain ⟨sb, rb, ob, vb'⟩ := iha none marked ca ρ1 ρ' c { sc with top := sc.top - 1, pc := sc.pc + 1 } hca
          s2 (by simp) hv (by
            have := hat.right.right.left
            simp only [List.length_map, List.length_cons, List.length_nil] at this
            have e : sc.pc + 1 = s.pc + cc.length + (0 + 1) := by omega
            simp only [e]; exact this) hfr (by simp only; omega)
        have hj : img.code[sb.pc]? = some (.jmp cb.length) := by
          have := hat.right.right.right.left.head
          simp only [List.length_map, List.length_cons, List.length_nil] at this
          rw [ob.pc]
          have e : sc.pc + 1 + ca.length = s.pc + cc.length + (0 + 1) + ca.length := by omega
          simp only [e]; exact this
        refine ⟨{ sb with pc := sb.pc + 1 + cb.length }, ((rc.trans rj).trans rb).trans (.one hj rfl), ⟨?_, ?_, ?_, ?_, ?_⟩, ?_⟩
        · simp only; rw [ob.pc]; simp only; omega
        · simp only; rw [ob.lp]; exact hlp
        · simp only; rw [ob.top]; simp only; omega
        · refine oc.keeps.trans ?_
          have := ob.keeps
          simp only [hlp, htop, Nat.add_sub_cancel] at this
          exact this
        · have := ob.frame
          simp only [hlp] at this
          exact this
        · have := vb'
          simp only [Val, htop, Nat.add_sub_cancel] at this
          exact this
  case cast =>
    intro t e ih want marked code ρ ρ' c s hc hs hw hv hat hf hle
    have hty := eval_ty (.cast t e) hs hv
    obtain ⟨s1, h2⟩ := safe_cast hs
    rw [compile] at hc
    rw [eval] at hv
    simp only [Option.bind_eq_bind, Option.bind_eq_some_iff, Option.some.injEq, Prod.mk.injEq] at hv
    obtain ⟨⟨x, ρ1⟩, ex, rfl, rfl⟩ := hv
    simp only [Option.bind_eq_bind, Option.bind_eq_some_iff, Option.some.injEq] at hc
    obtain ⟨code, hc, rfl⟩ := hc
    obtain ⟨sa, ra, oa, va⟩ := ih (some t) marked code ρ ρ1 x s hc s1
      (by intro t' ht'; simp only [Option.some.injEq] at ht'; subst ht'; exact h2) ex hat.before_post hf hle
    obtain ⟨s', g4, g5, g6⟩ := finish_own (junk := junk) (c := ⟨t, _⟩) hm rfl oa hat (fits_plain hw) va hle
    exact ⟨s', ra.trans g4, g5, g6⟩
  case call =>
    intro f args ih want marked code ρ ρ' c s hc hs hw hv hat hf hle
    rw [compile] at hc
    rw [eval] at hv
    rw [safe] at hs
    cases hf' : p[f]? with
    | none => rw [hf'] at hv; simp at hv
    | some m' =>
      rw [hf'] at hc hv hs
      simp only [Option.bind_eq_bind, Option.bind_eq_some_iff, Option.some.injEq, Prod.mk.injEq] at hc hv
      obtain ⟨ca, hca, hc⟩ := hc
      obtain ⟨⟨vs, ρ1⟩, evs, v, hcv, rfl, rfl⟩ := hv
      -- the arguments and the call
      have main : ∀ rest : List Cmd, CodeAt img.code s.pc (ca.map (create m) ++ (Cmd.call f :: rest)) →
          ∃ s', Steps img junk s s' ∧ Out m s s' (ca.length + 1) 1 ρ1 ∧ readAt m'.ret s'.mem (8 * s.top) = v := by
        intro rest hat
        obtain ⟨hvl, sa, ra, oa, va⟩ := ih marked m'.params ca ρ ρ1 vs s hca hs evs hat.left hf hle
        have hcmd : img.code[sa.pc]? = some (.call f) := by
          have := hat.right.head
          rw [oa.pc]; simpa using this
        have htop := oa.top
        have e0 : sa.top - m'.params.length = s.top := by omega
        obtain ⟨s', g1, g2, g3, g4, g5, g6⟩ := hcall f m' vs v hf' hcv hvl sa hcmd (by omega) (by
          intro i t w h1 h2
          rw [e0]; exact va i t w h1 h2)
        rw [e0] at g4 g5 g6
        refine ⟨s', ra.trans g1, ⟨?_, ?_, g4, ?_, ?_⟩, g5⟩
        · rw [g2, oa.pc]; omega
        · rw [g3, oa.lp]
        · exact oa.keeps.trans (.of_below g6 hle)
        · exact oa.frame.of_below hm fun x hx => g6 x (by omega)
      cases want with
      | none =>
        simp only [Option.some.injEq] at hc
        subst hc
        simp only [List.map_append, List.map_cons, List.map_nil, create] at hat
        obtain ⟨s', g1, g2, g3⟩ := main [] hat
        exact ⟨s', g1, by simpa using g2, g3⟩
      | some t =>
        have hpt := fits_plain hw t rfl
        simp only at hc
        split at hc
        · rename_i htr
          simp only [Option.some.injEq] at hc
          subst hc
          simp only [List.map_append, List.map_cons, List.map_nil, create] at hat
          obtain ⟨s', g1, g2, g3⟩ := main [] hat
          refine ⟨s', g1, by simpa using g2, ?_⟩
          simp only [Val]
          rw [htr, ← g3]
          exact (readAt_valid (by rw [← htr]; exact hpt) _ _).symm
        · simp only [Option.some.injEq] at hc
          subst hc
          simp only [List.map_append, List.map_cons, List.map_nil, create] at hat
          obtain ⟨sa, g1, g2, g3⟩ := main _ hat
          have hcmd : img.code[sa.pc]? = some (.convert m'.ret t) := by
            have := hat.right.tail.head
            rw [g2.pc]; simpa [Nat.add_assoc] using this
          have htop := g2.top
          have e1 : top { sa with pc := sa.pc + 1 } m'.ret = v := by
            rw [← g3]; simp only [top, htop, Nat.add_sub_cancel]
          refine ⟨push junk { sa with pc := sa.pc + 1, top := sa.top - 1 } t (conv t v), g1.trans (.one hcmd ?_), ⟨?_, ?_, ?_, ?_, ?_⟩, ?_⟩
          · simp only [exec, e1]
          · simp only [push, List.length_append, List.length_cons, List.length_nil]; rw [g2.pc]; omega
          · exact g2.lp
          · simp only [push]; omega
          · refine g2.keeps.trans (.of_below (fun x hx => push_out ?_) hle)
            simp only; omega
          · refine g2.frame.of_below hm fun x hx => push_out ?_
            simp only; omega
          · have := push_read (junk := junk) (s := { sa with pc := sa.pc + 1, top := sa.top - 1 }) hpt (conv_idem hpt v)
            simpa [htop, Val] using this
  case nil =>
    intro marked ts code ρ ρ' vs s hc hs hv hat hf hle
    cases ts with
    | nil =>
      rw [compileArgs] at hc
      rw [evalArgs] at hv
      simp only [Option.some.injEq, Prod.mk.injEq] at hc hv
      subst hc
      obtain ⟨rfl, rfl⟩ := hv
      exact ⟨rfl, s, .refl s, ⟨rfl, rfl, rfl, .refl _ _ _ _, hf⟩, by simp⟩
    | cons t ts => simp [compileArgs] at hc
  case cons =>
    intro e rest ihe ihr marked ts code ρ ρ' vs s hc hs hv hat hf hle
    cases ts with
    | nil => simp [compileArgs] at hc
    | cons t ts =>
      rw [compileArgs] at hc
      rw [evalArgs] at hv
      rw [safeArgs] at hs
      simp only [Bool.and_eq_true] at hs
      obtain ⟨⟨s1, s2⟩, s3⟩ := hs
      simp only [Option.bind_eq_bind, Option.bind_eq_some_iff, Option.some.injEq, Prod.mk.injEq] at hc hv
      obtain ⟨ce, hce, cs, hcs, rfl⟩ := hc
      obtain ⟨⟨x, ρ1⟩, ex, ⟨ws, ρ2⟩, ews, rfl, rfl⟩ := hv
      simp only [List.map_append] at hat
      have hfit : ∀ t', some t = some t' → fits p m t' e = true := by
        intro t' ht'; simp only [Option.some.injEq] at ht'; subst ht'; exact s2
      have first : ∃ s', Steps img junk s s' ∧ Out m s s' ce.length 1 ρ1 ∧ readAt t s'.mem (8 * s.top) = conv t x.v := by
        rcases foldOr_some hce with ⟨_, k, hk, rfl⟩ | ⟨hce, _⟩
        · obtain ⟨rfl, rfl⟩ := execute_eval _ s1 hk ex
          obtain ⟨_, e2, e3⟩ := execute_ty _ s1 hk
          obtain ⟨s', g1, g2, g3⟩ := run_const (junk := junk) hat.left.head e2 e3 (fits_plain hfit)
          exact ⟨s', g1, g2.out hm hf hle, g3⟩
        · exact ihe (some t) marked ce ρ ρ1 x s hce s1 hfit ex hat.left hf hle
      obtain ⟨sa, ra, oa, va⟩ := first
      obtain ⟨hl, sb, rb, ob, vb⟩ := ihr marked ts cs ρ1 ρ2 ws sa hcs s3 ews
        (by rw [oa.pc]; simpa using hat.right) (by rw [oa.lp]; exact oa.frame) (by rw [oa.lp, oa.top]; omega)
      have kb : Keeps m s.lp (s.top + 1) sa.mem sb.mem := by
        have := ob.keeps
        rwa [oa.lp, oa.top] at this
      refine ⟨by simp [hl], sb, ra.trans rb, ⟨?_, ?_, ?_, ?_, ?_⟩, ?_⟩
      · rw [ob.pc, oa.pc, List.length_append]; omega
      · rw [ob.lp, oa.lp]
      · rw [ob.top, oa.top, List.length_cons]; omega
      · exact oa.keeps.trans (kb.mono (by omega))
      · have := ob.frame
        rw [oa.lp] at this; exact this
      · intro i t' w h1 h2
        cases i with
        | zero =>
          simp only [List.getElem?_cons_zero, Option.some.injEq] at h1 h2
          subst h1; subst h2
          rw [Nat.add_zero, kb.read hle (by omega)]; exact va
        | succ i =>
          simp only [List.getElem?_cons_succ] at h1 h2
          have := vb i t' w h1 h2
          rw [oa.top] at this
          have e : s.top + (i + 1) = s.top + 1 + i := by omega
          rw [e]; exact this

end Verif.Expr
