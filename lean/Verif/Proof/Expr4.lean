import Verif.Proof.Expr3

/-! Operations with neutral operands, and expressions that always have a value, for `Verif.Props.Expr`. -/

namespace Verif.Expr

open Verif.Fold Spec

theorem value_of_conv {t : VT} (h : t.isInt = true) {v : Int} (hv : conv t v = v) : Fold.Spec.Value t v := by
  have := (conv_wrapped (num_of_isInt h) v).1
  rwa [hv] at this

theorem conv_small {t : VT} (h : t.isInt = true) {v : Int} (hv : v = 0 ∨ v = 1) : conv t v = v := by
  apply conv_id (num_of_isInt h)
  cases t <;> simp [VT.isInt] at h <;> rcases hv with rfl | rfl <;> simp [Fold.Spec.Value, Fold.Spec.lo, Fold.Spec.hi]

theorem overflow_self {t : VT} (h : t.isInt = true) {v w : Int} (hv : conv t v = v) (ho : overflow t v = some w) : w = v := by
  have := overflow_wrapped (num_of_isInt h) ho
  have h2 := wrapped_unique (num_of_isInt h) this (conv_wrapped (num_of_isInt h) v)
  rw [h2, hv]

/-- The result type of an operation whose result has the type of an operand. -/
theorem common_of_result {o : Arith} {t1 t2 r : VT} (h1 : t1.isInt = true) (h2 : t2.isInt = true)
    (hr : resultOf (.arith o) t1 t2 = some r) (he : r = t1 ∨ r = t2) : common t1 t2 = r := by
  rw [resultOf_int _ h1 h2] at hr
  simp only at hr
  rw [table_common _ _ h1 h2] at hr
  simp only [Option.some.injEq] at hr
  split at hr
  · rename_i hm
    subst hr
    exfalso
    rcases hm with ⟨rfl, rfl | rfl | rfl⟩ | ⟨rfl, rfl | rfl | rfl⟩ <;> simp at he
  · exact hr

theorem promote_of_common {t1 t2 : VT} (h : common t1 t2 = t1) : promote t1 = t1 := by
  revert h
  cases t1 <;> cases t2 <;> decide

/-- `x + 0`, `x - 0`, `x * 1`, `x / 1`, `x | 0`, `x << 0`, `x >> 0`. -/
theorem left_neutral {o : Arith} {x y c : Const} (h : operate (.arith o) x y = some c) (i1 : x.ty.isInt = true)
    (i2 : y.ty.isInt = true) (ht : c.ty = x.ty) (hx : conv x.ty x.v = x.v)
    (hy : (y.v = 0 ∧ (o = .add ∨ o = .sub ∨ o = .bitOr ∨ o = .shl ∨ o = .shr)) ∨ (y.v = 1 ∧ (o = .mul ∨ o = .div))) :
    c = x := by
  obtain ⟨h1, w, h2, h3⟩ := operate_ty h
  have hC := common_of_result i1 i2 h1 (.inl ht)
  rw [ht] at hC
  have hP := promote_of_common hC
  obtain ⟨t1, v1⟩ := x
  obtain ⟨t2, v2⟩ := y
  obtain ⟨t3, v3⟩ := c
  simp only at *
  subst ht
  congr 1
  rw [h3]
  have hz : conv t3 v2 = v2 := conv_small i1 (by rcases hy with ⟨h, _⟩ | ⟨h, _⟩ <;> simp [h])
  have key : w = v1 → conv t3 w = v1 := fun e => by rw [e, hx]
  have key2 : w = conv t3 v1 → conv t3 w = v1 := fun e => by rw [e, hx, hx]
  rcases hy with ⟨h0, ho⟩ | ⟨h0, ho⟩
  · subst h0
    rcases ho with rfl | rfl | rfl | rfl | rfl
    · simp only [cppBinary, cppArith, hC, hx, hz, evalArith, Int.add_zero] at h2
      exact key (overflow_self i1 hx h2)
    · simp only [cppBinary, cppArith, hC, hx, hz, evalArith, Int.sub_zero] at h2
      exact key (overflow_self i1 hx h2)
    · simp only [cppBinary, cppArith, hC, hx, hz, evalArith, Option.some.injEq] at h2
      rw [← h2]
      have e : (BitVec.ofInt 64 v1 ||| BitVec.ofInt 64 0).toInt = v1.bmod (2 ^ 64) := by
        rw [← BitVec.toInt_ofInt]; congr 1; simp
      rw [e, conv_idem (plain_of_int i1)]
      refine (conv_congr i1 ?_).trans hx
      have hb : ((2 ^ 64 : Nat) : Int) ∣ v1.bmod (2 ^ 64) - v1 := by
        refine ⟨-((v1 - v1.bmod (2 ^ 64)) / ((2 ^ 64 : Nat) : Int)), ?_⟩
        have := (bmod_bounds v1 (2 ^ 64) (2 ^ 63) (by decide) (by decide)).2
        have := Int.mul_ediv_cancel' this
        rw [Int.mul_neg, this]; omega
      exact Int.dvd_trans (Int.natCast_dvd_natCast.mpr (Nat.pow_dvd_pow 2 bits_le)) hb
    · simp only [cppBinary, cppArith, hP, evalArith] at h2
      split at h2
      · simp at h2
      · simp only [Int.toNat_zero, Int.pow_zero, Int.mul_one, Option.some.injEq] at h2
        exact key2 h2.symm
    · simp only [cppBinary, cppArith, hP, evalArith] at h2
      split at h2
      · simp at h2
      · simp only [Int.toNat_zero, Int.pow_zero, Int.ediv_one, Option.some.injEq] at h2
        exact key h2.symm
  · subst h0
    rcases ho with rfl | rfl
    · simp only [cppBinary, cppArith, hC, hx, hz, evalArith, Int.mul_one] at h2
      exact key (overflow_self i1 hx h2)
    · simp only [cppBinary, cppArith, hC, hx, hz, evalArith, Int.tdiv_one] at h2
      split at h2
      · simp at h2
      · exact key (overflow_self i1 hx h2)

/-- `0 + y`, `1 * y`, `0 | y`. -/
theorem right_neutral {o : Arith} {x y c : Const} (h : operate (.arith o) x y = some c) (i1 : x.ty.isInt = true)
    (i2 : y.ty.isInt = true) (ht : c.ty = y.ty) (hy : conv y.ty y.v = y.v)
    (hx : (x.v = 0 ∧ (o = .add ∨ o = .bitOr)) ∨ (x.v = 1 ∧ o = .mul)) : c = y := by
  obtain ⟨h1, w, h2, h3⟩ := operate_ty h
  have hC := common_of_result i1 i2 h1 (.inr ht)
  rw [ht] at hC
  obtain ⟨t1, v1⟩ := x
  obtain ⟨t2, v2⟩ := y
  obtain ⟨t3, v3⟩ := c
  simp only at *
  subst ht
  congr 1
  rw [h3]
  have hz : conv t3 v1 = v1 := conv_small i2 (by rcases hx with ⟨h, _⟩ | ⟨h, _⟩ <;> simp [h])
  have key : w = v2 → conv t3 w = v2 := fun e => by rw [e, hy]
  rcases hx with ⟨h0, ho⟩ | ⟨h0, ho⟩
  · subst h0
    rcases ho with rfl | rfl
    · simp only [cppBinary, cppArith, hC, hy, hz, evalArith, Int.zero_add] at h2
      exact key (overflow_self i2 hy h2)
    · simp only [cppBinary, cppArith, hC, hy, hz, evalArith, Option.some.injEq] at h2
      rw [← h2]
      have e : (BitVec.ofInt 64 0 ||| BitVec.ofInt 64 v2).toInt = v2.bmod (2 ^ 64) := by
        rw [← BitVec.toInt_ofInt]; congr 1; simp
      rw [e, conv_idem (plain_of_int i2)]
      refine (conv_congr i2 ?_).trans hy
      have hb : ((2 ^ 64 : Nat) : Int) ∣ v2.bmod (2 ^ 64) - v2 := by
        refine ⟨-((v2 - v2.bmod (2 ^ 64)) / ((2 ^ 64 : Nat) : Int)), ?_⟩
        have := (bmod_bounds v2 (2 ^ 64) (2 ^ 63) (by decide) (by decide)).2
        have := Int.mul_ediv_cancel' this
        rw [Int.mul_neg, this]; omega
      exact Int.dvd_trans (Int.natCast_dvd_natCast.mpr (Nat.pow_dvd_pow 2 bits_le)) hb
  · subst h0
    subst ho
    simp only [cppBinary, cppArith, hC, hy, hz, evalArith, Int.one_mul] at h2
    exact key (overflow_self i2 hy h2)

/-- `0 - y`. -/
theorem negate_neutral {x y c : Const} (h : operate (.arith .sub) x y = some c) (ht : x.ty = y.ty)
    (hy : y.ty = .int32 ∨ y.ty = .int64) (h0 : x.v = 0) (hv : conv y.ty y.v = y.v) : operate1 .minus y = some c := by
  obtain ⟨t1, v1⟩ := x
  obtain ⟨t2, v2⟩ := y
  simp only at *
  subst h0; subst ht
  have hi : t1.isInt = true := by rcases hy with rfl | rfl <;> rfl
  have hz : conv t1 0 = 0 := conv_small hi (.inl rfl)
  have hC : common t1 t1 = t1 := by rcases hy with rfl | rfl <;> rfl
  have hP : promote t1 = t1 := by rcases hy with rfl | rfl <;> rfl
  have hr : resultOf (.arith .sub) t1 t1 = some t1 := by rcases hy with rfl | rfl <;> rfl
  have hu : uresultOf .minus t1 = some t1 := by rcases hy with rfl | rfl <;> rfl
  rw [← h]
  simp only [operate, operate1, hr, hu, cppBinary, cppArith, cppUnary, hC, hP, hz, hv, evalArith, Int.zero_sub]

theorem isValue_some {e : Exp} {k : Int} (h : isValue e k = true) : ∃ c, execute e = some (some c) ∧ c.v = k := by
  unfold isValue at h
  split at h
  · rename_i c hc
    exact ⟨c, hc, by simpa using h⟩
  · simp at h

/-- When an operation is left out. -/
theorem shortcut_cases {lvl : Level} {o : BOp} {a b : Exp} :
    (shortcut lvl o a b = .left → (isValue b 0 = true ∧ (o = .arith .add ∨ o = .arith .sub ∨ o = .arith .bitOr ∨
        o = .arith .shl ∨ o = .arith .shr ∨ o = .or)) ∨ (isValue b 1 = true ∧ (o = .arith .mul ∨ o = .arith .div ∨ o = .and))) ∧
      (shortcut lvl o a b = .right → (isValue a 0 = true ∧ (o = .arith .add ∨ o = .arith .bitOr ∨ o = .or)) ∨
        (isValue a 1 = true ∧ (o = .arith .mul ∨ o = .and))) ∧
      (shortcut lvl o a b = .negate → isValue a 0 = true ∧ o = .arith .sub) := by
  unfold shortcut
  split
  · simp
  · cases o with
    | arith k =>
      cases k <;> simp only [] <;> (try split) <;> (try split) <;> simp_all
    | cmp k => simp
    | and => simp only []; split <;> (try split) <;> simp_all
    | or => simp only []; split <;> (try split) <;> simp_all

/-! ## Quiet expressions -/

theorem readAt_self (t : VT) (mem : Mem) (a : Nat) : readAt t mem a = (⟨t, readAt t mem a⟩ : Const).v := rfl

/-- Operators of quiet expressions always have a result. -/
theorem quiet_operate {o : BOp} {a b : Exp} (hq : quiet (.bin o a b) = true) {t1 t2 r : VT}
    (hr : resultOf o.op t1 t2 = some r) (x y : Int) : ∃ v, operate o.op ⟨t1, x⟩ ⟨t2, y⟩ = some ⟨r, conv r v⟩ := by
  unfold operate
  simp only [hr, Option.bind_eq_bind, Option.bind_some]
  rw [quiet] at hq
  cases o with
  | arith k =>
    cases k <;> simp [quietOp] at hq <;> exact ⟨_, rfl⟩
  | cmp k => exact ⟨_, rfl⟩
  | and => exact ⟨_, rfl⟩
  | or => exact ⟨_, rfl⟩

theorem quiet_operate1 {o : NOp} (ho : o ≠ .minus) {t r : VT} (hr : uresultOf o.op t = some r) (x : Int) :
    ∃ v, operate1 o.op ⟨t, x⟩ = some ⟨r, conv r v⟩ := by
  unfold operate1
  simp only [hr, Option.bind_eq_bind, Option.bind_some]
  cases o <;> first | exact absurd rfl ho | exact ⟨_, rfl⟩

theorem foldOr_some {lvl : Level} {want : Want} {value : Option (Option Const)} {code : Unit → Option (List Ins)}
    {cs : List Ins} (h : foldOr lvl want value code = some cs) :
    (1 ≤ lvl ∧ ∃ c, value = some (some c) ∧ cs = [constIns want c]) ∨
      (code () = some cs ∧ (1 ≤ lvl → value = some none)) := by
  unfold foldOr at h
  split at h
  · split at h
    · simp at h
    · rename_i c
      simp only [Option.some.injEq] at h
      exact .inl ⟨by assumption, c, rfl, h.symm⟩
    · exact .inr ⟨h, fun _ => rfl⟩
  · rename_i hn; exact .inr ⟨h, fun h' => absurd h' hn⟩

/-- The machine evaluates a quiet expression, whatever the variables are. -/
theorem run_quiet {lvl : Level} {p : Prog} {img : Image} {junk : Junk} {m : Method} {marked : List Nat}
    (hret : ∀ (f : Nat) (m' : Method), p[f]? = some m' → plain m'.ret = true) (e : Exp) :
    ∀ {want : Want} {code : List Ins} {s : State}, quiet e = true → safe lvl p m e = true →
      (∀ t, want = some t → plain t = true) → compile lvl p m marked want e = some code →
      CodeAt img.code s.pc (code.map (create m)) → ∃ s', Steps img junk s s' ∧ Pushed s s' code.length := by
  induction e using Exp.induct with
  | const c =>
    intro want code s _ hs hw hc hat
    rw [compile] at hc
    simp only [Option.some.injEq] at hc
    subst hc
    rw [safe] at hs
    simp only [Bool.and_eq_true, beq_iff_eq] at hs
    obtain ⟨sa, h1, h2, _⟩ := run_const (junk := junk) hat.before_post.head hs.1 hs.2 hw
    obtain ⟨s', h3, h4⟩ := Pushed.post (junk := junk) (c := [constIns want c]) h2 hat hw
    exact ⟨s', h1.trans h3, h4⟩
  | var x =>
    intro want code s _ hs hw hc hat
    rw [compile] at hc
    simp only [Option.bind_eq_bind, Option.bind_eq_some_iff, Option.some.injEq] at hc
    obtain ⟨t, ht, ins, hi, rfl⟩ := hc
    obtain ⟨sa, h1, h2, _⟩ := run_read (junk := junk) hi ht hat.before_post.head
    obtain ⟨s', h3, h4⟩ := Pushed.post (junk := junk) (c := [ins]) h2 hat hw
    exact ⟨s', h1.trans h3, h4⟩
  | bin o a b iha ihb =>
    intro want code s hq hs hw hc hat
    obtain ⟨s1, s2, ⟨t1, t2, r, h1, h2, h3, h4, h5⟩, _⟩ := safe_bin hs
    have hq' := hq
    rw [quiet] at hq'
    simp only [Bool.and_eq_true] at hq'
    rw [compile] at hc
    rcases foldOr_some hc with ⟨_, c, hv, rfl⟩ | ⟨hc, _⟩
    · obtain ⟨_, e2, e3⟩ := execute_ty _ hs hv
      obtain ⟨s', g1, g2, _⟩ := run_const (junk := junk) hat.head e2 e3 hw
      exact ⟨s', g1, g2⟩
    · simp only [h1, h2, h4, Option.bind_eq_bind, Option.bind_some, Option.bind_eq_some_iff, Option.some.injEq] at hc
      obtain ⟨c0, hc', rfl⟩ := hc
      replace hc := hc'
      suffices hp : ∃ s', Steps img junk s s' ∧ Pushed s s' c0.length by
        obtain ⟨sa, ra, pa⟩ := hp
        obtain ⟨s', h3, h4⟩ := Pushed.post (junk := junk) pa hat hw
        exact ⟨s', ra.trans h3, h4⟩
      replace hat := hat.before_post
      cases hsh : shortcut lvl o a b with
      | both =>
        simp only [hsh, binIns, Option.bind_eq_bind, Option.bind_eq_some_iff, Option.some.injEq] at hc
        obtain ⟨ca, hca, cb, hcb, rfl⟩ := hc
        simp only [List.map_append, List.append_assoc, List.map_cons, List.map_nil] at hat
        obtain ⟨sa, ra, pa⟩ := iha hq'.1.2 s1 (by simp) hca hat.left
        obtain ⟨sb, rb, pb⟩ := ihb hq'.2 s2 (by simp) hcb (s := sa) (by
          rw [pa.pc]; simpa using hat.right.left)
        have hcmd : img.code[sb.pc]? = some (.bin o.op t1 t2) := by
          have := hat.right.right.head
          rw [pb.pc, pa.pc]
          simpa [create] using this
        obtain ⟨v, hv⟩ := quiet_operate hq h3 (readAt t1 sb.mem (8 * s.top)) (readAt t2 sb.mem (8 * (s.top + 1)))
        have hpr := resultOf_plain _ h5 h3
        obtain ⟨s', g1, g2, g3, g4, g5, _⟩ := run_bin (junk := junk) (x := ⟨t1, _⟩) (y := ⟨t2, _⟩) (base := s.top)
          (hp := hpr) hcmd (by rw [pb.top, pa.top]) rfl rfl ((result_vmBinary o _ _ h3 h5).trans hv) (conv_idem hpr _)
        refine ⟨s', (ra.trans rb).trans g1, ⟨?_, ?_, g4, ?_⟩⟩
        · rw [g2, pb.pc, pa.pc]; simp only [List.length_append, List.length_cons, List.length_nil]; omega
        · rw [g3, pb.lp, pa.lp]
        · intro x hx
          rw [g5 x hx, pb.mem x (by rw [pa.top]; omega), pa.mem x hx]
      | left =>
        simp only [hsh, binIns] at hc
        exact iha hq'.1.2 s1 (by simp) hc hat
      | right =>
        simp only [hsh, binIns] at hc
        exact ihb hq'.2 s2 (by simp) hc hat
      | negate =>
        have := (shortcut_cases.2.2 hsh).2
        subst this
        simp [quietOp] at hq'
  | un o a ih =>
    intro want code s hq hs hw hc hat
    obtain ⟨s1, t, r, h1, h2, h3⟩ := safe_un hs
    rw [quiet] at hq
    simp only [Bool.and_eq_true, bne_iff_ne, ne_eq] at hq
    rw [compile] at hc
    rcases foldOr_some hc with ⟨_, c, hv, rfl⟩ | ⟨hc, _⟩
    · obtain ⟨_, e2, e3⟩ := execute_ty _ hs hv
      obtain ⟨s', g1, g2, _⟩ := run_const (junk := junk) hat.head e2 e3 hw
      exact ⟨s', g1, g2⟩
    · simp only [h1, h3, Option.bind_eq_bind, Option.bind_some, Option.bind_eq_some_iff, Option.some.injEq] at hc
      obtain ⟨ca, hca, rfl⟩ := hc
      suffices hp : ∃ s', Steps img junk s s' ∧ Pushed s s' (ca ++ [Ins.un o.op t]).length by
        obtain ⟨sa, ra, pa⟩ := hp
        obtain ⟨s', h3, h4⟩ := Pushed.post (junk := junk) pa hat hw
        exact ⟨s', ra.trans h3, h4⟩
      replace hat := hat.before_post
      simp only [List.map_append, List.map_cons, List.map_nil] at hat
      obtain ⟨sa, ra, pa⟩ := ih hq.2 s1 (by simp) hca hat.left
      have hcmd : img.code[sa.pc]? = some (.un o.op t) := by
        have := hat.right.head
        rw [pa.pc]
        simpa [create] using this
      obtain ⟨t', e1, hpt⟩ := vty_plain hret a s1
      rw [h1] at e1; simp only [Option.some.injEq] at e1; subst e1
      obtain ⟨v, hv⟩ := quiet_operate1 hq.1 h2 (readAt t sa.mem (8 * s.top))
      have hpr := uresultOf_plain _ hpt h2
      obtain ⟨s', g1, g2, g3, g4, g5, _⟩ := run_un (junk := junk) (x := ⟨t, _⟩) (base := s.top) (hp := hpr) hcmd pa.top rfl
        ((result_vmUnary o _ hpt h2).trans hv) (conv_idem hpr _)
      refine ⟨s', ra.trans g1, ⟨?_, ?_, g4, ?_⟩⟩
      · rw [g2, pa.pc]; simp only [List.length_append, List.length_cons, List.length_nil]; omega
      · rw [g3, pa.lp]
      · intro x hx
        rw [g5 x hx, pa.mem x hx]
  | assign x e _ => intro want code s hq; simp [quiet] at hq
  | opAssign o x e _ => intro want code s hq; simp [quiet] at hq
  | inc post dec x => intro want code s hq; simp [quiet] at hq
  | cond c a b _ _ _ => intro want code s hq; simp [quiet] at hq
  | cast t e ih =>
    intro want code s hq hs hw hc hat
    obtain ⟨s1, h2⟩ := safe_cast hs
    obtain ⟨te, _, h3, _⟩ := fits_some h2
    rw [quiet] at hq
    rw [compile] at hc
    simp only [Option.bind_eq_bind, Option.bind_eq_some_iff, Option.some.injEq] at hc
    obtain ⟨c0, hc, rfl⟩ := hc
    obtain ⟨sa, ra, pa⟩ := ih hq s1 (by
      intro t' ht'
      simp only [Option.some.injEq] at ht'
      subst ht'
      exact (sameKind_plain h3).1) hc hat.before_post
    obtain ⟨s', h3, h4⟩ := Pushed.post (junk := junk) pa hat hw
    exact ⟨s', ra.trans h3, h4⟩
  | call f args => intro want code s hq; simp [quiet] at hq

end Verif.Expr
