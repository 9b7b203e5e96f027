import Verif.Proof.Flow2

/-! The commands of a method do what its statements do, for `Verif.Props.Flow`. -/

namespace Verif.Flow

open Verif.Fold Verif.Expr Verif.Expr.Spec Verif.Flow.Spec

open Verif.Stmt (size labels labelIdx Seg X Placed)

/-- A method that has been compiled: what was appended and written for it, its commands with the actions of statements and
the ones of the machine, and where these are. -/
structure Ctx (lvl : Level) (p : Expr.Prog) (m : Expr.Method) (img : Image) (zs : List Pair) (cmds : List (Stmt.Cmd Task))
    (cmds2 : List (Stmt.Cmd Ins)) (base : Nat) : Prop where
  chunked : Chunked lvl p m zs
  nodup : (labels (xsOf zs)).Nodup
  short : (ysOf zs).length < 2 ^ 31
  xs : Stmt.commit (xsOf zs) = .ok cmds
  ys : Stmt.commit (ysOf zs) = .ok cmds2
  code : CodeAt img.code base (cmds2.map (make m))
  safe : ∀ t, X.act t ∈ xsOf zs → safeTask lvl p m t = true

/-- The values are on the stack. -/
def Holds (mem : Mem) (base : Nat) : List Const → Prop
  | [] => True
  | c :: r => readAt c.ty mem (8 * (base + r.length)) = c.v ∧ Holds mem base r

/-- The machine is where the statements are, and has the values of the variables and of the expressions. -/
structure Sim (m : Expr.Method) (zs : List Pair) (base lp : Nat) (mem0 : Mem) (i : Nat) (st : St) (s : State) : Prop where
  place : ∃ u, At zs i u ∧ s.pc = base + u
  at_ : s.lp = lp
  above : s.top = lp + m.units + st.values.length
  keeps : Keeps m lp (lp + m.units) mem0 s.mem
  frame : Frame m lp s.mem st.env
  vals : Holds s.mem (lp + m.units) st.values

theorem Holds.keep {m : Expr.Method} {lp top : Nat} {a b : Mem} (hk : Keeps m lp top a b) : ∀ {vs : List Const},
    lp + m.units + vs.length ≤ top → Holds a (lp + m.units) vs → Holds b (lp + m.units) vs
  | [], _, _ => trivial
  | c :: r, ht, h => by
    simp only [List.length_cons] at ht
    refine ⟨?_, Holds.keep hk (by omega) h.2⟩
    rw [hk.read (by omega) (by omega)]
    exact h.1

section
variable {lvl : Level} {p : Expr.Prog} {m : Expr.Method} {img : Image} {junk : Junk} {zs : List Pair}
  {cmds : List (Stmt.Cmd Task)} {cmds2 : List (Stmt.Cmd Ins)} {base lp : Nat} {mem0 : Mem}
  {call : Nat → List Int → Option Int}

theorem Ctx.P1 (C : Ctx lvl p m img zs cmds cmds2 base) : Placed (xsOf zs) cmds :=
  ⟨C.xs, C.nodup, Nat.lt_of_le_of_lt (length_ysOf C.chunked) C.short⟩

theorem Ctx.P2 (C : Ctx lvl p m img zs cmds cmds2 base) : Placed (ysOf zs) cmds2 :=
  ⟨C.ys, by rw [labels_ysOf C.chunked]; exact C.nodup, C.short⟩

theorem Ctx.command (C : Ctx lvl p m img zs cmds cmds2 base) {u : Nat} {c : Stmt.Cmd Ins} (h : cmds2[u]? = some c) :
    img.code[base + u]? = some (make m c) := C.code u _ (by rw [List.getElem?_map, h]; rfl)

/-- The commands of instructions. -/
theorem Ctx.acts (C : Ctx lvl p m img zs cmds cmds2 base) {u : Nat} {c : List Ins} (h : Seg (ysOf zs) u (c.map X.act)) :
    CodeAt img.code (base + u) (c.map (create m)) := by
  intro i k hk
  rw [List.getElem?_map, Option.map_eq_some_iff] at hk
  obtain ⟨ins, hi, rfl⟩ := hk
  have hlt := (List.getElem?_eq_some_iff.1 hi).1
  have hc : c = c.take i ++ ins :: c.drop (i + 1) := by
    have := (List.getElem?_eq_some_iff.1 hi).2
    rw [← this, ← List.drop_eq_getElem_cons hlt, List.take_append_drop]
  rw [hc, List.map_append, List.map_cons] at h
  have h1 := h.right.head
  rw [size_map_act, List.length_take, Nat.min_eq_left (by omega)] at h1
  obtain ⟨k, g1, g2⟩ := Stmt.fetch C.ys h1 rfl
  simp only [Stmt.place] at g1
  injection g1 with g1
  subst g1
  rw [Nat.add_assoc]
  exact C.command g2

/-- What the statements do next. -/
theorem Ctx.fetch (C : Ctx lvl p m img zs cmds cmds2 base) {i u : Nat} (h : At zs i u) (hi : i < cmds.length) :
    ∃ a x c b, zs = a ++ (x, c) :: b ∧ size (xsOf a) = i ∧ size (ysOf a) = u ∧ x.isLabel = false ∧ Chunk lvl p m x c := by
  obtain ⟨a, b, hz, h1, h2⟩ := h
  have hl : cmds.length = size (xsOf zs) := Stmt.placeAll_length _ _ _ _ C.xs
  have hi' : i < size (xsOf a) + size (xsOf b) := by
    rwa [hl, hz, xsOf_append, Stmt.size_append] at hi
  clear hl hi
  induction b generalizing a with
  | nil => rw [h1] at hi'; simp [xsOf, size] at hi'
  | cons z b ih =>
    obtain ⟨x, c⟩ := z
    have hc : Chunk lvl p m x c := C.chunked (x, c) (by rw [hz]; simp)
    cases hx : x.isLabel with
    | false => exact ⟨a, x, c, b, hz, h1, h2, hx, hc⟩
    | true =>
      cases x <;> simp [X.isLabel] at hx
      cases hc
      rename_i l
      refine ih (a ++ [(.label l, [.label l])]) (by rw [hz]; simp) ?_ ?_ ?_
      · rw [xsOf_append, Stmt.size_append, h1]; rfl
      · rw [ysOf_append, Stmt.size_append, h2]; rfl
      · rw [xsOf_append, Stmt.size_append]
        rw [xsOf_cons, Stmt.size_label] at hi'
        exact hi'

theorem At.next {a b : List Pair} {x : X Task} {c : List (X Ins)} (hx : x.isLabel = false) :
    At (a ++ (x, c) :: b) (size (xsOf a) + 1) (size (ysOf a) + size c) := by
  refine ⟨a ++ [(x, c)], b, by simp, ?_, ?_⟩
  · rw [xsOf_append, Stmt.size_append]
    show _ + size [x] = _
    rw [Stmt.size_one x hx]
  · rw [ysOf_append, Stmt.size_append]
    simp [ysOf]

/-- After an expression whose value is not kept. -/
theorem Sim.on {a b : List Pair} {x : X Task} {c : List Ins} {st : St} {s s' : State} {ρ : Env} {n : Nat}
    (hx : x.isLabel = false) (S : Sim m (a ++ (x, c.map X.act) :: b) base lp mem0 (size (xsOf a)) st s)
    (hpc : s.pc = base + size (ysOf a)) (o : Out m s s' c.length n ρ) (vs : List Const)
    (hn : s'.top = lp + m.units + vs.length) (hv : Holds s'.mem (lp + m.units) vs) :
    Sim m (a ++ (x, c.map X.act) :: b) base lp mem0 (size (xsOf a) + 1) { st with env := ρ, values := vs } s' := by
  have hlp := S.at_
  have htop := S.above
  refine ⟨⟨_, At.next hx, ?_⟩, by rw [o.lp, hlp], hn, ?_, ?_, hv⟩
  · rw [o.pc, hpc, size_map_act]; omega
  · have := o.keeps
    rw [hlp] at this
    exact S.keeps.trans (this.mono (by omega))
  · have := o.frame
    rwa [hlp] at this

/-- An expression. -/
theorem sim_act (C : Ctx lvl p m img zs cmds cmds2 base) (hm : Expr.Spec.Supported lvl p m)
    (hret : ∀ (f : Nat) (m' : Expr.Method), p[f]? = some m' → plain m'.ret = true)
    (hcall : ∀ (f : Nat) (m' : Expr.Method) vs v, p[f]? = some m' → call f vs = some v → vs.length = m'.params.length →
      CallOK img junk f m' vs v) {a b : List Pair} {t : Task} {c : List Ins} {marked : List Nat} {st : St} {s : State}
    (hz : zs = a ++ (.act t, c.map X.act) :: b) (hc : code lvl p m marked t = some c)
    (S : Sim m zs base lp mem0 (size (xsOf a)) st s) (hpc : s.pc = base + size (ysOf a))
    (hok : (act p call m t st).ok = true) :
    ∃ s', Steps img junk s s' ∧ Sim m zs base lp mem0 (size (xsOf a) + 1) (act p call m t st) s' := by
  subst hz
  have hsafe : safeTask lvl p m t = true := C.safe t (by simp [xsOf_cons])
  have seg : Seg (ysOf (a ++ (.act t, c.map X.act) :: b)) (size (ysOf a)) (c.map X.act) :=
    ⟨ysOf a, ysOf b, by simp [ysOf_cons], rfl⟩
  have hat : CodeAt img.code s.pc (c.map (create m)) := by rw [hpc]; exact C.acts seg
  have hlp := S.at_
  have htop := S.above
  have hf : Frame m s.lp s.mem st.env := by rw [hlp]; exact S.frame
  have hle : s.lp + m.units ≤ s.top := by omega
  -- values that were on the stack are still there
  have old : ∀ {s' : State} {n : Nat} {ρ : Env}, Out m s s' c.length n ρ → Holds s'.mem (lp + m.units) st.values := by
    intro s' n ρ o
    have := o.keeps
    rw [hlp] at this
    exact Holds.keep this (by omega) S.vals
  -- an expression whose value is kept
  have keep : ∀ (want : Want) (e : Exp) (k : Const → Const), compile lvl p m marked want e = some c →
      Expr.Spec.safe lvl p m e = true → (∀ t, want = some t → fits p m t e = true) →
      (∀ (mem : Mem) (x : Const) (u : Nat), Val want x mem u → readAt (k x).ty mem u = (k x).v) →
      ∀ st', st' = evaluated (eval p call m e st.env) st (fun x ρ => { st with env := ρ, values := k x :: st.values }) →
        st'.ok = true →
        ∃ s', Steps img junk s s' ∧
          Sim m (a ++ (.act t, c.map X.act) :: b) base lp mem0 (size (xsOf a) + 1) st' s' := by
    intro want e k hce hs hw hk st' hst' hok'
    cases he : eval p call m e st.env with
    | none => rw [hst', he] at hok'; simp [evaluated] at hok'
    | some r =>
      obtain ⟨x, ρ⟩ := r
      rw [he] at hst'
      simp only [evaluated] at hst'
      obtain ⟨s', g1, g2, g3⟩ := run_expr (junk := junk) hm hret hcall e want marked c st.env ρ x s hce hs hw he hat hf hle
      refine ⟨s', g1, ?_⟩
      rw [hst']
      have htop' := g2.top
      refine Sim.on rfl S hpc g2 (k x :: st.values) (by rw [List.length_cons]; omega) ⟨?_, old g2⟩
      have := hk _ _ _ g3
      rwa [htop] at this
  cases t with
  | exp e =>
    simp only [act] at hok ⊢
    cases he : eval p call m e st.env with
    | none => rw [he] at hok; simp [evaluated] at hok
    | some r =>
      obtain ⟨x, ρ⟩ := r
      obtain ⟨s', g1, g2⟩ := run_stmt (junk := junk) hm hret hcall hc hsafe he hat hf hle
      have htop' := g2.top
      exact ⟨s', g1, Sim.on rfl S hpc g2 st.values (by omega) (old g2)⟩
  | init i e =>
    simp only [safeTask, Bool.and_eq_true] at hsafe
    simp only [act] at hok ⊢
    cases ht : m.tyOf (.loc i) with
    | none => rw [ht] at hok; simp at hok
    | some t =>
      rw [ht] at hok
      simp only [ht] at hsafe ⊢
      simp only at hok
      cases he : eval p call m e st.env with
      | none => rw [he] at hok; simp [evaluated] at hok
      | some r =>
        obtain ⟨x, ρ⟩ := r
        simp only [code, ht, Option.bind_eq_bind, Option.bind_some, Option.bind_eq_some_iff, Option.some.injEq] at hc
        obtain ⟨ce, hce, rfl⟩ := hc
        simp only [List.map_append, List.map_cons, List.map_nil] at hat
        obtain ⟨sa, ra, oa, va⟩ := run_expr (junk := junk) hm hret hcall e (some t) marked ce st.env ρ x s hce hsafe.1
          (by intro t' ht'; simp only [Option.some.injEq] at ht'; subst ht'; exact hsafe.2) he hat.left hf hle
        have hpt : plain t = true := by
          obtain ⟨_, _, h, _⟩ := fits_some hsafe.2
          exact (sameKind_plain h).1
        obtain ⟨s', g1, g2, g3⟩ := finish_store (junk := junk) hm oa (pick := false) (x := .loc i)
          (by rw [oa.pc]; simpa [storeIns] using hat.right.head) ht hpt va hle
        simp only [Bool.false_eq_true, if_false] at g2
        have g2' : Out m s s' (ce ++ [Ins.popLocal i t]).length 0 (ρ.set (.loc i) (conv t x.v)) := by
          simpa using g2
        have htop' := g2'.top
        exact ⟨s', ra.trans g1, Sim.on rfl S hpc g2' st.values (by omega) (old g2')⟩
  | test e =>
    simp only [safeTask, Bool.and_eq_true] at hsafe
    exact keep none e (fun x => x) hc hsafe.1 (by simp) (fun mem x u h => h) _ rfl hok
  | choose e =>
    simp only [safeTask, Bool.and_eq_true] at hsafe
    exact keep none e (fun x => x) hc hsafe.1 (by simp) (fun mem x u h => h) _ rfl hok
  | ret e =>
    simp only [safeTask, Bool.and_eq_true] at hsafe
    exact keep (some m.ret) e (fun x => ⟨m.ret, conv m.ret x.v⟩) hc hsafe.1
      (by intro t ht; simp only [Option.some.injEq] at ht; subst ht; exact hsafe.2) (fun mem x u h => h) _ rfl hok

/-- A jump. -/
theorem goTo_eq {s : State} {u v : Nat} (hpc : s.pc = base + u + 1) : goTo s ((v : Int) - u) = some { s with pc := base + v } := by
  unfold goTo
  have e : (s.pc : Int) + ((v : Int) - u - 1) = ((base + v : Nat) : Int) := by rw [hpc]; omega
  simp only [e]
  rw [if_neg (by omega), Int.toNat_natCast]

theorem Sim.pop {i j : Nat} {st : St} {s : State} {c : Const} {r : List Const} {u : Nat}
    (S : Sim m zs base lp mem0 i st s) (hv : st.values = c :: r) (ha : At zs j u) :
    Sim m zs base lp mem0 j { st with values := r } { s with pc := base + u, top := s.top - 1 } ∧
      top s c.ty = c.v := by
  have ht := S.above
  have hh := S.vals
  rw [hv] at ht hh
  simp only [List.length_cons] at ht
  refine ⟨⟨⟨u, ha, rfl⟩, S.at_, ?_, S.keeps, S.frame, hh.2⟩, ?_⟩
  · show s.top - 1 = lp + m.units + r.length
    omega
  · have e : s.top - 1 = lp + m.units + r.length := by omega
    rw [← hh.1]
    simp only [top]
    rw [e]

theorem popBool_some {st : St} (h : (popBool st).2.ok = true) : ∃ v r, st.values = ⟨.bool, v⟩ :: r ∧
    popBool st = (v != 0, { st with values := r }) := by
  unfold popBool at h ⊢
  split at h
  · rename_i v r hv; exact ⟨v, r, hv, by simp⟩
  · simp at h

theorem popInt_some {st : St} (h : (popInt st).2.ok = true) : ∃ v r, st.values = ⟨.int32, v⟩ :: r ∧
    popInt st = (BitVec.ofInt 32 v, { st with values := r }) := by
  unfold popInt at h ⊢
  split at h
  · rename_i v r hv; exact ⟨v, r, hv, by simp⟩
  · simp at h

theorem eq_result (v w : Int) : result (vmBinary (.cmp .eq) ⟨.int32, v⟩ ⟨.int32, w⟩) =
    some ⟨.bool, if conv .int32 v = conv .int32 w then 1 else 0⟩ := by
  have h : resultOf (.cmp .eq) .int32 .int32 = some .bool := by decide
  simp only [vmBinary, VT.isInt, Bool.and_self, if_true, binaryOperator, h, cppBinary, result, cmpInt, common, promote, ofBool]
  by_cases hv : conv .int32 v = conv .int32 w <;> simp [hv, conv]

/-- A table of steps. -/
theorem placed_switch {A : Type} {prog : List (X A)} {cs : List (Stmt.Cmd A)} (P : Placed prog cs) {i d : Nat}
    {rows : List (BitVec 32 × Nat)} (h : Seg prog i [.switch rows d]) :
    ∃ rs dd, cs[i]? = some (.switch rs dd) ∧ ∀ v, ∃ t, labelIdx prog 0 ((Stmt.search rows v).getD d) = some t ∧
      (Stmt.search rs v).getD dd = (t : Int) - i := by
  obtain ⟨c, h1, h2⟩ := Stmt.fetch P.ok h rfl
  have hi : i < 2 ^ 31 := by
    obtain ⟨a, b, e, rfl⟩ := h
    have := P.short
    rw [e] at this
    have h3 := Stmt.size_le a
    simp only [List.length_append] at this
    omega
  simp only [Stmt.place] at h1
  split at h1
  · cases h1
  · rename_i rs hrs
    split at h1
    · cases h1
    · rename_i t ht
      injection h1 with h1
      subst h1
      obtain ⟨e, he⟩ := placeRows_eq hrs
      refine ⟨_, _, h2, fun v => ?_⟩
      rw [e, search_map (fun l => (Stmt.distance i ((labelIdx prog 0 l).getD 0)).toInt) v _ rows (Nat.le_refl _)]
      cases hs : Stmt.search rows v with
      | none =>
        refine ⟨t, found_ok ht, ?_⟩
        simp only [Option.map_none, Option.getD_none]
        exact Stmt.distance_toInt _ _ hi (P.idx_lt (found_ok ht))
      | some l =>
        obtain ⟨r, hr, rfl⟩ := search_mem' _ rows (Nat.le_refl _) hs
        obtain ⟨t', ht'⟩ := he r hr
        refine ⟨t', ht', ?_⟩
        simp only [Option.map_some, Option.getD_some, ht']
        exact Stmt.distance_toInt _ _ hi (P.idx_lt ht')

/-- One command of the statements. -/
theorem sim_step (C : Ctx lvl p m img zs cmds cmds2 base) (hm : Expr.Spec.Supported lvl p m)
    (hret : ∀ (f : Nat) (m' : Expr.Method), p[f]? = some m' → plain m'.ret = true)
    (hcall : ∀ (f : Nat) (m' : Expr.Method) vs v, p[f]? = some m' → call f vs = some v → vs.length = m'.params.length →
      CallOK img junk f m' vs v) {i : Nat} {st : St} {s : State} (S : Sim m zs base lp mem0 i st s) :
    match Stmt.next (interp' lvl p call m).machine cmds (.at_ i st) with
    | .at_ i' st' => st'.ok = true → ∃ s', Steps img junk s s' ∧ Sim m zs base lp mem0 i' st' s'
    | .returned st' => st' = st ∧ img.code[s.pc]? = some (.ret m.units m.params.length)
    | _ => True := by
  obtain ⟨u, hat, hpc⟩ := S.place
  by_cases hi : i < cmds.length
  · obtain ⟨a, x, c, b, hz, rfl, rfl, hx, hc⟩ := C.fetch hat hi
    have seg1 : Seg (xsOf zs) (size (xsOf a)) [x] := ⟨xsOf a, xsOf b, by rw [hz]; simp [xsOf_cons], rfl⟩
    have seg2 : Seg (ysOf zs) (size (ysOf a)) c := ⟨ysOf a, ysOf b, by rw [hz]; simp [ysOf_cons], rfl⟩
    have hnext : At zs (size (xsOf a) + 1) (size (ysOf a) + size c) := by rw [hz]; exact At.next hx
    obtain ⟨k, hk1, hk2⟩ := Stmt.fetch C.xs seg1 hx
    rw [Stmt.next, hk2]
    simp only
    cases hc with
    | act hcode =>
      rename_i t marked c
      simp only [Stmt.place] at hk1
      injection hk1 with hk1
      subst hk1
      have hsafe : safeTask lvl p m t = true := C.safe t (by rw [hz]; simp [xsOf_cons])
      simp only [Stmt.exec, Stmt.Interp.machine, interp', act', hsafe, if_true]
      intro hok
      exact sim_act C hm hret hcall hz hcode S hpc hok
    | eqInt k =>
      simp only [Stmt.place] at hk1
      injection hk1 with hk1
      subst hk1
      simp only [Stmt.exec, Stmt.Interp.machine, interp', interp]
      intro hok
      obtain ⟨v, r, hv, hp⟩ := popInt_some hok
      rw [hp]
      have ht := S.above
      have hh := S.vals
      rw [hv] at ht hh
      simp only [List.length_cons] at ht
      have hat := C.acts (c := [.pushConst .int32 k.toInt, .bin (.cmp .eq) .int32 .int32]) seg2
      rw [← hpc] at hat
      have hk := BitVec.toInt_lt (x := k)
      have hk' := BitVec.le_toInt (x := k)
      have hck : conv .int32 k.toInt = k.toInt := by
        show Int.bmod k.toInt (2 ^ 32) = k.toInt
        exact Int.bmod_eq_of_le (by omega) (by omega)
      obtain ⟨s1, r1, p1, v1⟩ := run_const (img := img) (junk := junk) (m := m) (want := none) (c := ⟨.int32, k.toInt⟩) (s := s)
        hat.head rfl hck (by simp)
      simp only at v1
      have hcv : conv .int32 v = v := by
        have := hh.1
        simp only at this
        rw [← this]
        exact readAt_valid rfl _ _
      obtain ⟨s2, r2, a1, a2, a3, a4, a5⟩ := run_bin (img := img) (junk := junk) (op := .cmp .eq) (x := ⟨.int32, v⟩)
        (y := ⟨.int32, k.toInt⟩) (s := s1) (base := lp + m.units + r.length) (hp := rfl)
        (by rw [p1.pc]; exact hat.tail.head) (by rw [p1.top]; omega)
        (by
          rw [← hh.1]
          apply readAt_congr
          intro j _ hj
          have : bytes .int32 = 4 := rfl
          simp only [this] at hj
          exact p1.mem j (by omega)) (by
          have e : s.top = lp + m.units + r.length + 1 := by omega
          rw [← v1, e])
        (eq_result v k.toInt) (by simp only; split <;> rfl)
      refine ⟨s2, r1.trans r2, ?_⟩
      have hval : (if conv .int32 v = conv .int32 k.toInt then (1 : Int) else 0) =
          if (BitVec.ofInt 32 v == k) = true then 1 else 0 := by
        have : (conv .int32 v = conv .int32 k.toInt) ↔ (BitVec.ofInt 32 v == k) = true := by
          rw [hck, beq_iff_eq, ← BitVec.toInt_inj, BitVec.toInt_ofInt]
          exact Iff.rfl
        simp only [this]
      have below : ∀ x, x < 8 * (lp + m.units + r.length) → s2.mem x = s.mem x := by
        intro x hx
        rw [a4 x hx, p1.mem x (by omega)]
      have keep : Keeps m lp (lp + m.units + r.length) s.mem s2.mem := .of_below below (by omega)
      refine ⟨⟨_, hnext, ?_⟩, ?_, ?_, ?_, ?_, ⟨?_, ?_⟩⟩
      · rw [a1, p1.pc, hpc]; rfl
      · rw [a2, p1.lp, S.at_]
      · rw [a3]; simp [Spec.pushBool]; omega
      · exact S.keeps.trans (keep.mono (by omega))
      · exact S.frame.of_below hm fun x hx => below x (by omega)
      · rw [← hval]; exact a5
      · exact Holds.keep keep (Nat.le_refl _) hh.2
    | label l => simp [X.isLabel] at hx
    | jmp k l =>
      obtain ⟨t, h1, h2⟩ := C.P1.jmp seg1
      obtain ⟨v, h3, h4⟩ := C.P2.jmp seg2
      obtain ⟨t', v', h1', h3', hat'⟩ := label_at C.chunked C.nodup (labelIdx_mem h1)
      rw [h1] at h1'; rw [h3] at h3'
      simp only [Option.some.injEq] at h1' h3'
      subst h1'; subst h3'
      rw [hk2] at h2
      simp only [Option.some.injEq] at h2
      subst h2
      have hcmd := C.command h4
      rw [← hpc] at hcmd
      simp only [make] at hcmd
      cases k with
      | always =>
        simp only [Stmt.exec, Stmt.jumpTo_eq]
        intro _
        refine ⟨_, .one hcmd (by simp only [Expr.exec]; exact goTo_eq (base := base) (by simp only; rw [hpc])), ?_⟩
        exact ⟨⟨v, hat', rfl⟩, S.at_, S.above, S.keeps, S.frame, S.vals⟩
      | ifTrue =>
        simp only [Stmt.exec, Stmt.Interp.machine, interp', interp, Stmt.jumpTo_eq]
        by_cases hok : (popBool st).2.ok = true
        · obtain ⟨v, r, hv, hp⟩ := popBool_some hok
          rw [hp]
          obtain ⟨S1, htop⟩ := S.pop hv hat'
          obtain ⟨S2, _⟩ := S.pop hv hnext
          by_cases h0 : v = 0
          · subst h0
            simp only [bne_self_eq_false, Bool.false_eq_true, if_false]
            intro _
            refine ⟨_, .one hcmd ?_, S2⟩
            simp only [Expr.exec]
            rw [if_pos (by exact htop)]
            simp only [hpc]; rfl
          · have hb : (v != 0) = true := by simpa using h0
            simp only [hb, if_true]
            intro _
            refine ⟨_, .one hcmd ?_, S1⟩
            simp only [Expr.exec]
            rw [if_neg (by intro hc; exact h0 (htop.symm.trans hc))]
            exact goTo_eq (base := base) (by simp only; rw [hpc])
        · split
          · rename_i heq
            split at heq <;> (cases heq; intro h; exact absurd h hok)
          · rename_i heq
            split at heq <;> cases heq
          · trivial
      | ifFalse =>
        simp only [Stmt.exec, Stmt.Interp.machine, interp', interp, Stmt.jumpTo_eq]
        by_cases hok : (popBool st).2.ok = true
        · obtain ⟨v, r, hv, hp⟩ := popBool_some hok
          rw [hp]
          obtain ⟨S1, htop⟩ := S.pop hv hat'
          obtain ⟨S2, _⟩ := S.pop hv hnext
          by_cases h0 : v = 0
          · subst h0
            simp only [bne_self_eq_false, Bool.false_eq_true, if_false]
            intro _
            refine ⟨_, .one hcmd ?_, S1⟩
            simp only [Expr.exec]
            rw [if_pos (by exact htop)]
            exact goTo_eq (base := base) (by simp only; rw [hpc])
          · have hb : (v != 0) = true := by simpa using h0
            simp only [hb, if_true]
            intro _
            refine ⟨_, .one hcmd ?_, S2⟩
            simp only [Expr.exec]
            rw [if_neg (by intro hc; exact h0 (htop.symm.trans hc))]
            simp only [hpc]; rfl
        · split
          · rename_i heq
            split at heq <;> (cases heq; intro h; exact absurd h hok)
          · rename_i heq
            split at heq <;> cases heq
          · trivial
    | point q =>
      simp [Stmt.place] at hk1
    | switch rows d =>
      obtain ⟨rs, dd, h1, h2⟩ := placed_switch C.P1 seg1
      obtain ⟨rs2, dd2, h3, h4⟩ := placed_switch C.P2 seg2
      rw [hk2] at h1
      simp only [Option.some.injEq] at h1
      subst h1
      have hcmd := C.command h3
      rw [← hpc] at hcmd
      simp only [make] at hcmd
      obtain ⟨t, g1, g2⟩ := h2 (popInt st).1
      obtain ⟨v, g3, g4⟩ := h4 (popInt st).1
      obtain ⟨t', v', g1', g3', hat'⟩ := label_at C.chunked C.nodup (labelIdx_mem g1)
      rw [g1] at g1'; rw [g3] at g3'
      simp only [Option.some.injEq] at g1' g3'
      subst g1'; subst g3'
      simp only [Stmt.exec, Stmt.Interp.machine, interp', interp]
      rw [g2, Stmt.jumpTo_eq]
      simp only
      intro hok
      obtain ⟨w, r, hv, hp⟩ := popInt_some hok
      rw [hp] at g4 ⊢
      obtain ⟨S1, htop⟩ := S.pop hv hat'
      refine ⟨_, .one hcmd ?_, S1⟩
      simp only [Expr.exec]
      have e : top { s with pc := s.pc + 1 } VT.int32 = w := htop
      rw [e, g4]
      exact goTo_eq (base := base) (by simp only; rw [hpc])
    | ret =>
      simp only [Stmt.place] at hk1
      injection hk1 with hk1
      subst hk1
      simp only [Stmt.exec, true_and]
      obtain ⟨k2, g1, g2⟩ := Stmt.fetch C.ys seg2 rfl
      simp only [Stmt.place] at g1
      injection g1 with g1
      subst g1
      rw [hpc]
      exact C.command g2
    | thr =>
      simp only [Stmt.place] at hk1
      injection hk1 with hk1
      subst hk1
      simp only [Stmt.exec]
    | fail => simp [Stmt.place] at hk1
  · rw [Stmt.next, List.getElem?_eq_none (by omega)]
    trivial

end

end Verif.Flow
