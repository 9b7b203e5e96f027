import Verif.Proof.Expr2

/-! Lemmas about single commands and frames for `Verif.Props.Expr`. -/

namespace Verif.Expr

open Verif.Fold Spec

/-! ## Code -/

/-- The commands are at a position of the code. -/
def CodeAt (code : List Cmd) (pc : Nat) (cs : List Cmd) : Prop := ∀ (i : Nat) (c : Cmd), cs[i]? = some c → code[pc + i]? = some c

theorem CodeAt.left {code : List Cmd} {pc : Nat} {a b : List Cmd} (h : CodeAt code pc (a ++ b)) : CodeAt code pc a := by
  intro i c hi
  have := (List.getElem?_eq_some_iff.1 hi).1
  exact h i c (by rw [List.getElem?_append_left this]; exact hi)

theorem CodeAt.right {code : List Cmd} {pc : Nat} {a b : List Cmd} (h : CodeAt code pc (a ++ b)) :
    CodeAt code (pc + a.length) b := by
  intro i c hi
  have := h (a.length + i) c (by rw [List.getElem?_append_right (by omega)]; simpa using hi)
  rwa [← Nat.add_assoc] at this

theorem CodeAt.head {code : List Cmd} {pc : Nat} {c : Cmd} {cs : List Cmd} (h : CodeAt code pc (c :: cs)) :
    code[pc]? = some c := h 0 c rfl

theorem CodeAt.tail {code : List Cmd} {pc : Nat} {c : Cmd} {cs : List Cmd} (h : CodeAt code pc (c :: cs)) :
    CodeAt code (pc + 1) cs := CodeAt.right (a := [c]) h

/-- Some commands lead from a state to another. -/
def Steps (img : Image) (junk : Junk) (s s' : State) : Prop := ∃ n, steps img junk n s = some s'

theorem steps_add (img : Image) (junk : Junk) : ∀ (n k : Nat) (s s' s'' : State),
    steps img junk n s = some s' → steps img junk k s' = some s'' → steps img junk (n + k) s = some s''
  | 0, k, s, s', s'', h1, h2 => by
    simp only [steps, Option.some.injEq] at h1
    subst h1
    rw [Nat.zero_add]; exact h2
  | n + 1, k, s, s', s'', h1, h2 => by
    rw [steps] at h1
    simp only [Option.bind_eq_bind, Option.bind_eq_some_iff] at h1
    obtain ⟨t, h3, h4⟩ := h1
    rw [Nat.add_right_comm, steps]
    simp only [Option.bind_eq_bind, Option.bind_eq_some_iff]
    exact ⟨t, h3, steps_add img junk n k t s' s'' h4 h2⟩

theorem Steps.refl {img : Image} {junk : Junk} (s : State) : Steps img junk s s := ⟨0, rfl⟩

theorem Steps.trans {img : Image} {junk : Junk} {s s' s'' : State} (h1 : Steps img junk s s') (h2 : Steps img junk s' s'') :
    Steps img junk s s'' := by
  obtain ⟨n, h1⟩ := h1
  obtain ⟨k, h2⟩ := h2
  exact ⟨n + k, steps_add _ _ _ _ _ _ _ h1 h2⟩

theorem Steps.one {img : Image} {junk : Junk} {s s' : State} {c : Cmd} (h : img.code[s.pc]? = some c)
    (he : exec img junk { s with pc := s.pc + 1 } c = some s') : Steps img junk s s' := by
  refine ⟨1, ?_⟩
  rw [steps, step, h]
  simp only [Option.bind_eq_bind, Option.bind_some]
  rw [he]
  rfl

/-! ## Frames -/

/-- The variables of a call are in memory, in the frame at `lp`. -/
structure Frame (m : Method) (lp : Nat) (mem : Mem) (ρ : Env) : Prop where
  low : m.params.length + 3 ≤ lp
  loc : ∀ (i : Nat) t off v, m.locals[i]? = some (t, off) → ρ.loc i = some v → readAt t mem (8 * lp + off) = v
  par : ∀ (i : Nat) t v, m.params[i]? = some t → ρ.par i = some v →
    readAt t mem (8 * (lp - (argOffset m.params i + stubSize))) = v

/-- What an expression leaves as it is: everything below the arguments, the stub, and the values on the stack. -/
def Keeps (m : Method) (lp top : Nat) (mem mem' : Mem) : Prop :=
  ∀ x, (x < 8 * (lp - 3 - m.params.length) ∨ (8 * (lp - 3) ≤ x ∧ x < 8 * lp) ∨ (8 * (lp + m.units) ≤ x ∧ x < 8 * top)) →
    mem' x = mem x

theorem Keeps.refl (m : Method) (lp top : Nat) (mem : Mem) : Keeps m lp top mem mem := fun _ _ => rfl

theorem Keeps.trans {m : Method} {lp top : Nat} {a b c : Mem} (h1 : Keeps m lp top a b) (h2 : Keeps m lp top b c) :
    Keeps m lp top a c := fun x hx => (h2 x hx).trans (h1 x hx)

theorem Keeps.mono {m : Method} {lp top top' : Nat} {a b : Mem} (h : Keeps m lp top' a b) (ht : top ≤ top') :
    Keeps m lp top a b := by
  intro x hx
  apply h x
  rcases hx with h | h | h
  · exact .inl h
  · exact .inr (.inl h)
  · exact .inr (.inr ⟨h.1, by omega⟩)

theorem Keeps.of_below {m : Method} {lp top : Nat} {a b : Mem} (h : ∀ x, x < 8 * top → b x = a x) (ht : lp + m.units ≤ top) :
    Keeps m lp top a b := by
  intro x hx
  apply h
  omega

theorem Keeps.read {m : Method} {lp top : Nat} {a b : Mem} (h : Keeps m lp top a b) {t : VT} {u : Nat}
    (h1 : lp + m.units ≤ u) (h2 : u < top) : readAt t b (8 * u) = readAt t a (8 * u) := by
  apply readAt_congr
  intro x hx1 hx2
  have := bytes_le t
  exact h x (.inr (.inr ⟨by omega, by omega⟩))

theorem Frame.of_below {lvl : Level} {p : Prog} {m : Method} (hm : Supported lvl p m) {lp : Nat} {a b : Mem} {ρ : Env}
    (hf : Frame m lp a ρ) (h : ∀ x, x < 8 * (lp + m.units) → b x = a x) : Frame m lp b ρ := by
  refine ⟨hf.low, ?_, ?_⟩
  · intro i t off v h1 h2
    rw [← hf.loc i t off v h1 h2]
    apply readAt_congr
    intro x hx1 hx2
    have := (hm.locals i t off h1).2
    exact h x (by omega)
  · intro i t v h1 h2
    rw [← hf.par i t v h1 h2]
    apply readAt_congr
    intro x hx1 hx2
    have := bytes_le t
    have hl := hf.low
    have hi := (List.getElem?_eq_some_iff.1 h1).1
    simp only [argOffset, stubSize] at *
    exact h x (by omega)

/-! ## Commands -/

theorem push_out {junk : Junk} {s : State} {t : VT} {v : Int} {x : Nat} (h : ¬ (8 * s.top ≤ x ∧ x < 8 * s.top + 8)) :
    (push junk s t v).mem x = s.mem x := store_out h

theorem push_read {junk : Junk} {s : State} {t : VT} {v : Int} (ht : plain t = true) (hv : conv t v = v) :
    readAt t (push junk s t v).mem (8 * s.top) = v := readAt_push ht hv _ _ _

/-- One more unit is on the stack, the memory below is as before. -/
structure Pushed (s s' : State) (len : Nat) : Prop where
  pc : s'.pc = s.pc + len
  lp : s'.lp = s.lp
  top : s'.top = s.top + 1
  mem : ∀ x, x < 8 * s.top → s'.mem x = s.mem x

theorem run_const {img : Image} {junk : Junk} {m : Method} {want : Want} {c : Const} {s : State}
    (hc : img.code[s.pc]? = some (create m (constIns want c))) (hp : plain c.ty = true) (hv : conv c.ty c.v = c.v)
    (hw : ∀ t, want = some t → plain t = true) :
    ∃ s', Steps img junk s s' ∧ Pushed s s' 1 ∧
      (match want with
        | none => readAt c.ty s'.mem (8 * s.top) = c.v
        | some t => readAt t s'.mem (8 * s.top) = conv t c.v) := by
  cases want with
  | none =>
    refine ⟨_, .one hc rfl, ⟨rfl, rfl, rfl, fun x hx => push_out (by simp only; omega)⟩, ?_⟩
    exact push_read (s := { s with pc := s.pc + 1 }) hp hv
  | some t =>
    refine ⟨_, .one hc rfl, ⟨rfl, rfl, rfl, fun x hx => push_out (by simp only; omega)⟩, ?_⟩
    exact push_read (s := { s with pc := s.pc + 1 }) (hw t rfl) (conv_idem (hw t rfl) _)

theorem post_split (want : Want) (t : VT) (c : List Ins) : ∃ d, post want t c = c ++ d := by
  cases want with
  | none => exact ⟨[], by simp [post]⟩
  | some w =>
    by_cases h : w = t
    · exact ⟨[], by simp [post, h]⟩
    · exact ⟨[.convert t w], by simp [post, h]⟩

theorem post_none (t : VT) (c : List Ins) : post none t c = c := rfl

theorem post_ne {want : Want} {t : VT} {c : List Ins} (h : c ≠ []) : post want t c ≠ [] := by
  obtain ⟨d, hd⟩ := post_split want t c
  rw [hd]; simp [h]

/-- Without the conversion behind it. -/
theorem CodeAt.before_post {code : List Cmd} {pc : Nat} {want : Want} {t : VT} {c : List Ins} {m : Method}
    (h : CodeAt code pc ((post want t c).map (create m))) : CodeAt code pc (c.map (create m)) := by
  obtain ⟨d, hd⟩ := post_split want t c
  rw [hd, List.map_append] at h
  exact h.left

/-- The conversion behind an expression. -/
theorem run_post {img : Image} {junk : Junk} {m : Method} {want : Want} {t : VT} {c : List Ins} {s sa : State}
    (hpc : sa.pc = s.pc + c.length) (htop : sa.top = s.top + 1)
    (hat : CodeAt img.code s.pc ((post want t c).map (create m))) (hw : ∀ w, want = some w → plain w = true) :
    ∃ s', Steps img junk sa s' ∧ s'.pc = s.pc + (post want t c).length ∧ s'.lp = sa.lp ∧ s'.top = s.top + 1 ∧
      (∀ x, x < 8 * s.top → s'.mem x = sa.mem x) ∧ (want = none → s'.mem = sa.mem) ∧
      ∀ w, want = some w → readAt w s'.mem (8 * s.top) = conv w (readAt t sa.mem (8 * s.top)) := by
  cases want with
  | none => exact ⟨sa, .refl _, hpc, rfl, htop, fun _ _ => rfl, fun _ => rfl, by simp⟩
  | some w =>
    have hp := hw w rfl
    by_cases h : w = t
    · subst h
      refine ⟨sa, .refl _, by simpa [post] using hpc, rfl, htop, fun _ _ => rfl, by simp, ?_⟩
      intro w' hw'
      simp only [Option.some.injEq] at hw'
      subst hw'
      exact (readAt_valid hp _ _).symm
    · have e : post (some w) t c = c ++ [.convert t w] := by simp [post, h]
      rw [e] at hat ⊢
      simp only [List.map_append, List.map_cons, List.map_nil, create] at hat
      have hcmd : img.code[sa.pc]? = some (.convert t w) := by
        have := hat.right.head
        rw [hpc]; simpa using this
      have e1 : top { sa with pc := sa.pc + 1 } t = readAt t sa.mem (8 * s.top) := by
        simp only [top, htop, Nat.add_sub_cancel]
      refine ⟨push junk { sa with pc := sa.pc + 1, top := sa.top - 1 } w (conv w (readAt t sa.mem (8 * s.top))),
        .one hcmd ?_, ?_, rfl, ?_, ?_, by simp, ?_⟩
      · simp only [exec, e1]
      · simp only [push, List.length_append, List.length_cons, List.length_nil]; omega
      · simp only [push]; omega
      · intro x hx
        exact push_out (by simp only; omega)
      · intro w' hw'
        simp only [Option.some.injEq] at hw'
        subst hw'
        have := push_read (junk := junk) (s := { sa with pc := sa.pc + 1, top := sa.top - 1 }) hp
          (conv_idem hp (readAt t sa.mem (8 * s.top)))
        simpa [htop] using this

/-- Behind the conversion one more unit is on the stack. -/
theorem Pushed.post {img : Image} {junk : Junk} {m : Method} {want : Want} {t : VT} {c : List Ins} {s sa : State}
    (h : Pushed s sa c.length) (hat : CodeAt img.code s.pc ((post want t c).map (create m)))
    (hw : ∀ w, want = some w → plain w = true) :
    ∃ s', Steps img junk sa s' ∧ Pushed s s' (Expr.post want t c).length := by
  obtain ⟨s', h1, h2, h3, h4, h5, _⟩ := run_post (junk := junk) h.pc h.top hat hw
  exact ⟨s', h1, h2, by rw [h3, h.lp], h4, fun x hx => by rw [h5 x hx, h.mem x hx]⟩

/-- A value of the type `t` that was pushed as `w` and is converted from `t` to `w` again. -/
theorem again {t w : VT} (ht : t.isInt = true) (hw : w.isInt = true) {v : Int} (hv : conv t v = v) {mem : Mem} {a : Nat}
    (h : readAt w mem a = conv w v) : conv w (readAt t mem a) = conv w v := by
  by_cases hb : t.bits ≤ w.bits
  · rw [readAt_narrow ht hw hb, h]
    congr 1
    refine Eq.trans (conv_congr ht ?_) hv
    obtain ⟨q, hq⟩ := conv_dvd hw v
    have hp : (2 ^ w.bits : Nat) = 2 ^ t.bits * 2 ^ (w.bits - t.bits) := by
      rw [← Nat.pow_add]; congr 1; omega
    rw [hp, Int.natCast_mul, Int.mul_assoc] at hq
    exact ⟨_, hq⟩
  · rw [← readAt_narrow hw ht (by omega), h]

theorem tyOf_loc {m : Method} {i : Nat} {t : VT} (h : m.tyOf (.loc i) = some t) : ∃ off, m.locals[i]? = some (t, off) := by
  simp only [Method.tyOf, Option.map_eq_some_iff] at h
  obtain ⟨⟨t', off⟩, h1, h2⟩ := h
  simp only at h2
  subst h2
  exact ⟨off, h1⟩

/-- Reading a variable. -/
theorem run_read {img : Image} {junk : Junk} {m : Method} {marked : List Nat} {want : Want} {x : Var} {t : VT} {ins : Ins}
    {s : State} (hi : readIns marked want x t = some ins) (ht : m.tyOf x = some t)
    (hc : img.code[s.pc]? = some (create m ins)) :
    ∃ s', Steps img junk s s' ∧ Pushed s s' 1 ∧ ∀ (ρ : Env) (v : Int), Frame m s.lp s.mem ρ → ρ.get x = some v →
      plain t = true → (∀ t', want = some t' → plain t' = true) →
      (match x with
        | .loc _ => readAt (want.getD t) s'.mem (8 * s.top) = conv (want.getD t) v
        | .par _ => readAt t s'.mem (8 * s.top) = v) ∧ conv t v = v := by
  cases x with
  | loc i =>
    obtain ⟨off, ho⟩ := tyOf_loc ht
    simp only [readIns] at hi
    split at hi
    · simp at hi
    · simp only [Option.some.injEq] at hi
      subst hi
      simp only [create, ho] at hc
      refine ⟨_, .one hc rfl, ⟨rfl, rfl, rfl, fun x hx => push_out (by simp only; omega)⟩, ?_⟩
      intro ρ v hf hv hp hw
      have hr := hf.loc i t off v ho hv
      have hp' : plain (want.getD t) = true := by
        cases want with
        | none => exact hp
        | some t' => exact hw t' rfl
      refine ⟨?_, ?_⟩
      · simp only
        rw [← hr]
        exact push_read (s := { s with pc := s.pc + 1 }) hp' (conv_idem hp' _)
      · rw [← hr]; exact readAt_valid hp _ _
  | par i =>
    simp only [readIns, Option.some.injEq] at hi
    subst hi
    have hpm : m.params[i]? = some t := ht
    simp only [create, hpm] at hc
    refine ⟨_, .one hc rfl, ⟨rfl, rfl, rfl, fun x hx => push_out (by simp only; omega)⟩, ?_⟩
    intro ρ v hf hv hp _
    have hr := hf.par i t v hpm hv
    have hcv : conv t v = v := by rw [← hr]; exact readAt_valid hp _ _
    refine ⟨?_, hcv⟩
    have := push_read (junk := junk) (s := { s with pc := s.pc + 1 }) (t := t)
      (v := conv t (readAt t s.mem (8 * (s.lp - (argOffset m.params i + stubSize))))) hp (conv_idem hp _)
    rw [hr, hcv] at this
    simpa [hr, hcv] using this

/-- A binary operation. -/
theorem run_bin {img : Image} {junk : Junk} {op : Op} {x y c : Const} {s : State} {base : Nat} {hp : plain c.ty = true}
    (hc : img.code[s.pc]? = some (.bin op x.ty y.ty)) (htop : s.top = base + 2)
    (hx : readAt x.ty s.mem (8 * base) = x.v) (hy : readAt y.ty s.mem (8 * (base + 1)) = y.v)
    (hr : result (vmBinary op x y) = some c) (hv : conv c.ty c.v = c.v) :
    ∃ s', Steps img junk s s' ∧ s'.pc = s.pc + 1 ∧ s'.lp = s.lp ∧ s'.top = base + 1 ∧
      (∀ a, a < 8 * base → s'.mem a = s.mem a) ∧ readAt c.ty s'.mem (8 * base) = c.v := by
  have e1 : second { s with pc := s.pc + 1 } x.ty = x.v := by
    rw [← hx]; simp only [second, htop, Nat.add_sub_cancel]
  have e2 : top { s with pc := s.pc + 1 } y.ty = y.v := by
    rw [← hy]; simp only [top, htop]; rfl
  refine ⟨push junk { s with pc := s.pc + 1, top := s.top - 2 } c.ty c.v, .one hc ?_, rfl, rfl, ?_, ?_, ?_⟩
  · simp only [exec]
    rw [e1, e2, hr]
    rfl
  · simp only [push]; omega
  · intro a ha; exact push_out (by simp only; omega)
  · have := push_read (junk := junk) (s := { s with pc := s.pc + 1, top := s.top - 2 }) hp hv
    have e : s.top - 2 = base := by omega
    simpa [e] using this

/-- A unary operation. -/
theorem run_un {img : Image} {junk : Junk} {op : UOp} {x c : Const} {s : State} {base : Nat} {hp : plain c.ty = true}
    (hc : img.code[s.pc]? = some (.un op x.ty)) (htop : s.top = base + 1)
    (hx : readAt x.ty s.mem (8 * base) = x.v) (hr : result (vmUnary op x) = some c) (hv : conv c.ty c.v = c.v) :
    ∃ s', Steps img junk s s' ∧ s'.pc = s.pc + 1 ∧ s'.lp = s.lp ∧ s'.top = base + 1 ∧
      (∀ a, a < 8 * base → s'.mem a = s.mem a) ∧ readAt c.ty s'.mem (8 * base) = c.v := by
  have e1 : top { s with pc := s.pc + 1 } x.ty = x.v := by
    rw [← hx]; simp only [top, htop, Nat.add_sub_cancel]
  refine ⟨push junk { s with pc := s.pc + 1, top := s.top - 1 } c.ty c.v, .one hc ?_, rfl, rfl, ?_, ?_, ?_⟩
  · simp only [exec]
    rw [e1, hr]
    rfl
  · simp only [push]; omega
  · intro a ha; exact push_out (by simp only; omega)
  · have := push_read (junk := junk) (s := { s with pc := s.pc + 1, top := s.top - 1 }) hp hv
    have e : s.top - 1 = base := by omega
    simpa [e] using this

/-- A store into a variable. -/
theorem run_store {lvl : Level} {p : Prog} {img : Image} {junk : Junk} {m : Method} (hm : Supported lvl p m) {pick : Bool}
    {x : Var} {t : VT} {s : State} {ρ : Env} {v : Int} (hc : img.code[s.pc]? = some (create m (storeIns pick x t)))
    (ht : m.tyOf x = some t) (hf : Frame m s.lp s.mem ρ) (hp : plain t = true) (htop : s.lp + m.units < s.top)
    (hr : readAt t s.mem (8 * (s.top - 1)) = v) :
    ∃ s', Steps img junk s s' ∧ s'.pc = s.pc + 1 ∧ s'.lp = s.lp ∧ s'.top = (if pick then s.top else s.top - 1) ∧
      Keeps m s.lp s.top s.mem s'.mem ∧ Frame m s.lp s'.mem (ρ.set x v) := by
  have hcv : conv t v = v := by rw [← hr]; exact readAt_valid hp _ _
  cases x with
  | loc i =>
    obtain ⟨off, ho⟩ := tyOf_loc ht
    have hin := (hm.locals i t off ho).2
    have hframe : Frame m s.lp (writeAt t s.mem (8 * s.lp + off) v) (ρ.set (.loc i) v) := by
      refine ⟨hf.low, ?_, ?_⟩
      · intro j t' off' w h1 h2
        simp only [Env.set] at h2
        by_cases hij : j = i
        · subst hij
          rw [ho] at h1
          simp only [Option.some.injEq, Prod.mk.injEq] at h1
          obtain ⟨rfl, rfl⟩ := h1
          simp only [if_true, Option.some.injEq] at h2
          rw [← h2]
          exact readAt_write hp hcv _ _
        · rw [if_neg hij] at h2
          rw [← hf.loc j t' off' w h1 h2]
          apply readAt_congr
          intro a ha1 ha2
          have := hm.apart i j t off t' off' ho h1 (fun e => hij e.symm)
          exact store_out (by omega)
      · intro j t' w h1 h2
        rw [← hf.par j t' w h1 h2]
        apply readAt_congr
        intro a ha1 ha2
        have hl := hf.low
        have := bytes_le t'
        have hj := (List.getElem?_eq_some_iff.1 h1).1
        simp only [argOffset, stubSize] at *
        exact store_out (by omega)
    have hkeep : Keeps m s.lp s.top s.mem (writeAt t s.mem (8 * s.lp + off) v) := by
      intro a ha
      exact store_out (by omega)
    cases pick with
    | true =>
      simp only [storeIns, if_true, create, ho] at hc
      refine ⟨_, .one hc rfl, rfl, rfl, rfl, ?_, ?_⟩
      · simpa only [top, hr, hcv] using hkeep
      · simpa only [top, hr, hcv] using hframe
    | false =>
      simp only [storeIns, Bool.false_eq_true, if_false, create, ho] at hc
      refine ⟨_, .one hc rfl, rfl, rfl, rfl, ?_, ?_⟩
      · simpa only [top, hr, hcv] using hkeep
      · simpa only [top, hr, hcv] using hframe
  | par i =>
    have hpm : m.params[i]? = some t := ht
    have hil := (List.getElem?_eq_some_iff.1 hpm).1
    have hl := hf.low
    have hbt := bytes_le t
    have hframe : Frame m s.lp (writeAt t s.mem (8 * (s.lp - (argOffset m.params i + stubSize))) v) (ρ.set (.par i) v) := by
      refine ⟨hf.low, ?_, ?_⟩
      · intro j t' off' w h1 h2
        rw [← hf.loc j t' off' w h1 h2]
        apply readAt_congr
        intro a ha1 ha2
        simp only [argOffset, stubSize]
        exact store_out (by omega)
      · intro j t' w h1 h2
        simp only [Env.set] at h2
        by_cases hij : j = i
        · subst hij
          rw [hpm] at h1
          simp only [Option.some.injEq] at h1
          subst h1
          simp only [if_true, Option.some.injEq] at h2
          rw [← h2]
          exact readAt_write hp hcv _ _
        · rw [if_neg hij] at h2
          rw [← hf.par j t' w h1 h2]
          apply readAt_congr
          intro a ha1 ha2
          have := bytes_le t'
          have hj := (List.getElem?_eq_some_iff.1 h1).1
          simp only [argOffset, stubSize] at *
          exact store_out (by omega)
    have hkeep : Keeps m s.lp s.top s.mem (writeAt t s.mem (8 * (s.lp - (argOffset m.params i + stubSize))) v) := by
      intro a ha
      simp only [argOffset, stubSize]
      exact store_out (by omega)
    cases pick with
    | true =>
      simp only [storeIns, if_true, create, hpm] at hc
      refine ⟨_, .one hc rfl, rfl, rfl, rfl, ?_, ?_⟩
      · simpa only [top, hr, hcv] using hkeep
      · simpa only [top, hr, hcv] using hframe
    | false =>
      simp only [storeIns, Bool.false_eq_true, if_false, create, hpm] at hc
      refine ⟨_, .one hc rfl, rfl, rfl, rfl, ?_, ?_⟩
      · simpa only [top, hr, hcv] using hkeep
      · simpa only [top, hr, hcv] using hframe

end Verif.Expr
