import Verif.Proof.Flow4

/-!
# C101: a compiled program with loops, branches, switches and calls computes what its source says
-/

namespace Verif.Flow.Props

open Verif.Flow Verif.Expr Verif.Fold

open Verif.Stmt (Stmts Cases)

/-- **C101**, partial: when a program of supported methods is compiled at any optimisation level, and its source gives a call
the result `v`, then the machine, at a `call` command with the arguments on top of its stack, runs to the command behind
the call; it has replaced the arguments by a unit that holds `v`, the frame pointer is as before, and so is everything below
the arguments.  This holds whatever the unspecified bytes of pushed units are (`junk`), for every depth of calls and every
number of rounds of the loops.

Missing for the full property: programs that are not supported (for the expressions see `Verif.Props.Expr`, for the
statements `Verif.Props.Codegen`, with programs that are compiled wrongly), exceptions, values that are not integers or
truth values, methods without a result and programs that do not end. -/
theorem program_call_correct_partial {lvl : Level} {p : Prog} {img : Image} (junk : Junk) (hb : build lvl p = some img)
    (hs : ∀ m ∈ p, Spec.Supported lvl p m) {n f : Nat} {m : Method} {vs : List Int} {v : Int} (hf : p[f]? = some m)
    (hv : Spec.run p n f vs = some v) (s : State) (hc : img.code[s.pc]? = some (.call f))
    (hn : m.params.length ≤ s.top)
    (ha : ∀ (i : Nat) t w, m.params[i]? = some t → vs[i]? = some w →
      readAt t s.mem (8 * (s.top - m.params.length + i)) = w) :
    ∃ k s', steps img junk k s = some s' ∧ s'.pc = s.pc + 1 ∧ s'.lp = s.lp ∧ s'.top = s.top - m.params.length + 1 ∧
      readAt m.ret s'.mem (8 * (s.top - m.params.length)) = v ∧
      ∀ x, x < 8 * (s.top - m.params.length) → s'.mem x = s.mem x := by
  obtain ⟨s', ⟨k, h1⟩, h2⟩ := run_call junk hb hs n f m vs v hf hv s hc hn ha
  exact ⟨k, s', h1, h2⟩

/-- **C101**, partial: the optimisation level does not matter.  Started at calls of the same method with the same arguments,
the images of two levels reach the same result. -/
theorem program_levels_agree_partial {lvl lvl' : Level} {p : Prog} {img img' : Image} (junk junk' : Junk)
    (hb : build lvl p = some img) (hb' : build lvl' p = some img') (hs : ∀ m ∈ p, Spec.Supported lvl p m)
    (hs' : ∀ m ∈ p, Spec.Supported lvl' p m) {n f : Nat} {m : Method} {vs : List Int} (hf : p[f]? = some m)
    (hv : (Spec.run p n f vs).isSome) (s t : State) (hc : img.code[s.pc]? = some (.call f))
    (hc' : img'.code[t.pc]? = some (.call f)) (hn : m.params.length ≤ s.top) (hn' : m.params.length ≤ t.top)
    (ha : ∀ (i : Nat) ty w, m.params[i]? = some ty → vs[i]? = some w →
      readAt ty s.mem (8 * (s.top - m.params.length + i)) = w)
    (ha' : ∀ (i : Nat) ty w, m.params[i]? = some ty → vs[i]? = some w →
      readAt ty t.mem (8 * (t.top - m.params.length + i)) = w) :
    ∃ k k' s' t', steps img junk k s = some s' ∧ steps img' junk' k' t = some t' ∧ s'.pc = s.pc + 1 ∧ t'.pc = t.pc + 1 ∧
      readAt m.ret s'.mem (8 * (s.top - m.params.length)) = readAt m.ret t'.mem (8 * (t.top - m.params.length)) := by
  obtain ⟨v, hv⟩ := Option.isSome_iff_exists.1 hv
  obtain ⟨k, s', a1, a2, _, _, a3, _⟩ := program_call_correct_partial junk hb hs hf hv s hc hn ha
  obtain ⟨k', t', b1, b2, _, _, b3, _⟩ := program_call_correct_partial junk' hb' hs' hf hv t hc' hn' ha'
  exact ⟨k, k', s', t', a1, b1, a2, b2, a3.trans b3.symm⟩

/-! ## A program the theorems are about -/

def num (v : Int) : Exp := .const ⟨.int32, v⟩

/-- `int sum(int n) { int s = 0; for (int i = 1; i <= n; i++) { if (i % 3 == 0) continue; s += i; } return s; }` -/
def sum : Method :=
  { params := [.int32], ret := .int32, locals := [(.int32, 0), (.int32, 4)], units := 1,
    body := .cons (.decl [[.init 0 (num 0)]])
      (.cons (.for_ [.init 1 (num 1)] (some [.test (.bin (.cmp .le) (.var (.loc 1)) (.var (.par 0)))])
          (some [.exp (.inc true false (.loc 1))])
          (.block (.cons (.if_ (some [.test (.bin (.cmp .eq) (.bin (.arith .mod) (.var (.loc 1)) (num 3)) (num 0))]) .cont .empty)
            (.cons (.expr [.exp (.opAssign .add (.loc 0) (.var (.loc 1)))]) .nil))))
        (.cons (.ret (some [.ret (.var (.loc 0))])) .nil)) }

/-- `int kind(int k) { switch (k) { case 1: case 2: return 10; case 5: k = sum(k) * 10; break; default: k -= 1; }
switch (k) { case 3: return 4; } do { k -= 7; } while (k > 7); return k; }` -/
def kind : Method :=
  { params := [.int32], ret := .int32, locals := [], units := 0,
    body := .cons (.switch [.choose (.var (.par 0))]
        (.cons [some 1#32, some 2#32] (.cons (.ret (some [.ret (num 10)])) .nil)
          (.cons [some 5#32] (.cons (.expr [.exp (.assign (.par 0) (.bin (.arith .mul)
              (.call 0 (.cons (.var (.par 0)) .nil)) (num 10)))]) (.cons .brk .nil))
            (.cons [none] (.cons (.expr [.exp (.opAssign .sub (.par 0) (num 1))]) .nil) .nil))))
      (.cons (.switch [.choose (.var (.par 0))] (.cons [some 3#32] (.cons (.ret (some [.ret (num 4)])) .nil) .nil))
        (.cons (.doWhile (some [.test (.bin (.cmp .gt) (.var (.par 0)) (num 7))])
            (.block (.cons (.expr [.exp (.opAssign .sub (.par 0) (num 7))]) .nil)))
          (.cons (.ret (some [.ret (.var (.par 0))])) .nil))) }

/-- `int start() { return kind(5); }` -/
def start : Method :=
  { params := [], ret := .int32, locals := [], units := 0,
    body := .cons (.ret (some [.ret (.call 1 (.cons (num 5) .nil))])) .nil }

def prog : Prog := [sum, kind, start]

theorem short_of {lvl : Level} {p : Prog} {m : Method}
    (h : ((written lvl p m).all fun ys => decide (ys.length < 2 ^ 31)) = true) :
    ∀ ys, written lvl p m = some ys → ys.length < 2 ^ 31 := by
  intro ys hy
  rw [hy] at h
  simpa using h

theorem supported_prog (lvl : Level) (h : lvl = 0 ∨ lvl = 2) : ∀ m ∈ prog, Spec.Supported lvl prog m := by
  intro m hm
  simp only [prog, List.mem_cons, List.not_mem_nil, or_false] at hm
  rcases hm with rfl | rfl | rfl
  · refine ⟨⟨by decide, ?_, ?_, rfl, by intro st h; cases h⟩, ?_, ?_, short_of ?_⟩
    · intro i t off h
      rcases i with _ | _ | i
      · simp only [sum, Method.sig, List.getElem?_cons_zero, Option.some.injEq, Prod.mk.injEq] at h
        obtain ⟨rfl, rfl⟩ := h
        decide
      · simp only [sum, Method.sig, List.getElem?_cons_zero, List.getElem?_cons_succ, Option.some.injEq, Prod.mk.injEq] at h
        obtain ⟨rfl, rfl⟩ := h
        decide
      · simp [sum, Method.sig] at h
    · intro i j t off t' off' h h' hij
      rcases i with _ | _ | i <;> rcases j with _ | _ | j <;> simp [sum, Method.sig] at h h' hij
      · obtain ⟨rfl, rfl⟩ := h
        obtain ⟨rfl, rfl⟩ := h'
        decide
      · obtain ⟨rfl, rfl⟩ := h
        obtain ⟨rfl, rfl⟩ := h'
        decide
    · rcases h with rfl | rfl <;> exact List.all_eq_true.1 (by decide +kernel)
    · rcases h with rfl | rfl <;> decide +kernel
    · rcases h with rfl | rfl <;> decide +kernel
  · refine ⟨⟨by decide, ?_, ?_, rfl, by intro st h; cases h⟩, ?_, ?_, short_of ?_⟩
    · intro i t off h; simp [kind, Method.sig] at h
    · intro i j t off t' off' h; simp [kind, Method.sig] at h
    · rcases h with rfl | rfl <;> exact List.all_eq_true.1 (by decide +kernel)
    · rcases h with rfl | rfl <;> decide +kernel
    · rcases h with rfl | rfl <;> decide +kernel
  · refine ⟨⟨by decide, ?_, ?_, rfl, by intro st h; cases h⟩, ?_, ?_, short_of ?_⟩
    · intro i t off h; simp [start, Method.sig] at h
    · intro i j t off t' off' h; simp [start, Method.sig] at h
    · rcases h with rfl | rfl <;> exact List.all_eq_true.1 (by decide +kernel)
    · rcases h with rfl | rfl <;> decide +kernel
    · rcases h with rfl | rfl <;> decide +kernel

/-- 1 + 2 + 4 + 5 = 12, then 120, then 113, 106, …, 1. -/
example : Spec.run prog 30 1 [5] = some 1 ∧ Spec.run prog 30 1 [2] = some 10 ∧ Spec.run prog 30 1 [4] = some 4 := by
  decide +kernel

/-- The machine before the call of `kind` in `start`, with 5 on its stack. -/
def before (pc : Nat) : State := ⟨pc, 3, 4, writeAt .int32 (fun _ => .data 0) 24 5⟩

/-- The hypotheses hold, at level 2 and at level 0, and the results are the same. -/
example (junk : Junk) : ∃ img img0 k k0 s' s0, build 2 prog = some img ∧ build 0 prog = some img0 ∧
    steps img junk k (before 59) = some s' ∧ steps img0 junk k0 (before 57) = some s0 ∧ s'.pc = 60 ∧ s0.pc = 58 ∧
    readAt .int32 s'.mem 24 = 1 ∧ readAt .int32 s0.mem 24 = 1 := by
  obtain ⟨img, hb⟩ := Option.isSome_iff_exists.1 (show (build 2 prog).isSome = true by decide +kernel)
  obtain ⟨img0, hb0⟩ := Option.isSome_iff_exists.1 (show (build 0 prog).isSome = true by decide +kernel)
  have hcode : (build 2 prog).bind (fun i => i.code[59]?) = some (.call 1) := by decide +kernel
  have hcode0 : (build 0 prog).bind (fun i => i.code[57]?) = some (.call 1) := by decide +kernel
  rw [hb, Option.bind_some] at hcode
  rw [hb0, Option.bind_some] at hcode0
  have arg : ∀ (pc i : Nat) t w, kind.params[i]? = some t → ([5] : List Int)[i]? = some w →
      readAt t (before pc).mem (8 * ((before pc).top - kind.params.length + i)) = w := by
    intro pc i t w h1 h2
    rcases i with _ | i
    · simp only [kind, List.getElem?_cons_zero, Option.some.injEq] at h1 h2
      subst h1; subst h2
      show readAt .int32 (writeAt .int32 (fun _ => .data 0) 24 5) 24 = 5
      decide +kernel
    · simp [kind] at h1
  obtain ⟨k, s', h1, h2, _, _, h3, _⟩ := program_call_correct_partial junk hb (supported_prog 2 (.inr rfl))
    (n := 30) (f := 1) (m := kind) (vs := [5]) (v := 1) rfl (by decide +kernel) (before 59) hcode (by decide) (arg 59)
  obtain ⟨k0, s0, g1, g2, _, _, g3, _⟩ := program_call_correct_partial junk hb0 (supported_prog 0 (.inl rfl))
    (n := 30) (f := 1) (m := kind) (vs := [5]) (v := 1) rfl (by decide +kernel) (before 57) hcode0 (by decide) (arg 57)
  exact ⟨img, img0, k, k0, s', s0, hb, hb0, h1, g1, h2, g2, h3, g3⟩

/-! ## Programs that are compiled wrongly -/

/-- The method 0 of the programs below, `int caller() { return f(); }`: the code is `call 1; ret`. -/
def caller : Method :=
  { params := [], ret := .int32, locals := [], units := 0, body := .cons (.ret (some [.ret (.call 1 .nil)])) .nil }

/-- The machine starts at the `call` of `caller`, with an empty stack; its result after `n` commands if the call has
returned. -/
def machine (lvl : Level) (p : Prog) (n : Nat) : Option Int := do
  let img ← build lvl p
  let s ← steps img (fun _ => 0) n ⟨0, 3, 3, fun _ => .data 0⟩
  if s.pc = 1 ∧ s.lp = 3 ∧ s.top = 4 then some (readAt .int32 s.mem 24) else none

/-- `int f() { int k = 1; do { k -= 1; if (k == 0) continue; } while (k > 0); return k; }` -/
def doProg : Prog :=
  [caller,
    { params := [], ret := .int32, locals := [(.int32, 0)], units := 1,
      body := .cons (.decl [[.init 0 (num 1)]])
        (.cons (.doWhile (some [.test (.bin (.cmp .gt) (.var (.loc 0)) (num 0))])
          (.block (.cons (.expr [.exp (.opAssign .sub (.loc 0) (num 1))])
            (.cons (.if_ (some [.test (.bin (.cmp .eq) (.var (.loc 0)) (num 0))]) .cont .empty) .nil))))
          (.cons (.ret (some [.ret (.var (.loc 0))])) .nil)) }]

/-- `continue` in a `do` loop does not test the condition: the loop has a round too many. -/
theorem do_continue_refuted : Spec.run doProg 9 1 [] = some 0 ∧ machine 0 doProg 26 = some (-1) := by decide +kernel

/-- `int f() { int s = 0; for (int i = 0; i < 5; i++) { int q = i * i; s += q + 1; } return s; }` -/
def squaresProg : Prog :=
  [caller,
    { params := [], ret := .int32, locals := [(.int32, 0), (.int32, 4), (.int32, 8)], units := 2,
      body := .cons (.decl [[.init 0 (num 0)]])
        (.cons (.for_ [.init 1 (num 0)] (some [.test (.bin (.cmp .lt) (.var (.loc 1)) (num 5))])
          (some [.exp (.inc true false (.loc 1))])
          (.block (.cons (.decl [[.init 2 (.bin (.arith .mul) (.var (.loc 1)) (.var (.loc 1)))]])
            (.cons (.expr [.exp (.opAssign .add (.loc 0) (.bin (.arith .add) (.var (.loc 2)) (num 1)))]) .nil))))
          (.cons (.ret (some [.ret (.var (.loc 0))])) .nil)) }]

/-- From level 2 on this loop is not compiled: `q` is written once, and not with a constant. -/
theorem squares_refuted : Spec.run squaresProg 9 1 [] = some 35 ∧ machine 0 squaresProg 107 = some 35 ∧
    (build 2 squaresProg).isSome = false := by
  decide +kernel

end Verif.Flow.Props
