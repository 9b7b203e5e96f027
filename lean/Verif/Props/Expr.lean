import Verif.Proof.Expr6

/-!
# C77: a compiled method computes what its source says
-/

namespace Verif.Expr.Props

open Verif.Expr Verif.Fold Spec

/-- **C77**, partial: when a program of supported methods is compiled at any optimisation level, and its source gives a call
the result `v`, then the machine, at a `call` command with the arguments on top of its stack, runs to the command behind
the call; it has replaced the arguments by a unit that holds `v`, the frame pointer is as before, and so is everything below
the arguments.  This holds whatever the unspecified bytes of pushed units are (`junk`), for every depth of calls.

Missing for the full property: programs that are not supported (`fits`, `lazyOk`, `neutral` in `Verif.Spec.Expr` — for each
of these there is a program below that is compiled wrongly), control flow between statements (C27, C28), values that are not
integers or truth values, and programs that do not end. -/
theorem method_call_correct_partial {lvl : Level} {p : Prog} {img : Image} (junk : Junk) (hb : build lvl p = some img)
    (hs : ∀ m ∈ p, Supported lvl p m) {depth f : Nat} {m : Method} {vs : List Int} {v : Int} (hf : p[f]? = some m)
    (hv : run p depth f vs = some v) (s : State) (hc : img.code[s.pc]? = some (.call f))
    (hn : m.params.length ≤ s.top)
    (ha : ∀ (i : Nat) t w, m.params[i]? = some t → vs[i]? = some w →
      readAt t s.mem (8 * (s.top - m.params.length + i)) = w) :
    ∃ n s', steps img junk n s = some s' ∧ s'.pc = s.pc + 1 ∧ s'.lp = s.lp ∧ s'.top = s.top - m.params.length + 1 ∧
      readAt m.ret s'.mem (8 * (s.top - m.params.length)) = v ∧
      ∀ x, x < 8 * (s.top - m.params.length) → s'.mem x = s.mem x := by
  obtain ⟨s', ⟨n, h1⟩, h2⟩ := run_call junk hb hs depth f m vs v hf hv s hc hn ha
  exact ⟨n, s', h1, h2⟩

/-- **C77**, partial: the optimisation level does not matter.  Started at calls of the same method with the same arguments,
the images of two levels reach the same result. -/
theorem levels_agree_partial {lvl lvl' : Level} {p : Prog} {img img' : Image} (junk junk' : Junk)
    (hb : build lvl p = some img) (hb' : build lvl' p = some img') (hs : ∀ m ∈ p, Supported lvl p m)
    (hs' : ∀ m ∈ p, Supported lvl' p m) {depth f : Nat} {m : Method} {vs : List Int} (hf : p[f]? = some m)
    (hv : (run p depth f vs).isSome) (s t : State) (hc : img.code[s.pc]? = some (.call f))
    (hc' : img'.code[t.pc]? = some (.call f)) (hn : m.params.length ≤ s.top) (hn' : m.params.length ≤ t.top)
    (ha : ∀ (i : Nat) ty w, m.params[i]? = some ty → vs[i]? = some w →
      readAt ty s.mem (8 * (s.top - m.params.length + i)) = w)
    (ha' : ∀ (i : Nat) ty w, m.params[i]? = some ty → vs[i]? = some w →
      readAt ty t.mem (8 * (t.top - m.params.length + i)) = w) :
    ∃ n n' s' t', steps img junk n s = some s' ∧ steps img' junk' n' t = some t' ∧ s'.pc = s.pc + 1 ∧ t'.pc = t.pc + 1 ∧
      readAt m.ret s'.mem (8 * (s.top - m.params.length)) = readAt m.ret t'.mem (8 * (t.top - m.params.length)) := by
  obtain ⟨v, hv⟩ := Option.isSome_iff_exists.1 hv
  obtain ⟨n, s', a1, a2, _, _, a3, _⟩ := method_call_correct_partial junk hb hs hf hv s hc hn ha
  obtain ⟨n', t', b1, b2, _, _, b3, _⟩ := method_call_correct_partial junk' hb' hs' hf hv t hc' hn' ha'
  exact ⟨n, n', s', t', a1, b1, a2, b2, a3.trans b3.symm⟩

/-! ## A program the theorems are about -/

/-- `int fib(int n) { return n < 2 ? n : fib(n - 1) + fib(n - 2); }` -/
def fib : Method :=
  { params := [.int32], ret := .int32, locals := [], units := 0,
    body := [.ret (.cond (.bin (.cmp .lt) (.var (.par 0)) (.const ⟨.int32, 2⟩)) (.var (.par 0))
      (.bin (.arith .add) (.call 0 (.cons (.bin (.arith .sub) (.var (.par 0)) (.const ⟨.int32, 1⟩)) .nil))
        (.call 0 (.cons (.bin (.arith .sub) (.var (.par 0)) (.const ⟨.int32, 2⟩)) .nil))))] }

/-- `long twice(short k) { long a = fib((int)(k ^ 0)); byte b = 3; a += b++; a = a * 2 + 0L; return a + b; }`, with the locals at 0 and
8. -/
def twice : Method :=
  { params := [.int16], ret := .int64, locals := [(.int64, 0), (.uint8, 8)], units := 2,
    body := [.init 0 (.call 0 (.cons (.cast .int32 (.bin (.arith .bitXor) (.var (.par 0)) (.const ⟨.int32, 0⟩))) .nil)),
      .init 1 (.const ⟨.int32, 3⟩),
      .exp (.opAssign .add (.loc 0) (.inc true false (.loc 1))),
      .exp (.assign (.loc 0) (.bin (.arith .add) (.bin (.arith .mul) (.var (.loc 0)) (.const ⟨.int32, 2⟩)) (.const ⟨.int64, 0⟩))),
      .ret (.bin (.arith .add) (.var (.loc 0)) (.var (.loc 1)))] }

/-- `long start() { return twice(7); }` -/
def start : Method :=
  { params := [], ret := .int64, locals := [], units := 0, body := [.ret (.call 1 (.cons (.const ⟨.int16, 7⟩) .nil))] }

def prog : Prog := [fib, twice, start]

theorem supported_fib (lvl : Level) (h : lvl = 0 ∨ lvl = 1 ∨ lvl = 2) : Supported lvl prog fib where
  params := by decide
  locals := by intro i t off h; simp [fib] at h
  apart := by intro i j t off t' off' h; simp [fib] at h
  ret := rfl
  body := by rcases h with rfl | rfl | rfl <;> decide +kernel

theorem supported_start (lvl : Level) (h : lvl = 0 ∨ lvl = 1 ∨ lvl = 2) : Supported lvl prog start where
  params := by decide
  locals := by intro i t off h; simp [start] at h
  apart := by intro i j t off t' off' h; simp [start] at h
  ret := rfl
  body := by rcases h with rfl | rfl | rfl <;> decide +kernel

theorem supported_twice (lvl : Level) (h : lvl = 0 ∨ lvl = 1 ∨ lvl = 2) : Supported lvl prog twice where
  params := by decide
  locals := by
    intro i t off h
    rcases i with _ | _ | i
    · simp only [twice, List.getElem?_cons_zero, Option.some.injEq, Prod.mk.injEq] at h
      obtain ⟨rfl, rfl⟩ := h
      decide
    · simp only [twice, List.getElem?_cons_zero, List.getElem?_cons_succ, Option.some.injEq, Prod.mk.injEq] at h
      obtain ⟨rfl, rfl⟩ := h
      decide
    · simp [twice] at h
  apart := by
    intro i j t off t' off' h h' hij
    rcases i with _ | _ | i <;> rcases j with _ | _ | j <;> simp [twice] at h h' hij
    · obtain ⟨rfl, rfl⟩ := h
      obtain ⟨rfl, rfl⟩ := h'
      decide
    · obtain ⟨rfl, rfl⟩ := h
      obtain ⟨rfl, rfl⟩ := h'
      decide
  ret := rfl
  body := by rcases h with rfl | rfl | rfl <;> decide +kernel

theorem supported_prog (lvl : Level) (h : lvl = 0 ∨ lvl = 1 ∨ lvl = 2) : ∀ m ∈ prog, Supported lvl prog m := by
  intro m hm
  simp only [prog, List.mem_cons, List.not_mem_nil, or_false] at hm
  rcases hm with rfl | rfl | rfl
  · exact supported_fib lvl h
  · exact supported_twice lvl h
  · exact supported_start lvl h

/-- The machine before the call of `twice` in `start`, with 7 on its stack. -/
def before (pc : Nat) : State := ⟨pc, 3, 4, writeAt .int16 (fun _ => .data 0) 24 7⟩

example : run prog 10 1 [7] = some 36 := by decide +kernel

/-- The hypotheses hold, at level 2 (the code of level 0 has two commands more). -/
example (junk : Junk) : ∃ img n s', build 2 prog = some img ∧ steps img junk n (before 42) = some s' ∧ s'.pc = 43 ∧
    s'.lp = 3 ∧ s'.top = 4 ∧ readAt .int64 s'.mem 24 = 36 := by
  obtain ⟨img, hb⟩ := Option.isSome_iff_exists.1 (show (build 2 prog).isSome = true by decide +kernel)
  have hcode : (build 2 prog).bind (fun i => i.code[42]?) = some (.call 1) := by decide +kernel
  rw [hb, Option.bind_some] at hcode
  obtain ⟨n, s', h1, h2, h3, h4, h5, _⟩ := method_call_correct_partial junk hb (supported_prog 2 (.inr (.inr rfl)))
    (depth := 10) (f := 1) (m := twice) (vs := [7]) (v := 36) rfl (by decide +kernel) (before 42) hcode (by decide) (by
      intro i t w h1 h2
      rcases i with _ | i
      · simp only [twice, List.getElem?_cons_zero, Option.some.injEq] at h1 h2
        subst h1; subst h2
        decide +kernel
      · simp [twice] at h1)
  exact ⟨img, n, s', hb, h1, h2, h3, h4, h5⟩

example : ∃ img, build 0 prog = some img ∧ img.code[44]? = some (.call 1) := by
  obtain ⟨img, hb⟩ := Option.isSome_iff_exists.1 (show (build 0 prog).isSome = true by decide +kernel)
  have hcode : (build 0 prog).bind (fun i => i.code[44]?) = some (.call 1) := by decide +kernel
  rw [hb, Option.bind_some] at hcode
  exact ⟨img, hb, hcode⟩

/-! ## Programs that are compiled wrongly -/

/-- The method 0 of the programs below, `T caller() { return f(); }`: the code is `call 1; ret`. -/
def caller (ret : VT) : Method := { params := [], ret := ret, locals := [], units := 0, body := [.ret (.call 1 .nil)] }

/-- The machine starts at the `call` of `caller`, with an empty stack; its result after `n` commands if the call has
returned. -/
def machine (lvl : Level) (p : Prog) (ret : VT) (junk : Junk) (n : Nat) : Option Int := do
  let img ← build lvl p
  let s ← steps img junk n ⟨0, 3, 3, fun _ => .data 0⟩
  if s.pc = 1 ∧ s.lp = 3 ∧ s.top = 4 then some (readAt ret s.mem 24) else none

/-- `int f() { int a = 0; bool b = a == 1 && (a = 1) == 1; return a; }` -/
def andProg (o : BOp) (k : Int) : Prog :=
  [caller .int32,
    { params := [], ret := .int32, locals := [(.int32, 0), (.bool, 4)], units := 1,
      body := [.init 0 (.const ⟨.int32, 0⟩),
        .init 1 (.bin o (.bin (.cmp .eq) (.var (.loc 0)) (.const ⟨.int32, k⟩))
          (.bin (.cmp .eq) (.assign (.loc 0) (.const ⟨.int32, 1⟩)) (.const ⟨.int32, 1⟩))),
        .ret (.var (.loc 0))] }]

/-- `&&` evaluates its second operand although the first is false: the assignment in it is executed. -/
theorem and_refuted : run (andProg .and 1) 5 1 [] = some 0 ∧
    machine 0 (andProg .and 1) .int32 (fun _ => 0) 14 = some 1 := by decide +kernel

/-- So does `||` when the first is true. -/
theorem or_refuted : run (andProg .or 0) 5 1 [] = some 0 ∧
    machine 0 (andProg .or 0) .int32 (fun _ => 0) 14 = some 1 := by decide +kernel

/-- `long g(int a, int b) { return <e>; }` and `long f() { return g(x, y); }` -/
def twoProg (ret t1 t2 : VT) (x y : Int) (e : Exp) : Prog :=
  [caller ret,
    { params := [], ret := ret, locals := [], units := 0,
      body := [.ret (.call 2 (.cons (.const ⟨t1, x⟩) (.cons (.const ⟨t2, y⟩) .nil)))] },
    { params := [t1, t2], ret := ret, locals := [], units := 0, body := [.ret e] }]

/-- `long g(int a, int b) { return a < b ? a : b; }`: the value of `?:` is not converted, the caller reads eight bytes of an
`int`.  The result depends on bytes that nothing wrote: with all of them 0 it is `g(-1, 0) = 4294967295`. -/
theorem widening_refuted :
    let p := twoProg .int64 .int32 .int32 (-1) 0
      (.cond (.bin (.cmp .lt) (.var (.par 0)) (.var (.par 1))) (.var (.par 0)) (.var (.par 1)))
    run p 5 1 [] = some (-1) ∧ machine 0 p .int64 (fun _ => 0) 12 = some 4294967295 ∧
      machine 0 p .int64 (fun _ => 5) 12 ≠ machine 0 p .int64 (fun _ => 0) 12 := by decide +kernel

/-- The values of other expressions are converted: `long g(int a, int b) { return a + b; }`, `return a;`,
`int g(int a, int b) { return (byte)(a + b); }` and `int g(int a, byte b) { return b = a + a; }`. -/
example :
    let p := twoProg .int64 .int32 .int32 1 (-2) (.bin (.arith .add) (.var (.par 0)) (.var (.par 1)))
    run p 5 1 [] = some (-1) ∧ machine 0 p .int64 (fun _ => 5) 10 = some (-1) := by decide +kernel

example :
    let p := twoProg .int64 .int32 .int32 (-1) 0 (.var (.par 0))
    run p 5 1 [] = some (-1) ∧ machine 0 p .int64 (fun _ => 5) 8 = some (-1) := by decide +kernel

example :
    let p := twoProg .int32 .int32 .int32 200 100 (.cast .uint8 (.bin (.arith .add) (.var (.par 0)) (.var (.par 1))))
    run p 5 1 [] = some 44 ∧ machine 0 p .int32 (fun _ => 5) 11 = some 44 := by decide +kernel

example :
    let p := twoProg .int32 .int32 .uint8 150 0 (.assign (.par 1) (.bin (.arith .add) (.var (.par 0)) (.var (.par 0))))
    run p 5 1 [] = some 44 ∧ machine 0 p .int32 (fun _ => 5) 12 = some 44 := by decide +kernel

/-- `long g(int a, int b) { return a + 0L; }`: from level 2 on `+ 0L` is left out, and with it the conversion of `a`. -/
theorem neutral_refuted :
    let p := twoProg .int64 .int32 .int32 (-1) 0 (.bin (.arith .add) (.var (.par 0)) (.const ⟨.int64, 0⟩))
    run p 5 1 [] = some (-1) ∧ machine 1 p .int64 (fun _ => 0) 9 = some (-1) ∧
      machine 2 p .int64 (fun _ => 0) 7 = some 4294967295 := by decide +kernel

/-- `long g(long a, int b) { return 0 - a; }`: from level 2 on this is the negation of an `int`. -/
theorem negate_refuted :
    let p := twoProg .int64 .int64 .int32 4294967296 0 (.bin (.arith .sub) (.const ⟨.int32, 0⟩) (.var (.par 0)))
    run p 5 1 [] = some (-4294967296) ∧ machine 1 p .int64 (fun _ => 0) 9 = some (-4294967296) ∧
      machine 2 p .int64 (fun _ => 0) 8 = some 0 := by decide +kernel

/-- `int f() { int x = g(); return x; }` with `int g() { return 5; }` -/
def onceProg : Prog :=
  [caller .int32,
    { params := [], ret := .int32, locals := [(.int32, 0)], units := 1,
      body := [.init 0 (.call 2 .nil), .ret (.var (.loc 0))] },
    { params := [], ret := .int32, locals := [], units := 0, body := [.ret (.const ⟨.int32, 5⟩)] }]

/-- From level 2 on a local that is written once, and not with a constant, can not be read: the compiler throws. -/
theorem once_refuted : run onceProg 5 1 [] = some 5 ∧ machine 1 onceProg .int32 (fun _ => 0) 7 = some 5 ∧
    build 2 onceProg = none := by
  refine ⟨by decide +kernel, by decide +kernel, ?_⟩
  rfl

end Verif.Expr.Props
