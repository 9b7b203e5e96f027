import Verif.Spec.MathLib
import Verif.Proof.Fold
import Verif.Props.Expr
import Verif.Props.Parse

/-!
# C110: the integer functions of `System.Math`

The library is written in the language itself.  Its methods are compiled with the compiler of C77, at every level, together
with any program that calls them.
-/

namespace Verif.MathLib

open Verif.Fold Verif.Fold.Spec Verif.Expr Verif.Expr.Spec Verif.MathLib.Spec

theorem supported_returns {lvl : Level} {p : Prog} {params : List VT} {ret : VT} {e : Exp}
    (h1 : ∀ t ∈ params, plain t = true) (h2 : plain ret = true)
    (h3 : safeStmt lvl p (returns params ret e) (.ret e) = true) : Supported lvl p (returns params ret e) where
  params := h1
  locals := by intro i t off h; simp [returns] at h
  apart := by intro i j t off t' off' h; simp [returns] at h
  ret := h2
  body := by intro s hs; simp only [returns, List.mem_cons, List.not_mem_nil, or_false] at hs; subst hs; exact h3

/-- The methods of the library are supported in every program, at every level. -/
theorem supported_lib (lvl : Level) (p : Prog) : ∀ m ∈ mathLib, Supported lvl p m := by
  have h1 : ∀ t ∈ allInts, Supported lvl p (maxM t) ∧ Supported lvl p (minM t) := by
    intro t ht
    simp only [allInts, List.mem_cons, List.not_mem_nil, or_false] at ht
    rcases lvl with _ | _ | lvl <;> rcases ht with rfl | rfl | rfl | rfl | rfl | rfl | rfl | rfl <;>
      exact ⟨supported_returns (by decide) rfl rfl, supported_returns (by decide) rfl rfl⟩
  have h2 : ∀ t ∈ signedInts, Supported lvl p (absM t) ∧ Supported lvl p (signM t) := by
    intro t ht
    simp only [signedInts, List.mem_cons, List.not_mem_nil, or_false] at ht
    rcases lvl with _ | _ | lvl <;> rcases ht with rfl | rfl | rfl | rfl <;>
      exact ⟨supported_returns (by decide) rfl rfl, supported_returns (by decide) rfl rfl⟩
  intro m hm
  simp only [mathLib, List.mem_append, List.mem_map] at hm
  rcases hm with ((⟨t, ht, rfl⟩ | ⟨t, ht, rfl⟩) | ⟨t, ht, rfl⟩) | ⟨t, ht, rfl⟩
  · exact (h1 t ht).1
  · exact (h1 t ht).2
  · exact (h2 t ht).1
  · exact (h2 t ht).2

/-! ## What the source means -/

theorem num_of_mem {t : VT} (ht : t ∈ allInts) : t.num = true := by revert t; decide

theorem ints_of_signed {t : VT} (ht : t ∈ signedInts) : t ∈ allInts := by revert t; decide

theorem conv_common {t : VT} (ht : t ∈ allInts) {a : Int} (ha : Value t a) : conv (common t t) a = a := by
  apply conv_id
  · clear ha; revert t; decide
  · simp only [allInts, List.mem_cons, List.not_mem_nil, or_false] at ht
    rcases ht with rfl | rfl | rfl | rfl | rfl | rfl | rfl | rfl <;> simp only [Value, common, promote, lo, hi] at * <;> omega

theorem conv_bool (b : Bool) : conv .bool (ofBool b) = if b then 1 else 0 := by cases b <;> rfl

/-- Comparing two values of a type. -/
theorem compare {t : VT} (ht : t ∈ allInts) (c : Cmp) {a b : Int} (ha : Value t a) (hb : Value t b) :
    operate (.cmp c) ⟨t, a⟩ ⟨t, b⟩ = some ⟨.bool, if cmpInt c a b then 1 else 0⟩ := by
  have hr : resultOf (.cmp c) t t = some .bool := by
    clear ha hb
    cases c <;> (revert t; decide)
  simp only [operate, hr, cppBinary, conv_common ht ha, conv_common ht hb, Option.bind_eq_bind, Option.bind_some, conv_bool]

/-- Comparing a value of a signed type with 0. -/
theorem compare0 {t : VT} (ht : t ∈ signedInts) (c : Cmp) {a : Int} (ha : Value t a) :
    operate (.cmp c) ⟨t, a⟩ ⟨.int32, 0⟩ = some ⟨.bool, if cmpInt c a 0 then 1 else 0⟩ := by
  have hr : resultOf (.cmp c) t .int32 = some .bool := by
    clear ha
    cases c <;> (revert t; decide)
  have hc : conv (common t .int32) a = a := by
    apply conv_id
    · clear ha hr; revert t; decide
    · simp only [signedInts, List.mem_cons, List.not_mem_nil, or_false] at ht
      rcases ht with rfl | rfl | rfl | rfl <;> simp only [Value, common, promote, lo, hi] at * <;> omega
  have h0 : conv (common t .int32) 0 = 0 := by clear ha hr hc; revert t; decide
  simp only [operate, hr, cppBinary, hc, h0, Option.bind_eq_bind, Option.bind_some, conv_bool]

/-- `a < b? a : b` and `a > b? a : b`. -/
theorem run_choice (p : Prog) (f : Nat) (c : Cmp) {t : VT} (ht : t ∈ allInts)
    (hf : p[f]? = some (returns [t, t] t (.cond (.bin (.cmp c) (.var (.par 0)) (.var (.par 1))) (.var (.par 0)) (.var (.par 1)))))
    {a b : Int} (ha : Value t a) (hb : Value t b) : run p 1 f [a, b] = some (if cmpInt c a b then a else b) := by
  simp only [run, hf, returns, runBody, eval, Method.tyOf, Env.get, BOp.op, Option.bind_eq_bind, Option.bind_some,
    List.length_cons, List.length_nil, if_true, List.getElem?_cons_zero, List.getElem?_cons_succ, compare ht c ha hb]
  cases cmpInt c a b <;> simp [conv_id (num_of_mem ht) ha, conv_id (num_of_mem ht) hb]

/-- The negation of a negative value: it is undefined for the smallest `Int32` and `Int64`. -/
theorem negate {t : VT} (ht : t ∈ signedInts) {a : Int} (ha : Value t a) (h : a < 0) :
    operate1 NOp.minus.op ⟨t, a⟩ = if (t = .int32 ∨ t = .int64) ∧ a = lo t then none else some ⟨promote t, -a⟩ := by
  have hr : uresultOf .minus t = some (promote t) := by clear ha; revert t; decide
  have hs : (promote t).signed = true := by clear ha hr; revert t; decide
  have hn : (promote t).num = true := by clear ha hr hs; revert t; decide
  simp only [operate1, NOp.op, hr, cppUnary, overflow, hs, if_true, Option.bind_eq_bind, Option.bind_some]
  by_cases hb : (t = .int32 ∨ t = .int64) ∧ a = lo t
  · have : inRange (promote t) (-a) = false := by
      obtain ⟨rfl | rfl, rfl⟩ := hb <;> decide
    rw [if_pos hb, this]; rfl
  · have hv : Value (promote t) (-a) := by
      simp only [signedInts, List.mem_cons, List.not_mem_nil, or_false] at ht
      rcases ht with rfl | rfl | rfl | rfl <;> simp [Value, promote, lo, hi] at * <;> omega
    rw [if_neg hb, (inRange_iff hn _).2 hv]; simp [conv_id hn hv]

/-- What `Abs` gives: the absolute value, for the smallest `Int8` and `Int16` the value itself, for the smallest `Int32` and
`Int64` nothing (the negation overflows, undefined). -/
theorem run_abs (p : Prog) (f : Nat) {t : VT} (ht : t ∈ signedInts) (hf : p[f]? = some (absM t)) {a : Int} (ha : Value t a) :
    run p 1 f [a] = if a = lo t then (if t = .int8 ∨ t = .int16 then some a else none) else some a.natAbs := by
  have hc := compare0 ht .lt ha
  have hi := conv_id (num_of_mem (ints_of_signed ht)) ha
  by_cases h : a < 0
  · simp only [run, hf, absM, returns, runBody, eval, Method.tyOf, Env.get, BOp.op, Option.bind_eq_bind, Option.bind_some,
      List.length_cons, List.length_nil, if_true, List.getElem?_cons_zero, hc, cmpInt, decide_eq_true_eq, h]
    have hneg := negate ht ha h
    have hv : a ≠ lo t → conv t (-a) = -a := by
      intro hne
      apply conv_id (num_of_mem (ints_of_signed ht))
      clear hneg hc hi hf
      simp only [signedInts, List.mem_cons, List.not_mem_nil, or_false] at ht
      rcases ht with rfl | rfl | rfl | rfl <;> simp only [Value, lo, Fold.Spec.hi] at * <;> omega
    have hab : a ≠ lo t → (a.natAbs : Int) = -a := by omega
    simp only [signedInts, List.mem_cons, List.not_mem_nil, or_false] at ht
    by_cases hl : a = lo t
    all_goals
      rcases ht with rfl | rfl | rfl | rfl
    all_goals
      first
      | simp [eval, Method.tyOf, Env.get, hneg, hl, promote, hv hl, hab hl]
        done
      | subst hl
        simp [eval, Method.tyOf, Env.get, hneg, promote]
        try decide
  · simp only [run, hf, absM, returns, runBody, eval, Method.tyOf, Env.get, BOp.op, Option.bind_eq_bind, Option.bind_some,
      List.length_cons, List.length_nil, if_true, List.getElem?_cons_zero, hc, cmpInt, h, decide_false, Bool.false_eq_true,
      if_false, hi]
    have : a ≠ lo t := by
      have : lo t < 0 := by clear hc hi hf ha; revert t; decide
      omega
    simp only [this, ↓reduceIte]
    simp; omega

/-- What `Sign` gives. -/
theorem run_sign (p : Prog) (f : Nat) {t : VT} (ht : t ∈ signedInts) (hf : p[f]? = some (signM t)) {a : Int} (ha : Value t a) :
    run p 1 f [a] = some (sign a) := by
  have hc := compare0 ht .lt ha
  have hc' := compare0 ht .gt ha
  have hm : operate1 NOp.minus.op ⟨.int32, 1⟩ = some ⟨.int32, -1⟩ := by decide
  simp only [run, hf, signM, returns, runBody, eval, Method.tyOf, Env.get, BOp.op, Option.bind_eq_bind, Option.bind_some,
      List.length_cons, List.length_nil, if_true, List.getElem?_cons_zero, hc, hc', cmpInt, sign]
  by_cases h : a < 0
  · have : ¬ a > 0 := by omega
    simp [h, this, hm]; decide
  · by_cases h0 : a = 0
    · subst h0; simp; decide
    · have : a > 0 := by omega
      simp [h, h0, this]; decide

/-! ## What the compiled library does -/

theorem returns_of_run {lvl : Level} {p : Prog} {img : Image} (junk : Junk) (hb : build lvl p = some img)
    (hs : ∀ m ∈ p, Supported lvl p m) {f : Nat} {m : Method} {vs : List Int} {v : Int} (hf : p[f]? = some m)
    (hv : run p 1 f vs = some v) : Returns img junk f m.params vs m.ret v :=
  fun s hc hn ha => Verif.Expr.Props.method_call_correct_partial junk hb hs hf hv s hc hn ha

/-- **C110**: `Math.Max` of two values of an integer type gives the greater one, in every program that contains the library
and is compiled at any level. -/
theorem max_correct {lvl : Level} {p : Prog} {img : Image} (junk : Junk) (hb : build lvl p = some img)
    (hs : ∀ m ∈ p, Supported lvl p m) {f : Nat} {t : VT} (ht : t ∈ allInts) (hf : p[f]? = some (maxM t)) {a b : Int}
    (ha : Value t a) (hb' : Value t b) : Returns img junk f [t, t] [a, b] t (max a b) := by
  have h := returns_of_run junk hb hs hf (run_choice p f .gt ht hf ha hb')
  have e : (if cmpInt .gt a b then a else b) = max a b := by
    simp only [cmpInt, decide_eq_true_eq]; split <;> omega
  rw [e] at h
  exact h

/-- **C110**: `Math.Min` of two values of an integer type gives the smaller one. -/
theorem min_correct {lvl : Level} {p : Prog} {img : Image} (junk : Junk) (hb : build lvl p = some img)
    (hs : ∀ m ∈ p, Supported lvl p m) {f : Nat} {t : VT} (ht : t ∈ allInts) (hf : p[f]? = some (minM t)) {a b : Int}
    (ha : Value t a) (hb' : Value t b) : Returns img junk f [t, t] [a, b] t (min a b) := by
  have h := returns_of_run junk hb hs hf (run_choice p f .lt ht hf ha hb')
  have e : (if cmpInt .lt a b then a else b) = min a b := by
    simp only [cmpInt, decide_eq_true_eq]; split <;> omega
  rw [e] at h
  exact h

/-- **C110**: `Math.Abs` of a value that is not the smallest of its type gives the absolute value. -/
theorem abs_correct {lvl : Level} {p : Prog} {img : Image} (junk : Junk) (hb : build lvl p = some img)
    (hs : ∀ m ∈ p, Supported lvl p m) {f : Nat} {t : VT} (ht : t ∈ signedInts) (hf : p[f]? = some (absM t)) {a : Int}
    (ha : Value t a) (hne : a ≠ lo t) : Returns img junk f [t] [a] t a.natAbs := by
  have h := run_abs p f ht hf ha
  rw [if_neg hne] at h
  exact returns_of_run junk hb hs hf h

/-- **C110**: `Math.Sign` gives -1, 0 or 1, the sign of its argument. -/
theorem sign_correct {lvl : Level} {p : Prog} {img : Image} (junk : Junk) (hb : build lvl p = some img)
    (hs : ∀ m ∈ p, Supported lvl p m) {f : Nat} {t : VT} (ht : t ∈ signedInts) (hf : p[f]? = some (signM t)) {a : Int}
    (ha : Value t a) : Returns img junk f [t] [a] .int32 (sign a) :=
  returns_of_run junk hb hs hf (run_sign p f ht hf ha)

/-- **C110**, refuted for the smallest `Int8` and `Int16`: `Math.Abs` gives a negative number, its argument. -/
theorem abs_smallest_refuted {lvl : Level} {p : Prog} {img : Image} (junk : Junk) (hb : build lvl p = some img)
    (hs : ∀ m ∈ p, Supported lvl p m) {f : Nat} {t : VT} (ht : t = .int8 ∨ t = .int16) (hf : p[f]? = some (absM t)) :
    Returns img junk f [t] [lo t] t (lo t) ∧ lo t < 0 := by
  have h := run_abs p f (t := t) (by rcases ht with rfl | rfl <;> decide) hf (a := lo t)
    (by rcases ht with rfl | rfl <;> simp [Value, lo, hi])
  rw [if_pos rfl, if_pos ht] at h
  exact ⟨returns_of_run junk hb hs hf h, by rcases ht with rfl | rfl <;> decide⟩

/-- **C110**, refuted for the smallest `Int32` and `Int64`: the negation in `Math.Abs` is undefined behaviour of the
interpreter. -/
theorem abs_undefined_refuted (p : Prog) {f : Nat} {t : VT} (ht : t = .int32 ∨ t = .int64) (hf : p[f]? = some (absM t)) :
    run p 1 f [lo t] = none := by
  have h := run_abs p f (t := t) (by rcases ht with rfl | rfl <;> decide) hf (a := lo t)
    (by rcases ht with rfl | rfl <;> simp [Value, lo, hi])
  rw [if_pos rfl, if_neg (by rcases ht with rfl | rfl <;> decide)] at h
  exact h

/-! ## The library in a program -/

/-- `static long Spread(long a, long b) { return Math.Max(a, b) - Math.Min(a, b); }` and
`static int Start() { return Math.Sign(Math.Abs((short)-300)); }`, behind the library (`Int64` is the fourth type of
`allInts`, `Int16` the second). -/
def user : Prog :=
  [returns [.int64, .int64] .int64 (.bin (.arith .sub) (.call 3 (.cons (.var (.par 0)) (.cons (.var (.par 1)) .nil)))
      (.call 11 (.cons (.var (.par 0)) (.cons (.var (.par 1)) .nil)))),
    returns [] .int32 (.call 21 (.cons (.call 17 (.cons (.cast .int16 (.un .minus (.const ⟨.int32, 300⟩))) .nil)) .nil))]

example : mathLib[3]? = some (maxM .int64) ∧ mathLib[11]? = some (minM .int64) ∧ mathLib[17]? = some (absM .int16) ∧
    mathLib[21]? = some (signM .int16) := ⟨rfl, rfl, rfl, rfl⟩

theorem supported_user (lvl : Level) (h : lvl = 0 ∨ lvl = 1 ∨ lvl = 2) :
    ∀ m ∈ mathLib ++ user, Supported lvl (mathLib ++ user) m := by
  intro m hm
  rcases List.mem_append.1 hm with hm | hm
  · exact supported_lib lvl _ m hm
  · simp only [user, List.mem_cons, List.not_mem_nil, or_false] at hm
    rcases hm with rfl | rfl
    · exact supported_returns (by decide) rfl (by rcases h with rfl | rfl | rfl <;> decide +kernel)
    · exact supported_returns (by decide) rfl (by rcases h with rfl | rfl | rfl <;> decide +kernel)

example : (build 0 (mathLib ++ user)).isSome = true ∧ (build 1 (mathLib ++ user)).isSome = true ∧
    (build 2 (mathLib ++ user)).isSome = true := by decide +kernel

/-- The whole program runs: the spread of -5 and 7 is 12, the sign of |-300| is 1. -/
example : run (mathLib ++ user) 2 24 [-5, 7] = some 12 ∧ run (mathLib ++ user) 2 25 [] = some 1 := by decide +kernel

/-- The machine at the call of `Max` in `Spread` comes to the command behind it with the greater number. -/
example (junk : Junk) (pc lp top : Nat) (mem : Nat → Cell) (img : Image) (hb : build 2 (mathLib ++ user) = some img)
    (hc : img.code[pc]? = some (.call 3)) (ht : 2 ≤ top) (h0 : readAt .int64 mem (8 * (top - 2)) = -5)
    (h1 : readAt .int64 mem (8 * (top - 2 + 1)) = 7) :
    ∃ n s', steps img junk n ⟨pc, lp, top, mem⟩ = some s' ∧ s'.pc = pc + 1 ∧ readAt .int64 s'.mem (8 * (top - 2)) = 7 := by
  obtain ⟨n, s', g1, g2, _, _, g5, _⟩ := max_correct junk hb (supported_user 2 (.inr (.inr rfl))) (t := .int64) (f := 3)
    (a := -5) (b := 7) (by decide) rfl (by simp [Value, lo, hi]) (by simp [Value, lo, hi]) ⟨pc, lp, top, mem⟩ hc ht (by
      intro i t w e1 e2
      rcases i with _ | _ | i
      · simp at e1 e2; subst e1; subst e2; exact h0
      · simp at e1 e2; subst e1; subst e2; exact h1
      · simp at e1)
  exact ⟨n, s', g1, g2, g5⟩

/-! ## The bodies as the parser reads them

`val1 > val2? val1 : val2` and `val < 0? -val : val`. -/

open Verif.Parse in
example : parse [.leaf 0, .op .gt, .leaf 1, .op .questionMark, .leaf 0, .op .questionColon, .leaf 1] =
    .ok (.cond (.binary .gt (.leaf 0) (.leaf 1)) (.leaf 0) (.leaf 1)) := by rfl

open Verif.Parse in
example : parse [.leaf 0, .op .lt, .leaf 1, .op .questionMark, .op .minus, .leaf 0, .op .questionColon, .leaf 0] =
    .ok (.cond (.binary .lt (.leaf 0) (.leaf 1)) (.unary .minus (.leaf 0)) (.leaf 0)) := by rfl

end Verif.MathLib
