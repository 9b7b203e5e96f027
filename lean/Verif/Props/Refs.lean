import Verif.Proof.Refs2

/-!
# C109 — expressions over references

`??`, `??=`, `is`, `as`, casts, boxing and calls: what the compiled code does, and where it differs from the source.
-/

namespace Verif.Refs

open Verif.Fold Spec

/-- **C109.** The body of a method: for every list of statements and every result expression, every optimisation level, every
machine (cast test, methods) and every state: the machine loads the compiled code, and if the source gives a result, the
code leaves that result on the stack, with the same parameters and the same heap; if the source throws, the code raises the
same exception in the same state.
Missing for the full statement: what `ok` and `okSt` leave out, each of which fails (below), and the conversions between
numbers, that are the subject of C77. -/
theorem refs_correct_partial (lvl : Nat) (w : World) (Γ : List Ty) (r : Ty) (ss : List St) (e : E) (code : List Ins)
    (hss : ∀ s ∈ ss, okSt lvl w Γ s = true) (he : ok lvl w Γ (some r) e = true)
    (hc : compileBody lvl w Γ r ss e = some code) :
    loads code = true ∧ ∀ (vs : List Val) (h : Heap) (st : List Val),
      (∀ v vs' h', Spec.run w Γ r ss e vs h = some (.ok v vs' h') → exec w 0 code ⟨st, vs, h⟩ = .done ⟨v :: st, vs', h'⟩) ∧
      (∀ x vs' h', Spec.run w Γ r ss e vs h = some (.thrown x vs' h') → exec w 0 code ⟨st, vs, h⟩ = .raised x vs' h') := by
  obtain ⟨h1, h2⟩ := run_body e ss hss he hc
  exact ⟨h1, fun vs h st => ⟨fun v vs' h' hr => h2 vs h st _ hr, fun x vs' h' hr => h2 vs h st _ hr⟩⟩

/-- **C109.** Every optimisation level gives the same result. -/
theorem refs_levels_agree_partial (l1 l2 : Nat) (w : World) (Γ : List Ty) (r : Ty) (ss : List St) (e : E) (c1 c2 : List Ins)
    (hs1 : ∀ s ∈ ss, okSt l1 w Γ s = true) (he1 : ok l1 w Γ (some r) e = true) (hc1 : compileBody l1 w Γ r ss e = some c1)
    (hs2 : ∀ s ∈ ss, okSt l2 w Γ s = true) (he2 : ok l2 w Γ (some r) e = true) (hc2 : compileBody l2 w Γ r ss e = some c2)
    (vs : List Val) (h : Heap) (st : List Val) (hr : Spec.run w Γ r ss e vs h ≠ none) :
    exec w 0 c1 ⟨st, vs, h⟩ = exec w 0 c2 ⟨st, vs, h⟩ := by
  cases hx : Spec.run w Γ r ss e vs h with
  | none => exact absurd hx hr
  | some res => rw [(run_body e ss hs1 he1 hc1).2 vs h st res hx, (run_body e ss hs2 he2 hc2).2 vs h st res hx]

/-! ### A concrete case

`object` is class 0, class 1 is below it. -/

/-- Everything may be cast to `object`, and to its own type; method 0 takes an `object` and gives it back, method 1 throws,
method 2 gives an `int`, method 3 a string. -/
def exW : World where
  test a b := b == .cls 0 || a == b
  sig k := if k = 0 then (some (.cls 0), .cls 0) else if k = 1 then (none, .cls 0) else if k = 2 then (none, .val .int32)
    else (none, .str)
  call k args h :=
    match k, args with
    | 0, [v] => .ret v h
    | 1, _ => .thrown (.user 7) h
    | 2, _ => .ret (.num .int32 5) h
    | _, _ => .ret (.ref (.lit "abc")) h

/-- The parameters: an `object`, an `int`, an object of class 1. -/
def exΓ : List Ty := [.cls 0, .val .int32, .cls 1]

/-- `o ??= f(i); c = o as C; return c ?? (object) (i + 1);`, with `f` method 0. -/
def exSs : List St := [.coalAssign 0 (.call1 0 (.var 1)), .assign 2 (.as (.var 0) (.cls 1))]
def exE : E := .coal (.var 2) (.cast (.cls 0) (.add (.var 1) (.num .int32 1)))

example : ∀ lvl ≤ 2, (∀ s ∈ exSs, okSt lvl exW exΓ s = true) ∧ ok lvl exW exΓ (some (.cls 0)) exE = true ∧
    (compileBody lvl exW exΓ (.cls 0) exSs exE).isSome = true := by decide +kernel

/-- The `int` 3 is boxed for the call, and the box is no `C`: the result is a new box with 4 in it. -/
example : Spec.run exW exΓ (.cls 0) exSs exE [.ref .null, .num .int32 3, .ref .null] [] =
    some (.ok (.ref (.obj 1)) [.ref (.obj 0), .num .int32 3, .ref .null] [⟨.val .int32, 3⟩, ⟨.val .int32, 4⟩]) := by
  decide +kernel

/-- With an object of class 1 in `o` nothing is called or boxed. -/
example : Spec.run exW exΓ (.cls 0) exSs exE [.ref (.obj 0), .num .int32 3, .ref .null] [⟨.cls 1, 0⟩] =
    some (.ok (.ref (.obj 0)) [.ref (.obj 0), .num .int32 3, .ref (.obj 0)] [⟨.cls 1, 0⟩]) := by
  decide +kernel

/-- `return (int) o;`: unboxing of `null`, of a box with a `long`, of a box with an `int`. -/
example : ok 2 exW exΓ (some (.val .int32)) (.cast (.val .int32) (.var 0)) = true ∧
    Spec.run exW exΓ (.val .int32) [] (.cast (.val .int32) (.var 0)) [.ref .null] [] = some (.thrown .nullReference [.ref .null] []) ∧
    Spec.run exW exΓ (.val .int32) [] (.cast (.val .int32) (.var 0)) [.ref (.obj 0)] [⟨.val .int64, 3⟩] =
      some (.thrown .invalidCast [.ref (.obj 0)] [⟨.val .int64, 3⟩]) ∧
    Spec.run exW exΓ (.val .int32) [] (.cast (.val .int32) (.var 0)) [.ref (.obj 0)] [⟨.val .int32, 3⟩] =
      some (.ok (.num .int32 3) [.ref (.obj 0)] [⟨.val .int32, 3⟩]) := by
  decide +kernel

/-! ### What goes wrong

Each of these is a body that the compiler accepts, at the level named, with a meaning that the code does not have. -/

/-- From level 1 on, an operand that is a string constant makes the whole expression a constant text: `s ?? "x"` is the text
`nan"x"`, whatever `s` is. -/
theorem fold_refuted :
    compileBody 1 exW [.str] .str [] (.coal (.var 0) (.str "x")) = some [.pushStr "nan\"x\""] ∧
    Spec.run exW [.str] .str [] (.coal (.var 0) (.str "x")) [.ref .null] [] = some (.ok (.ref (.lit "x")) [.ref .null] []) ∧
    exec exW 0 [.pushStr "nan\"x\""] ⟨[], [.ref .null], []⟩ = .done ⟨[.ref (.lit "nan\"x\"")], [.ref .null], []⟩ := by
  decide +kernel

/-- For every operand and every text, at every level from 1 on. -/
theorem coal_string_constant (lvl : Nat) (hl : 1 ≤ lvl) (w : World) (Γ : List Ty) (want : Want) (x : Nat) (s : String) :
    compile lvl w Γ want (.coal (.var x) (.str s)) = some [.pushStr ("nan" ++ ("\"" ++ s ++ "\""))] := by
  simp [compile, foldOr, hl, execute, executeBin, CV.isStr, CV.text, cvalue]

/-- The same for a statement: `s = "abc";` pushes a text and stores nothing. -/
theorem assign_string_refuted (lvl : Nat) (hl : 1 ≤ lvl) (w : World) (Γ : List Ty) (x : Nat) (s : String) :
    ∃ t, compileSt lvl w Γ (.assign x (.str s)) = some [.pushStr t] ∧
      ∀ vs h st, exec w 0 [.pushStr t] ⟨st, vs, h⟩ = .done ⟨.ref (.lit t) :: st, vs, h⟩ := by
  refine ⟨_, by simp [compileSt, foldOr, hl, execute, executeBin, CV.isStr, cvalue]; rfl, fun vs h st => rfl⟩

/-- `x ??= e` has no value if `x` is not `null`: at every level the code leaves nothing on the stack. -/
theorem coalAssign_value_refuted (lvl : Nat) (hl : lvl ≤ 2) :
    ∃ code, compileBody lvl exW exΓ (.cls 0) [] (.coalAssign 0 (.var 2)) = some code ∧
      Spec.run exW exΓ (.cls 0) [] (.coalAssign 0 (.var 2)) [.ref (.obj 0), .num .int32 3, .ref .null] [⟨.cls 1, 0⟩] =
        some (.ok (.ref (.obj 0)) [.ref (.obj 0), .num .int32 3, .ref .null] [⟨.cls 1, 0⟩]) ∧
      exec exW 0 code ⟨[], [.ref (.obj 0), .num .int32 3, .ref .null], [⟨.cls 1, 0⟩]⟩ =
        .done ⟨[], [.ref (.obj 0), .num .int32 3, .ref .null], [⟨.cls 1, 0⟩]⟩ := by
  have : lvl = 0 ∨ lvl = 1 ∨ lvl = 2 := by omega
  rcases this with rfl | rfl | rfl <;> exact ⟨_, rfl, by decide +kernel, by decide +kernel⟩

/-- At level 2, `x ??= null` as a value is no code at all. -/
theorem coalAssign_null_refuted (w : World) (Γ : List Ty) (x n : Nat) (hx : Γ[x]? = some (.cls n)) :
    compile 2 w Γ (some (.cls n)) (.coalAssign x .null) = some [] := by
  simp [compile, foldOr, execute, executeBin, CV.isStr, hx, ty, coalAssignIns, Ty.isRef, post, Ty.isValue]

/-- An enum is not boxed: `object o = e;` puts the number of the constant where the reference is wanted. -/
theorem enum_refuted (lvl : Nat) (w : World) (n m : Nat) :
    compileBody lvl w [.enm n] (.cls m) [] (.var 0) = some [.pushPar 0] ∧
      ∀ v, Spec.run w [.enm n] (.cls m) [] (.var 0) [.num .int32 v] [] =
          some (.ok (.ref (.obj 0)) [.num .int32 v] [⟨.enm n, v⟩]) ∧
        exec w 0 [.pushPar 0] ⟨[], [.num .int32 v], []⟩ = .done ⟨[.num .int32 v], [.num .int32 v], []⟩ := by
  refine ⟨?_, fun v => ⟨?_, rfl⟩⟩
  · simp [compileBody, compile, post, Ty.isValue, Ty.isRef]
  · simp [Spec.run, evalAs, ty, eval, andThen, coerce, Ty.isRef, Ty.xil]

/-- The result of a call is not boxed, but converted, and there is no such command: the machine refuses the body. -/
theorem call_box_refuted (lvl : Nat) (w : World) (k n : Nat) (t : VT) (hs : w.sig k = (none, .val t)) :
    compileBody lvl w [] (.cls n) [] (.call k) = some [.call k 0, .convert (.num t) .object] ∧
      loads [.call k 0, .convert (.num t) .object] = false := by
  constructor
  · simp [compileBody, compile, hs, afterCall, Ty.xil]
  · rfl

/-- The same for a method that gives a string, where an `object` is wanted. -/
theorem call_string_refuted (lvl : Nat) (w : World) (k n : Nat) (hs : w.sig k = (none, .str)) :
    compileBody lvl w [] (.cls n) [] (.call k) = some [.call k 0, .convert .string .object] ∧
      loads [.call k 0, .convert .string .object] = false := by
  constructor
  · simp [compileBody, compile, hs, afterCall, Ty.xil]
  · rfl

/-- A number cannot be passed for an `object`, and `object o = 1 + 2` has no code, from level 1 on; at level 0 both do. -/
theorem constant_object_refuted :
    (∀ lvl, 1 ≤ lvl → ∀ t v, compile lvl exW exΓ none (.call1 0 (.num t v)) = none) ∧
    (∀ lvl, 1 ≤ lvl → ∀ n, compile lvl exW exΓ (some (.cls n)) (.add (.num .int32 1) (.num .int32 2)) = none) ∧
    (compile 0 exW exΓ none (.call1 0 (.num .int32 1))).isSome = true ∧
    (compile 0 exW exΓ (some (.cls 0)) (.add (.num .int32 1) (.num .int32 2))).isSome = true := by
  refine ⟨fun lvl hl t v => ?_, fun lvl hl n => ?_, by decide +kernel, by decide +kernel⟩
  · simp [compile, foldOr, hl, execute, exW, cvalue, Ty.xil]
  · simp [compile, foldOr, hl, execute, executeBin, CV.isStr, cvalue, Ty.xil]

/-- A value is cast to a reference type without a test: `(string) i` is a boxed `int` with the type `string`. -/
theorem cast_box_refuted (lvl : Nat) :
    compileBody lvl exW exΓ .str [] (.cast .str (.var 1)) = some [.pushPar 1, .box (.val .int32)] ∧
      Spec.run exW exΓ .str [] (.cast .str (.var 1)) [.ref .null, .num .int32 3, .ref .null] [] =
        some (.thrown .invalidCast [.ref .null, .num .int32 3, .ref .null] [⟨.val .int32, 3⟩]) ∧
      exec exW 0 [.pushPar 1, .box (.val .int32)] ⟨[], [.ref .null, .num .int32 3, .ref .null], []⟩ =
        .done ⟨[.ref (.obj 0)], [.ref .null, .num .int32 3, .ref .null], [⟨.val .int32, 3⟩]⟩ := by
  refine ⟨?_, by decide +kernel, by decide +kernel⟩
  simp [compileBody, compile, exΓ, ty, Ty.isRef, Ty.isValue, post]

/-- `i is T` with a number gives the machine the number where it reads an address. -/
theorem is_value_refuted (lvl : Nat) (w : World) (t : Ty) (v : Int) :
    compileBody lvl w [.val .int32] (.val .bool) [] (.is (.var 0) t) = some [.pushPar 0, .isOf t] ∧
      exec w 0 [.pushPar 0, .isOf t] ⟨[], [.num .int32 v], []⟩ = .stuck := by
  constructor
  · by_cases hl : 1 ≤ lvl <;>
      simp [compileBody, compile, foldOr, hl, execute, executeBin, CV.isStr, ty, post, Ty.isValue, Ty.isRef]
  · rfl

end Verif.Refs
