import Verif.Proof.ConstExec

/-!
# C116: evaluation at compile time

The full property: an expression is replaced by a constant only when each run of it gives this constant and changes nothing.  It
holds for numbers (`number_sound`).  It does not hold for strings: every operator with a constant string as an operand makes the
expression a constant, whatever the operator and the other operand are (`string_operand`); two constant strings are never joined
right (`join_refuted`); an assignment of a string is left out (`assign_refuted`); `A.S` for a constant string is not `S`
(`qualified_refuted`); and `A.N` for a constant number is no constant (`qualified_number`).
-/

namespace Verif.ConstExec

open Spec

variable {N : Type}

/-- Integers with a few operators. -/
def ints : Arith Int where
  bin
    | .add, a, b => some (a + b)
    | .sub, a, b => some (a - b)
    | .mul, a, b => some (a * b)
    | .lt, a, b => some (if a < b then 1 else 0)
    | _, _, _ => none
  un
    | .minus, a => some (-a)
    | _, _ => none
  step
    | _, a => some (a + 1)
  cast _ a := a % 256
  text a := [a.toNat + 48]
  junk t := t

/-- **C116.**  When an expression in which no constant is assigned to, and of constants only numbers are cast to numbers, is
replaced by a number, at whichever level, each run of it gives this number and changes nothing — for all variables, and whatever
calls and the like do. -/
theorem number_sound {A : Arith N} {T : TypeName} {K : Nat → Cv N} {O : Ex N → Env N → Val N × Env N} {level : Nat} {e : Ex N} {n : N}
    (ha : Assignable A T K e) (hc : CastNumbers A T K e) (h : replaced A T K level e = some (some (.num n))) {σ : Env N}
    (hK : Agree K σ) : run A O e σ = some (.num n, σ) := by
  refine execute_number hK e n ha hc ?_
  unfold replaced at h
  split at h
  · cases he : execute A T K e with
    | none => simp [he] at h
    | some c => cases c <;> simp_all
  · simp at h

/-- Non-vacuity: `(byte)(-N + 7) * 2` with the constant `N = 3`. -/
example : replaced ints (fun _ => []) (fun i => if i = 0 then .num 3 else .nan) 1
      (.bin (.value .mul) (.cast 5 (.bin (.value .add) (.un .minus (.name 0)) (.num 7))) (.num 2)) = some (some (.num 8)) ∧
    Assignable ints (fun _ => []) (fun i => if i = 0 then .num 3 else .nan)
      (.bin (.value .mul) (.cast 5 (.bin (.value .add) (.un .minus (.name 0)) (.num 7))) (.num 2)) ∧
    CastNumbers ints (fun _ => []) (fun i => if i = 0 then .num 3 else .nan)
      (.bin (.value .mul) (.cast 5 (.bin (.value .add) (.un .minus (.name 0)) (.num 7))) (.num 2)) := by
  refine ⟨rfl, by simp [Assignable], ?_⟩
  simp only [CastNumbers, true_and, and_true]
  intro _ _ c hc
  exact .inr ⟨4, (Option.some.inj hc).symm⟩

/-- **C116.**  When an expression without binary operators is replaced by a string, each run of it gives this string and changes
nothing. -/
theorem string_partial {A : Arith N} {T : TypeName} {K : Nat → Cv N} {O : Ex N → Env N → Val N × Env N} {e : Ex N} {s : Text}
    (hb : NoBinary e) (h : execute A T K e = some (.str s)) {σ : Env N} (hK : Agree K σ) : run A O e σ = some (.str s, σ) :=
  execute_plain hK e s hb h

/-- Non-vacuity: `(string)S` with the constant `S = "a"`. -/
example : execute ints (fun _ => []) (fun _ => .str [97]) (.cast 0 (.name 3)) = some (.str [97]) := rfl

/-- **C116.**  At level 0 nothing is replaced. -/
theorem level_zero (A : Arith N) (T : TypeName) (K : Nat → Cv N) (e : Ex N) : replaced A T K 0 e = some none := rfl

/-- **C116.**  An expression in which a variable that is no constant, or a call, is an operand of an operator next to something
that is no string is not replaced: what is evaluated at compile time depends on constants only. -/
theorem variable_kept {A : Arith N} {T : TypeName} {K : Nat → Cv N} {a b : Ex N} {op : Op} {d : Cv N} {level : Nat}
    (ha : execute A T K a = some .nan) (hb : execute A T K b = some d) (hd : ∀ s, d ≠ .str s) :
    replaced A T K level (.bin op a b) = some none ∧ replaced A T K level (.bin op b a) = some none := by
  unfold replaced
  cases d with
  | str s => exact absurd rfl (hd s)
  | _ => constructor <;> (split <;> simp [execute, ha, hb])

/-- Non-vacuity: `x + 1`. -/
example : replaced ints (fun _ => []) (fun _ => .nan) 2 (.bin (.value .add) (.name 0) (.num 1)) = some none := rfl

/-- **C116.**  Each operator with a constant string as one operand is replaced by a constant string, whatever the operator is and
whatever the other operand is: a variable, a call, an assignment. -/
theorem string_operand {A : Arith N} {T : TypeName} {K : Nat → Cv N} {a b : Ex N} {op : Op} {s : Text} {d : Cv N} {level : Nat}
    (hl : 1 ≤ level) (ha : execute A T K a = some (.str s)) (hb : execute A T K b = some d) :
    (∃ r, replaced A T K level (.bin op a b) = some (some (.str r))) ∧
      ∃ r, replaced A T K level (.bin op b a) = some (some (.str r)) := by
  unfold replaced
  rw [if_pos hl, if_pos hl]
  constructor
  · exact ⟨text A T (.str s) ++ text A T d, by simp [execute, ha, hb]⟩
  · cases d with
    | str r => exact ⟨text A T (.str r) ++ text A T (.str s), by simp [execute, ha, hb]⟩
    | num n => exact ⟨text A T (.num n) ++ text A T (.str s), by simp [execute, ha, hb]⟩
    | null => exact ⟨text A T .null ++ text A T (.str s), by simp [execute, ha, hb]⟩
    | type t => exact ⟨text A T (.type t) ++ text A T (.str s), by simp [execute, ha, hb]⟩
    | nan => exact ⟨text A T .nan ++ text A T (.str s), by simp [execute, ha, hb]⟩

/-- **C116 refuted.**  The sum of two constant strings is never the two strings joined: both are put in quotation marks and
escaped. -/
theorem join_refuted (A : Arith N) (T : TypeName) (K : Nat → Cv N) (O : Ex N → Env N → Val N × Env N) (a b : Text) (σ : Env N) :
    run A O (.bin (.value .add) (.str a) (.str b)) σ = some (.str (a ++ b), σ) ∧
      ∃ r, execute A T K (.bin (.value .add) (.str a) (.str b)) = some (.str r) ∧ r ≠ a ++ b := by
  refine ⟨by simp [run, show_], text A T (.str a) ++ text A T (.str b), by simp [execute], ?_⟩
  intro h
  have h1 := congrArg List.length h
  have ha := escape_length a
  have hb := escape_length b
  simp only [text, List.length_append, List.length_cons, List.length_nil] at h1
  omega

/-- **C116 refuted.**  From level 1 on `x = "…"` is replaced by a constant, and `x` is not assigned: for every string there are
variables that a run of the assignment changes. -/
theorem assign_refuted (A : Arith N) (T : TypeName) (K : Nat → Cv N) (O : Ex N → Env N → Val N × Env N) (x : Nat) (s : Text)
    {level : Nat} (hl : 1 ≤ level) :
    (∃ c, replaced A T K level (.bin .assign (.name x) (.str s)) = some (some c)) ∧
      ∃ σ σ' : Env N, run A O (.bin .assign (.name x) (.str s)) σ = some (.str s, σ') ∧ σ' ≠ σ := by
  constructor
  · obtain ⟨r, hr⟩ := (string_operand (A := A) (T := T) (K := K) (a := .str s) (b := .name x) (op := .assign) hl rfl rfl).2
    exact ⟨_, hr⟩
  · refine ⟨fun _ => .null, fun j => if j = x then .str s else .null, rfl, ?_⟩
    intro h
    have := congrFun h x
    simp at this

/-- **C116 refuted.**  `"…" + x` for a variable `x` is replaced by one constant, although its runs give different strings. -/
theorem variable_refuted (A : Arith N) (T : TypeName) (K : Nat → Cv N) (O : Ex N → Env N → Val N × Env N) (x : Nat) (s : Text)
    (hx : K x = .nan) {level : Nat} (hl : 1 ≤ level) :
    (∃ c, replaced A T K level (.bin (.value .add) (.str s) (.name x)) = some (some c)) ∧
      ∃ σ₁ σ₂ v₁ v₂, run A O (.bin (.value .add) (.str s) (.name x)) σ₁ = some (v₁, σ₁) ∧
        run A O (.bin (.value .add) (.str s) (.name x)) σ₂ = some (v₂, σ₂) ∧ v₁ ≠ v₂ := by
  constructor
  · obtain ⟨r, hr⟩ := (string_operand (A := A) (T := T) (K := K) (a := .str s) (b := .name x) (op := .value .add) hl rfl rfl).1
    exact ⟨_, hr⟩
  · refine ⟨fun _ => .str [97], fun _ => .str [98], .str (s ++ [97]), .str (s ++ [98]), rfl, rfl, ?_⟩
    intro h
    injection h with h
    have := List.append_cancel_left h
    cases this

/-- **C116 refuted.**  `A.S` for a constant string `S` of the class `A`: the constant is the name of the class and the string in
quotation marks. -/
theorem qualified_refuted (A : Arith N) (T : TypeName) (K : Nat → Cv N) (O : Ex N → Env N → Val N × Env N) (t i : Nat) (s : Text)
    (hi : K i = .str s) {σ : Env N} (hK : Agree K σ) :
    run A O (.bin .memberPoint (.type t) (.name i)) σ = some (.str s, σ) ∧
      ∃ r, execute A T K (.bin .memberPoint (.type t) (.name i)) = some (.str r) ∧ r ≠ s := by
  refine ⟨by simp only [run, (hK i).2.1 s hi], T t ++ text A T (.str s), by simp [execute, hi, text], ?_⟩
  intro h
  have h1 := congrArg List.length h
  have hs := escape_length s
  simp only [text, List.length_append, List.length_cons, List.length_nil] at h1
  omega

/-- **C116.**  `A.N` for a constant number `N` of the class `A` is no constant. -/
theorem qualified_number (A : Arith N) (T : TypeName) (K : Nat → Cv N) (t i : Nat) (n : N) (hi : K i = .num n) :
    execute A T K (.bin .memberPoint (.type t) (.name i)) = some .nan := by
  simp [execute, hi]

/-- Non-vacuity: a table with a constant number and a constant string. -/
example : Agree (fun i => if i = 0 then .num 3 else .str [97]) (fun i => if i = 0 then .num (3 : Int) else .str [97]) := by
  intro i
  by_cases h : i = 0 <;> simp [h]

end Verif.ConstExec
