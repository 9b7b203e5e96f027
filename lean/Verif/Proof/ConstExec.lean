import Verif.Spec.ConstExec

/-! Lemmas about evaluation at compile time. -/

namespace Verif.ConstExec

open Spec

variable {N : Type}

theorem execute_number {A : Arith N} {T : TypeName} {K : Nat → Cv N} {O : Ex N → Env N → Val N × Env N} {σ : Env N}
    (hK : Agree K σ) : ∀ (e : Ex N) (n : N), Assignable A T K e → CastNumbers A T K e → execute A T K e = some (.num n) →
    run A O e σ = some (.num n, σ) := by
  intro e
  induction e with
  | num m => intro n _ _ h; simp only [execute, Option.some.injEq, Cv.num.injEq] at h; subst h; rfl
  | str s => intro n _ _ h; simp [execute] at h
  | null => intro n _ _ h; simp [execute] at h
  | name i =>
    intro n _ _ h
    simp only [execute, Option.some.injEq] at h
    simp only [run, (hK i).1 n h]
  | type t => intro n _ _ h; simp [execute] at h
  | other k => intro n _ _ h; simp [execute] at h
  | un u e ih =>
    intro n ha hc h
    simp only [execute] at h
    cases he : execute A T K e with
    | none => simp [he] at h
    | some c =>
      cases c with
      | num m =>
        simp only [he] at h
        simp only [run, ih m ha hc he]
        cases hu : A.un u m with
        | none => simp [hu] at h
        | some k => simp only [hu, Option.map_some, Option.some.injEq, Cv.num.injEq] at h; subst h; rfl
      | _ => simp [he] at h
  | step s e ih =>
    intro n ha hc h
    simp only [execute] at h
    cases he : execute A T K e with
    | none => simp [he] at h
    | some c =>
      cases c with
      | num m => exact absurd he (ha.2 m)
      | _ => simp [he] at h
  | cast t e ih =>
    intro n ha hc h
    simp only [execute] at h
    cases he : execute A T K e with
    | none => simp [he] at h
    | some c =>
      cases c with
      | num m =>
        simp only [he, changeType] at h
        by_cases ht : t = stringType ∨ t = 1
        · rw [if_pos ht] at h; simp at h
        · rw [if_neg ht] at h
          simp only [Option.some.injEq, Cv.num.injEq] at h
          simp only [run, ih m ha hc.1 he, if_neg ht, h]
      | nan => simp [he] at h
      | str s =>
        exfalso
        simp only [he, changeType] at h
        by_cases h0 : t = stringType
        · rw [if_pos h0] at h; simp at h
        · by_cases h1 : t = 1
          · rw [if_neg h0, if_pos h1] at h; simp at h
          · rcases hc.2 h0 h1 _ he with h' | ⟨_, h'⟩ <;> cases h'
      | null =>
        exfalso
        simp only [he, changeType] at h
        by_cases ht : t = stringType ∨ t = 1
        · rw [if_pos ht] at h; simp at h
        · rcases hc.2 (fun h => ht (.inl h)) (fun h => ht (.inr h)) _ he with h' | ⟨_, h'⟩ <;> cases h'
      | type k =>
        exfalso
        simp only [he, changeType] at h
        by_cases ht : t = stringType ∨ t = 1
        · rw [if_pos ht] at h; simp at h
        · rcases hc.2 (fun h => ht (.inl h)) (fun h => ht (.inr h)) _ he with h' | ⟨_, h'⟩ <;> cases h'
  | bin op a b iha ihb =>
    intro n ha hc h
    simp only [execute] at h
    cases hea : execute A T K a with
    | none => simp [hea] at h
    | some c =>
      cases heb : execute A T K b with
      | none => simp [hea, heb] at h
      | some d =>
        cases c with
        | num x =>
          cases d with
          | num y =>
            simp only [hea, heb] at h
            cases op with
            | value o =>
              simp only [run, iha x ha.1 hc.1 hea, ihb y ha.2 hc.2 heb]
              cases hu : A.bin o x y with
              | none => simp [hu] at h
              | some k => simp only [hu, Option.map_some, Option.some.injEq, Cv.num.injEq] at h; subst h; rfl
            | valueAssign o => exact absurd hea (ha.2.2 x)
            | memberPoint =>
              cases a with
              | type t => simp [execute] at hea
              | _ => simp at h
            | assign => simp at h
            | other k => simp at h
          | _ => simp [hea, heb] at h
        | str s => simp [hea, heb] at h
        | _ => cases d <;> simp [hea, heb] at h

theorem execute_plain {A : Arith N} {T : TypeName} {K : Nat → Cv N} {O : Ex N → Env N → Val N × Env N} {σ : Env N}
    (hK : Agree K σ) : ∀ (e : Ex N) (s : Text), NoBinary e → execute A T K e = some (.str s) →
    run A O e σ = some (.str s, σ) := by
  intro e
  induction e with
  | num m => intro s _ h; simp [execute] at h
  | str s' => intro s _ h; simp only [execute, Option.some.injEq, Cv.str.injEq] at h; subst h; rfl
  | null => intro s _ h; simp [execute] at h
  | name i =>
    intro s _ h
    simp only [execute, Option.some.injEq] at h
    simp only [run, (hK i).2.1 s h]
  | type t => intro s _ h; simp [execute] at h
  | other k => intro s _ h; simp [execute] at h
  | un u e ih =>
    intro s hb h
    simp only [execute] at h
    cases he : execute A T K e with
    | none => simp [he] at h
    | some c =>
      cases c with
      | num m => simp only [he] at h; cases A.un u m <;> simp at h
      | _ => simp [he] at h
  | step u e ih =>
    intro s hb h
    simp only [execute] at h
    cases he : execute A T K e with
    | none => simp [he] at h
    | some c =>
      cases c with
      | num m => simp only [he] at h; cases A.step u m <;> simp at h
      | _ => simp [he] at h
  | cast t e ih =>
    intro s hb h
    simp only [execute] at h
    cases he : execute A T K e with
    | none => simp [he] at h
    | some c =>
      cases c with
      | str s' =>
        simp only [he, changeType] at h
        by_cases h0 : t = stringType
        · rw [if_pos h0] at h
          simp only [Option.some.injEq, Cv.str.injEq] at h
          simp only [run, ih s' hb he, if_pos h0, h]
        · rw [if_neg h0] at h
          by_cases h1 : t = 1
          · rw [if_pos h1] at h; simp at h
          · rw [if_neg h1] at h; simp at h
      | nan => simp [he] at h
      | _ =>
        simp only [he, changeType] at h
        by_cases ht : t = stringType ∨ t = 1
        · rw [if_pos ht] at h; simp at h
        · rw [if_neg ht] at h; simp at h
  | bin op a b => intro s hb; exact absurd hb id

theorem ite_ne (p : Prop) [Decidable p] (a b : Text) (ha : a ≠ []) (hb : b ≠ []) : (if p then a else b) ≠ [] := by
  by_cases h : p
  · rw [if_pos h]; exact ha
  · rw [if_neg h]; exact hb

theorem escape_length : ∀ s : Text, s.length ≤ (s.flatMap escapeChar).length
  | [] => Nat.le_refl _
  | c :: s => by
    have ih := escape_length s
    have : 1 ≤ (escapeChar c).length := by
      have : escapeChar c ≠ [] := by
        unfold escapeChar
        repeat (refine ite_ne _ _ _ (by simp) ?_)
        simp
      exact List.length_pos_iff.2 this
    simp only [List.flatMap_cons, List.length_append, List.length_cons]
    omega

end Verif.ConstExec
