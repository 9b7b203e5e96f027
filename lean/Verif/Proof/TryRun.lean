import Verif.Spec.Try

/-!
# Methods with `try` statements: a meaning that can be computed
-/

namespace Verif.Try

variable {A S : Type}

/-- What the `finally` clause of a `try` makes of the result of the rest. -/
def closeWith (run : Stmt A → S → Option (Res S)) : Fin A → Res S → Option (Res S)
  | .none, r => some r
  | .some f, r =>
    match run f r.state with
    | some (.normal s') => some (r.with s')
    | r' => r'

/-- The meaning of a statement, in so many steps. -/
def run (M : Machine A S) (is_ : Nat → Nat → Bool) : Nat → Option Nat → Stmt A → S → Option (Res S)
  | 0, _, _, _ => none
  | _ + 1, _, .skip, s => some (.normal s)
  | _ + 1, _, .act a, s =>
    match M.act a s with
    | .ok s' => some (.normal s')
    | .error (x, s') => some (.thrown x s')
  | n + 1, cur, .seq a b, s =>
    match run M is_ n cur a s with
    | some (.normal s') => run M is_ n cur b s'
    | r => r
  | n + 1, cur, .if_ c yes no, s =>
    match M.act c s with
    | .ok s' => run M is_ n cur (if (M.popBool s').1 then yes else no) (M.popBool s').2
    | .error (x, s') => some (.thrown x s')
  | n + 1, cur, .while_ c body, s =>
    match M.act c s with
    | .error (x, s') => some (.thrown x s')
    | .ok s' =>
      if (M.popBool s').1 then
        match run M is_ n cur body (M.popBool s').2 with
        | none => none
        | some (.normal s') => run M is_ n cur (.while_ c body) s'
        | some (.cont s') => run M is_ n cur (.while_ c body) s'
        | some (.brk s') => some (.normal s')
        | some (.thrown x s') => some (.thrown x s')
      else some (.normal (M.popBool s').2)
  | _ + 1, _, .brk, s => some (.brk s)
  | _ + 1, _, .cont, s => some (.cont s)
  | _ + 1, _, .thr a, s =>
    match M.act a s with
    | .ok s' => some (.thrown (M.popExc s').1 (M.popExc s').2)
    | .error (x, s') => some (.thrown x s')
  | _ + 1, cur, .rethrow, s =>
    match cur with
    | some x => some (.thrown x s)
    | none => none
  | n + 1, cur, .try_ body catches fin, s =>
    let r : Option (Res S) :=
      match run M is_ n cur body s with
      | some (.thrown x s') =>
        match catches.find (is_ x) with
        | some (v, h) => run M is_ n (some x) h (M.store v (M.push x s'))
        | none => some (.thrown x s')
      | r => r
    match r with
    | none => none
    | some r => closeWith (run M is_ n cur) fin r

/-- What is computed is what the statement means. -/
theorem run_sound (M : Machine A S) (is_ : Nat → Nat → Bool) : ∀ (n : Nat) (cur : Option Nat) (s : Stmt A) (v : S)
    (r : Res S), run M is_ n cur s v = some r → Runs M is_ cur s v r
  | 0, _, _, _, _, h => by simp [run] at h
  | n + 1, cur, .skip, v, r, h => by
    simp only [run, Option.some.injEq] at h; subst h; exact .skip
  | n + 1, cur, .act a, v, r, h => by
    simp only [run] at h
    cases ha : M.act a v with
    | ok s' => rw [ha] at h; simp only [Option.some.injEq] at h; subst h; exact .act ha
    | error p => obtain ⟨x, s'⟩ := p; rw [ha] at h; simp only [Option.some.injEq] at h; subst h; exact .actErr ha
  | n + 1, cur, .seq a b, v, r, h => by
    simp only [run] at h
    cases ha : run M is_ n cur a v with
    | none => rw [ha] at h; simp at h
    | some r1 =>
      have h1 := run_sound M is_ n cur a v r1 ha
      rw [ha] at h
      cases r1 with
      | normal s' => exact .seq h1 (run_sound M is_ n cur b s' r h)
      | brk s' => simp only [Option.some.injEq] at h; subst h; exact .seqLeft h1 (by intro s' h; cases h)
      | cont s' => simp only [Option.some.injEq] at h; subst h; exact .seqLeft h1 (by intro s' h; cases h)
      | thrown x s' => simp only [Option.some.injEq] at h; subst h; exact .seqLeft h1 (by intro s' h; cases h)
  | n + 1, cur, .if_ c yes no, v, r, h => by
    simp only [run] at h
    cases ha : M.act c v with
    | ok s' =>
      rw [ha] at h
      cases hb : (M.popBool s').1 with
      | true => simp only [hb, if_true] at h; exact .ifTrue ha hb (run_sound M is_ n cur yes _ r h)
      | false => simp only [hb, Bool.false_eq_true, if_false] at h; exact .ifFalse ha hb (run_sound M is_ n cur no _ r h)
    | error p => obtain ⟨x, s'⟩ := p; rw [ha] at h; simp only [Option.some.injEq] at h; subst h; exact .ifErr ha
  | n + 1, cur, .while_ c body, v, r, h => by
    simp only [run] at h
    cases ha : M.act c v with
    | ok s' =>
      rw [ha] at h
      cases hb : (M.popBool s').1 with
      | true =>
        simp only [hb, if_true] at h
        cases hr : run M is_ n cur body (M.popBool s').2 with
        | none => rw [hr] at h; simp at h
        | some r1 =>
          have h1 := run_sound M is_ n cur body _ r1 hr
          rw [hr] at h
          cases r1 with
          | normal s2 => exact .whileGo ha hb h1 (Or.inl rfl) (run_sound M is_ n cur _ s2 r h)
          | cont s2 => exact .whileGo ha hb h1 (Or.inr rfl) (run_sound M is_ n cur _ s2 r h)
          | brk s2 => simp only [Option.some.injEq] at h; subst h; exact .whileBrk ha hb h1
          | thrown x s2 => simp only [Option.some.injEq] at h; subst h; exact .whileLeft ha hb h1
      | false =>
        simp only [hb, Bool.false_eq_true, if_false, Option.some.injEq] at h; subst h; exact .whileEnd ha hb
    | error p => obtain ⟨x, s'⟩ := p; rw [ha] at h; simp only [Option.some.injEq] at h; subst h; exact .whileErr ha
  | n + 1, cur, .brk, v, r, h => by simp only [run, Option.some.injEq] at h; subst h; exact .brk
  | n + 1, cur, .cont, v, r, h => by simp only [run, Option.some.injEq] at h; subst h; exact .cont
  | n + 1, cur, .thr a, v, r, h => by
    simp only [run] at h
    cases ha : M.act a v with
    | ok s' => rw [ha] at h; simp only [Option.some.injEq] at h; subst h; exact .thr ha
    | error p => obtain ⟨x, s'⟩ := p; rw [ha] at h; simp only [Option.some.injEq] at h; subst h; exact .thrErr ha
  | n + 1, cur, .rethrow, v, r, h => by
    cases cur with
    | none => simp [run] at h
    | some x => simp only [run, Option.some.injEq] at h; subst h; exact .rethrow
  | n + 1, cur, .try_ body catches fin, v, r, h => by
    simp only [run] at h
    have key : ∀ r1, Guarded M is_ cur body catches v r1 → closeWith (run M is_ n cur) fin r1 = some r → Runs M is_ cur (.try_ body catches fin) v r := by
      intro r1 hg hr
      cases fin with
      | none => simp only [closeWith, Option.some.injEq] at hr; subst hr; exact .plain hg
      | some f =>
        simp only [closeWith] at hr
        cases hf : run M is_ n cur f r1.state with
        | none => rw [hf] at hr; simp at hr
        | some r2 =>
          have h2 := run_sound M is_ n cur f _ r2 hf
          rw [hf] at hr
          cases r2 with
          | normal s' => simp only [Option.some.injEq] at hr; subst hr; exact .fin hg h2
          | brk s' => simp only [Option.some.injEq] at hr; subst hr; exact .finLeft hg h2 (by intro s' h; cases h)
          | cont s' => simp only [Option.some.injEq] at hr; subst hr; exact .finLeft hg h2 (by intro s' h; cases h)
          | thrown x s' => simp only [Option.some.injEq] at hr; subst hr; exact .finLeft hg h2 (by intro s' h; cases h)
    cases hb : run M is_ n cur body v with
    | none => rw [hb] at h; simp at h
    | some rb =>
      have h1 := run_sound M is_ n cur body v rb hb
      rw [hb] at h
      cases rb with
      | normal s' => exact key _ (.whole h1 (by intro x s' h; cases h)) h
      | brk s' => exact key _ (.whole h1 (by intro x s' h; cases h)) h
      | cont s' => exact key _ (.whole h1 (by intro x s' h; cases h)) h
      | thrown x s' =>
        simp only at h
        cases hc : catches.find (is_ x) with
        | none => rw [hc] at h; exact key _ (.missed h1 hc) h
        | some p =>
          obtain ⟨w, g⟩ := p
          rw [hc] at h
          simp only at h
          cases hg : run M is_ n (some x) g (M.store w (M.push x s')) with
          | none => rw [hg] at h; simp at h
          | some r1 =>
            rw [hg] at h
            exact key _ (.caught h1 hc (run_sound M is_ n (some x) g _ r1 hg)) h

end Verif.Try
