import Verif.Proof.InitShape

/-!
# The code of a creation
-/

namespace Verif.Init

variable {A S X : Type} {M : Machine A S X}

theorem run_append (c₁ c₂ : List (Cmd A)) (st : St S) :
    run M (c₁ ++ c₂) st = match run M c₁ st with
      | .ok st => run M c₂ st
      | o => o := by
  induction c₁ generalizing st with
  | nil => rfl
  | cons c cs ih =>
    rw [List.cons_append, run, run]
    cases step M c st with
    | ok st => exact ih st
    | raised => rfl
    | wild => rfl

theorem mask_bit (size i : Nat) (h : i < 64) :
    (BitVec.ofNat 64 (2 ^ (8 * size) - 1)).getLsbD i = decide (i < 8 * size) := by
  rw [BitVec.getLsbD_ofNat, Nat.testBit_two_pow_sub_one]
  simp [h]

theorem low_bit (size i : Nat) (v : BitVec 64) (h : i < 64) :
    (low size v).getLsbD i = (v.getLsbD i && decide (i < 8 * size)) := by
  rw [low, BitVec.getLsbD_and, mask_bit size i h]

theorem low_store (size : Nat) (v old : BitVec 64) : low size (store size v old) = low size v := by
  refine BitVec.eq_of_getLsbD_eq fun i hi => ?_
  rw [low_bit _ _ _ hi, low_bit _ _ _ hi, store, BitVec.getLsbD_or, low_bit _ _ _ hi, BitVec.getLsbD_and,
    BitVec.getLsbD_not, mask_bit _ _ hi]
  cases v.getLsbD i <;> cases old.getLsbD i <;> cases decide (i < 8 * size) <;> simp

theorem low_low (size : Nat) (v : BitVec 64) : low size (low size v) = low size v := by
  refine BitVec.eq_of_getLsbD_eq fun i hi => ?_
  rw [low_bit _ _ _ hi, low_bit _ _ _ hi, Bool.and_assoc, Bool.and_self]

theorem low_int (v : BitVec 64) : (low 4 v).setWidth 32 = v.setWidth 32 := by
  refine BitVec.eq_of_getLsbD_eq fun i hi => ?_
  rw [BitVec.getLsbD_setWidth, BitVec.getLsbD_setWidth, low_bit _ _ _ (by omega)]
  have : i < 8 * 4 := by omega
  simp [this]

/-- A length as a number. -/
def intOf (v : BitVec 64) : Int := (v.setWidth 32).toInt

theorem expr_run (opt : Bool) (w : Nat) (e : Expr A) (s : S) (stk : List Cell) (o : Option Obj)
    (hf : Fits w [e]) :
    match e.eval M w s with
    | .ok (v, s') => ∃ u, run M (e.code opt true) ⟨s, stk, o⟩ = .ok ⟨s', .val u :: stk, o⟩ ∧ low w u = v
    | .error (x, s') => run M (e.code opt true) ⟨s, stk, o⟩ = .raised x s' := by
  cases e with
  | lit w' v =>
    have := hf w' v (by simp)
    subst this
    exact ⟨_, rfl, low_store _ _ _⟩
  | act a =>
    simp only [Expr.eval, Expr.code, if_true]
    cases h : M.act a s with
    | ok p => exact ⟨p.1, by simp [run, step, h], rfl⟩
    | error p => simp [run, step, h]

theorem lens_run (opt : Bool) : ∀ (ls : List (Expr A)) (s : S) (stk : List Cell) (o : Option Obj), Fits 4 ls →
    match evals M 4 ls s with
    | .ok (vs, s') => ∃ us : List (BitVec 64), run M (ls.flatMap (Expr.code opt true)) ⟨s, stk, o⟩
        = .ok ⟨s', us.map Cell.val ++ stk, o⟩ ∧ us.reverse.map (low 4) = vs ∧ us.length = ls.length
    | .error (x, s') => run M (ls.flatMap (Expr.code opt true)) ⟨s, stk, o⟩ = .raised x s'
  | [], s, stk, o, _ => ⟨[], rfl, rfl, rfl⟩
  | e :: ls, s, stk, o, hf => by
    have he := expr_run (M := M) opt 4 e s stk o (fun w v h => hf w v (by simp_all))
    rw [evals]
    cases hv : e.eval M 4 s with
    | error p =>
      rw [hv] at he
      simp only at he ⊢
      rw [List.flatMap_cons, run_append, he]
    | ok p =>
      obtain ⟨v, s1⟩ := p
      rw [hv] at he
      obtain ⟨u, hu, hlow⟩ := he
      have ih := lens_run opt ls s1 (.val u :: stk) o (fun w v h => hf w v (by simp_all))
      simp only
      cases hvs : evals M 4 ls s1 with
      | error p =>
        rw [hvs] at ih
        simp only at ih ⊢
        rw [List.flatMap_cons, run_append, hu]
        exact ih
      | ok p =>
        obtain ⟨vs, s2⟩ := p
        rw [hvs] at ih
        obtain ⟨us, h1, h2, h3⟩ := ih
        refine ⟨us ++ [u], ?_, ?_, by simp [h3]⟩
        · rw [List.flatMap_cons, run_append, hu]
          simp only
          rw [h1]
          simp
        · simp [← h2, hlow]

theorem popLengths_vals (us : List (BitVec 64)) (stk : List Cell) :
    popLengths us.length (us.map Cell.val ++ stk) = some (us.reverse.map intOf, stk) := by
  induction us with
  | nil => rfl
  | cons u us ih =>
    rw [List.length_cons, List.map_cons, List.cons_append, popLengths, ih]
    simp [intOf]

theorem ints_low (us : List (BitVec 64)) : us.map intOf = (us.map (low 4)).map intOf := by
  induction us with
  | nil => rfl
  | cons u us ih => simp [intOf, low_int, ih]

/-- The sizes that there are commands for. -/
def Size (w : Nat) : Prop := w = 1 ∨ w = 2 ∨ w = 4 ∨ w = 8

theorem evals_length {w : Nat} : ∀ {es : List (Expr A)} {s s' : S} {vs : List (BitVec 64)},
    evals M w es s = .ok (vs, s') → vs.length = es.length
  | [], _, _, _, h => by
    simp only [evals, Except.ok.injEq, Prod.mk.injEq] at h
    rw [← h.1]; rfl
  | e :: es, s, s', vs, h => by
    rw [evals] at h
    split at h
    · exact nomatch h
    · split at h
      · exact nomatch h
      · rename_i h2
        simp only [Except.ok.injEq, Prod.mk.injEq] at h
        rw [← h.1, List.length_cons, evals_length h2, List.length_cons]

theorem evals_low {w : Nat} : ∀ {es : List (Expr A)} {s s' : S} {vs : List (BitVec 64)},
    evals M w es s = .ok (vs, s') → vs.map (low w) = vs
  | [], _, _, _, h => by
    simp only [evals, Except.ok.injEq, Prod.mk.injEq] at h
    rw [← h.1]; rfl
  | e :: es, s, s', vs, h => by
    rw [evals] at h
    split at h
    · exact nomatch h
    · rename_i v s1 he
      split at h
      · exact nomatch h
      · rename_i h2
        simp only [Except.ok.injEq, Prod.mk.injEq] at h
        rw [← h.1, List.map_cons, evals_low h2]
        congr 1
        cases e with
        | lit => simp only [Expr.eval, Except.ok.injEq, Prod.mk.injEq] at he; rw [← he.1, low_low]
        | act a =>
          simp only [Expr.eval] at he
          split at he
          · simp only [Except.ok.injEq, Prod.mk.injEq] at he; rw [← he.1, low_low]
          · exact nomatch he

/-- The code of the elements. -/
def elemCode (opt : Bool) (w : Nat) (es : List (Expr A)) : List (Cmd A) :=
  es.flatMap (fun e => e.code opt true ++ [.element w])

theorem elem_step (w : Nat) (hw : Size w) (s : S) (u : BitVec 64) (k : Nat) (stk : List Cell) (o : Obj)
    (h : k < o.slots.length) :
    run M [.element w] ⟨s, .val u :: .ptr k :: stk, some o⟩
      = .ok ⟨s, .ptr (k + 1) :: stk, some { o with slots := o.slots.set k (low w u) }⟩ := by
  have : w = 1 ∨ w = 2 ∨ w = 4 ∨ w = 8 := hw
  simp [run, step, this, h]

theorem elem_wild (w : Nat) (s : S) (u : BitVec 64) (k : Nat) (stk : List Cell) (o : Obj)
    (h : o.slots.length ≤ k) :
    run M [.element w] ⟨s, .val u :: .ptr k :: stk, some o⟩ = .wild := by
  have h' : ¬ k < o.slots.length := by omega
  simp only [run, step, h', if_false]
  split <;> rename_i h2 <;> split at h2 <;> simp_all

theorem elems_run (opt : Bool) (w : Nat) (hw : Size w) : ∀ (es : List (Expr A)) (s : S) (k : Nat) (stk : List Cell)
    (o : Obj), Fits w es → k + es.length ≤ o.slots.length →
    match evals M w es s with
    | .ok (vs, s') => run M (elemCode opt w es) ⟨s, .ptr k :: stk, some o⟩
        = .ok ⟨s', .ptr (k + es.length) :: stk,
            some { o with slots := o.slots.take k ++ vs ++ o.slots.drop (k + es.length) }⟩
    | .error (x, s') => run M (elemCode opt w es) ⟨s, .ptr k :: stk, some o⟩ = .raised x s'
  | [], s, k, stk, o, _, _ => by simp [evals, elemCode, run]
  | e :: es, s, k, stk, o, hf, hl => by
    have he := expr_run (M := M) opt w e s (.ptr k :: stk) (some o) (fun w v h => hf w v (by simp_all))
    simp only [List.length_cons] at hl
    have hcons : elemCode opt w (e :: es) = e.code opt true ++ ([.element w] ++ elemCode opt w es) := by
      simp [elemCode]
    rw [evals, hcons, run_append]
    cases hv : e.eval M w s with
    | error p =>
      rw [hv] at he
      simp only at he ⊢
      rw [he]
    | ok p =>
      obtain ⟨v, s1⟩ := p
      rw [hv] at he
      obtain ⟨u, hu, hlow⟩ := he
      rw [hu]
      simp only
      rw [run_append, elem_step w hw _ _ _ _ _ (by omega), hlow]
      simp only
      have ih := elems_run opt w hw es s1 (k + 1) stk { o with slots := o.slots.set k v }
        (fun w v h => hf w v (by simp_all)) (by simp; omega)
      cases hvs : evals M w es s1 with
      | error p =>
        rw [hvs] at ih
        exact ih
      | ok p =>
        obtain ⟨vs, s2⟩ := p
        rw [hvs] at ih
        simp only at ih ⊢
        rw [ih]
        have hk : k < o.slots.length := by omega
        have e1 : (o.slots.set k v).take (k + 1) = o.slots.take k ++ [v] := by
          rw [List.take_succ_eq_append_getElem (by simp; omega)]
          simp [List.take_set_of_le]
        have e2 : (o.slots.set k v).drop (k + 1 + es.length) = o.slots.drop (k + (es.length + 1)) := by
          rw [List.drop_set_of_lt (by omega)]
          congr 1; omega
        simp only [e1, e2, List.length_cons]
        rw [show k + 1 + es.length = k + (es.length + 1) by omega]
        simp

theorem elems_over (opt : Bool) (w : Nat) (hw : Size w) : ∀ (es : List (Expr A)) (s : S) (k : Nat) (stk : List Cell)
    (o : Obj), Fits w es → k ≤ o.slots.length → o.slots.length < k + es.length →
    ∀ vs s', evals M w es s = .ok (vs, s') →
      run M (elemCode opt w es) ⟨s, .ptr k :: stk, some o⟩ = .wild
  | [], s, k, stk, o, _, h1, h2, _, _, _ => by simp at h2; omega
  | e :: es, s, k, stk, o, hf, h1, h2, vs, s', h => by
    have he := expr_run (M := M) opt w e s (.ptr k :: stk) (some o) (fun w v h => hf w v (by simp_all))
    have hcons : elemCode opt w (e :: es) = e.code opt true ++ ([.element w] ++ elemCode opt w es) := by
      simp [elemCode]
    rw [hcons, run_append]
    rw [evals] at h
    cases hv : e.eval M w s with
    | error p => rw [hv] at h; exact nomatch h
    | ok p =>
      obtain ⟨v, s1⟩ := p
      rw [hv] at he h
      obtain ⟨u, hu, hlow⟩ := he
      rw [hu]
      simp only at h ⊢
      rw [run_append]
      by_cases hk : k < o.slots.length
      · rw [elem_step w hw _ _ _ _ _ hk]
        cases hvs : evals M w es s1 with
        | error p => rw [hvs] at h; exact nomatch h
        | ok p =>
          exact elems_over opt w hw es s1 (k + 1) stk _ (fun w v h => hf w v (by simp_all)) (by simp; omega)
            (by simp only [List.length_set, List.length_cons] at h2 ⊢; omega) p.1 p.2 hvs
      · rw [elem_wild w _ _ _ _ _ (by omega)]

/-- The code, in parts. -/
theorem code_used (opt : Bool) (w : Nat) (ls : List (Expr A)) (i : Inits A) :
    Accepted.code opt true ⟨w, ls, some i⟩ = ls.flatMap (Expr.code opt true) ++
      ([.newArray w ls.length, .begin_] ++ (elemCode opt w i.each ++ [.end_])) := by
  simp [Accepted.code, elemCode]

/-- Lengths and elements that the memory has room for. -/
theorem create_run (opt : Bool) (w : Nat) (hw : Size w) (ls : List (Expr A)) (i : Inits A) (hl : Fits 4 ls)
    (hf : Fits w i.each) (s s1 : S) (stk : List Cell) (lens : List (BitVec 64)) (a : Arr.Arr)
    (h1 : evals M 4 ls s = .ok (lens, s1)) (h2 : Arr.newArray w (lens.map intOf) = some a)
    (hroom : i.each.length ≤ a.bytes / w) :
    match evals M w i.each s1 with
    | .ok (vs, s') => run M (Accepted.code opt true ⟨w, ls, some i⟩) ⟨s, stk, none⟩
        = .ok ⟨s', .ref :: stk, some ⟨a, vs ++ List.replicate (a.bytes / w - i.each.length) 0⟩⟩
    | .error (x, s') => run M (Accepted.code opt true ⟨w, ls, some i⟩) ⟨s, stk, none⟩ = .raised x s' := by
  have hr := lens_run (M := M) opt ls s stk none hl
  rw [h1] at hr
  obtain ⟨us, hu, hlow, hlen⟩ := hr
  rw [code_used, run_append, hu]
  simp only
  rw [run_append]
  have hnew : run M [.newArray w ls.length, .begin_] ⟨s1, us.map Cell.val ++ stk, none⟩
      = .ok ⟨s1, .ptr 0 :: .ref :: stk, some ⟨a, List.replicate (a.bytes / w) 0⟩⟩ := by
    simp only [run, step]
    rw [← hlen, popLengths_vals, ints_low, hlow]
    simp only [h2]
  rw [hnew]
  simp only
  rw [run_append]
  have he := elems_run (M := M) opt w hw i.each s1 0 (.ref :: stk) ⟨a, List.replicate (a.bytes / w) 0⟩ hf
    (by simpa using hroom)
  cases hvs : evals M w i.each s1 with
  | error p => rw [hvs] at he; simp only at he ⊢; rw [he]
  | ok p =>
    rw [hvs] at he
    simp only at he ⊢
    rw [he]
    simp [run, step]

/-- More elements than the memory has room for. -/
theorem create_over (opt : Bool) (w : Nat) (hw : Size w) (ls : List (Expr A)) (i : Inits A) (hl : Fits 4 ls)
    (hf : Fits w i.each) (s s1 s2 : S) (stk : List Cell) (lens vs : List (BitVec 64)) (a : Arr.Arr)
    (h1 : evals M 4 ls s = .ok (lens, s1)) (h2 : Arr.newArray w (lens.map intOf) = some a)
    (h3 : evals M w i.each s1 = .ok (vs, s2)) (hroom : a.bytes / w < i.each.length) :
    run M (Accepted.code opt true ⟨w, ls, some i⟩) ⟨s, stk, none⟩ = .wild := by
  have hr := lens_run (M := M) opt ls s stk none hl
  rw [h1] at hr
  obtain ⟨us, hu, hlow, hlen⟩ := hr
  rw [code_used, run_append, hu]
  simp only
  rw [run_append]
  have hnew : run M [.newArray w ls.length, .begin_] ⟨s1, us.map Cell.val ++ stk, none⟩
      = .ok ⟨s1, .ptr 0 :: .ref :: stk, some ⟨a, List.replicate (a.bytes / w) 0⟩⟩ := by
    simp only [run, step]
    rw [← hlen, popLengths_vals, ints_low, hlow]
    simp only [h2]
  rw [hnew]
  simp only
  rw [run_append, elems_over opt w hw i.each s1 0 (.ref :: stk) _ hf (by simp) (by simpa using hroom) vs s2 h3]

/-- Lengths that fail. -/
theorem create_raised (opt : Bool) (w : Nat) (ls : List (Expr A)) (i : Inits A) (hl : Fits 4 ls)
    (s s1 : S) (x : X) (stk : List Cell) (h1 : evals M 4 ls s = .error (x, s1)) :
    run M (Accepted.code opt true ⟨w, ls, some i⟩) ⟨s, stk, none⟩ = .raised x s1 := by
  have hr := lens_run (M := M) opt ls s stk none hl
  rw [h1] at hr
  rw [code_used, run_append]
  simp only at hr
  rw [hr]

/-- Constants of a list. -/
def lits : List (Expr A) → Nat
  | [] => 0
  | .lit _ _ :: es => lits es + 1
  | .act _ :: es => lits es

/-- Only the effects. -/
theorem unused_run (opt : Bool) : ∀ (es : List (Expr A)) (w : Nat) (s : S) (stk : List Cell) (o : Option Obj),
    match evals M w es s with
    | .ok (_, s') => ∃ us : List Cell, run M (es.flatMap (Expr.code opt false)) ⟨s, stk, o⟩ = .ok ⟨s', us ++ stk, o⟩ ∧
        us.length = if opt then 0 else lits es
    | .error (x, s') => run M (es.flatMap (Expr.code opt false)) ⟨s, stk, o⟩ = .raised x s'
  | [], w, s, stk, o => ⟨[], rfl, by simp [lits]⟩
  | .lit w' v :: es, w, s, stk, o => by
    rw [evals]
    simp only [Expr.eval, List.flatMap_cons]
    cases opt with
    | true =>
      have ih := unused_run true es w s stk o
      cases hvs : evals M w es s with
      | error p => rw [hvs] at ih; simpa [Expr.code] using ih
      | ok p => rw [hvs] at ih; simpa [Expr.code] using ih
    | false =>
      have ih := unused_run false es w s (.val (store w' v (M.junk stk.length)) :: stk) o
      cases hvs : evals M w es s with
      | error p => rw [hvs] at ih; simpa [Expr.code, run, step] using ih
      | ok p =>
        rw [hvs] at ih
        obtain ⟨us, h1, h2⟩ := ih
        refine ⟨us ++ [.val (store w' v (M.junk stk.length))], ?_, by simpa [lits] using h2⟩
        simpa [Expr.code, run, step] using h1
  | .act a :: es, w, s, stk, o => by
    rw [evals]
    simp only [Expr.eval, List.flatMap_cons]
    cases ha : M.act a s with
    | error p => simp [Expr.code, run, step, ha]
    | ok p =>
      have ih := unused_run opt es w p.2 stk o
      simp only
      cases hvs : evals M w es p.2 with
      | error q => rw [hvs] at ih; simpa [Expr.code, run, step, ha] using ih
      | ok q =>
        rw [hvs] at ih
        simpa [Expr.code, run, step, ha, lits] using ih

end Verif.Init
