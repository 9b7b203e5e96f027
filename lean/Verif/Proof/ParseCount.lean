import Verif.Proof.ParseSeq

/-!
Counting: what the machine holds is one operand more than it has operators between operands.
-/

namespace Verif.Parse

open Spec

/-- How many operands the operators of a stack still swallow. -/
def need : List Op → Int
  | [] => 0
  | o :: os => ((o.arity : Int) - 1) + need os

/-- Operands at hand minus operands swallowed. -/
def phi (f : Frame) : Int := (f.exps.length : Int) - need f.ops

theorem pushExp_phi {f g : Frame} {e : Exp} (h : pushExp f e = .ok g) : phi g = phi f + 1 := by
  unfold pushExp at h
  split at h
  · cases h
  · cases h
    simp only [phi, List.length_cons]
    omega

theorem popExp_phi {f g : Frame} {e : Exp} (h : popExp f = .ok (e, g)) : phi g = phi f - 1 := by
  unfold popExp at h
  split at h
  · cases h
  · rename_i hx
    cases h
    simp only [phi, hx, List.length_cons]
    omega

theorem settle_phi (f : Frame) : phi (settle f) = phi f := by
  unfold settle; split <;> rfl

theorem finish_phi {o : Op} {l e : Exp} {r : Option Exp} {f g : Frame}
    (h : finish o l r f = .ok (e, g)) : phi g = phi f := by
  unfold finish at h
  split at h
  · cases h; exact settle_phi f
  · unfold finish2 at h
    split at h
    · cases h
    · cases h; exact settle_phi f

/-- The operand to the right that has been taken already. -/
def given : Option Exp → Int
  | none => 0
  | some _ => 1

theorem combineLeftWith_phi {comb : Op → Frame → Res (Exp × Frame)}
    {loop : Op → Option Exp → Frame → Res (Exp × Frame)}
    (hc : ∀ o f e g, comb o f = .ok (e, g) → phi g = phi f - o.arity)
    (hl : ∀ o right f e g, loop o right f = .ok (e, g) → phi g = phi f - 1)
    {o : Op} {right : Option Exp} {f g : Frame} {e : Exp}
    (h : combineLeftWith comb loop o right f = .ok (e, g)) : phi g = phi f - 1 := by
  unfold combineLeftWith at h
  split at h
  · split at h
    · cases h
    · rename_i l f' hp
      rw [finish_phi h, popExp_phi hp]
  · rename_i t ops hf
    have hrest : ∀ k : Frame, k.ops = t :: ops → phi { k with ops := ops } = phi k + (t.arity - 1) := by
      intro k hk
      simp only [phi, hk, need]
      omega
    split at h
    · split at h
      · cases h
      · rename_i l f1 hp
        split at h
        · cases h
        · rename_i e' f2 hfin
          split at h
          · cases h
          · rename_i f3 hpush
            have h1 := hc _ _ _ _ h
            have h2 := pushExp_phi hpush
            have h3 := finish_phi hfin
            have h4 := popExp_phi hp
            have h5 := hrest f3 (by rw [pushExp_ops hpush, finish_ops hfin, popExp_ops hp, hf])
            omega
    · split at h
      · exact hl _ _ _ _ _ h
      · split at h
        · split at h
          · cases h
          · rename_i l f1 hcmb
            have h1 := hc _ _ _ _ hcmb
            have h2 := finish_phi h
            have h3 := hrest f hf
            omega
        · split at h
          · cases h
          · rename_i l f' hp
            rw [finish_phi h, popExp_phi hp]

theorem combine_phi (n : Nat) :
    (∀ o f e g, combine n o f = .ok (e, g) → phi g = phi f - o.arity) ∧
    (∀ o right f e g, parentLoop n o right f = .ok (e, g) → phi g = phi f - 1) := by
  induction n with
  | zero => exact ⟨(fun o f e g h => by cases h), (fun o right f e g h => by cases h)⟩
  | succ n ih =>
    refine ⟨?_, ?_⟩
    · intro o f e g h
      have hshape : (o.adhere = 0 ∧ o.arity = 1) ∨ (o.adhere = 1 ∧ o.arity = 2) ∨
          (o.adhere = 1 ∧ o.arity = 1) := by cases o <;> decide
      rw [combine_succ] at h
      split at h
      · rename_i hlt
        split at h
        · cases h
        · rename_i r f1 hp
          have h1 := popExp_phi hp
          split at h
          · rename_i h0
            cases h
            rw [settle_phi, h1]
            omega
          · rename_i h0
            have := combineLeftWith_phi ih.1 ih.2 h
            omega
      · rename_i hlt
        have := combineLeftWith_phi ih.1 ih.2 h
        omega
    · intro o right f e g h
      rw [parentLoop] at h
      split at h
      · cases h
      · rename_i t ops hf
        split at h
        · cases h
        · rename_i l f1 hcmb
          have h1 := ih.1 _ _ _ _ hcmb
          have h2 : phi { f with ops := ops } = phi f + (t.arity - 1) := by
            simp only [phi, hf, need]
            omega
          split at h
          · cases h
          · split at h
            · have := finish_phi h
              omega
            · split at h
              · cases h
              · rename_i f2 hpush
                have h3 := pushExp_phi hpush
                have h4 := ih.2 _ _ _ _ _ h
                omega

theorem flushN_phi (n P : Nat) (f g : Frame) (h : flushN n P f = .ok g) : phi g = phi f := by
  induction n generalizing f with
  | zero =>
    rw [flushN.eq_def] at h
    dsimp only at h
    split at h
    · cases h; rfl
    · split at h
      · cases h
      · cases h; rfl
  | succ n ih =>
    rw [flushN.eq_def] at h
    dsimp only at h
    split at h
    · cases h; rfl
    · rename_i t ops hf
      split at h
      · split at h
        · cases h
        · rename_i e f1 hc
          have h1 := (combine_phi _).1 _ _ _ _ hc
          have h2 : phi { f with ops := ops } = phi f + (t.arity - 1) := by
            simp only [phi, hf, need]
            omega
          split at h
          · cases h
          · rename_i f2 hpush
            have h3 := pushExp_phi hpush
            have h4 := ih _ h
            omega
      · cases h; rfl

theorem pushOp_phi {f g : Frame} {o : Op} (h : pushOp f o = .ok g) :
    phi g = phi f - ((o.arity : Int) - 1) := by
  unfold pushOp at h
  split at h
  · cases h
  · split at h
    · cases h
    · split at h
      · cases h
      · split at h
        · cases h
        · rename_i f1 hfl
          have := flushN_phi _ _ _ _ hfl
          cases h
          simp only [phi, need] at this ⊢
          omega

theorem flushN_lowest (n : Nat) (f g : Frame) (h : flushN n lowestPri f = .ok g) : g.ops = [] := by
  induction n generalizing f with
  | zero =>
    rw [flushN.eq_def] at h
    dsimp only at h
    split at h
    · cases h; assumption
    · rename_i t ops hf
      rw [if_pos (pri_lt_lowest t)] at h
      cases h
  | succ n ih =>
    rw [flushN.eq_def] at h
    dsimp only at h
    split at h
    · cases h; assumption
    · rename_i t ops hf
      rw [if_pos (pri_lt_lowest t)] at h
      split at h
      · cases h
      · split at h
        · cases h
        · exact ih _ h

theorem combineAll_phi {f : Frame} {e : Exp} (h : combineAll f = .ok e) : 1 ≤ phi f := by
  unfold combineAll at h
  split at h
  · cases h
  · rename_i g hg
    split at h
    · cases h
    · rename_i e' g' hp
      have h1 := flushN_phi _ _ _ _ hg
      have h2 := flushN_lowest _ _ _ hg
      have h3 := popExp_phi hp
      have h4 := popExp_ops hp
      rw [h2] at h4
      simp only [phi, h4, h2, need] at h1 h3 ⊢
      omega

/-- The balance of the suspended stacks. -/
def phiOuter : List (Frame × Option Box) → Int
  | [] => 0
  | (f, _) :: rest => phi f + phiOuter rest

/-- What an element adds to the balance of operands and operators. -/
def weight : Elem → Int
  | .leaf _ => 1
  | .op o => 1 - (o.arity : Int)
  | _ => 0

/-- The sum over a sequence. -/
def weights (xs : List Elem) : Int := (xs.map weight).sum

theorem run_phi (xs : List Elem) (f : Frame) (stop : Option Box)
    (outer : List (Frame × Option Box)) (hso : stop = none → outer = [])
    (e : Exp) (h : run xs f stop outer = .ok e)
    (hw : ∀ k, outer.drop k ≠ [] → ∀ x, (outer.drop k).head? = some x → x.2 = none →
      outer.drop (k + 1) = []) :
    1 ≤ phi f + weights xs + phiOuter outer := by
  induction xs generalizing f stop outer with
  | nil =>
    rw [run.eq_def] at h
    dsimp only at h
    split at h
    · have := combineAll_phi h
      rw [hso rfl]
      simp only [weights, phiOuter, List.map_nil, List.sum_nil]
      omega
    · cases h
  | cons x xs ih =>
    rw [run.eq_def] at h
    dsimp only at h
    have hcons : weights (x :: xs) = weight x + weights xs := by simp [weights]
    split at h
    · split at h
      · cases h
      · rename_i n f1 hp
        have := ih f1 stop outer hso h hw
        have h1 := pushExp_phi hp
        rw [hcons]
        simp only [weight]
        omega
    · split at h
      · cases h
      · rename_i o f1 hp
        have := ih f1 stop outer hso h hw
        have h1 := pushOp_phi hp
        rw [hcons]
        simp only [weight]
        omega
    · rename_i b
      have := ih {} (some b) ((f, stop) :: outer) (by simp) h (by
        intro k hk y hy hy2
        cases k with
        | zero =>
          simp only [List.drop_zero, List.head?_cons, Option.some.injEq] at hy
          subst hy
          simpa using hso hy2
        | succ k => exact hw k hk y hy hy2)
      rw [hcons]
      simp only [weight, phiOuter] at this ⊢
      simp only [phi, need, List.length_nil] at this ⊢
      omega
    · rename_i b
      split at h
      · split at h
        · cases h
        · rename_i e1 hall
          have h0 := combineAll_phi hall
          split at h
          · cases h
          · rename_i f' stop' outer'
            split at h
            · cases h
            · rename_i f2 hp
              have h1 := pushExp_phi hp
              have := ih f2 stop' outer' (by
                intro hn
                have := hw 0 (by simp) (f', stop') rfl hn
                simpa using this) h (by
                intro k hk y hy hy2
                exact hw (k + 1) hk y hy hy2)
              rw [hcons]
              simp only [weight, phiOuter] at this ⊢
              omega
      · cases h
    · have := ih f stop outer hso h hw
      rw [hcons]
      simp only [weight]
      omega

/-! ### Boxes -/

/-- The closing boxes a state waits for. -/
def waiting (stop : Option Box) (outer : List (Frame × Option Box)) : List (Option Box) :=
  stop :: outer.map (·.2)

theorem run_closes (xs : List Elem) (f : Frame) (stop : Option Box)
    (outer : List (Frame × Option Box)) (e : Exp) (h : run xs f stop outer = .ok e)
    (hso : stop = none → outer = [])
    (hw : ∀ k, outer.drop k ≠ [] → ∀ x, (outer.drop k).head? = some x → x.2 = none →
      outer.drop (k + 1) = []) :
    closes xs (waiting stop outer) := by
  induction xs generalizing f stop outer with
  | nil =>
    rw [run.eq_def] at h
    dsimp only at h
    split at h
    · rw [hso rfl]; rfl
    · cases h
  | cons x xs ih =>
    rw [run.eq_def] at h
    dsimp only at h
    split at h
    · split at h
      · cases h
      · exact ih _ _ _ h hso hw
    · split at h
      · cases h
      · exact ih _ _ _ h hso hw
    · rename_i b
      have := ih {} (some b) ((f, stop) :: outer) h (by simp) (by
        intro k hk y hy hy2
        cases k with
        | zero =>
          simp only [List.drop_zero, List.head?_cons, Option.some.injEq] at hy
          subst hy
          simpa using hso hy2
        | succ k => exact hw k hk y hy hy2)
      exact this
    · rename_i b
      split at h
      · rename_i hb
        split at h
        · cases h
        · split at h
          · cases h
          · rename_i f' stop' outer'
            split at h
            · cases h
            · rename_i f2 hp
              refine ⟨waiting stop' outer', by rw [hb]; rfl, ?_⟩
              exact ih f2 stop' outer' h (by
                intro hn
                have := hw 0 (by simp) (f', stop') rfl hn
                simpa using this) (by
                intro k hk y hy hy2
                exact hw (k + 1) hk y hy hy2)
      · cases h
    · exact ih _ _ _ h hso hw

end Verif.Parse
