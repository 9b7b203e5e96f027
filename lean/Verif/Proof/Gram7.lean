/-
  More fuel does not change a graph, and checks that can be computed.
-/
import Verif.Proof.Gram6

namespace Verif.Gram.Proof

open Verif.Gram Verif.Gram.Spec

variable {T : List Node}

theorem joinAll_mono {f f' : Nat → St → Except Err St}
    (h : ∀ u st st', f u st = .ok st' → f' u st = .ok st') (self : Option Nat) :
    ∀ (us : List Nat) (st st' : St), joinAll f self us st = .ok st' →
      joinAll f' self us st = .ok st'
  | [], st, st', hs => by simpa [joinAll] using hs
  | u :: us, st, st', hs => by
    rw [joinAll] at hs ⊢
    by_cases hu : self = some u
    · rw [if_pos hu] at hs ⊢
      exact joinAll_mono h self us st st' hs
    · rw [if_neg hu] at hs ⊢
      cases hj : f u st with
      | error x => rw [hj] at hs; simp at hs
      | ok st1 =>
        rw [hj] at hs
        rw [h u st st1 hj]
        exact joinAll_mono h self us st1 st' hs

theorem joinEnter_mono {go go' : Nat → St → Except Err St}
    (h : ∀ u st st', go u st = .ok st' → go' u st = .ok st') (pre u : Nat) (st st' : St)
    (hs : joinEnter T go pre u st = .ok st') : joinEnter T go' pre u st = .ok st' := by
  unfold joinEnter at hs ⊢
  cases hl : (nodeAt T u).label with
  | tok t => rw [hl] at hs; exact hs
  | ref r => rw [hl] at hs; exact hs
  | group => rw [hl] at hs; exact joinAll_mono h none _ _ _ hs
  | stop own =>
    rw [hl] at hs
    simp only at hs ⊢
    by_cases hi : (nodeAt T own).inner = true
    · rw [if_pos hi] at hs ⊢
      cases hj : joinAll go (some own) (st.nodes own) st with
      | error x => rw [hj] at hs; simp at hs
      | ok st1 =>
        rw [hj] at hs
        rw [joinAll_mono h _ _ _ _ hj]
        simp only at hs ⊢
        by_cases hp : (nodeAt T own).loop = true
        · rw [if_pos hp] at hs ⊢
          exact joinAll_mono h none _ _ _ hs
        · rw [if_neg hp] at hs ⊢
          exact hs
    · rw [if_neg hi] at hs ⊢
      exact hs

theorem join_succ : ∀ (n pre u : Nat) (st st' : St), join T n pre u st = .ok st' →
    join T (n + 1) pre u st = .ok st'
  | 0, _, _, _, _, h => by simp [join] at h
  | n + 1, pre, u, st, st', h => by
    have ih := fun u st st' => join_succ n pre u st st'
    rw [join] at h ⊢
    cases hj : joinEnter T (join T n pre) pre u st with
    | error x => rw [hj] at h; simp at h
    | ok st1 =>
      rw [hj] at h
      rw [joinEnter_mono ih pre u st st1 hj]
      simp only at h ⊢
      by_cases hp : pre ≠ u ∧ (nodeAt T u).skip = true
      · rw [if_pos hp] at h ⊢
        exact joinAll_mono ih _ _ _ _ h
      · rw [if_neg hp] at h ⊢
        exact h

theorem join_mono {n m : Nat} (hnm : n ≤ m) (pre u : Nat) (st st' : St)
    (h : join T n pre u st = .ok st') : join T m pre u st = .ok st' := by
  induction hnm with
  | refl => exact h
  | step _ ih => exact join_succ _ _ _ _ _ ih

theorem exchangeNode_mono {n m : Nat} (hnm : n ≤ m) (x : Nat) (st st' : St)
    (h : exchangeNode T n x st = .ok st') : exchangeNode T m x st = .ok st' := by
  rw [exchangeNode] at h ⊢
  cases hj : joinAll (join T n x) none (st.nodes x)
      { st with nodes := fun y => if y = x then [] else st.nodes y } with
  | error e => rw [hj] at h; simp at h
  | ok st1 =>
    rw [hj] at h
    rw [joinAll_mono (fun u st st' => join_mono hnm x u st st') _ _ _ _ hj]
    simp only at h ⊢
    by_cases hp : (nodeAt T x).loop = true
    · rw [if_pos hp] at h ⊢
      exact join_mono hnm _ _ _ _ h
    · rw [if_neg hp] at h ⊢
      exact h

theorem drain_mono {n m : Nat} (hnm : n ≤ m) : ∀ (k : Nat) (st st' : St),
    drain T n k st = .ok st' → drain T m k st = .ok st'
  | 0, st, st', h => by simpa [drain] using h
  | k + 1, st, st', h => by
    rw [drain] at h ⊢
    cases hq : st.queue with
    | nil => rw [hq] at h; exact h
    | cons x q =>
      rw [hq] at h
      simp only at h ⊢
      cases he : exchangeNode T n x { st with queue := q } with
      | error e => rw [he] at h; simp at h
      | ok st1 =>
        rw [he] at h
        rw [exchangeNode_mono hnm x _ _ he]
        exact drain_mono hnm k st1 st' h

theorem exchange_mono {n m : Nat} (hnm : n ≤ m) {g : Graph} (h : exchange T n = .ok g) :
    exchange T m = .ok g := by
  rw [exchange] at h ⊢
  cases hj : joinAll (join T n 0) none (nodeAt T 0).subnodes
      ⟨fun y => (nodeAt T y).nodes, [], []⟩ with
  | error e => rw [hj] at h; simp at h
  | ok st1 =>
    rw [hj] at h
    rw [joinAll_mono (fun u st st' => join_mono hnm 0 u st st') _ _ _ _ hj]
    simp only at h ⊢
    cases hd : drain T n T.length st1 with
    | error e => rw [hd] at h; simp at h
    | ok st2 =>
      rw [hd] at h
      rw [drain_mono hnm _ _ _ hd]
      exact h

/-- The graph of a rule is the same, whatever the fuel. -/
theorem exchange_unique {n m : Nat} {g h : Graph} (hn : exchange T n = .ok g)
    (hm : exchange T m = .ok h) : g = h := by
  have h1 := exchange_mono (Nat.le_max_left n m) hn
  have h2 := exchange_mono (Nat.le_max_right n m) hm
  rw [h1] at h2
  cases h2
  rfl

/-! ## Checks -/

def evenb (g : Graph) : Bool :=
  g.nodes.all fun n => g.nodes.all fun m =>
    (g.rename n != g.rename m) || (decide (n ∈ g.start) == decide (m ∈ g.start))

theorem even_of {g : Graph} (h : evenb g = true) : Even g := by
  intro n hn m hm he
  rw [evenb, List.all_eq_true] at h
  have := h n hn
  rw [List.all_eq_true] at this
  have := this m hm
  simp only [he, bne_self_eq_false, Bool.false_or, beq_iff_eq, decide_eq_decide] at this
  exact this

def quietb (g : Graph) : Bool := g.nodes.all fun n => g.rename n = n

theorem quiet_even {g : Graph} (h : quietb g = true) : Even g := by
  intro n hn m hm he
  rw [quietb, List.all_eq_true] at h
  have h1 := h n hn
  have h2 := h m hm
  simp only [decide_eq_true_eq] at h1 h2
  rw [h1, h2] at he
  rw [he]

def steadyb : Nat → Graph → Bool
  | 0, _ => true
  | n + 1, g => quietb g || (evenb g && match g.round with
    | none => true
    | some g' => steadyb n g')

theorem steady_of : ∀ (n : Nat) (g : Graph), steadyb n g = true → Steady n g
  | 0, _, _ => trivial
  | n + 1, g, h => by
    rw [steadyb, Bool.or_eq_true, Bool.and_eq_true] at h
    rw [Steady]
    rcases h with h | ⟨h1, h2⟩
    · refine ⟨quiet_even h, fun g' hg' => ?_⟩
      rw [Graph.round, if_pos (by exact h)] at hg'
      simp at hg'
    · refine ⟨even_of h1, fun g' hg' => ?_⟩
      rw [hg'] at h2
      exact steady_of n g' h2

/-- Whether the graph of the rule can be made, with merging that is steady. -/
def fineb (e : Env) (n : Nat) (a : Alts) : Bool :=
  match exchange (layRule e (revise a)) n with
  | .error _ => false
  | .ok g => steadyb g.nodes.length g

theorem fine_steady {e : Env} {n : Nat} {a : Alts} (h : fineb e n a = true) : SteadyRule e a := by
  intro m g hg
  rw [fineb] at h
  cases hx : exchange (layRule e (revise a)) n with
  | error x => rw [hx] at h; simp at h
  | ok g' =>
    rw [hx] at h
    cases exchange_unique hg hx
    exact steady_of _ _ h

theorem fine_build {e : Env} {n : Nat} {a : Alts} (h : fineb e n a = true) :
    ∃ g, build e n a = .ok g := by
  rw [fineb] at h
  rw [build]
  cases hx : exchange (layRule e (revise a)) n with
  | error x => rw [hx] at h; simp at h
  | ok g' => exact ⟨_, rfl⟩

mutual

def fullItemb : Item → Bool
  | .tok _ _ => true
  | .ref _ _ => true
  | .group a _ => fullAltsb a

def fullSeqb : Seq → Bool
  | .nil => true
  | .cons i s => fullItemb i && fullSeqb s

def fullAltsb : Alts → Bool
  | .nil => true
  | .cons .nil _ => false
  | .cons s a => fullSeqb s && fullAltsb a

end

mutual

theorem fullItem_of : ∀ i : Item, fullItemb i = true → FullItem i
  | .tok _ _, _ => trivial
  | .ref _ _, _ => trivial
  | .group a _, h => by
    rw [fullItemb] at h
    rw [FullItem]
    exact fullAlts_of a h

theorem fullSeq_of : ∀ s : Seq, fullSeqb s = true → FullSeq s
  | .nil, _ => trivial
  | .cons i s, h => by
    rw [fullSeqb, Bool.and_eq_true] at h
    rw [FullSeq]
    exact ⟨fullItem_of i h.1, fullSeq_of s h.2⟩

theorem fullAlts_of : ∀ a : Alts, fullAltsb a = true → FullAlts a
  | .nil, _ => trivial
  | .cons .nil _, h => by simp [fullAltsb] at h
  | .cons (.cons i s) a, h => by
    rw [fullAltsb, Bool.and_eq_true] at h
    · rw [FullAlts]
      exact ⟨by simp, fullSeq_of _ h.1, fullAlts_of a h.2⟩
    · simp

end

end Verif.Gram.Proof
