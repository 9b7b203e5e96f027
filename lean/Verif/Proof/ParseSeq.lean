import Verif.Proof.Parse

/-!
Every sequence of operands and operators has a grouped tree; the bound on the recursion is never
reached; reading an expression from left to right.
-/

namespace Verif.Parse

open Spec

/-! ### The bounds are never reached -/

theorem popExp_fuel (f : Frame) : popExp f ≠ .error .fuel := by
  unfold popExp; split <;> simp

theorem popExp_ops {f g : Frame} {e : Exp} (h : popExp f = .ok (e, g)) : g.ops = f.ops := by
  unfold popExp at h
  split at h
  · cases h
  · cases h; rfl

theorem settle_ops (f : Frame) : (settle f).ops = f.ops := by
  unfold settle; split <;> rfl

theorem pushExp_fuel (f : Frame) (e : Exp) : pushExp f e ≠ .error .fuel := by
  unfold pushExp; split <;> simp

theorem build2_fuel (o : Op) (a b : Exp) : build2 o a b ≠ .error .fuel := by
  unfold build2
  split
  · split <;> simp
  · split <;> simp
  · simp

theorem finish_fuel (o : Op) (l : Exp) (r : Option Exp) (f : Frame) :
    finish o l r f ≠ .error .fuel := by
  unfold finish
  split
  · simp
  · unfold finish2
    split
    · rename_i x h
      intro h'
      cases h'
      exact build2_fuel _ _ _ h
    · simp

theorem finish_ops {o : Op} {l e : Exp} {r : Option Exp} {f g : Frame}
    (h : finish o l r f = .ok (e, g)) : g.ops = f.ops := by
  unfold finish at h
  split at h
  · cases h; exact settle_ops f
  · unfold finish2 at h
    split at h
    · cases h
    · cases h; exact settle_ops f

/-- A result that is not the exhausted bound and leaves no more operators than there were. -/
def Good (k : Nat) (r : Res (Exp × Frame)) : Prop :=
  r ≠ .error .fuel ∧ ∀ e g, r = .ok (e, g) → g.ops.length ≤ k

theorem good_finish {k : Nat} (o : Op) (l : Exp) (r : Option Exp) {f : Frame}
    (h : f.ops.length ≤ k) : Good k (finish o l r f) :=
  ⟨finish_fuel o l r f, fun e g hg => by rw [finish_ops hg]; exact h⟩

theorem good_error {k : Nat} {x : Err} (h : x ≠ .fuel) : Good k (.error x) :=
  ⟨fun h' => h (by cases h'; rfl), fun e g hg => by cases hg⟩

theorem combineLeft_good {n : Nat}
    (hc : ∀ o f, 2 * f.ops.length + 1 ≤ n → Good f.ops.length (combine n o f))
    (hl : ∀ o right f, f.ops ≠ [] → 2 * f.ops.length ≤ n →
      Good f.ops.length (parentLoop n o right f))
    (o : Op) (right : Option Exp) (f : Frame) (hn : 2 * f.ops.length ≤ n) :
    Good f.ops.length (combineLeft n o right f) := by
  have hpop : ∀ k, f.ops.length ≤ k → Good k (match popExp f with
      | .error x => .error x
      | .ok (l, f) => finish o l right f) := by
    intro k hk
    split
    · rename_i x hx
      exact good_error (by rintro rfl; exact popExp_fuel _ hx)
    · rename_i l g hg
      exact good_finish o l right (by rw [popExp_ops hg]; exact hk)
  unfold combineLeft combineLeftWith
  split
  · rename_i hf
    exact hpop _ (Nat.le_refl _)
  · rename_i t ops hf
    rw [hf, List.length_cons] at hn
    split
    · split
      · rename_i x hx
        exact good_error (by rintro rfl; exact popExp_fuel _ hx)
      · rename_i l g hg
        split
        · rename_i x hx
          exact good_error (by rintro rfl; exact finish_fuel _ _ _ _ hx)
        · rename_i e g2 hg2
          split
          · rename_i x hx
            exact good_error (by rintro rfl; exact pushExp_fuel _ _ hx)
          · rename_i g3 hg3
            have := hc t { g3 with ops := ops } (by simp only; omega)
            refine ⟨this.1, fun e' g' h' => Nat.le_trans (this.2 e' g' h') ?_⟩
            simp only [hf, List.length_cons]; omega
    · split
      · exact hl o right f (by rw [hf]; simp) (by rw [hf, List.length_cons]; exact hn)
      · split
        · have hcc := hc t { f with ops := ops } (by simp only; omega)
          split
          · rename_i x hx
            exact good_error (by rintro rfl; exact hcc.1 hx)
          · rename_i l g hg
            have := hcc.2 l g hg
            exact good_finish o l right (by simp only [hf, List.length_cons] at this ⊢; omega)
        · exact hpop _ (Nat.le_refl _)

theorem combine_good (n : Nat) :
    (∀ o f, 2 * f.ops.length + 1 ≤ n → Good f.ops.length (combine n o f)) ∧
    (∀ o right f, f.ops ≠ [] → 2 * f.ops.length ≤ n →
      Good f.ops.length (parentLoop n o right f)) := by
  induction n with
  | zero =>
    refine ⟨fun o f h => by omega, fun o right f hne h => ?_⟩
    have := List.length_pos_iff.mpr hne
    omega
  | succ n ih =>
    refine ⟨?_, ?_⟩
    · intro o f hn
      rw [combine_succ]
      split
      · split
        · rename_i x hx
          exact good_error (by rintro rfl; exact popExp_fuel _ hx)
        · rename_i r g hg
          have hops := popExp_ops hg
          split
          · refine ⟨by simp, fun e g' h' => ?_⟩
            cases h'
            rw [settle_ops, hops]
            exact Nat.le_refl _
          · have := combineLeft_good ih.1 ih.2 o (some r) g (by rw [hops]; omega)
            rw [hops] at this
            exact this
      · exact combineLeft_good ih.1 ih.2 o none f (by omega)
    · intro o right f hne hn
      rw [parentLoop]
      split
      · exact good_error (by simp)
      · rename_i t ops hf
        rw [hf, List.length_cons] at hn
        have hcc := ih.1 t { f with ops := ops } (by simp only; omega)
        split
        · rename_i x hx
          exact good_error (by rintro rfl; exact hcc.1 hx)
        · rename_i l g hg
          have hlen := hcc.2 l g hg
          simp only at hlen
          split
          · exact good_error (by simp)
          · rename_i t' ops' hg'
            split
            · exact good_finish o l right (by rw [hf, List.length_cons]; omega)
            · split
              · rename_i x hx
                exact good_error (by rintro rfl; exact pushExp_fuel _ _ hx)
              · rename_i g3 hg3
                have hops := pushExp_ops hg3
                have := ih.2 o right g3 (by rw [hops, hg']; simp) (by rw [hops]; omega)
                refine ⟨this.1, fun e' g' h' => Nat.le_trans (this.2 e' g' h') ?_⟩
                rw [hops, hf, List.length_cons]; omega

theorem combine_no_fuel {n : Nat} (o : Op) (f : Frame) (hn : 2 * f.ops.length + 1 ≤ n) :
    combine n o f ≠ .error .fuel := ((combine_good n).1 o f hn).1

theorem flushN_no_fuel (n P : Nat) (f : Frame) (hn : f.ops.length ≤ n) :
    flushN n P f ≠ .error .fuel := by
  induction n generalizing f with
  | zero =>
    rw [flushN.eq_def]
    have : f.ops = [] := List.length_eq_zero_iff.mp (by omega)
    simp [this]
  | succ n ih =>
    rw [flushN.eq_def]
    dsimp only
    split
    · simp
    · rename_i t ops hf
      rw [hf, List.length_cons] at hn
      have hcc := (combine_good (2 * ops.length + 1)).1 t { f with ops := ops }
        (by simp only; omega)
      split
      · split
        · rename_i x hx
          rintro h
          cases h
          exact hcc.1 hx
        · rename_i e g hg
          have := hcc.2 e g hg
          simp only at this
          split
          · rename_i x hx
            rintro h
            cases h
            exact pushExp_fuel _ _ hx
          · rename_i g3 hg3
            exact ih g3 (by rw [pushExp_ops hg3]; omega)
      · simp

theorem flush_no_fuel (P : Nat) (f : Frame) : flush P f ≠ .error .fuel :=
  flushN_no_fuel _ _ _ (Nat.le_refl _)

theorem pushOp_no_fuel (f : Frame) (o : Op) : pushOp f o ≠ .error .fuel := by
  unfold pushOp
  split
  · simp
  · split
    · simp
    · split
      · simp
      · split
        · rename_i x hx
          rintro h
          cases h
          exact flush_no_fuel _ _ hx
        · simp

theorem combineAll_no_fuel (f : Frame) : combineAll f ≠ .error .fuel := by
  unfold combineAll
  split
  · rename_i x hx
    rintro h
    cases h
    exact flush_no_fuel _ _ hx
  · split
    · rename_i x hx
      rintro h
      cases h
      exact popExp_fuel _ hx
    · simp

theorem run_no_fuel (xs : List Elem) (f : Frame) (stop : Option Box)
    (outer : List (Frame × Option Box)) : run xs f stop outer ≠ .error .fuel := by
  induction xs generalizing f stop outer with
  | nil =>
    rw [run.eq_def]
    dsimp only
    split
    · exact combineAll_no_fuel f
    · simp
  | cons x xs ih =>
    rw [run.eq_def]
    dsimp only
    split
    · split
      · rename_i x hx
        rintro h; cases h; exact pushExp_fuel _ _ hx
      · exact ih _ _ _
    · split
      · rename_i x hx
        rintro h; cases h; exact pushOp_no_fuel _ _ hx
      · exact ih _ _ _
    · exact ih _ _ _
    · split
      · split
        · rename_i x hx
          rintro h; cases h; exact combineAll_no_fuel _ hx
        · split
          · simp
          · split
            · rename_i x hx
              rintro h; cases h; exact pushExp_fuel _ _ hx
            · exact ih _ _ _
      · simp
    · exact ih _ _ _

/-! ### Trees for sequences -/

theorem level_dot : level .memberPoint = 0 := by decide

theorem dot_assoc : rightAssoc .memberPoint = false := by decide

theorem prefix_level {p : Op} (h : isPrefix p = true) :
    level p = 1 ∧ rightAssoc p = false ∧ isPostfix p = false := by
  revert h; cases p <;> decide

theorem postfix_level {p : Op} (h : isPostfix p = true) :
    level p = 1 ∧ rightAssoc p = false ∧ isPrefix p = false := by
  revert h; cases p <;> decide

theorem binary_level {o : Op} (h : isBinary o = true) (hd : o ≠ .memberPoint) : 2 ≤ level o := by
  revert h hd; cases o <;> decide

theorem binary_not_prefix {o : Op} (h : isBinary o = true) : isPrefix o = false :=
  (binary_shape h).2.2.2.2.2.1

/-- Put an operator and an operand behind a tree. -/
def ins (t : Tree) (o : Op) (u : Tree) : Tree :=
  match t with
  | .bin q l r =>
    if level q < level o ∨ (level q = level o ∧ rightAssoc q = false) then .bin o (.bin q l r) u
    else .bin q l (ins r o u)
  | t => .bin o t u

theorem ins_text (t : Tree) (o : Op) (u : Tree) :
    (ins t o u).text = t.text ++ .op o :: u.text := by
  induction t with
  | bin q l r ihl ihr =>
    rw [ins]
    split
    · rfl
    · simp [Tree.text, ihr]
  | _ => rfl

theorem ins_leading (t : Tree) (o : Op) (u : Tree) : (ins t o u).leading = t.leading := by
  cases t with
  | bin q l r =>
    rw [ins]
    split <;> rfl
  | _ => rfl

theorem ins_leftEdge (t : Tree) (o : Op) (u : Tree) {x : Op} (h : x ∈ (ins t o u).leftEdge) :
    x = o ∨ x ∈ t.leftEdge := by
  cases t with
  | bin q l r =>
    rw [ins] at h
    split at h
    · rcases List.mem_cons.mp h with h | h
      · exact .inl h
      · exact .inr h
    · exact .inr h
  | _ =>
    rcases List.mem_cons.mp h with h | h
    · exact .inl h
    · exact .inr h

/-- A unit: what it looks like at its edges. -/
structure UnitTree (u : Tree) : Prop where
  grouped : u.Grouped
  left : ∀ q ∈ u.leftEdge, level q ≤ 1
  right : ∀ q ∈ u.rightEdge, level q ≤ 1
  leading : ∀ q, u.leading = some q → level q ≤ 1

/-- The operators at the right edge of a grouped tree, in terms of levels. -/
theorem edge_level {t : Tree} {q : Op} (hg : t.Grouped) (h : okRight q t) :
    ∀ x ∈ t.rightEdge, level x ≤ level q ∧
      (rightAssoc q = false → isPrefix x = false → level x < level q) := by
  intro x hx
  have := edge_le hg h x hx
  rw [pri_level, pri_level, rtl_rightAssoc] at this
  exact ⟨by omega, fun h1 h2 => by have := this.2 h1 h2; omega⟩

theorem ins_grouped (t : Tree) (o : Op) (u : Tree) (hg : t.Grouped) (hc : ∀ a b c, t ≠ .cond a b c)
    (hu : UnitTree u)
    (ho : isBinary o = true) (hd : o ≠ .memberPoint)
    (hp : ∀ x ∈ t.rightEdge, x ≠ .questionColon) : (ins t o u).Grouped := by
  have ho2 := binary_level ho hd
  have hur : okRight o u := by
    refine ⟨fun q hq hgl => ?_, fun q hq => by have := hu.leading q hq; omega⟩
    have := hu.left q hq
    rcases hgl with h | h <;> omega
  have hpre : ∀ x, isPrefix x = true → level x < level o := by
    intro x hx
    have := (prefix_level hx).1
    omega
  induction t with
  | leaf n => exact ⟨ho, trivial, hu.grouped, (by intro q hq; cases hq), hur⟩
  | box b t => exact ⟨ho, hg, hu.grouped, (by intro q hq; cases hq), hur⟩
  | cond a b c => exact absurd rfl (hc a b c)
  | post p t ih =>
    refine ⟨ho, hg, hu.grouped, ?_, hur⟩
    intro q hq
    rw [List.mem_singleton.mp hq]
    have := (postfix_level hg.1).1
    exact ⟨.inl (by omega), fun h => hpre p h⟩
  | pre p t ih =>
    refine ⟨ho, hg, hu.grouped, ?_, hur⟩
    have hp1 := (prefix_level hg.1).1
    intro q hq
    rcases List.mem_cons.mp hq with rfl | hq
    · exact ⟨.inl (by omega), fun h => hpre q h⟩
    · have := (edge_level hg.2.1 hg.2.2 q hq).1
      exact ⟨.inl (by omega), fun h => hpre q h⟩
  | bin q l r ihl ihr =>
    rw [ins]
    split
    · rename_i hgl
      refine ⟨ho, hg, hu.grouped, ?_, hur⟩
      intro x hx
      rcases List.mem_cons.mp hx with rfl | hx
      · exact ⟨hgl, fun h => hpre x h⟩
      · have hx2 := edge_level hg.2.2.1 hg.2.2.2.2 x hx
        refine ⟨?_, fun h => hpre x h⟩
        cases hpx : isPrefix x
        · rcases hgl with h | ⟨h, h2⟩
          · exact .inl (by omega)
          · have := hx2.2 h2 hpx
            exact .inl (by omega)
        · exact .inl (hpre x hpx)
    · rename_i hgl
      have hql : level o ≤ level q ∧ (level q = level o → rightAssoc q = true) := by
        rw [not_or] at hgl
        refine ⟨by omega, fun h => ?_⟩
        cases hr : rightAssoc q
        · exact absurd ⟨h, hr⟩ hgl.2
        · rfl
      refine ⟨hg.1, hg.2.1, ?_, hg.2.2.2.1, ?_, ?_⟩
      · apply ihr hg.2.2.1
        · rintro a b c rfl
          exact hp .questionColon (List.mem_cons_of_mem _ (List.mem_cons_self ..)) rfl
        · exact fun x hx => hp x (List.mem_cons_of_mem _ hx)
      · intro x hx
        rcases ins_leftEdge r o u hx with rfl | hx
        · rintro (h | ⟨h, h2⟩)
          · omega
          · rw [hql.2 h] at h2; cases h2
        · exact hg.2.2.2.2.1 x hx
      · rw [ins_leading]
        exact hg.2.2.2.2.2

theorem ins_colon {t u : Tree} {o : Op} (ho : o ≠ .questionColon)
    (ht : ∀ x ∈ t.rightEdge, x ≠ .questionColon) (hu : ∀ x ∈ u.rightEdge, x ≠ .questionColon) :
    ∀ x ∈ (ins t o u).rightEdge, x ≠ .questionColon := by
  induction t with
  | bin q l r ihl ihr =>
    rw [ins]
    split
    · intro x hx
      rcases List.mem_cons.mp hx with rfl | hx
      · exact ho
      · exact hu x hx
    · intro x hx
      rcases List.mem_cons.mp hx with rfl | hx
      · exact ht x (List.mem_cons_self ..)
      · exact ihr (fun x hx => ht x (List.mem_cons_of_mem _ hx)) x hx
  | _ =>
    intro x hx
    rcases List.mem_cons.mp hx with rfl | hx
    · exact ho
    · exact hu x hx

/-- What a sequence has as its tree. -/
def SeqTree (xs : List Elem) : Prop :=
  ∃ t : Tree, t.text = xs ∧ t.Grouped ∧ (∀ x ∈ t.rightEdge, x ≠ .questionColon)

/-- What an atom has as its tree. -/
def AtomTree (xs : List Elem) : Prop :=
  ∃ t : Tree, t.text = xs ∧ t.Grouped ∧ t.leftEdge = [] ∧ t.rightEdge = [] ∧ t.leading = none

/-- What a primary has as its tree. -/
def PrimaryTree (xs : List Elem) : Prop :=
  ∃ t : Tree, t.text = xs ∧ t.Grouped ∧ (∀ q ∈ t.leftEdge, q = .memberPoint) ∧
    (∀ q ∈ t.rightEdge, q = .memberPoint) ∧ t.leading = none

/-- What a unit has as its tree. -/
def UTree (xs : List Elem) : Prop := ∃ u : Tree, u.text = xs ∧ UnitTree u

theorem primary_dot {xs ys : List Elem} (hx : PrimaryTree xs) (hy : AtomTree ys) :
    PrimaryTree (xs ++ .op .memberPoint :: ys) := by
  obtain ⟨t, rfl, h1, h2, h3, h4⟩ := hx
  obtain ⟨a, rfl, g1, g2, g3, g4⟩ := hy
  refine ⟨.bin .memberPoint t a, rfl, ⟨by decide, h1, g1, ?_, ?_, ?_⟩, ?_, ?_, h4⟩
  · intro q hq
    rw [h3 q hq]
    exact ⟨.inr ⟨rfl, by decide⟩, by decide⟩
  · rw [g2]; intro q hq; cases hq
  · rw [g4]; intro q hq; cases hq
  · intro q hq
    rcases List.mem_cons.mp hq with h | h
    · exact h
    · exact h2 q h
  · intro q hq
    rcases List.mem_cons.mp hq with h | h
    · exact h
    · rw [g3] at h; cases h

theorem unit_pre {ps : List Op} {xs : List Elem} (hp : ∀ p ∈ ps, isPrefix p = true)
    (hx : PrimaryTree xs) : UTree (ps.map .op ++ xs) := by
  obtain ⟨t, rfl, h1, h2, h3, h4⟩ := hx
  suffices h : ∃ u : Tree, u.text = ps.map .op ++ t.text ∧ UnitTree u ∧
      (∀ q ∈ u.leftEdge, q = .memberPoint) ∧ (∀ q, u.leading = some q → isPrefix q = true) by
    obtain ⟨u, h5, h6, _⟩ := h
    exact ⟨u, h5, h6⟩
  induction ps with
  | nil =>
    refine ⟨t, rfl, ⟨h1, ?_, ?_, ?_⟩, h2, ?_⟩
    · intro q hq; rw [h2 q hq, level_dot]; omega
    · intro q hq; rw [h3 q hq, level_dot]; omega
    · rw [h4]; intro q hq; cases hq
    · rw [h4]; intro q hq; cases hq
  | cons p ps ih =>
    obtain ⟨u, h5, h6, h7, h8⟩ := ih (fun q hq => hp q (List.mem_cons_of_mem _ hq))
    have hpp := hp p (List.mem_cons_self ..)
    have hp1 := prefix_level hpp
    refine ⟨.pre p u, by simp [Tree.text, h5], ⟨⟨hpp, h6.grouped, ?_, ?_⟩, ?_, ?_, ?_⟩, ?_, ?_⟩
    · intro q hq hgl
      rw [h7 q hq] at hgl
      rcases hgl with h | h <;> rw [level_dot] at h <;> omega
    · intro q hq
      have := h6.leading q hq
      omega
    · intro q hq; cases hq
    · intro q hq
      rcases List.mem_cons.mp hq with rfl | hq
      · omega
      · exact h6.right q hq
    · intro q hq
      cases hq
      omega
    · intro q hq; cases hq
    · intro q hq
      cases hq
      exact hpp

theorem unit_post {ps : List Op} {xs : List Elem} (hp : ∀ p ∈ ps, isPostfix p = true)
    (hx : PrimaryTree xs) : UTree (xs ++ ps.map .op) := by
  obtain ⟨t, rfl, h1, h2, h3, h4⟩ := hx
  suffices h : ∀ ps : List Op, ∀ t : Tree, t.Grouped → (∀ p ∈ ps, isPostfix p = true) →
      (∀ q ∈ t.leftEdge, q = .memberPoint ∨ isPostfix q = true) →
      (∀ q ∈ t.rightEdge, q = .memberPoint ∨ isPostfix q = true) → t.leading = none →
      UTree (t.text ++ ps.map .op) from
    h ps t h1 hp (fun q hq => .inl (h2 q hq)) (fun q hq => .inl (h3 q hq)) h4
  clear h1 h2 h3 h4 hp
  intro ps
  have hlev : ∀ q, (q = .memberPoint ∨ isPostfix q = true) →
      level q ≤ 1 ∧ rightAssoc q = false ∧ isPrefix q = false := by
    rintro q (rfl | h)
    · decide
    · have := postfix_level h
      exact ⟨by omega, this.2.1, this.2.2⟩
  induction ps with
  | nil =>
    intro t h1 _ h2 h3 h4
    refine ⟨t, by simp, ⟨h1, fun q hq => (hlev q (h2 q hq)).1, fun q hq => (hlev q (h3 q hq)).1, ?_⟩⟩
    rw [h4]; intro q hq; cases hq
  | cons p ps ih =>
    intro t h1 hp h2 h3 h4
    have hpp := hp p (List.mem_cons_self ..)
    have hp1 := postfix_level hpp
    have := ih (.post p t) ⟨hpp, h1, ?_⟩ (fun q hq => hp q (List.mem_cons_of_mem _ hq))
      (by
        intro q hq
        rcases List.mem_cons.mp hq with rfl | hq
        · exact .inr hpp
        · exact h2 q hq)
      (by intro q hq; rw [List.mem_singleton.mp hq]; exact .inr hpp) h4
    · simpa [Tree.text] using this
    · intro q hq
      have := hlev q (h3 q hq)
      refine ⟨?_, fun h => by rw [this.2.2] at h; cases h⟩
      by_cases hlt : level q < level p
      · exact .inl hlt
      · exact .inr ⟨by omega, this.2.1⟩

theorem unit_colon {u : Tree} (hu : UnitTree u) : ∀ x ∈ u.rightEdge, x ≠ .questionColon := by
  rintro x hx rfl
  have := hu.right _ hx
  revert this
  decide

/-- Every sequence has a grouped tree. -/
theorem seq_tree {xs : List Elem} (h : IsSeq xs) : SeqTree xs := by
  refine IsSeq.rec (motive_1 := fun xs _ => AtomTree xs) (motive_2 := fun xs _ => PrimaryTree xs)
    (motive_3 := fun xs _ => UTree xs) (motive_4 := fun xs _ => SeqTree xs)
    ?_ ?_ ?_ ?_ ?_ ?_ ?_ ?_ h
  · intro n
    exact ⟨.leaf n, rfl, trivial, rfl, rfl, rfl⟩
  · rintro b xs _ ⟨t, rfl, h1, h2⟩
    exact ⟨.box b t, rfl, h1, rfl, rfl, rfl⟩
  · rintro xs _ ⟨t, h0, h1, h2, h3, h4⟩
    exact ⟨t, h0, h1, (by rw [h2]; intro q hq; cases hq), (by rw [h3]; intro q hq; cases hq), h4⟩
  · intro xs ys _ _ h1 h2
    exact primary_dot h1 h2
  · intro ps xs hp _ h
    exact unit_pre hp h
  · intro xs ps _ hp h
    exact unit_post hp h
  · rintro xs _ ⟨u, h1, h2⟩
    exact ⟨u, h1, h2.grouped, unit_colon h2⟩
  · rintro xs o ys _ ho hd _ ⟨t, rfl, h1, h2⟩ ⟨u, rfl, hu⟩
    refine ⟨ins t o u, ins_text t o u, ?_, ?_⟩
    · apply ins_grouped t o u h1 _ hu ho hd h2
      · rintro a b c rfl
        exact h2 .questionColon (List.mem_cons_self ..) rfl
    · exact ins_colon (binary_shape ho).2.2.2.2.1 h2 (unit_colon hu)

/-! ### Reading from left to right -/

theorem unboxed_append (xs ys : List Elem) : unboxed (xs ++ ys) = unboxed xs ++ unboxed ys :=
  List.filter_append ..

theorem unboxed_op (o : Op) (xs : List Elem) : unboxed (.op o :: xs) = .op o :: unboxed xs := rfl

theorem readingList_snoc (es : List Exp) (hne : es ≠ []) (e : Exp) :
    reading.readingList (es ++ [e]) = reading.readingList es ++ .op .comma :: reading e := by
  induction es with
  | nil => exact absurd rfl hne
  | cons a es ih =>
    cases es with
    | nil => simp [reading.readingList]
    | cons b es =>
      have := ih (by simp)
      simp only [List.cons_append] at this ⊢
      rw [reading.readingList, this, reading.readingList]
      simp

/-- The lists in a value are not empty. -/
def listsOK : Exp → Prop
  | .list es => es ≠ []
  | _ => True

theorem value_listsOK (t : Tree) : listsOK t.value := by
  induction t with
  | leaf n => trivial
  | box b t ih => exact ih
  | pre o t => trivial
  | post o t => trivial
  | cond a b c => trivial
  | bin o l r =>
    rw [Tree.value]
    split
    · split <;> simp [listsOK]
    · trivial

theorem reading_value {t : Tree} (hg : t.Grouped) : reading t.value = unboxed t.text := by
  induction t with
  | leaf n => rfl
  | box b t ih =>
    have hg : t.Grouped := hg
    rw [Tree.value, Tree.text, ih hg, unboxed_append]
    simp [unboxed]
  | pre o t ih =>
    simp [Tree.value, Tree.text, reading, hg.1, ih hg.2.1, unboxed_op]
  | post o t ih =>
    have := (postfix_level hg.1).2.2
    simp only [Tree.value, Tree.text, reading, this, ih hg.2.1, unboxed_append]
    rfl
  | bin o l r ihl ihr =>
    have hl := ihl hg.2.1
    have hr := ihr hg.2.2.1
    rw [Tree.text, unboxed_append, unboxed_op, Tree.value]
    split
    · rename_i hc
      subst hc
      have hok := value_listsOK l
      split
      · rename_i es hes
        rw [hes] at hl hok
        rw [reading, readingList_snoc es hok, ← hl, hr, reading]
      · rw [← hl, ← hr]
        simp [reading, reading.readingList]
    · rw [reading, hl, hr]
  | cond a b c iha ihb ihc =>
    obtain ⟨ha, hbg, hc, -⟩ := hg
    simp only [Tree.text, Tree.value, reading, iha ha, ihb hbg, ihc hc, unboxed_append, unboxed_op]

end Verif.Parse
