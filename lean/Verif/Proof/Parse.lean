import Verif.Model.Parse
import Verif.Spec.Parse

/-!
Lemmas about the operator stack machine: what it holds after reading a grouped tree, and how that
is reduced.
-/

namespace Verif.Parse

open Spec

theorem pri_level (o : Op) : o.pri = level o + 1 := by cases o <;> decide

theorem rtl_rightAssoc (o : Op) : o.rtl = rightAssoc o := by cases o <;> decide

theorem pri_lt_lowest (o : Op) : o.pri < lowestPri := by cases o <;> decide

theorem prefix_shape {o : Op} (h : isPrefix o = true) :
    o.arity = 1 ∧ o.adhere = 0 ∧ o.rtl = false ∧ o.parent = none ∧ o.pri = 2 := by
  revert h; cases o <;> decide

theorem postfix_shape {o : Op} (h : isPostfix o = true) :
    o.arity = 1 ∧ o.adhere = 1 ∧ o.rtl = false ∧ o.parent = none ∧ o.pri = 2 ∧
      isPrefix o = false := by
  revert h; cases o <;> decide

theorem binary_shape {o : Op} (h : isBinary o = true) :
    o.arity = 2 ∧ o.adhere = 1 ∧ o.parent = none ∧ o ≠ .questionMark ∧ o ≠ .questionColon ∧
      isPrefix o = false ∧ o.pri ≠ 2 := by
  revert h; cases o <;> decide

/-- The operators a tree keeps on the stack when everything tighter than `p` is combined. -/
def lo (p : Nat) : Tree → List Op
  | .leaf _ | .box _ _ => []
  | .pre o t => if o.pri < p then [] else lo p t ++ [o]
  | .post o t => if o.pri < p then [] else o :: lo o.pri t
  | .bin o l r => if o.pri < p then [] else lo p r ++ o :: lo o.pri l
  | .cond a _ c => if 13 < p then [] else lo p c ++ .questionColon :: .questionMark :: lo 13 a

/-- The expressions a tree keeps on the stack when everything tighter than `p` is combined. -/
def le (p : Nat) : Tree → List Exp
  | .leaf n => [.leaf n]
  | .box _ t => [t.value]
  | .pre o t => if o.pri < p then [(Tree.pre o t).value] else le p t
  | .post o t => if o.pri < p then [(Tree.post o t).value] else le o.pri t
  | .bin o l r => if o.pri < p then [(Tree.bin o l r).value] else le p r ++ le o.pri l
  | .cond a b c =>
    if 13 < p then [(Tree.cond a b c).value] else le p c ++ b.value :: le 13 a

/-- The operator at the root. -/
def root : Tree → Option Op
  | .leaf _ | .box _ _ => none
  | .pre o _ => some o
  | .post o _ => some o
  | .bin o _ _ => some o
  | .cond _ _ _ => some .questionColon

theorem lz_tight {p : Nat} {t : Tree} (h : ∀ q, root t = some q → q.pri < p) :
    lo p t = [] ∧ le p t = [t.value] := by
  cases t with
  | leaf n => exact ⟨rfl, rfl⟩
  | box b t => exact ⟨rfl, rfl⟩
  | pre o t => have := h o rfl; simp [lo, le, this]
  | post o t => have := h o rfl; simp [lo, le, this]
  | bin o l r => have := h o rfl; simp [lo, le, this]
  | cond a b c => have := h _ rfl; have : 13 < p := this; simp [lo, le, this]

theorem le_ne_nil (p : Nat) (t : Tree) : le p t ≠ [] := by
  induction t generalizing p with
  | leaf n => simp [le]
  | box b t => simp [le]
  | pre o t ih => rw [le]; split <;> simp [ih]
  | post o t ih => rw [le]; split <;> simp [ih]
  | bin o l r ihl ihr => rw [le]; split <;> simp [ihl, ihr]
  | cond a b c iha ihb ihc => rw [le]; split <;> simp

theorem not_goesLeft {o q : Op} (h : ¬ goesLeft o q) :
    q.pri < o.pri ∨ (q.pri = o.pri ∧ o.rtl = true) := by
  rw [pri_level, pri_level, rtl_rightAssoc]
  unfold goesLeft at h
  cases hb : rightAssoc o
  · left
    simp only [hb, and_true, not_or] at h
    omega
  · simp only [hb, Bool.true_eq_false, and_false, or_false] at h
    by_cases he : level q = level o
    · exact .inr ⟨by omega, rfl⟩
    · exact .inl (by omega)

theorem goesLeft_pri {q o : Op} (h : goesLeft q o) :
    q.pri < o.pri ∨ (q.pri = o.pri ∧ q.rtl = false) := by
  rw [pri_level, pri_level, rtl_rightAssoc]
  rcases h with h | ⟨h, h2⟩
  · exact .inl (by omega)
  · exact .inr ⟨by omega, h2⟩

/-- The operators at the right edge are no looser than what stands to the left of the tree. -/
theorem edge_le {t : Tree} {q : Op} (hg : t.Grouped) (h : okRight q t) :
    ∀ x ∈ t.rightEdge, x.pri ≤ q.pri ∧ (q.rtl = false → isPrefix x = false → x.pri < q.pri) := by
  induction t generalizing q with
  | leaf n => intro x hx; cases hx
  | box b t => intro x hx; cases hx
  | pre o t ih =>
    intro x hx
    have hs := prefix_shape hg.1
    have h2 : o.pri ≤ q.pri := by
      have := h.2 o rfl
      rw [pri_level, pri_level]; omega
    rcases List.mem_cons.mp hx with rfl | hx
    · refine ⟨h2, ?_⟩
      intro _ hp
      rw [hg.1] at hp
      cases hp
    · obtain ⟨h3, h4⟩ := ih hg.2.1 hg.2.2 x hx
      refine ⟨Nat.le_trans h3 h2, ?_⟩
      intro _ hp
      exact Nat.lt_of_lt_of_le (h4 hs.2.2.1 hp) h2
  | post o t ih =>
    intro x hx
    rcases List.mem_cons.mp hx with rfl | hx
    · rcases not_goesLeft (h.1 x (List.mem_cons_self ..)) with h1 | ⟨h1, h2⟩
      · exact ⟨Nat.le_of_lt h1, fun _ _ => h1⟩
      · exact ⟨Nat.le_of_eq h1, fun h3 => by rw [h2] at h3; cases h3⟩
    · cases hx
  | bin o l r ihl ihr =>
    intro x hx
    have h0 : o.pri ≤ q.pri ∧ (q.rtl = false → o.pri < q.pri) := by
      rcases not_goesLeft (h.1 o (List.mem_cons_self ..)) with h1 | ⟨h1, h2⟩
      · exact ⟨Nat.le_of_lt h1, fun _ => h1⟩
      · exact ⟨Nat.le_of_eq h1, fun h3 => by rw [h2] at h3; cases h3⟩
    rcases List.mem_cons.mp hx with rfl | hx
    · exact ⟨h0.1, fun h3 _ => h0.2 h3⟩
    · obtain ⟨h3, h4⟩ := ihr hg.2.2.1 hg.2.2.2.2 x hx
      exact ⟨Nat.le_trans h3 h0.1, fun h5 _ => Nat.lt_of_le_of_lt h3 (h0.2 h5)⟩
  | cond a b c iha ihb ihc =>
    intro x hx
    have h0 : 13 ≤ q.pri ∧ (q.rtl = false → 13 < q.pri) := by
      rcases not_goesLeft (h.1 .questionMark (List.mem_cons_self ..)) with h1 | ⟨h1, h2⟩
      · exact ⟨Nat.le_of_lt h1, fun _ => h1⟩
      · exact ⟨Nat.le_of_eq h1, fun h3 => by rw [h2] at h3; cases h3⟩
    rcases List.mem_cons.mp hx with rfl | hx
    · exact ⟨h0.1, fun h3 _ => h0.2 h3⟩
    · obtain ⟨h3, h4⟩ := ihc hg.2.2.1 hg.2.2.2.2.2.2.1 x hx
      have h3 : x.pri ≤ 13 := h3
      exact ⟨Nat.le_trans h3 h0.1, fun h5 _ => Nat.lt_of_le_of_lt h3 (h0.2 h5)⟩

theorem root_rightEdge {t : Tree} {q : Op} (h : root t = some q) : q ∈ t.rightEdge := by
  cases t with
  | leaf n => cases h
  | box b t => cases h
  | pre o t => cases h; exact List.mem_cons_self ..
  | post o t => cases h; exact List.mem_cons_self ..
  | bin o l r => cases h; exact List.mem_cons_self ..
  | cond a b c => cases h; exact List.mem_cons_self ..

/-- What is at the root of the right operand. -/
theorem root_right {t : Tree} {o q : Op} (hg : t.Grouped) (h : okRight o t)
    (hr : root t = some q) :
    q.pri ≤ o.pri ∧ (isPrefix q = true ∨ q.pri < o.pri ∨ o.rtl = true) := by
  obtain ⟨h1, h2⟩ := edge_le hg h q (root_rightEdge hr)
  refine ⟨h1, ?_⟩
  cases hp : isPrefix q
  · cases ho : o.rtl
    · exact .inr (.inl (h2 ho hp))
    · exact .inr (.inr rfl)
  · exact .inl rfl

/-- The placeholder count belongs to the operator on top. -/
def Top (base : List Op) (rp : Int) : Prop := ∀ b, base.head? = some b → rp = rplace b

theorem settle_eq (base : List Op) (exps : List Exp) (rp : Int) :
    ∃ rp', settle ⟨base, exps, rp⟩ = ⟨base, exps, rp'⟩ ∧ Top base rp' := by
  cases base with
  | nil => exact ⟨rp, rfl, by intro b hb; cases hb⟩
  | cons b base => exact ⟨rplace b, rfl, by intro b' hb; cases hb; rfl⟩

theorem finish_bin {o : Op} (ho : isBinary o = true) (l r : Tree) (base : List Op)
    (exps : List Exp) (rp : Int) :
    ∃ rp', finish o l.value (some r.value) ⟨base, exps, rp⟩ =
      .ok ((Tree.bin o l r).value, ⟨base, exps, rp'⟩) ∧ Top base rp' := by
  obtain ⟨rp', h1, h2⟩ := settle_eq base exps rp
  refine ⟨rp', ?_, h2⟩
  have hb := binary_shape ho
  unfold finish finish2
  by_cases hc : o = .comma
  · subst hc
    simp only [build2, Tree.value, if_true, h1]
    cases l.value <;> rfl
  · have : build2 o l.value r.value = .ok (.binary o l.value r.value) := by
      unfold build2
      split
      · exact absurd rfl hb.2.2.2.1
      · exact absurd rfl hc
      · rfl
    simp only [this, h1, Tree.value, hc, if_false]

/-- What the tree may stand on when its left edge is to be left alone. -/
def Free (p : Nat) (base : List Op) : Prop :=
  ∀ b, base.head? = some b → p < b.pri ∨ (p = b.pri ∧ b.rtl = true)

/-- What may stand to the left of an operator of priority `p`. -/
def okP (p : Nat) (t : Tree) : Prop :=
  ∀ q ∈ t.rightEdge, (q.pri < p ∨ (q.pri = p ∧ q.rtl = false)) ∧ (isPrefix q = true → q.pri < p)

theorem okLeft_okP {t : Tree} {o : Op} (h : okLeft t o) : okP o.pri t := by
  intro q hq
  refine ⟨goesLeft_pri (h q hq).1, ?_⟩
  intro hp
  have := (h q hq).2 hp
  rw [pri_level, pri_level]
  omega

/-- Finding the left operand, with the recursive calls filled in. -/
def combineLeft (n : Nat) : Op → Option Exp → Frame → Res (Exp × Frame) :=
  combineLeftWith (combine n) (parentLoop n)

theorem combine_succ (n : Nat) (o : Op) (f : Frame) : combine (n + 1) o f =
    if o.adhere < o.arity then
      match popExp f with
      | .error x => .error x
      | .ok (r, f) =>
        if o.adhere = 0 then .ok (build1 o r, settle f)
        else combineLeft n o (some r) f
    else combineLeft n o none f := by
  rw [combine.eq_def]
  rfl

theorem combineLeft_pop {n : Nat} {o : Op} {right : Option Exp} {base : List Op} {e : Exp}
    {exps : List Exp} {rp : Int} (hp : o.parent = none) (hf : Free o.pri base) :
    combineLeft n o right ⟨base, e :: exps, rp⟩ = finish o e right ⟨base, exps, rp⟩ := by
  unfold combineLeft combineLeftWith
  cases base with
  | nil => rfl
  | cons b base =>
    have h := hf b rfl
    have hc : ¬ (¬ o.pri < b.pri ∧ b.rtl = false) := by
      rintro ⟨h1, h2⟩
      rcases h with h | ⟨h, h3⟩
      · exact h1 h
      · rw [h2] at h3; cases h3
    simp only [hp, reduceCtorEq, if_false, ne_eq, not_true_eq_false, hc]
    rfl

theorem combineLeft_rec {n : Nat} {o t : Op} {right : Option Exp} {ops : List Op}
    {exps : List Exp} {rp : Int} (hp : o.parent = none) (h : t.pri = o.pri)
    (hr : t.rtl = false) :
    combineLeft n o right ⟨t :: ops, exps, rp⟩ =
      match combine n t ⟨ops, exps, rp⟩ with
      | .error x => .error x
      | .ok (l, f) => finish o l right f := by
  unfold combineLeft combineLeftWith
  have hc : (¬ o.pri < t.pri ∧ t.rtl = false) := ⟨by omega, hr⟩
  simp only [hp, reduceCtorEq, if_false, ne_eq, not_true_eq_false, hc]
  rfl

/-- Combining the operator on top of a chain of operators of one priority yields the whole
tree. -/
theorem combine_chain (p : Nat) (t : Tree) (hg : t.Grouped) (hk : okP p t) (q : Op)
    (ops : List Op) (hl : lo p t = q :: ops) (base : List Op) (exps : List Exp)
    (hf : Free p base) :
    (q.pri = p ∧ q.rtl = false) ∧ ∀ n rp, ops.length + 1 ≤ n →
      ∃ rp', combine n q ⟨ops ++ base, le p t ++ exps, rp⟩ = .ok (t.value, ⟨base, exps, rp'⟩) ∧
        Top base rp' := by
  induction t generalizing p q ops base exps with
  | leaf n => simp [lo] at hl
  | box b t => simp [lo] at hl
  | pre o t ih =>
    have := (hk o (List.mem_cons_self ..)).2 hg.1
    simp [lo, this] at hl
  | cond a b c iha ihb ihc =>
    rcases (hk .questionColon (List.mem_cons_self ..)).1 with h | ⟨_, h⟩
    · have h : 13 < p := h
      simp [lo, h] at hl
    · cases h
  | post o t ih =>
    have hs := postfix_shape hg.1
    by_cases hlt : o.pri < p
    · simp [lo, hlt] at hl
    have hop : o.pri = p := by
      rcases (hk o (List.mem_cons_self ..)).1 with h | h
      · exact absurd h hlt
      · exact h.1
    simp only [lo, hlt, if_false, List.cons.injEq] at hl
    obtain ⟨rfl, hl⟩ := hl
    refine ⟨⟨hop, hs.2.2.1⟩, ?_⟩
    intro n rp hn
    obtain ⟨n, rfl⟩ : ∃ m, n = m + 1 := ⟨n - 1, by omega⟩
    have hc : combine (n + 1) o ⟨ops ++ base, le p (.post o t) ++ exps, rp⟩ =
        combineLeft n o none ⟨ops ++ base, le o.pri t ++ exps, rp⟩ := by
      rw [combine_succ]
      simp [hs.1, hs.2.1, le, hlt]
    rw [hc]
    cases ops with
    | nil =>
      have hle : le o.pri t = [t.value] := by
        apply (lz_tight _).2
        intro q hq
        have := okLeft_okP hg.2.2 q (root_rightEdge hq)
        rcases this.1 with h | ⟨h, h2⟩
        · exact h
        · exfalso
          cases t <;> simp only [root, reduceCtorEq, Option.some.injEq] at hq
          all_goals subst hq
          · simp [lo, h] at hl
          · simp [lo, h] at hl
          · simp [lo, h] at hl
          · simp only [lo] at hl
            have h : 13 = o.pri := h
            simp [← h] at hl
      rw [hle, List.nil_append, List.singleton_append,
        combineLeft_pop hs.2.2.2.1 (by rw [hop]; exact hf)]
      obtain ⟨rp', h1, h2⟩ := settle_eq base exps rp
      exact ⟨rp', by simp [finish, build1, h1, Tree.value], h2⟩
    | cons q' ops' =>
      obtain ⟨⟨h1, h2⟩, h3⟩ := ih o.pri hg.2.1 (okLeft_okP hg.2.2) q' ops' hl base exps
        (by rw [hop]; exact hf)
      obtain ⟨rp', h4, h5⟩ := h3 n rp (by simp only [List.length_cons] at hn; omega)
      rw [List.cons_append, combineLeft_rec hs.2.2.2.1 h1 h2, h4]
      obtain ⟨rp'', h6, h7⟩ := settle_eq base exps rp'
      exact ⟨rp'', by simp [finish, build1, h6, Tree.value], h7⟩
  | bin o l r ihl ihr =>
    have hs := binary_shape hg.1
    by_cases hlt : o.pri < p
    · simp [lo, hlt] at hl
    have hop : o.pri = p ∧ o.rtl = false := by
      rcases (hk o (List.mem_cons_self ..)).1 with h | h
      · exact absurd h hlt
      · exact h
    have hr : lo p r = [] ∧ le p r = [r.value] := by
      apply lz_tight
      intro q hq
      have hr := root_right hg.2.2.1 hg.2.2.2.2 hq
      rcases hr.2 with h | h | h
      · exact (hk q (List.mem_cons_of_mem _ (root_rightEdge hq))).2 h
      · rw [← hop.1]; exact h
      · rw [hop.2] at h; cases h
    simp only [lo, hlt, if_false, hr.1, List.nil_append, List.cons.injEq] at hl
    obtain ⟨rfl, hl⟩ := hl
    refine ⟨hop, ?_⟩
    intro n rp hn
    obtain ⟨n, rfl⟩ : ∃ m, n = m + 1 := ⟨n - 1, by omega⟩
    have hc : combine (n + 1) o ⟨ops ++ base, le p (.bin o l r) ++ exps, rp⟩ =
        combineLeft n o (some r.value) ⟨ops ++ base, le o.pri l ++ exps, rp⟩ := by
      rw [combine_succ]
      simp [hs.1, hs.2.1, le, hlt, hr.2, popExp]
    rw [hc]
    cases ops with
    | nil =>
      have hle : le o.pri l = [l.value] := by
        apply (lz_tight _).2
        intro q hq
        have := okLeft_okP hg.2.2.2.1 q (root_rightEdge hq)
        rcases this.1 with h | ⟨h, h2⟩
        · exact h
        · exfalso
          cases l <;> simp only [root, reduceCtorEq, Option.some.injEq] at hq
          all_goals subst hq
          · simp [lo, h] at hl
          · simp [lo, h] at hl
          · simp [lo, h] at hl
          · simp only [lo] at hl
            have h : 13 = o.pri := h
            simp [← h] at hl
      rw [hle, List.nil_append, List.singleton_append,
        combineLeft_pop hs.2.2.1 (by rw [hop.1]; exact hf)]
      exact finish_bin hg.1 l r base exps rp
    | cons q' ops' =>
      obtain ⟨⟨h1, h2⟩, h3⟩ := ihl o.pri hg.2.1 (okLeft_okP hg.2.2.2.1) q' ops' hl base exps
        (by rw [hop.1]; exact hf)
      obtain ⟨rp', h4, h5⟩ := h3 n rp (by simp only [List.length_cons] at hn; omega)
      rw [List.cons_append, combineLeft_rec hs.2.2.1 h1 h2, h4]
      exact finish_bin hg.1 l r base exps rp'

/-- Finding the left operand. -/
theorem combineLeft_chain {o : Op} {right : Option Exp} {t : Tree} (hg : t.Grouped)
    (hk : okP o.pri t) (hp : o.parent = none) {base : List Op} {exps : List Exp}
    (hf : Free o.pri base) {n : Nat} (hn : (lo o.pri t).length ≤ n) (rp : Int) :
    ∃ rp', combineLeft n o right ⟨lo o.pri t ++ base, le o.pri t ++ exps, rp⟩ =
      finish o t.value right ⟨base, exps, rp'⟩ := by
  cases hl : lo o.pri t with
  | nil =>
    have hle : le o.pri t = [t.value] := by
      apply (lz_tight _).2
      intro q hq
      rcases (hk q (root_rightEdge hq)).1 with h | ⟨h, h2⟩
      · exact h
      · exfalso
        cases t <;> simp only [root, reduceCtorEq, Option.some.injEq] at hq
        all_goals subst hq
        · simp [lo, h] at hl
        · simp [lo, h] at hl
        · simp [lo, h] at hl
        · simp only [lo] at hl
          have h : 13 = o.pri := h
          simp [← h] at hl
    rw [hle, List.nil_append, List.singleton_append, combineLeft_pop hp hf]
    exact ⟨rp, rfl⟩
  | cons q ops =>
    obtain ⟨⟨h1, h2⟩, h3⟩ := combine_chain o.pri t hg hk q ops hl base exps hf
    obtain ⟨rp', h4, h5⟩ := h3 n rp (by rw [hl] at hn; simpa using hn)
    rw [List.cons_append, combineLeft_rec hp h1 h2, h4]
    exact ⟨rp', rfl⟩

/-- One round of `flush`. -/
def Step (P : Nat) (f f' : Frame) : Prop :=
  ∃ t ops e g, f.ops = t :: ops ∧ t.pri < P ∧
    combine (2 * ops.length + 1) t { f with ops := ops } = .ok (e, g) ∧
    g.ops.length ≤ ops.length ∧ pushExp g e = .ok f'

/-- Some rounds of `flush`. -/
inductive Steps (P : Nat) : Frame → Frame → Prop where
  | refl (f : Frame) : Steps P f f
  | head {f g h : Frame} : Step P f g → Steps P g h → Steps P f h

theorem Steps.trans {P : Nat} {f g h : Frame} (h1 : Steps P f g) (h2 : Steps P g h) :
    Steps P f h := by
  induction h1 with
  | refl f => exact h2
  | head hs _ ih => exact .head hs (ih h2)

theorem Steps.mono {P Q : Nat} (hPQ : P ≤ Q) {f g : Frame} (h : Steps P f g) : Steps Q f g := by
  induction h with
  | refl f => exact .refl f
  | head hs _ ih =>
    obtain ⟨t, ops, e, g, h1, h2, h3⟩ := hs
    exact .head ⟨t, ops, e, g, h1, by omega, h3⟩ ih

theorem pushExp_ops {f f' : Frame} {e : Exp} (h : pushExp f e = .ok f') : f'.ops = f.ops := by
  unfold pushExp at h
  split at h
  · cases h
  · cases h; rfl

/-- `flush` runs to the end. -/
theorem flushN_of_steps {P : Nat} {f f' : Frame} (h : Steps P f f')
    (hs : ∀ b, f'.ops.head? = some b → ¬ b.pri < P) :
    ∀ n, f.ops.length ≤ n → flushN n P f = .ok f' := by
  induction h with
  | refl f =>
    intro n hn
    obtain ⟨ops, exps, rp⟩ := f
    rw [flushN.eq_def]
    cases ops with
    | nil => rfl
    | cons b ops =>
      have := hs b rfl
      simp only [this, if_false]
  | head hst _ ih =>
    intro n hn
    obtain ⟨t, ops, e, g, h1, h2, h3, h4, h5⟩ := hst
    rw [h1] at hn
    simp only [List.length_cons] at hn
    obtain ⟨n, rfl⟩ : ∃ m, n = m + 1 := ⟨n - 1, by omega⟩
    rw [flushN.eq_def]
    simp only [h1, h2, if_true, h3, h5]
    apply ih hs
    rw [pushExp_ops h5]
    omega

theorem flush_of_steps {P : Nat} {f f' : Frame} (h : Steps P f f')
    (hs : ∀ b, f'.ops.head? = some b → ¬ b.pri < P) : flush P f = .ok f' :=
  flushN_of_steps h hs _ (Nat.le_refl _)

/-- What may lie below: an operator that waits for an operand to its right. -/
def Waits (base : List Op) : Prop := ∀ b, base.head? = some b → rplace b = 1

theorem pushExp_waits {base : List Op} {exps : List Exp} {rp : Int} {e : Exp} (hw : Waits base)
    (ht : Top base rp) : pushExp ⟨base, exps, rp⟩ e = .ok ⟨base, e :: exps, rp - 1⟩ := by
  unfold pushExp
  cases base with
  | nil => simp
  | cons b base =>
    have h1 := hw b rfl
    have h2 := ht b rfl
    have h3 : ¬ (b :: base ≠ [] ∧ rp ≤ 0) := by rintro ⟨_, h⟩; omega
    simp only [h3, if_false]

theorem rplace_binary {o : Op} (h : isBinary o = true) : rplace o = 1 := by
  have := binary_shape h
  simp [rplace, this.1, this.2.1]

theorem rplace_prefix {o : Op} (h : isPrefix o = true) : rplace o = 1 := by
  have := prefix_shape h
  simp [rplace, this.1, this.2.1]

/-- What a tree keeps of one priority is reduced to its value. -/
theorem steps_value (p P : Nat) (hpP : p < P) (t : Tree) (hg : t.Grouped)
    (hr : ∀ q, root t = some q → q.pri ≤ p) (base : List Op) (exps : List Exp) (rp : Int)
    (hw : Waits base)
    (hb : (∃ q, root t = some q ∧ isPrefix q = true) ∨ (∀ q, root t = some q → q.pri < p) ∨
      Free p base) :
    ∃ rp', Steps P ⟨lo p t ++ base, le p t ++ exps, rp⟩ ⟨base, t.value :: exps, rp'⟩ := by
  induction t generalizing base exps rp with
  | leaf n => exact ⟨rp, .refl _⟩
  | box b t => exact ⟨rp, .refl _⟩
  | pre o t ih =>
    by_cases hlt : o.pri < p
    · obtain ⟨h1, h2⟩ := lz_tight (p := p) (t := .pre o t) (by intro q hq; cases hq; exact hlt)
      rw [h1, h2]
      exact ⟨rp, .refl _⟩
    have hop : o.pri = p := by have := hr o rfl; omega
    have hs := prefix_shape hg.1
    have hlo : lo p (.pre o t) = lo p t ++ [o] := by simp [lo, hlt]
    have hle : le p (.pre o t) = le p t := by simp [le, hlt]
    obtain ⟨rp1, h1⟩ := ih hg.2.1
      (by intro q hq; rw [← hop]; exact (root_right hg.2.1 hg.2.2 hq).1)
      (o :: base) exps rp (by intro b hb; cases hb; exact rplace_prefix hg.1)
      (by
        cases hrt : root t with
        | none => exact .inr (.inl (by intro q hq; cases hq))
        | some q =>
          rcases (root_right hg.2.1 hg.2.2 hrt).2 with h | h | h
          · exact .inl ⟨q, rfl, h⟩
          · exact .inr (.inl (by intro q' hq; cases hq; rw [← hop]; exact h))
          · rw [hs.2.2.1] at h; cases h)
    obtain ⟨rp2, h2, h3⟩ := settle_eq base exps rp1
    refine ⟨rp2 - 1, ?_⟩
    rw [hlo, hle, List.append_assoc, List.singleton_append]
    refine h1.trans (.head ?_ (.refl _))
    refine ⟨o, base, (Tree.pre o t).value, ⟨base, exps, rp2⟩, rfl, by omega, ?_,
      Nat.le_refl _, pushExp_waits hw h3⟩
    rw [combine_succ]
    simp [hs.1, hs.2.1, popExp, build1, h2, Tree.value]
  | post o t ih =>
    by_cases hlt : o.pri < p
    · obtain ⟨h1, h2⟩ := lz_tight (p := p) (t := .post o t) (by intro q hq; cases hq; exact hlt)
      rw [h1, h2]
      exact ⟨rp, .refl _⟩
    have hop : o.pri = p := by have := hr o rfl; omega
    have hs := postfix_shape hg.1
    have hfree : Free p base := by
      rcases hb with ⟨q, hq, hq2⟩ | h | h
      · cases hq; rw [hs.2.2.2.2.2] at hq2; cases hq2
      · have := h o rfl; omega
      · exact h
    have hlo : lo p (.post o t) = o :: lo o.pri t := by simp [lo, hlt]
    have hle : le p (.post o t) = le o.pri t := by simp [le, hlt]
    obtain ⟨rp1, h1⟩ := combineLeft_chain (o := o) (right := none) hg.2.1 (okLeft_okP hg.2.2)
      hs.2.2.2.1 (base := base) (exps := exps) (by rw [hop]; exact hfree)
      (n := 2 * (lo o.pri t ++ base).length)
      (by simp only [List.length_append]; omega) rp
    obtain ⟨rp2, h2, h3⟩ := settle_eq base exps rp1
    refine ⟨rp2 - 1, ?_⟩
    rw [hlo, hle]
    refine .head ?_ (.refl _)
    refine ⟨o, lo o.pri t ++ base, (Tree.post o t).value, ⟨base, exps, rp2⟩, rfl, by omega, ?_,
      by simp, pushExp_waits hw h3⟩
    rw [combine_succ]
    simp only [hs.1, hs.2.1, Nat.lt_irrefl, if_false, h1, finish, build1, h2, Tree.value]
  | bin o l r ihl ihr =>
    by_cases hlt : o.pri < p
    · obtain ⟨h1, h2⟩ := lz_tight (p := p) (t := .bin o l r) (by intro q hq; cases hq; exact hlt)
      rw [h1, h2]
      exact ⟨rp, .refl _⟩
    have hop : o.pri = p := by have := hr o rfl; omega
    have hs := binary_shape hg.1
    have hfree : Free p base := by
      rcases hb with ⟨q, hq, hq2⟩ | h | h
      · cases hq; rw [hs.2.2.2.2.2.1] at hq2; cases hq2
      · have := h o rfl; omega
      · exact h
    have hlo : lo p (.bin o l r) = lo p r ++ o :: lo o.pri l := by simp [lo, hlt]
    have hle : le p (.bin o l r) = le p r ++ le o.pri l := by simp [le, hlt]
    obtain ⟨rp0, h0⟩ := ihr hg.2.2.1
      (by intro q hq; rw [← hop]; exact (root_right hg.2.2.1 hg.2.2.2.2 hq).1)
      (o :: lo o.pri l ++ base) (le o.pri l ++ exps) rp
      (by intro b hb; cases hb; exact rplace_binary hg.1)
      (by
        cases hrt : root r with
        | none => exact .inr (.inl (by intro q hq; cases hq))
        | some q =>
          rcases (root_right hg.2.2.1 hg.2.2.2.2 hrt).2 with h | h | h
          · exact .inl ⟨q, rfl, h⟩
          · exact .inr (.inl (by intro q' hq; cases hq; rw [← hop]; exact h))
          · exact .inr (.inr (by intro b hb; cases hb; exact .inr ⟨hop.symm, h⟩)))
    obtain ⟨rp1, h1⟩ := combineLeft_chain (o := o) (right := some r.value) hg.2.1
      (okLeft_okP hg.2.2.2.1) hs.2.2.1 (base := base) (exps := exps) (by rw [hop]; exact hfree)
      (n := 2 * (lo o.pri l ++ base).length)
      (by simp only [List.length_append]; omega) rp0
    obtain ⟨rp2, h2, h3⟩ := finish_bin hg.1 l r base exps rp1
    refine ⟨rp2 - 1, ?_⟩
    rw [hlo, hle, List.append_assoc, List.append_assoc]
    refine h0.trans (.head ?_ (.refl _))
    refine ⟨o, lo o.pri l ++ base, (Tree.bin o l r).value, ⟨base, exps, rp2⟩, rfl, by omega, ?_,
      by simp, pushExp_waits hw h3⟩
    rw [combine_succ]
    simp only [hs.1, hs.2.1, popExp, Nat.one_ne_zero, if_false, h1, h2, Nat.lt_succ_self, if_true]
  | cond a b c iha ihb ihc =>
    by_cases hlt : 13 < p
    · obtain ⟨h1, h2⟩ := lz_tight (p := p) (t := .cond a b c) (by intro q hq; cases hq; exact hlt)
      rw [h1, h2]
      exact ⟨rp, .refl _⟩
    have hop : 13 = p := by have : 13 ≤ p := hr .questionColon rfl; omega
    subst hop
    have hfree : Free 13 base := by
      rcases hb with ⟨q, hq, hq2⟩ | h | h
      · cases hq; cases hq2
      · exact absurd (h .questionColon rfl) (Nat.lt_irrefl 13)
      · exact h
    have hlo : lo 13 (.cond a b c) = lo 13 c ++ .questionColon :: .questionMark :: lo 13 a := rfl
    have hle : le 13 (.cond a b c) = le 13 c ++ b.value :: le 13 a := rfl
    obtain ⟨ha, hbg, hc, ha2, -, -, hc2, -⟩ := hg
    obtain ⟨rp0, h0⟩ := ihc hc
      (by intro q hq; exact (root_right hc hc2 hq).1)
      (.questionColon :: .questionMark :: lo 13 a ++ base) (b.value :: le 13 a ++ exps) rp
      (by intro b hb; cases hb; rfl)
      (.inr (.inr (by intro b hb; cases hb; exact .inr ⟨rfl, rfl⟩)))
    obtain ⟨rp1, h1⟩ := combineLeft_chain (o := .questionMark)
      (right := some (.binary .questionColon b.value c.value)) ha
      (okLeft_okP ha2) rfl (base := base) (exps := exps) hfree
      (n := 2 * (lo 13 a ++ base).length + 1)
      (by simp only [List.length_append]; have : Op.questionMark.pri = 13 := rfl; rw [this]; omega)
      0
    obtain ⟨rp2, h2, h3⟩ := settle_eq base exps rp1
    refine ⟨rp2 - 1, ?_⟩
    rw [hlo, hle, List.append_assoc, List.append_assoc]
    refine h0.trans (.head ?_ (.refl _))
    refine ⟨.questionColon, .questionMark :: lo 13 a ++ base, (Tree.cond a b c).value,
      ⟨base, exps, rp2⟩, rfl, hpP, ?_, by simp only [List.length_append, List.length_cons]; omega,
      pushExp_waits hw h3⟩
    have hlen : 2 * (Op.questionMark :: lo 13 a ++ base).length + 1 =
        (2 * (lo 13 a ++ base).length + 2) + 1 := by
      simp only [List.length_append, List.length_cons]; omega
    rw [hlen, combine_succ]
    have : combine (2 * (lo 13 a ++ base).length + 2) .questionMark
        ⟨lo 13 a ++ base, .binary .questionColon b.value c.value :: (le 13 a ++ exps), 0⟩ =
        .ok ((Tree.cond a b c).value, ⟨base, exps, rp2⟩) := by
      rw [combine_succ, if_pos (by decide : Op.questionMark.adhere < Op.questionMark.arity)]
      simp only [popExp]
      rw [if_neg (by decide : ¬ Op.questionMark.adhere = 0)]
      have h1' := h1
      rw [show Op.questionMark.pri = 13 from rfl] at h1'
      rw [h1']
      simp only [finish, finish2, build2, h2, Tree.value]
    rw [if_pos (by decide : Op.questionColon.adhere < Op.questionColon.arity)]
    simp only [popExp, List.cons_append]
    rw [if_neg (by decide : ¬ Op.questionColon.adhere = 0), combineLeft, combineLeftWith]
    simp only [Op.parent, if_true, popExp, finish, finish2, build2, settle, pushExp]
    rw [if_neg (by simp [rplace, Op.arity, Op.adhere])]
    exact this

/-- Combining everything tighter than `P`. -/
theorem steps_lo (p P : Nat) (hpP : p ≤ P) (t : Tree) (hg : t.Grouped)
    (hr : ∀ q, root t = some q → q.pri ≤ P) (base : List Op) (exps : List Exp) (rp : Int)
    (hw : Waits base) (hb : ∀ b, base.head? = some b → P ≤ b.pri) :
    ∃ rp', Steps P ⟨lo p t ++ base, le p t ++ exps, rp⟩ ⟨lo P t ++ base, le P t ++ exps, rp'⟩ := by
  have hfree : ∀ q : Op, q.pri < P → Free q.pri base := by
    intro q hq b hb'
    have := hb b hb'
    exact .inl (by omega)
  induction t generalizing P p base exps rp with
  | leaf n => exact ⟨rp, .refl _⟩
  | box b t => exact ⟨rp, .refl _⟩
  | pre o t ih =>
    by_cases hlt : o.pri < p
    · have hlt' : o.pri < P := by omega
      simp only [lo, le, hlt, hlt', if_true]
      exact ⟨rp, .refl _⟩
    have hlo : lo p (.pre o t) = lo p t ++ [o] := by simp [lo, hlt]
    have hle : le p (.pre o t) = le p t := by simp [le, hlt]
    have hop := hr o rfl
    obtain ⟨rp1, h1⟩ := ih p o.pri (by omega) hg.2.1
      (fun q hq => (root_right hg.2.1 hg.2.2 hq).1) (o :: base) exps rp
      (by intro b hb; cases hb; exact rplace_prefix hg.1)
      (by intro b hb; cases hb; exact Nat.le_refl _)
      (by intro q hq b hb; cases hb; exact .inl hq)
    have hs1 : Steps P ⟨lo p (.pre o t) ++ base, le p (.pre o t) ++ exps, rp⟩
        ⟨lo o.pri (.pre o t) ++ base, le o.pri (.pre o t) ++ exps, rp1⟩ := by
      rw [hlo, hle]
      simp only [lo, le, Nat.lt_irrefl, if_false, List.append_assoc, List.singleton_append]
      exact h1.mono hop
    by_cases heq : o.pri = P
    · rw [heq] at hs1
      exact ⟨rp1, hs1⟩
    · have hlt' : o.pri < P := by omega
      obtain ⟨rp2, h2⟩ := steps_value o.pri P hlt' (.pre o t) hg
        (by intro q hq; cases hq; exact Nat.le_refl _) base exps rp1 hw (.inl ⟨o, rfl, hg.1⟩)
      refine ⟨rp2, hs1.trans ?_⟩
      have := lz_tight (p := P) (t := .pre o t) (by intro q hq; cases hq; exact hlt')
      rw [this.1, this.2]
      exact h2
  | post o t ih =>
    by_cases hlt : o.pri < p
    · have hlt' : o.pri < P := by omega
      simp only [lo, le, hlt, hlt', if_true]
      exact ⟨rp, .refl _⟩
    have hop := hr o rfl
    have hs1 : Steps P ⟨lo p (.post o t) ++ base, le p (.post o t) ++ exps, rp⟩
        ⟨lo o.pri (.post o t) ++ base, le o.pri (.post o t) ++ exps, rp⟩ := by
      simp only [lo, le, hlt, Nat.lt_irrefl, if_false]
      exact .refl _
    by_cases heq : o.pri = P
    · rw [heq] at hs1
      exact ⟨rp, hs1⟩
    · have hlt' : o.pri < P := by omega
      obtain ⟨rp2, h2⟩ := steps_value o.pri P hlt' (.post o t) hg
        (by intro q hq; cases hq; exact Nat.le_refl _) base exps rp hw
        (.inr (.inr (hfree o hlt')))
      refine ⟨rp2, hs1.trans ?_⟩
      have := lz_tight (p := P) (t := .post o t) (by intro q hq; cases hq; exact hlt')
      rw [this.1, this.2]
      exact h2
  | bin o l r ihl ihr =>
    by_cases hlt : o.pri < p
    · have hlt' : o.pri < P := by omega
      simp only [lo, le, hlt, hlt', if_true]
      exact ⟨rp, .refl _⟩
    have hlo : lo p (.bin o l r) = lo p r ++ o :: lo o.pri l := by simp [lo, hlt]
    have hle : le p (.bin o l r) = le p r ++ le o.pri l := by simp [le, hlt]
    have hop := hr o rfl
    obtain ⟨rp1, h1⟩ := ihr p o.pri (by omega) hg.2.2.1
      (fun q hq => (root_right hg.2.2.1 hg.2.2.2.2 hq).1) (o :: lo o.pri l ++ base)
      (le o.pri l ++ exps) rp
      (by intro b hb; cases hb; exact rplace_binary hg.1)
      (by intro b hb; cases hb; exact Nat.le_refl _)
      (by intro q hq b hb; cases hb; exact .inl hq)
    have hs1 : Steps P ⟨lo p (.bin o l r) ++ base, le p (.bin o l r) ++ exps, rp⟩
        ⟨lo o.pri (.bin o l r) ++ base, le o.pri (.bin o l r) ++ exps, rp1⟩ := by
      rw [hlo, hle]
      simp only [lo, le, Nat.lt_irrefl, if_false, List.append_assoc]
      exact h1.mono hop
    by_cases heq : o.pri = P
    · rw [heq] at hs1
      exact ⟨rp1, hs1⟩
    · have hlt' : o.pri < P := by omega
      obtain ⟨rp2, h2⟩ := steps_value o.pri P hlt' (.bin o l r) hg
        (by intro q hq; cases hq; exact Nat.le_refl _) base exps rp1 hw
        (.inr (.inr (hfree o hlt')))
      refine ⟨rp2, hs1.trans ?_⟩
      have := lz_tight (p := P) (t := .bin o l r) (by intro q hq; cases hq; exact hlt')
      rw [this.1, this.2]
      exact h2
  | cond a b c iha ihb ihc =>
    by_cases hlt : 13 < p
    · have hlt' : 13 < P := by omega
      simp only [lo, le, hlt, hlt', if_true]
      exact ⟨rp, .refl _⟩
    have hop : 13 ≤ P := hr .questionColon rfl
    obtain ⟨ha, hbg, hc, ha2, hb1, hb2, hc2, hb3⟩ := hg
    obtain ⟨rp1, h1⟩ := ihc p 13 (by omega) hc
      (fun q hq => (root_right hc hc2 hq).1) (.questionColon :: .questionMark :: lo 13 a ++ base)
      (b.value :: le 13 a ++ exps) rp
      (by intro b hb; cases hb; rfl)
      (by intro b hb; cases hb; exact Nat.le_refl _)
      (by intro q hq b hb; cases hb; exact .inl hq)
    have hs1 : Steps P ⟨lo p (.cond a b c) ++ base, le p (.cond a b c) ++ exps, rp⟩
        ⟨lo 13 (.cond a b c) ++ base, le 13 (.cond a b c) ++ exps, rp1⟩ := by
      simp only [lo, le, hlt, Nat.lt_irrefl, if_false, List.append_assoc]
      exact h1.mono hop
    by_cases heq : 13 = P
    · rw [heq] at hs1
      exact ⟨rp1, by rw [← heq] at hs1 ⊢; exact hs1⟩
    · have hlt' : 13 < P := by omega
      obtain ⟨rp2, h2⟩ := steps_value 13 P hlt' (.cond a b c)
        ⟨ha, hbg, hc, ha2, hb1, hb2, hc2, hb3⟩
        (by intro q hq; cases hq; exact Nat.le_refl _) base exps rp1 hw
        (.inr (.inr (hfree .questionColon hlt')))
      refine ⟨rp2, hs1.trans ?_⟩
      have := lz_tight (p := P) (t := .cond a b c) (by intro q hq; cases hq; exact hlt')
      rw [this.1, this.2]
      exact h2

/-- Everything a tree keeps has at least the priority it was reduced to. -/
theorem lo_head {p : Nat} {t : Tree} (hg : t.Grouped) : ∀ b ∈ lo p t, p ≤ b.pri := by
  induction t generalizing p with
  | leaf n => intro b hb; cases hb
  | box b t => intro b hb; cases hb
  | pre o t ih =>
    intro b hb
    rw [lo] at hb
    split at hb
    · cases hb
    · rcases List.mem_append.mp hb with hb | hb
      · exact ih hg.2.1 b hb
      · rw [List.mem_singleton.mp hb]; omega
  | post o t ih =>
    intro b hb
    rw [lo] at hb
    split at hb
    · cases hb
    · rcases List.mem_cons.mp hb with rfl | hb
      · omega
      · have := ih hg.2.1 b hb
        omega
  | bin o l r ihl ihr =>
    intro b hb
    rw [lo] at hb
    split at hb
    · cases hb
    · rcases List.mem_append.mp hb with hb | hb
      · exact ihr hg.2.2.1 b hb
      · rcases List.mem_cons.mp hb with rfl | hb
        · omega
        · have := ihl hg.2.1 b hb
          omega
  | cond a b' c iha ihb ihc =>
    intro b hb
    rw [lo] at hb
    split at hb
    · cases hb
    · rcases List.mem_append.mp hb with hb | hb
      · exact ihc hg.2.2.1 b hb
      · rcases List.mem_cons.mp hb with rfl | hb
        · have : Op.questionColon.pri = 13 := rfl
          omega
        · rcases List.mem_cons.mp hb with rfl | hb
          · have : Op.questionMark.pri = 13 := rfl
            omega
          · have := iha hg.1 b hb
            omega

/-- Pushing an operator that takes the tree before it as its operand. -/
theorem pushOp_after {t : Tree} {o : Op} (hg : t.Grouped) (hk : okP o.pri t) {base : List Op}
    {exps : List Exp} {rp : Int} (hrp : rp ≤ 0) (hw : Waits base)
    (hb : ∀ b, base.head? = some b → o.pri ≤ b.pri) (ho : o.adhere = 1) (ho2 : 1 ≤ o.arity) :
    pushOp ⟨lo 0 t ++ base, le 0 t ++ exps, rp⟩ o =
      .ok ⟨o :: (lo o.pri t ++ base), le o.pri t ++ exps, rplace o⟩ := by
  obtain ⟨rp', h⟩ := steps_lo 0 o.pri (Nat.zero_le _) t hg
    (by intro q hq
        rcases (hk q (root_rightEdge hq)).1 with h | h
        · omega
        · omega) base exps rp hw hb
  have hf := flush_of_steps h (by
    intro b hb'
    cases hl : lo o.pri t with
    | nil =>
      rw [hl, List.nil_append] at hb'
      have := hb b hb'
      omega
    | cons q ops =>
      simp only [hl, List.cons_append, List.head?_cons, Option.some.injEq] at hb'
      subst hb'
      have := lo_head hg q (by rw [hl]; exact List.mem_cons_self ..)
      omega)
  unfold pushOp
  rw [hf, if_neg (by omega), if_neg, if_neg]
  · rintro ⟨h1, h2⟩
    have : rp ≤ 0 := hrp
    simp only at h1
    omega
  · have : 0 < (le 0 t).length := List.length_pos_iff.mpr (le_ne_nil 0 t)
    simp only [List.length_append]
    omega

/-- Pushing a prefix operator. -/
theorem pushOp_before {o : Op} (ho : isPrefix o = true) {base : List Op} {exps : List Exp}
    {rp : Int} (hb : ∀ b, base.head? = some b → o.pri ≤ b.pri) :
    pushOp ⟨base, exps, rp⟩ o = .ok ⟨o :: base, exps, 1⟩ := by
  have hs := prefix_shape ho
  have hf := flush_of_steps (.refl (P := o.pri) ⟨base, exps, rp⟩) (by
    intro b hb'
    have := hb b hb'
    omega)
  unfold pushOp
  rw [hf]
  simp [hs.1, hs.2.1, rplace]

/-- At the end everything is combined. -/
theorem combineAll_tree {t : Tree} (hg : t.Grouped) (rp : Int) :
    combineAll ⟨lo 0 t, le 0 t, rp⟩ = .ok t.value := by
  obtain ⟨rp', h⟩ := steps_lo 0 lowestPri (Nat.zero_le _) t hg
    (by intro q hq; exact Nat.le_of_lt (pri_lt_lowest q)) [] [] rp
    (by intro b hb; cases hb) (by intro b hb; cases hb)
  obtain ⟨h1, h2⟩ := lz_tight (p := lowestPri) (t := t) (by intro q _; exact pri_lt_lowest q)
  rw [h1, h2] at h
  simp only [List.append_nil] at h
  have := flush_of_steps h (by intro b hb; cases hb)
  unfold combineAll
  rw [this]
  rfl

/-- Reading the text of a grouped tree. -/
theorem run_tree (t : Tree) (hg : t.Grouped) (rest : List Elem) (base : List Op)
    (exps : List Exp) (rp : Int) (stop : Option Box) (outer : List (Frame × Option Box))
    (hrp : rp ≤ 1) (hw : Waits base) (ht : Top base rp)
    (hb : ∀ b, base.head? = some b → (∀ q ∈ t.leftEdge, q.pri ≤ b.pri) ∧
      (∀ q, t.leading = some q → q.pri ≤ b.pri)) :
    ∃ rp', rp' ≤ 0 ∧ run (t.text ++ rest) ⟨base, exps, rp⟩ stop outer =
      run rest ⟨lo 0 t ++ base, le 0 t ++ exps, rp'⟩ stop outer := by
  induction t generalizing rest base exps rp stop outer with
  | leaf n =>
    refine ⟨rp - 1, by omega, ?_⟩
    simp only [Tree.text, List.singleton_append, run, pushExp_waits hw ht]
    rfl
  | box b t ih =>
    refine ⟨rp - 1, by omega, ?_⟩
    have hg : t.Grouped := hg
    obtain ⟨rp1, h1, h2⟩ := ih hg (.right b :: rest) [] [] 0 (some b)
      ((⟨base, exps, rp⟩, stop) :: outer) (by decide) (by intro b hb; cases hb)
      (by intro b hb; cases hb) (by intro b hb; cases hb)
    simp only [List.append_nil] at h2
    simp only [Tree.text, List.cons_append, List.append_assoc, List.nil_append]
    rw [run.eq_def]
    simp only
    rw [h2, run.eq_def]
    simp only [if_true, combineAll_tree hg, pushExp_waits hw ht]
    rfl
  | pre o t ih =>
    have ho : ∀ b, base.head? = some b → o.pri ≤ b.pri := fun b hb' => (hb b hb').2 o rfl
    obtain ⟨rp1, h1, h2⟩ := ih hg.2.1 rest (o :: base) exps 1 stop outer (by decide)
      (by intro b hb; cases hb; exact rplace_prefix hg.1)
      (by intro b hb; cases hb; exact (rplace_prefix hg.1).symm)
      (by
        intro b hb'
        cases hb'
        refine ⟨?_, ?_⟩
        · intro q hq
          rcases not_goesLeft (hg.2.2.1 q hq) with h | h <;> omega
        · intro q hq
          have := hg.2.2.2 q hq
          rw [pri_level, pri_level]; omega)
    refine ⟨rp1, h1, ?_⟩
    simp only [Tree.text, List.cons_append]
    rw [run.eq_def]
    simp only [pushOp_before hg.1 ho]
    rw [h2]
    simp only [lo, le, Nat.not_lt_zero, if_false, List.append_assoc, List.singleton_append]
  | post o t ih =>
    have hs := postfix_shape hg.1
    obtain ⟨rp1, h1, h2⟩ := ih hg.2.1 (.op o :: rest) base exps rp stop outer hrp hw ht
      (by
        intro b hb'
        exact ⟨fun q hq => (hb b hb').1 q (List.mem_cons_of_mem _ hq), (hb b hb').2⟩)
    refine ⟨rplace o, by simp [rplace, hs.1, hs.2.1], ?_⟩
    simp only [Tree.text, List.append_assoc, List.singleton_append]
    rw [h2, run.eq_def]
    simp only
    rw [pushOp_after hg.2.1 (okLeft_okP hg.2.2) h1 hw
      (fun b hb' => (hb b hb').1 o (List.mem_cons_self ..)) hs.2.1 (by omega)]
    simp only [lo, le, Nat.not_lt_zero, if_false, List.cons_append]
  | bin o l r ihl ihr =>
    have hs := binary_shape hg.1
    obtain ⟨rp1, h1, h2⟩ := ihl hg.2.1 (.op o :: (r.text ++ rest)) base exps rp stop outer hrp hw ht
      (by
        intro b hb'
        exact ⟨fun q hq => (hb b hb').1 q (List.mem_cons_of_mem _ hq), (hb b hb').2⟩)
    obtain ⟨rp2, h3, h4⟩ := ihr hg.2.2.1 rest (o :: (lo o.pri l ++ base)) (le o.pri l ++ exps)
      (rplace o) stop outer (by rw [rplace_binary hg.1]; decide)
      (by intro b hb; cases hb; exact rplace_binary hg.1)
      (by intro b hb; cases hb; rfl)
      (by
        intro b hb'
        cases hb'
        refine ⟨?_, ?_⟩
        · intro q hq
          rcases not_goesLeft (hg.2.2.2.2.1 q hq) with h | h <;> omega
        · intro q hq
          have := hg.2.2.2.2.2 q hq
          rw [pri_level, pri_level]; omega)
    refine ⟨rp2, h3, ?_⟩
    simp only [Tree.text, List.append_assoc, List.cons_append]
    rw [h2, run.eq_def]
    simp only
    rw [pushOp_after hg.2.1 (okLeft_okP hg.2.2.2.1) h1 hw
      (fun b hb' => (hb b hb').1 o (List.mem_cons_self ..)) hs.2.1 (by omega)]
    simp only [h4]
    simp only [lo, le, Nat.not_lt_zero, if_false, List.append_assoc, List.cons_append]
  | cond a b c iha ihb ihc =>
    obtain ⟨ha, hbg, hc, ha2, hb1, hb2, hc2, hb3⟩ := hg
    obtain ⟨rp1, h1, h2⟩ := iha ha
      (.op .questionMark :: (b.text ++ .op .questionColon :: (c.text ++ rest)))
      base exps rp stop outer hrp hw ht
      (by
        intro b hb'
        exact ⟨fun q hq => (hb b hb').1 q (List.mem_cons_of_mem _ hq), (hb b hb').2⟩)
    obtain ⟨rp2, h3, h4⟩ := ihb hbg (.op .questionColon :: (c.text ++ rest))
      (.questionMark :: (lo 13 a ++ base)) (le 13 a ++ exps) 1 stop outer (by decide)
      (by intro b hb; cases hb; rfl)
      (by intro b hb; cases hb; rfl)
      (by
        intro b hb'
        cases hb'
        refine ⟨?_, ?_⟩
        · intro q hq
          rcases not_goesLeft (hb1.1 q hq) with h | h <;> omega
        · intro q hq
          have := hb1.2 q hq
          rw [pri_level, pri_level]; omega)
    obtain ⟨rp3, h5, h6⟩ := ihc hc rest
      (.questionColon :: .questionMark :: (lo 13 a ++ base)) (b.value :: (le 13 a ++ exps)) 1
      stop outer (by decide)
      (by intro b hb; cases hb; rfl)
      (by intro b hb; cases hb; rfl)
      (by
        intro b hb'
        cases hb'
        refine ⟨?_, ?_⟩
        · intro q hq
          rcases not_goesLeft (hc2.1 q hq) with h | h <;> omega
        · intro q hq
          have := hc2.2 q hq
          rw [pri_level, pri_level]; omega)
    obtain ⟨hlob, hleb⟩ := lz_tight (p := 13) (t := b) (by
      intro q hq
      cases b with
      | leaf n => cases hq
      | box _ _ => cases hq
      | pre o t => cases hq; rw [(prefix_shape hbg.1).2.2.2.2]; decide
      | post o t =>
        rw [← show o = q from Option.some.inj hq]
        have h1 := hb3 o (List.mem_cons_self ..)
        have h2 := pri_level o
        have h3 : level .questionMark = 12 := by decide
        omega
      | bin o l r =>
        rw [← show o = q from Option.some.inj hq]
        have h1 := hb3 o (List.mem_cons_self ..)
        have h2 := pri_level o
        have h3 : level .questionMark = 12 := by decide
        omega
      | cond x y z => exact absurd (hb3 .questionMark (List.mem_cons_self ..)) (Nat.lt_irrefl _))
    refine ⟨rp3, h5, ?_⟩
    simp only [Tree.text, List.append_assoc, List.cons_append]
    rw [h2, run.eq_def]
    simp only
    rw [pushOp_after ha (okLeft_okP ha2) h1 hw
      (fun b hb' => (hb b hb').1 _ (List.mem_cons_self ..)) rfl (by decide)]
    simp only
    refine Eq.trans h4 ?_
    rw [run.eq_def]
    simp only
    rw [pushOp_after hbg (okLeft_okP hb2) h3 (by intro b hb; cases hb; rfl)
      (by intro b hb; cases hb; exact Nat.le_refl _) rfl (by decide)]
    simp only
    rw [show Op.questionColon.pri = 13 from rfl, hlob, hleb]
    refine Eq.trans h6 ?_
    simp only [lo, le, Nat.not_lt_zero, if_false, List.append_assoc, List.cons_append]

/-- Parsing the text of a grouped tree yields its value. -/
theorem parse_text {t : Tree} (hg : t.Grouped) : parse t.text = .ok t.value := by
  obtain ⟨rp, _, h⟩ := run_tree t hg [] [] [] 0 none [] (by decide) (by intro b hb; cases hb)
    (by intro b hb; cases hb) (by intro b hb; cases hb)
  simp only [List.append_nil] at h
  unfold parse
  refine Eq.trans h ?_
  rw [run]
  exact combineAll_tree hg rp

end Verif.Parse
