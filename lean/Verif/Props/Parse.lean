import Verif.Proof.ParseCount

/-!
# C24, C25, C68: operator expressions
-/

namespace Verif.Parse.Props

open Verif.Parse Verif.Parse.Spec

/-! ## C24: grouping -/

/-- Every expression whose tree groups by priority and direction is parsed to exactly that tree,
whatever its size and nesting. -/
theorem grouped_parses_partial (t : Tree) (h : t.Grouped) : parse t.text = .ok t.value :=
  parse_text h

/-- `-a.b * (c + d) - e++ = f = g`: a tree that meets the hypothesis. -/
def sample : Tree :=
  .bin .assign
    (.bin .sub
      (.bin .mul (.pre .minus (.bin .memberPoint (.leaf 0) (.leaf 1)))
        (.box .round (.bin .add (.leaf 2) (.leaf 3))))
      (.post .rightInc (.leaf 4)))
    (.bin .assign (.leaf 5) (.leaf 6))

theorem sample_grouped : sample.Grouped := by
  simp only [sample, Tree.Grouped, okLeft, okRight, Tree.rightEdge, Tree.leftEdge, Tree.leading,
    List.mem_cons, List.not_mem_nil, or_false, forall_eq_or_imp, forall_eq, goesLeft,
    false_implies, implies_true, and_true, true_and, reduceCtorEq]
  decide

example : parse sample.text = .ok (.binary .assign
    (.binary .sub
      (.binary .mul (.unary .minus (.binary .memberPoint (.leaf 0) (.leaf 1)))
        (.binary .add (.leaf 2) (.leaf 3)))
      (.unary .rightInc (.leaf 4)))
    (.binary .assign (.leaf 5) (.leaf 6))) := grouped_parses_partial sample sample_grouped

/-- Every sequence of operands with their own prefix or postfix operators, member accesses,
boxes and binary operators is accepted, and the result is a tree of that very sequence that
groups by priority and direction. -/
theorem sequence_parses_partial (xs : List Elem) (h : IsSeq xs) :
    ∃ t : Tree, t.text = xs ∧ t.Grouped ∧ parse xs = .ok t.value := by
  obtain ⟨t, h1, h2, _⟩ := seq_tree h
  exact ⟨t, h1, h2, by rw [← h1]; exact parse_text h2⟩

example : IsSeq [.op .logicNot, .leaf 0, .op .logicAnd, .left .round, .leaf 1, .op .rightInc,
    .op .lt, .leaf 2, .right .round] :=
  .more [.op .logicNot, .leaf 0] .logicAnd _
    (.one _ (.pre [.logicNot] [.leaf 0] (by decide) (.one _ (.leaf 0)))) (by decide) (by decide)
    (.pre [] _ (by decide) (.one _ (.box .round [.leaf 1, .op .rightInc, .op .lt, .leaf 2]
      (.more [.leaf 1, .op .rightInc] .lt [.leaf 2]
        (.one _ (.post [.leaf 1] [.rightInc] (.one _ (.leaf 1)) (by decide))) (by decide)
        (by decide) (.pre [] [.leaf 2] (by decide) (.one _ (.leaf 2)))))))

/-- The grouping is unique: a sequence has at most one meaning as a grouped tree. -/
theorem grouping_unique (t u : Tree) (ht : t.Grouped) (hu : u.Grouped) (h : t.text = u.text) :
    t.value = u.value := by
  have h1 := parse_text ht
  rw [h, parse_text hu] at h1
  exact (Except.ok.inj h1).symm

example : (Tree.bin .add (.leaf 0) (.bin .mul (.leaf 1) (.leaf 2))).Grouped := by
  simp only [Tree.Grouped, okLeft, okRight, Tree.rightEdge, Tree.leftEdge, Tree.leading,
    List.mem_cons, List.not_mem_nil, or_false, forall_eq, goesLeft,
    false_implies, implies_true, and_true, true_and, reduceCtorEq]
  decide

/-- Between two binary operators the tighter one takes the operand in the middle. -/
theorem tighter_first (p q : Op) (hp : isBinary p = true) (hq : isBinary q = true)
    (hpc : p ≠ .comma) (hqc : q ≠ .comma) (h : level p < level q) (a b c : Nat) :
    parse [.leaf a, .op p, .leaf b, .op q, .leaf c] =
      .ok (.binary q (.binary p (.leaf a) (.leaf b)) (.leaf c)) ∧
    parse [.leaf a, .op q, .leaf b, .op p, .leaf c] =
      .ok (.binary q (.leaf a) (.binary p (.leaf b) (.leaf c))) := by
  refine ⟨?_, ?_⟩
  · have := parse_text (t := .bin q (.bin p (.leaf a) (.leaf b)) (.leaf c)) ⟨hq,
      ⟨hp, trivial, trivial, (by intro x hx; cases hx),
        ⟨(fun x hx => by cases hx), (fun x hx => by cases hx)⟩⟩, trivial,
      (by
        intro x hx
        rw [List.mem_singleton.mp hx]
        exact ⟨.inl h, fun _ => h⟩),
      ⟨(fun x hx => by cases hx), (fun x hx => by cases hx)⟩⟩
    simpa [Tree.text, Tree.value, hpc, hqc] using this
  · have := parse_text (t := .bin q (.leaf a) (.bin p (.leaf b) (.leaf c))) ⟨hq, trivial,
      ⟨hp, trivial, trivial, (by intro x hx; cases hx),
        ⟨(fun x hx => by cases hx), (fun x hx => by cases hx)⟩⟩,
      (by intro x hx; cases hx),
      ⟨by
        intro x hx
        rw [List.mem_singleton.mp hx]
        rintro (h' | h') <;> omega, by intro x hx; cases hx⟩⟩
    simpa [Tree.text, Tree.value, hpc, hqc] using this

example : isBinary .mul = true ∧ isBinary .add = true ∧ level .mul < level .add := by decide

/-- A chain of operators of one level that associate to the left nests to the left. -/
theorem left_chain (k : Nat) (os : List (Op × Nat)) (a : Nat)
    (h : ∀ x ∈ os, isBinary x.1 = true ∧ x.1 ≠ .comma ∧ level x.1 = k ∧ rightAssoc x.1 = false) :
    parse (.leaf a :: os.flatMap fun x => [.op x.1, .leaf x.2]) =
      .ok (os.foldl (fun e x => .binary x.1 e (.leaf x.2)) (.leaf a)) := by
  suffices hs : ∀ os : List (Op × Nat), ∀ t : Tree,
      (∀ x ∈ os, isBinary x.1 = true ∧ x.1 ≠ .comma ∧ level x.1 = k ∧ rightAssoc x.1 = false) →
      t.Grouped → (∀ q ∈ t.rightEdge, level q = k ∧ rightAssoc q = false ∧ isPrefix q = false) →
      parse (t.text ++ os.flatMap fun x => [.op x.1, .leaf x.2]) =
        .ok (os.foldl (fun e x => .binary x.1 e (.leaf x.2)) t.value) from
    hs os (.leaf a) h trivial (by intro q hq; cases hq)
  intro os
  induction os with
  | nil => intro t _ ht _; simpa using parse_text ht
  | cons x os ih =>
    intro t hx ht he
    have h0 := hx x (List.mem_cons_self ..)
    have := ih (.bin x.1 t (.leaf x.2)) (fun y hy => hx y (List.mem_cons_of_mem _ hy))
      ⟨h0.1, ht, trivial, (by
          intro q hq
          have h1 := he q hq
          exact ⟨.inr ⟨by rw [h1.1, h0.2.2.1], h1.2.1⟩, fun h => by rw [h1.2.2] at h; cases h⟩),
        ⟨(fun x hx => by cases hx), (fun x hx => by cases hx)⟩⟩
      (by
        intro q hq
        rw [List.mem_singleton.mp hq]
        exact ⟨h0.2.2.1, h0.2.2.2, (binary_shape h0.1).2.2.2.2.2.1⟩)
    simpa [Tree.text, Tree.value, h0.2.1] using this

example : parse [.leaf 0, .op .sub, .leaf 1, .op .add, .leaf 2] =
    .ok (.binary .add (.binary .sub (.leaf 0) (.leaf 1)) (.leaf 2)) :=
  left_chain 3 [(.sub, 1), (.add, 2)] 0 (by decide)

/-- A chain of operators of one level that associate to the right nests to the right. -/
theorem right_chain (k : Nat) (os : List (Nat × Op)) (a : Nat)
    (h : ∀ x ∈ os, isBinary x.2 = true ∧ level x.2 = k ∧ rightAssoc x.2 = true) :
    parse ((os.flatMap fun x => [.leaf x.1, .op x.2]) ++ [.leaf a]) =
      .ok (os.foldr (fun x e => .binary x.2 (.leaf x.1) e) (.leaf a)) := by
  have hs : ∃ t : Tree, t.Grouped ∧
      t.text = (os.flatMap fun x => [.leaf x.1, .op x.2]) ++ [.leaf a] ∧
      t.value = os.foldr (fun x e => .binary x.2 (.leaf x.1) e) (.leaf a) ∧
      t.leading = none ∧ (∀ q ∈ t.leftEdge, level q = k) := by
    induction os with
    | nil => exact ⟨.leaf a, trivial, rfl, rfl, rfl, by intro q hq; cases hq⟩
    | cons x os ih =>
      obtain ⟨t, h1, h2, h3, h4, h5⟩ := ih (fun y hy => h y (List.mem_cons_of_mem _ hy))
      have h0 := h x (List.mem_cons_self ..)
      have hc : x.2 ≠ .comma := by
        intro hc
        rw [hc] at h0
        exact absurd h0.2.2 (by decide)
      refine ⟨.bin x.2 (.leaf x.1) t, ⟨h0.1, trivial, h1, (by intro q hq; cases hq), ?_, ?_⟩,
        ?_, ?_, rfl, ?_⟩
      · rintro q hq (h' | ⟨_, h'⟩)
        · rw [h5 q hq, h0.2.1] at h'; omega
        · rw [h0.2.2] at h'; cases h'
      · rw [h4]; intro q hq; cases hq
      · simp [Tree.text, h2]
      · simp [Tree.value, hc, h3]
      · intro q hq
        rw [List.mem_singleton.mp hq]
        exact h0.2.1
  obtain ⟨t, h1, h2, h3, _⟩ := hs
  rw [← h2, ← h3]
  exact parse_text h1

example : parse [.leaf 0, .op .assign, .leaf 1, .op .addAssign, .leaf 2] =
    .ok (.binary .assign (.leaf 0) (.binary .addAssign (.leaf 1) (.leaf 2))) :=
  right_chain 14 [(0, .assign), (1, .addAssign)] 2 (by decide)

/-- The machine comes to an end on every sequence: the bounds of the model are never reached. -/
theorem parse_ends (xs : List Elem) : parse xs ≠ .error .fuel := run_no_fuel xs _ _ _

example : parse [.op .add, .leaf 0] = .error .format := by rfl

/-- Comments between the elements of an expression change nothing. -/
theorem comments_ignored (xs : List Elem) : parse (xs.filter (· ≠ .invisible)) = parse xs := by
  have : ∀ xs : List Elem, ∀ f stop outer,
      run (xs.filter (· ≠ .invisible)) f stop outer = run xs f stop outer := by
    intro xs
    induction xs with
    | nil => intros; rfl
    | cons x xs ih =>
      intro f stop outer
      cases x with
      | invisible =>
        rw [List.filter_cons_of_neg (by simp), ih, run.eq_def (.invisible :: xs)]
      | leaf n =>
        rw [List.filter_cons_of_pos (by simp), run.eq_def, run.eq_def (.leaf n :: xs)]
        dsimp only
        split
        · rfl
        · exact ih _ _ _
      | op o =>
        rw [List.filter_cons_of_pos (by simp), run.eq_def, run.eq_def (.op o :: xs)]
        dsimp only
        split
        · rfl
        · exact ih _ _ _
      | left b =>
        rw [List.filter_cons_of_pos (by simp), run.eq_def, run.eq_def (.left b :: xs)]
        exact ih _ _ _
      | right b =>
        rw [List.filter_cons_of_pos (by simp), run.eq_def, run.eq_def (.right b :: xs)]
        dsimp only
        split
        · split
          · rfl
          · split
            · rfl
            · split
              · rfl
              · exact ih _ _ _
        · rfl
  exact this xs _ _ _

example : [Elem.leaf 0, .invisible, .op .add, .leaf 1].filter (· ≠ .invisible) =
    [.leaf 0, .op .add, .leaf 1] := by decide

/-- Prefix and postfix operators have one level and one direction, but one prefix operator goes
inside the postfix operator and of two prefix operators only the inner one does: the result of
the second sequence is not the value of any grouped tree of it. -/
theorem prefix_postfix_refuted :
    parse [.op .minus, .leaf 0, .op .rightInc] = .ok (.unary .rightInc (.unary .minus (.leaf 0))) ∧
    parse [.op .minus, .op .minus, .leaf 0, .op .rightInc] =
      .ok (.unary .minus (.unary .rightInc (.unary .minus (.leaf 0)))) ∧
    ¬ ∃ t : Tree, t.Grouped ∧ t.text = [.op .minus, .op .minus, .leaf 0, .op .rightInc] := by
  refine ⟨by rfl, by rfl, ?_⟩
  rintro ⟨t, hg, ht⟩
  have hne : ∀ t : Tree, t.text ≠ [] := by
    intro t
    cases t <;> simp [Tree.text]
  have h1 : ∀ (t : Tree) o xs, t.Grouped → t.text ++ .op o :: xs = [.leaf 0, .op .rightInc] →
      o = .rightInc ∧ xs = [] := by
    intro t o xs _ h
    match htt : t.text, hne t with
    | [x], _ => rw [htt] at h; simp at h; exact ⟨h.2.1, h.2.2⟩
    | x :: y :: zs, _ => rw [htt] at h; simp at h
  -- a text cannot end in a prefix operator
  have hlast : ∀ t : Tree, t.Grouped → ∀ o, t.text.getLast? = some (.op o) → isPostfix o = true := by
    intro t
    induction t with
    | leaf n => intro _ o h; simp [Tree.text] at h
    | box b t ih => intro _ o h; rw [Tree.text, List.getLast?_concat] at h; cases h
    | pre p t ih =>
      intro hg o h
      rw [Tree.text, List.getLast?_cons] at h
      cases hl : t.text.getLast? with
      | none => exact absurd (List.getLast?_eq_none_iff.mp hl) (hne t)
      | some x => rw [hl] at h; exact ih hg.2.1 o (by rw [hl]; simpa using h)
    | post p t ih =>
      intro hg o h
      rw [Tree.text, List.getLast?_concat] at h
      cases h
      exact hg.1
    | bin p l r _ ih =>
      intro hg o h
      rw [Tree.text, List.getLast?_append, List.getLast?_cons] at h
      cases hl : r.text.getLast? with
      | none => exact absurd (List.getLast?_eq_none_iff.mp hl) (hne r)
      | some x => rw [hl] at h; exact ih hg.2.2.1 o (by rw [hl]; simpa using h)
    | cond a b c _ _ ih =>
      intro hg o h
      rw [Tree.text, List.getLast?_append, List.getLast?_cons, List.getLast?_append,
        List.getLast?_cons] at h
      cases hl : c.text.getLast? with
      | none => exact absurd (List.getLast?_eq_none_iff.mp hl) (hne c)
      | some x => rw [hl] at h; exact ih hg.2.2.1 o (by rw [hl]; simpa using h)
  have hbin : ∀ (l : Tree) (p : Op) (ys : List Elem), l.Grouped → isBinary p = true ∨
      p = .questionMark → l.text ++ .op p :: ys ≠ [.op .minus, .op .minus, .leaf 0, .op .rightInc] := by
    intro l p ys hl hp h
    match htt : l.text, hne l with
    | [x], _ =>
      rw [htt] at h
      simp only [List.cons_append, List.nil_append, List.cons.injEq] at h
      have := hlast l hl .minus (by rw [htt, h.1]; rfl)
      cases this
    | [x, y], _ => rw [htt] at h; simp at h
    | [x, y, z], _ =>
      rw [htt] at h
      simp only [List.cons_append, List.nil_append, List.cons.injEq, Elem.op.injEq] at h
      rcases hp with hp | hp
      · rw [h.2.2.2.1] at hp; cases hp
      · rw [h.2.2.2.1] at hp; cases hp
    | x :: y :: z :: w :: zs, _ => rw [htt] at h; simp at h
  have hparse := parse_text hg
  rw [ht] at hparse
  cases t with
  | leaf n => simp [Tree.text] at ht
  | box b t => simp [Tree.text] at ht
  | bin p l r => exact hbin l p _ hg.2.1 (.inl hg.1) ht
  | cond a b c => exact hbin a _ _ hg.1 (.inr rfl) ht
  | post p t =>
    have hv : parse [.op .minus, .op .minus, .leaf 0, .op .rightInc] =
        .ok (.unary .minus (.unary .rightInc (.unary .minus (.leaf 0)))) := by rfl
    rw [hv] at hparse
    simp only [Tree.value, Except.ok.injEq, Exp.unary.injEq] at hparse
    have := hg.1
    rw [← hparse.1] at this
    cases this
  | pre p t =>
    simp only [Tree.text, List.cons.injEq, Elem.op.injEq] at ht
    obtain ⟨rfl, ht⟩ := ht
    have hg1 := hg.2.1
    have hr := hg.2.2
    cases t with
    | leaf n => simp [Tree.text] at ht
    | box b t => simp [Tree.text] at ht
    | post q t =>
      have hq := hr.1 q (List.mem_cons_self ..)
      have h2 := postfix_level hg1.1
      exact hq (.inr ⟨by rw [h2.1]; decide, by decide⟩)
    | bin q l r =>
      match htt : l.text, hne l with
      | [x], _ =>
        have ht := ht
        rw [Tree.text, htt] at ht
        simp only [List.cons_append, List.nil_append, List.cons.injEq, reduceCtorEq, false_and,
          and_false] at ht
      | [x, y], _ =>
        have ht := ht
        rw [Tree.text, htt] at ht
        simp only [List.cons_append, List.nil_append, List.cons.injEq, Elem.op.injEq] at ht
        have := hg1.1
        rw [ht.2.2.1] at this
        cases this
      | x :: y :: z :: zs, _ =>
        have ht := ht
        rw [Tree.text, htt] at ht
        simp at ht
    | cond a b c =>
      match htt : a.text, hne a with
      | [x], _ => rw [Tree.text, htt] at ht; simp at ht
      | [x, y], _ => rw [Tree.text, htt] at ht; simp at ht
      | x :: y :: z :: zs, _ => rw [Tree.text, htt] at ht; simp at ht
    | pre q t =>
      simp only [Tree.text, List.cons.injEq, Elem.op.injEq] at ht
      obtain ⟨rfl, ht⟩ := ht
      have hg2 := hg1.2.1
      have hr2 := hg1.2.2
      cases t with
      | leaf n => simp [Tree.text] at ht
      | box b t => simp [Tree.text] at ht
      | pre x t => simp [Tree.text] at ht
      | post x t =>
        have hq := hr2.1 x (List.mem_cons_self ..)
        have h2 := postfix_level hg2.1
        exact hq (.inr ⟨by rw [h2.1]; decide, by decide⟩)
      | bin x l r =>
        have := h1 l x _ hg2.2.1 ht
        exact hne r this.2
      | cond a b c =>
        have := h1 a _ _ hg2.1 ht
        cases this.1

/-! ## C25: nothing is lost or reordered -/

/-- Reading the result of a grouped expression from left to right gives back what was parsed
(boxes apart). -/
theorem reading_kept_partial (t : Tree) (h : t.Grouped) :
    ∃ e, parse t.text = .ok e ∧ reading e = unboxed t.text :=
  ⟨t.value, parse_text h, reading_value h⟩

example : reading sample.value = unboxed sample.text :=
  (reading_kept_partial sample sample_grouped).elim fun _ h => by
    rw [grouped_parses_partial sample sample_grouped] at h
    cases h.1
    exact h.2

/-- The same for every sequence of operands and operators. -/
theorem sequence_kept_partial (xs : List Elem) (h : IsSeq xs) :
    ∃ e, parse xs = .ok e ∧ reading e = unboxed xs := by
  obtain ⟨t, h1, h2, h3⟩ := sequence_parses_partial xs h
  exact ⟨t.value, h3, by rw [reading_value h2, h1]⟩

example : IsSeq [.leaf 0, .op .comma, .leaf 1] :=
  .more [.leaf 0] .comma [.leaf 1] (.one _ (.pre [] [.leaf 0] (by decide) (.one _ (.leaf 0))))
    (by decide) (by decide) (.pre [] [.leaf 1] (by decide) (.one _ (.leaf 1)))

/-- Two operands without an operator between them are rejected once there is an operator. -/
theorem missing_operator_rejected (t : Tree) (h : t.Grouped)
    (hop : (∀ n, t ≠ .leaf n) ∧ ∀ b u, t ≠ .box b u) (n : Nat) (rest : List Elem) :
    parse (t.text ++ .leaf n :: rest) = .error .format := by
  obtain ⟨rp, h1, h2⟩ := run_tree t h (.leaf n :: rest) [] [] 0 none [] (by decide)
    (by intro b hb; cases hb) (by intro b hb; cases hb) (by intro b hb; cases hb)
  unfold parse
  refine Eq.trans h2 ?_
  have hne : lo 0 t ≠ [] := by
    cases t with
    | leaf n => exact absurd rfl (hop.1 n)
    | box b u => exact absurd rfl (hop.2 b u)
    | _ => simp [lo]
  rw [run.eq_def]
  simp only [pushExp, List.append_nil, hne, h1, ne_eq, not_false_eq_true, and_self, if_true]

example : parse [.leaf 0, .op .add, .leaf 1, .leaf 2] = .error .format := by rfl

/-- Every accepted sequence has more operands than operators between operands. -/
theorem enough_operands (xs : List Elem) (e : Exp) (h : parse xs = .ok e) :
    xs.countP (fun x => match x with | .op o => !isPrefix o && !isPostfix o | _ => false) <
      xs.countP (fun x => match x with | .leaf _ => true | _ => false) := by
  have h1 := run_phi xs {} none [] (fun _ => rfl) e h (by intro k hk; simp at hk)
  have h2 : ∀ xs : List Elem, weights xs =
      (xs.countP (fun x => match x with | .leaf _ => true | _ => false) : Int) -
      xs.countP (fun x => match x with | .op o => !isPrefix o && !isPostfix o | _ => false) := by
    intro xs
    induction xs with
    | nil => rfl
    | cons x xs ih =>
      have hc : weights (x :: xs) = weight x + weights xs := by simp [weights]
      rw [hc, ih, List.countP_cons, List.countP_cons]
      cases x with
      | op o =>
        have : ((1 : Int) - o.arity) = -(if (!isPrefix o && !isPostfix o) = true then 1 else 0) := by
          cases o <;> decide
        simp only [weight, this]
        split <;> simp <;> omega
      | _ => simp [weight]; try omega
  rw [h2] at h1
  simp only [phi, phiOuter, need, List.length_nil] at h1
  omega

example : parse [.leaf 0, .op .add] = .error .format := by rfl

/-- Every accepted sequence closes its boxes, each with the box of its own kind. -/
theorem boxes_closed (xs : List Elem) (e : Exp) (h : parse xs = .ok e) : closes xs [none] :=
  run_closes xs {} none [] e h (fun _ => rfl) (by intro k hk; simp at hk)

example : ¬ closes [.left .round, .leaf 0, .right .square] [none] := by
  rintro ⟨st, h, _⟩
  cases h

/-- Sequences that are no expressions are accepted and lose or reorder their operands: `a b` is
read as `b`, and `x + a.-b` as `x.a + -b`. -/
theorem reading_kept_refuted :
    parse [.leaf 0, .leaf 1] = .ok (.leaf 1) ∧
    parse [.leaf 0, .op .logicNot, .leaf 1] = .ok (.unary .logicNot (.leaf 1)) ∧
    parse [.leaf 0, .op .add, .leaf 1, .op .memberPoint, .op .minus, .leaf 2] =
      .ok (.binary .add (.binary .memberPoint (.leaf 0) (.leaf 1)) (.unary .minus (.leaf 2))) :=
  ⟨by rfl, by rfl, by rfl⟩

/-! ## C68: the conditional operator -/

/-- A conditional whose parts group properly is parsed as one; the part in the middle may not
be a conditional, `is` or `as` expression or anything looser unless it stands in a box. -/
theorem conditional_parses_partial (a b c : Tree) (h : (Tree.cond a b c).Grouped) :
    parse (a.text ++ .op .questionMark :: (b.text ++ .op .questionColon :: c.text)) =
      .ok (.cond a.value b.value c.value) := parse_text h

example : (Tree.cond (.bin .lt (.leaf 0) (.leaf 1)) (.leaf 2)
    (.cond (.leaf 3) (.bin .add (.leaf 4) (.leaf 5)) (.leaf 6))).Grouped := by
  simp only [Tree.Grouped, okLeft, okRight, Tree.rightEdge, Tree.leftEdge, Tree.leading,
    List.mem_cons, List.not_mem_nil, or_false, forall_eq, goesLeft,
    false_implies, implies_true, and_true, true_and, reduceCtorEq]
  decide

/-- Conditionals in the last part nest to the right, however many there are. -/
theorem conditional_chain (cs : List (Nat × Nat)) (z : Nat) :
    parse ((cs.flatMap fun x => [.leaf x.1, .op .questionMark, .leaf x.2, .op .questionColon]) ++
      [.leaf z]) = .ok (cs.foldr (fun x e => .cond (.leaf x.1) (.leaf x.2) e) (.leaf z)) := by
  have hs : ∃ t : Tree, t.Grouped ∧
      t.text = (cs.flatMap fun x => [.leaf x.1, .op .questionMark, .leaf x.2, .op .questionColon])
        ++ [.leaf z] ∧
      t.value = cs.foldr (fun x e => .cond (.leaf x.1) (.leaf x.2) e) (.leaf z) ∧
      t.leading = none ∧ (∀ q ∈ t.leftEdge, q = .questionMark) := by
    induction cs with
    | nil => exact ⟨.leaf z, trivial, rfl, rfl, rfl, by intro q hq; cases hq⟩
    | cons x cs ih =>
      obtain ⟨t, h1, h2, h3, h4, h5⟩ := ih
      refine ⟨.cond (.leaf x.1) (.leaf x.2) t, ⟨trivial, trivial, h1, (by intro q hq; cases hq),
        ⟨(fun x hx => by cases hx), (fun x hx => by cases hx)⟩, (by intro q hq; cases hq),
        ⟨?_, ?_⟩, (by intro q hq; cases hq)⟩, ?_, ?_, rfl, ?_⟩
      · intro q hq
        rw [h5 q hq]
        unfold goesLeft
        decide
      · rw [h4]; intro q hq; cases hq
      · simp [Tree.text, h2]
      · simp [Tree.value, h3]
      · intro q hq
        exact List.mem_singleton.mp hq
  obtain ⟨t, h1, h2, h3, _⟩ := hs
  rw [← h2, ← h3]
  exact parse_text h1

example : parse [.leaf 0, .op .questionMark, .leaf 1, .op .questionColon,
    .leaf 2, .op .questionMark, .leaf 3, .op .questionColon, .leaf 4] =
    .ok (.cond (.leaf 0) (.leaf 1) (.cond (.leaf 2) (.leaf 3) (.leaf 4))) :=
  conditional_chain [(0, 1), (2, 3)] 4

/-- Legal conditionals the parser cannot build: `a ? b = c : d` and
`a ? b ? c is d : e : f` end in the failed assertion, and `a ? b + c`, which has no colon at all,
is taken for `a ? b : c`. -/
theorem conditional_refuted :
    parse [.leaf 0, .op .questionMark, .leaf 1, .op .assign, .leaf 2, .op .questionColon, .leaf 3] =
      .error .assertion ∧
    parse [.leaf 0, .op .questionMark, .leaf 1, .op .questionMark, .leaf 2, .op .is_, .leaf 3,
      .op .questionColon, .leaf 4, .op .questionColon, .leaf 5] = .error .assertion ∧
    parse [.leaf 0, .op .questionMark, .leaf 1, .op .add, .leaf 2] =
      .ok (.cond (.leaf 0) (.leaf 1) (.leaf 2)) :=
  have key : ∀ r : Res Exp, (match r with | .error .assertion => true | _ => false) = true →
      r = .error .assertion := by
    intro r hr
    split at hr
    · rfl
    · cases hr
  ⟨key _ (by decide +kernel), key _ (by decide +kernel), by rfl⟩

end Verif.Parse.Props
