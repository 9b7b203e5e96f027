import Verif.Proof.Gram7
import Verif.Model.GramCs

/-
  C92: the graphs of a grammar.
-/

namespace Verif.Props.Gram

open Verif.Gram Verif.Gram.Spec Verif.Gram.Proof

/--
  C92, nothing is lost: whatever a rule matches is accepted by the graph that the compiler makes of
  the rule.
-/
theorem sentences_accepted (X : Nat → Lang) (G : Grammar)
    (full : ∀ r a, G r = some a → FullAlts a) (e : Env) (knows : Knows G e)
    (Γ : Nat → Option Graph) (made : Made G e Γ) (r : Nat) (g : Graph) (hg : Γ r = some g)
    (w : List Nat) (hw : Sentence X G r w) : Accepts X Γ g g.start w :=
  accepts_of_sentence full knows made hg hw

/--
  C92, nothing is added, if in every rule the nodes that are merged either all can come first or
  all cannot: whatever the graph of a rule accepts is matched by the rule.  Without this condition
  it is not so (`merging_adds_refuted`).
-/
theorem accepted_sentences_partial (X : Nat → Lang) (G : Grammar)
    (full : ∀ r a, G r = some a → FullAlts a) (e : Env) (knows : Knows G e)
    (Γ : Nat → Option Graph) (made : Made G e Γ)
    (steady : ∀ r a, G r = some a → SteadyRule e a) (r : Nat) (g : Graph) (hg : Γ r = some g)
    (w : List Nat) (hw : Accepts X Γ g g.start w) : Sentence X G r w :=
  sentence_of_accepts full knows made steady hg hw

/-! ## The grammar of the language -/

/-- A table of `envOf Cs.grammar 100`. -/
def env : Env where
  rep r := if r ∈ [23, 39, 52, 66] then .star else if r = 25 then .question else .once
  null r := decide (r ∈ [8, 23, 25, 39, 52, 66, 83])

private theorem size : Cs.rules.length = 84 := by decide +kernel

private theorem outside {r : Nat} (h : ¬ r < 84) : Cs.grammar r = none := by
  rw [Cs.grammar, List.getElem?_eq_none (by rw [size]; omega)]
  rfl

private theorem repsAll : ∀ r < 84, (envOf Cs.grammar 100).rep r = env.rep r := by decide +kernel

private theorem nullsAll : ∀ r < 84, (envOf Cs.grammar 100).null r = env.null r := by
  decide +kernel

theorem env_eq : envOf Cs.grammar 100 = env := by
  have hr : (envOf Cs.grammar 100).rep = env.rep := by
    funext r
    by_cases h : r < 84
    · exact repsAll r h
    · have h1 : (envOf Cs.grammar 100).rep r = .once := by simp only [envOf, outside h]
      rw [h1]
      simp only [env]
      rw [if_neg (by simp; omega), if_neg (by omega)]
  have hn : (envOf Cs.grammar 100).null = env.null := by
    funext r
    by_cases h : r < 84
    · exact nullsAll r h
    · have h1 : (envOf Cs.grammar 100).null r = false := by
        change (askRule Cs.grammar (99 + 1) r []).1 = false
        rw [askRule, outside h]
      rw [h1]
      simp only [env]
      symm
      rw [decide_eq_false_iff_not]
      simp
      omega
  cases h : envOf Cs.grammar 100 with
  | mk a b =>
    rw [h] at hr hn
    simp only at hr hn
    rw [hr, hn]

private def good (r : Nat) : Bool :=
  match Cs.grammar r with
  | none => false
  | some a => fineb env 100 a && fullAltsb a

private theorem goodAll : ∀ r < 84, good r = true := by decide +kernel

private theorem goodRule {r : Nat} {a : Alts} (h : Cs.grammar r = some a) :
    fineb env 100 a = true ∧ FullAlts a := by
  have hr : r < 84 := by
    by_cases hr : r < 84
    · exact hr
    · rw [outside hr] at h; simp at h
  have := goodAll r hr
  rw [good, h] at this
  simp only [Bool.and_eq_true] at this
  exact ⟨this.1, fullAlts_of a this.2⟩

private theorem csMade : Made Cs.grammar env (graphsOf Cs.grammar 100) := by
  intro r
  cases h : Cs.grammar r with
  | none => simp only [graphsOf, h]
  | some a =>
    obtain ⟨g, hg⟩ := fine_build (goodRule h).1
    refine ⟨100, g, hg, ?_⟩
    simp only [graphsOf, h, env_eq, hg]

private theorem csKnows : Knows Cs.grammar env := by
  refine ⟨fun r a h => ?_, fun r h => ?_, fun r => ⟨100, [], .none, ?_⟩⟩
  · rw [← env_eq]; simp only [envOf, h]
  · rw [← env_eq]; simp only [envOf, h]
  · rw [← env_eq]; rfl

/--
  C92, for the grammar that the compiler has: there is a graph for every rule, and it accepts
  exactly what the rule matches, whatever is matched by the two rules that are left to the rest of
  the compiler.
-/
theorem language_graphs (X : Nat → Lang) (r : Nat) (a : Alts) (h : Cs.grammar r = some a) :
    ∃ g, graphsOf Cs.grammar 100 r = some g ∧
      ∀ w, Accepts X (graphsOf Cs.grammar 100) g g.start w ↔ Sentence X Cs.grammar r w := by
  have hm := csMade r
  rw [h] at hm
  obtain ⟨_, g, _, hg⟩ := hm
  exact ⟨g, hg, fun w => ⟨
    sentence_of_accepts (fun _ _ h => (goodRule h).2) csKnows csMade
      (fun _ _ h => fine_steady (goodRule h).1) hg,
    accepts_of_sentence (fun _ _ h => (goodRule h).2) csKnows csMade hg⟩⟩

/-- `{ break; }` is a sentence of the rule for statements in braces, which is 81. -/
private theorem block (X : Nat → Lang) : Sentence X Cs.grammar 81 [16, 127, 4, 17] := by
  refine ⟨3, .inl ⟨[16], [127, 4, 17], rfl, rfl, [127, 4], [17], rfl, ?_, [17], [], rfl, rfl, rfl⟩⟩
  refine Many.one (M := derived X Cs.grammar 2 82) ?_
  have h : derived X Cs.grammar 1 75 [127, 4] :=
    .inl ⟨[127], [4], rfl, rfl, [4], [], rfl, rfl, rfl⟩
  have hs : ∀ a, ofSeq (derived X Cs.grammar 1) (.cons (.ref 75 .once) .nil) [127, 4] ∨ a :=
    fun _ => .inl ⟨[127, 4], [], rfl, h, rfl⟩
  exact .inr (.inr (.inr (.inr (.inr (.inr (.inr (.inr (hs _))))))))

/-- It is accepted. -/
example (X : Nat → Lang) : ∃ g, graphsOf Cs.grammar 100 81 = some g ∧
    Accepts X (graphsOf Cs.grammar 100) g g.start [16, 127, 4, 17] := by
  obtain ⟨g, hg, h⟩ := language_graphs X 81 _ rfl
  exact ⟨g, hg, (h _).mpr (block X)⟩

/-- The hypotheses of `sentences_accepted` and of `accepted_sentences_partial` are met. -/
example (X : Nat → Lang) (r : Nat) (g : Graph) (hg : graphsOf Cs.grammar 100 r = some g)
    (w : List Nat) : Sentence X Cs.grammar r w ↔
      Accepts X (graphsOf Cs.grammar 100) g g.start w :=
  ⟨sentences_accepted X Cs.grammar (fun _ _ h => (goodRule h).2) env csKnows _ csMade r g hg w,
   accepted_sentences_partial X Cs.grammar (fun _ _ h => (goodRule h).2) env csKnows _ csMade
     (fun _ _ h => fine_steady (goodRule h).1) r g hg w⟩

/-! ## Parts -/

/--
  C92, two repetitions, one around the other, are the one that the compiler takes for them.
-/
theorem repetitions_combine (outer inner : Rep) (M : Lang) (w : List Nat) :
    repeated (combine outer inner) M w ↔ repeated outer (repeated inner M) w := by
  rw [repeated_combine]

example (w : List Nat) : repeated (combine .question .plus) (fun w => w = [1]) w ↔
    repeated .star (fun w => w = [1]) w := Iff.rfl

/--
  C92, moving repetitions to the elements of groups does not change what a rule matches.
-/
theorem revision_same (L : Nat → Lang) (a : Alts) (full : FullAlts a) (w : List Nat) :
    ofAlts L (revise a) w ↔ ofAlts L a w := by
  rw [ofAlts_revise L full]

/-- `((A+)?)` becomes `((A*))`. -/
example : revise (.cons (.cons (.group (.cons (.cons (.group (.cons (.cons (.tok 1 .plus) .nil)
      .nil) .question) .nil) .nil) .once) .nil) .nil) =
    .cons (.cons (.group (.cons (.cons (.group (.cons (.cons (.tok 1 .star) .nil)
      .nil) .once) .nil) .nil) .once) .nil) .nil := rfl

/--
  C92, when the compiler takes it that a rule matches nothing, then it does, whatever was asked
  before.
-/
theorem nothing_matched (X : Nat → Lang) (G : Grammar) (c : Cache) (hc : Asked G c) (n r : Nat)
    (h : (askRule G n r c).1 = true) : Sentence X G r [] :=
  (askRule_right n r c (asked_right hc)).2 h

example (X : Nat → Lang) : Sentence X Cs.grammar 66 [] :=
  nothing_matched X Cs.grammar [] .none 100 66 (by decide +kernel)

/-! ## What does not hold -/

private def one (i : Item) : Alts := .cons (.cons i .nil) .nil

/-- A grammar with one rule. -/
private def only (a : Alts) : Grammar := fun r => if r = 0 then some a else none

private theorem onlyKnows (a : Alts) (n : Nat) : Knows (only a) (envOf (only a) n) := by
  refine ⟨fun r a h => ?_, fun r h => ?_, fun r => ⟨n, [], .none, rfl⟩⟩
  · simp only [envOf, h]
  · simp only [envOf, h]

private theorem onlyMade {a : Alts} {n : Nat} {g : Graph}
    (h : build (envOf (only a) n) n a = .ok g) :
    Made (only a) (envOf (only a) n) (graphsOf (only a) n) := by
  intro r
  cases hr : only a r with
  | none => simp only [graphsOf, hr]
  | some b =>
    have : b = a := by
      simp only [only] at hr
      split at hr <;> simp at hr
      exact hr.symm
    subst this
    exact ⟨n, g, h, by simp only [graphsOf, hr, h]⟩

/-- `(X A*)? A b`, with 0, 1 and 2 for `X`, `A` and `b`. -/
private def late : Alts :=
  .cons (.cons (.group (.cons (.cons (.tok 0 .once) (.cons (.tok 1 .star) .nil)) .nil) .question)
    (.cons (.tok 1 .once) (.cons (.tok 2 .once) .nil))) .nil

private def lateGraph : Graph :=
  match build (envOf (only late) 20) 20 late with
  | .error _ => ⟨fun _ => .group, [], fun _ => [], []⟩
  | .ok g => g

private theorem lateBuild : build (envOf (only late) 20) 20 late = .ok lateGraph := rfl

/--
  C92 does not hold of all grammars: of `(X A*)? A b` the compiler makes a graph that accepts
  `A A b`.  The two `A` are merged as they can follow the same nodes; that one of them can come
  first and the other not is not looked at (modules/compile/analyze_tree.cpp:1651-1703).
-/
theorem merging_adds_refuted : ∃ (G : Grammar) (e : Env) (Γ : Nat → Option Graph) (g : Graph),
    (∀ r a, G r = some a → FullAlts a) ∧ Knows G e ∧ Made G e Γ ∧ Γ 0 = some g ∧
    ∀ X, Accepts X Γ g g.start [1, 1, 2] ∧ ¬ Sentence X G 0 [1, 1, 2] := by
  refine ⟨only late, envOf (only late) 20, graphsOf (only late) 20, lateGraph, ?_,
    onlyKnows late 20, onlyMade lateBuild, rfl, fun X => ⟨?_, ?_⟩⟩
  · intro r a h
    simp only [only] at h
    split at h <;> simp at h
    subst h
    exact fullAlts_of _ rfl
  · refine .tok (u := 5) (by decide +kernel) (by decide +kernel) ?_
    refine .tok (u := 5) (by decide +kernel) (by decide +kernel) ?_
    refine .tok (u := 6) (by decide +kernel) (by decide +kernel) ?_
    exact .stop (u := 7) (o := 0) (by decide +kernel) (by decide +kernel)
  · rintro ⟨n, hn⟩
    cases n with
    | zero => exact hn
    | succ n =>
      rcases hn with ⟨u, v, e, hu, u', v', e', hu', u2, v2, e2, hu2, hv2⟩ | h
      · simp only [ofItem, repeated, ofSeq] at hu hu' hu2 hv2
        subst hu' hu2 hv2 e' e2
        rcases hu with hu | hu
        · subst hu
          simp at e
        · rcases hu with ⟨x, y, ex, hx, _⟩ | h
          · simp only [ofItem, repeated] at hx
            subst hx ex
            simp at e
          · exact h
      · exact h

/-- `A |`, with nothing after the `|`. -/
private def empty : Alts := .cons (.cons (.tok 0 .once) .nil) (.cons .nil .nil)

private def emptyGraph : Graph :=
  match build (envOf (only empty) 20) 20 empty with
  | .error _ => ⟨fun _ => .group, [], fun _ => [], []⟩
  | .ok g => g

private theorem emptyBuild : build (envOf (only empty) 20) 20 empty = .ok emptyGraph := rfl

/--
  C92 does not hold of rules with nothing between two `|` or after the last: that the rule matches
  nothing is lost (modules/compile/analyze_tree.cpp:897-907).
-/
theorem empty_alternative_refuted : ∃ (G : Grammar) (e : Env) (Γ : Nat → Option Graph) (g : Graph),
    Knows G e ∧ Made G e Γ ∧ Γ 0 = some g ∧
    ∀ X, Sentence X G 0 [] ∧ ¬ Accepts X Γ g g.start [] := by
  refine ⟨only empty, envOf (only empty) 20, graphsOf (only empty) 20, emptyGraph,
    onlyKnows empty 20, onlyMade emptyBuild, rfl, fun X => ⟨⟨1, .inr (.inl rfl)⟩, ?_⟩⟩
  have hs : emptyGraph.start = [1] := by decide +kernel
  have hl : emptyGraph.label 1 = .tok 0 := by decide +kernel
  intro h
  generalize hw : ([] : List Nat) = w at h
  rw [hs] at h
  cases h with
  | stop hu hl' =>
    simp only [List.mem_singleton] at hu
    subst hu
    rw [hl] at hl'
    simp at hl'
  | tok hu hl' _ => simp at hw
  | @ref _ _ u r k v w hu hl' _ _ _ =>
    simp only [List.mem_singleton] at hu
    subst hu
    rw [hl] at hl'
    simp at hl'
  | @other _ _ u r v w hu hl' _ _ _ =>
    simp only [List.mem_singleton] at hu
    subst hu
    rw [hl] at hl'
    simp at hl'

/-- `A* | B*`. -/
private def twice : Alts :=
  .cons (.cons (.tok 0 .star) .nil) (.cons (.cons (.tok 1 .star) .nil) .nil)

/--
  Not every rule has a graph: for `A* | B*`, where two alternatives match nothing, the compiler
  stops with an assertion (modules/compile/analyze_tree.cpp:262-278), whatever is known of other
  rules.
-/
theorem two_empty_refuted (e : Env) (n : Nat) (g : Graph) : build e n twice ≠ .ok g := by
  intro h
  obtain ⟨g0, h0, _⟩ := build_split h
  have h1 := exchange_mono (Nat.le_max_left n 20) h0
  have h2 : exchange (layRule e (revise twice)) (max n 20) = .error .assertion := by
    have : ∃ k, max n 20 = k + 20 := ⟨max n 20 - 20, by omega⟩
    obtain ⟨k, hk⟩ := this
    rw [hk]
    rfl
  rw [h1] at h2
  simp at h2

/-- `(A? B?)*`. -/
private def around : Alts :=
  one (.group (.cons (.cons (.tok 0 .question) (.cons (.tok 1 .question) .nil)) .nil) .star)

private def aroundNodes : List Node :=
  [{ label := .group, inner := false, subnodes := [1] },
   { label := .group, skip := true, loop := true, nodes := [5], subnodes := [2] },
   { label := .tok 0, skip := true, nodes := [3] },
   { label := .tok 1, skip := true, nodes := [4] },
   { label := .stop 1 },
   { label := .stop 0 }]

/-- What follows the group and its elements is as it was. -/
private def Same (st : St) : Prop := st.nodes 1 = [5] ∧ st.nodes 2 = [3] ∧ st.nodes 3 = [4]

private theorem same_add {u : Nat} {st st' : St} (h : Same st)
    (ha : add aroundNodes 0 u st = .ok st') : Same st' := by
  have key : Same { st with nodes := fun x => if x = 0 then st.nodes 0 ++ [u] else st.nodes x } :=
    h
  unfold add at ha
  split at ha
  · cases ha; exact h
  · split at ha
    · split at ha
      · simp at ha
      · cases ha; exact key
    · cases ha; exact key

private theorem same_push {u : Nat} {st : St} (h : Same st) : Same (push u st) := by
  unfold push
  split
  · exact h
  · exact h

private theorem joinEnter_add {T : List Node} {go : Nat → St → Except Err St} {pre u : Nat}
    {st st' : St} {t : Nat} (hl : (nodeAt T u).label = .tok t)
    (h : joinEnter T go pre u st = .ok st') :
    ∃ st1, add T pre u st = .ok st1 ∧ st' = push u st1 := by
  unfold joinEnter at h
  rw [hl] at h
  simp only at h
  cases ha : add T pre u st with
  | error x => rw [ha] at h; simp at h
  | ok st1 =>
    rw [ha] at h
    simp only at h
    cases h
    exact ⟨st1, rfl, rfl⟩

private theorem join_tok {n u v t : Nat} {st st' : St} (hu : 0 ≠ u) (hv : u ≠ v)
    (hl : (nodeAt aroundNodes u).label = .tok t) (hk : (nodeAt aroundNodes u).skip = true)
    (hn : ∀ st, Same st → st.nodes u = [v])
    (hs : Same st) (h : join aroundNodes (n + 1) 0 u st = .ok st') :
    ∃ st1 st2, Same st1 ∧ join aroundNodes n 0 v st1 = .ok st2 := by
  rw [join] at h
  cases hj : joinEnter aroundNodes (join aroundNodes n 0) 0 u st with
  | error x => rw [hj] at h; simp at h
  | ok st1 =>
    obtain ⟨st0, ha, rfl⟩ := joinEnter_add hl hj
    have hs1 : Same (push u st0) := same_push (same_add hs ha)
    rw [hj] at h
    simp only at h
    rw [if_pos ⟨hu, hk⟩, hn _ hs1, joinAll, if_neg (by simpa using hv)] at h
    cases hx : join aroundNodes n 0 v (push u st0) with
    | error x => rw [hx] at h; simp at h
    | ok st2 => exact ⟨_, st2, hs1, hx⟩

/-- The end of the rule. -/
private theorem join_end {n : Nat} {st st' : St} (hs : Same st)
    (h : join aroundNodes n 0 5 st = .ok st') : Same st' := by
  cases n with
  | zero => simp [join] at h
  | succ n =>
    rw [join] at h
    have he : joinEnter aroundNodes (join aroundNodes n 0) 0 5 st = add aroundNodes 0 5 st := rfl
    rw [he] at h
    cases ha : add aroundNodes 0 5 st with
    | error x => rw [ha] at h; simp at h
    | ok st1 =>
      rw [ha] at h
      simp only at h
      rw [if_neg (by simp [nodeAt, aroundNodes])] at h
      cases h
      exact same_add hs ha

private theorem join_around : ∀ (n : Nat) (st st' : St), Same st →
    join aroundNodes n 0 2 st ≠ .ok st' ∧ join aroundNodes n 0 3 st ≠ .ok st' ∧
    join aroundNodes n 0 4 st ≠ .ok st'
  | 0, _, _, _ => by simp [join]
  | n + 1, st, st', hs => by
    have ih := join_around n
    refine ⟨fun h => ?_, fun h => ?_, fun h => ?_⟩
    · obtain ⟨st1, st2, h1, h2⟩ := join_tok (v := 3) (t := 0) (by decide) (by decide) rfl rfl
        (fun _ h => h.2.1) hs h
      exact (ih st1 st2 h1).2.1 h2
    · obtain ⟨st1, st2, h1, h2⟩ := join_tok (v := 4) (t := 1) (by decide) (by decide) rfl rfl
        (fun _ h => h.2.2) hs h
      exact (ih st1 st2 h1).2.2 h2
    · rw [join] at h
      have he : joinEnter aroundNodes (join aroundNodes n 0) 0 4 st =
          match joinAll (join aroundNodes n 0) (some 1) (st.nodes 1) st with
          | .error x => .error x
          | .ok st => joinAll (join aroundNodes n 0) none [2] st := rfl
      rw [he, hs.1, joinAll, if_neg (by decide)] at h
      cases hx : join aroundNodes n 0 5 st with
      | error x => rw [hx] at h; simp at h
      | ok st1 =>
        have h1 := join_end hs hx
        rw [hx] at h
        simp only [joinAll] at h
        rw [if_neg (by decide)] at h
        cases hy : join aroundNodes n 0 2 st1 with
        | error x => rw [hy] at h; simp at h
        | ok st2 => exact (ih st1 st2 h1).1 hy

/--
  Not every rule has a graph: for `(A? B?)*` the compiler does not come to an end, whatever depth
  it goes to, as the group that matches nothing follows itself
  (modules/compile/analyze_tree.cpp:1393-1402).
-/
theorem empty_loop_refuted (e : Env) (n : Nat) (g : Graph) : build e n around ≠ .ok g := by
  intro h
  obtain ⟨g0, h0, _⟩ := build_split h
  have hT : layRule e (revise around) = aroundNodes := rfl
  rw [hT, exchange] at h0
  have h1 : joinAll (join aroundNodes n 0) none (nodeAt aroundNodes 0).subnodes
      ⟨fun y => (nodeAt aroundNodes y).nodes, [], []⟩ =
      match join aroundNodes n 0 1 ⟨fun y => (nodeAt aroundNodes y).nodes, [], []⟩ with
      | .error x => .error x
      | .ok st => .ok st := rfl
  rw [h1] at h0
  cases hx : join aroundNodes n 0 1 ⟨fun y => (nodeAt aroundNodes y).nodes, [], []⟩ with
  | error x => rw [hx] at h0; simp at h0
  | ok st =>
    cases n with
    | zero => simp [join] at hx
    | succ n =>
      rw [join] at hx
      have he : ∀ st, joinEnter aroundNodes (join aroundNodes n 0) 0 1 st =
          match join aroundNodes n 0 2 st with
          | .error x => .error x
          | .ok st => .ok st := fun _ => rfl
      rw [he] at hx
      cases hy : join aroundNodes n 0 2 ⟨fun y => (nodeAt aroundNodes y).nodes, [], []⟩ with
      | error x => rw [hy] at hx; simp at hx
      | ok st1 => exact (join_around n _ st1 ⟨rfl, rfl, rfl⟩).1 hy

/-- `0: 1 | x?` and `1: 0`. -/
private def crossed : Grammar := fun r =>
  if r = 0 then some (.cons (.cons (.ref 1 .once) .nil) (.cons (.cons (.tok 0 .question) .nil) .nil))
  else if r = 1 then some (one (.ref 0 .once))
  else none

/--
  The answer that a rule matches something only can be wrong: of `0: 1 | x?` and `1: 0`, if it was
  asked for 0 first, the answer for 1 was given while the one for 0 was looked for
  (modules/compile/analyze_tree.cpp:1533-1547).
-/
theorem nothing_matched_refuted : ∃ (G : Grammar) (c : Cache) (n r : Nat), Asked G c ∧
    (∀ k, n ≤ k → (askRule G k r c).1 = false) ∧ ∀ X, Sentence X G r [] := by
  refine ⟨crossed, (askRule crossed 5 0 []).2, 1, 1, .ask 5 0 .none, fun k hk => ?_, fun X => ?_⟩
  · obtain ⟨k, rfl⟩ : ∃ j, k = j + 1 := ⟨k - 1, by omega⟩
    rfl
  · exact ⟨3, .inl ⟨[], [], rfl, .inr (.inl ⟨[], [], rfl, .inl rfl, rfl⟩), rfl⟩⟩

end Verif.Props.Gram
