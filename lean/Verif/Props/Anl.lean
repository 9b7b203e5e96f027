/-
  C93: what the compiler reports of a program is a reading of it.
-/
import Verif.Proof.Anl
import Verif.Props.Gram

namespace Verif.Props.Anl

open Verif.Gram Verif.Gram.Spec Verif.Anl Verif.Anl.Spec Verif.Anl.Proof

/--
  C93.  If no error is found in a program, its tokens can be given values such that
  * where the compiler reports an instance of a rule, there is one,
  * the values that the compiler gives to tokens are these values,
  * if a reading of the whole program was found, the reports are those of one such reading, all of
    them and in their order, and all tokens with several values have got one.
  This holds for all graphs, all flags of references and for whatever way of choosing among
  readings.
-/
theorem reports_are_reading (S : Sys) (n : Nat) (O : Order) (ts : List Token) (o : Outcome)
    (h : analyze S n O ts = .ok o) :
    ∃ w, Fits ts w ∧
      (∀ r a b, .matched r a b ∈ o.items → ∃ x y z as, w = x ++ y ++ z ∧ a = x.length ∧
        b = a + y.length ∧ ReadingOf S.graph r a y as) ∧
      (∀ i k, valueOf i o.items = some k → w[i]? = some k) ∧
      (o.complete = true → ReadingOf S.graph S.root 0 w (reports o.items) ∧
        ∀ i (t : Token), ts[i]? = some t → t.several = true →
          (valueOf i o.items).isSome = true) :=
  let ⟨w, h1, h2, h3, h4, _⟩ := analyze_good h
  ⟨w, h1, h2, h3, h4⟩

/-- Readings are what graphs accept. -/
theorem reading_accepted (X : Nat → Lang) (Γ : Nat → Option Graph) (r i : Nat) (w : List Nat)
    (as : List Action) (h : ReadingOf Γ r i w as) :
    ∃ g, Γ r = some g ∧ Accepts X Γ g g.start w :=
  let ⟨g, hg, hr⟩ := h
  ⟨g, hg, accepts_reading hr⟩

/--
  C93 and C92 together, for the language: if no error is found in a program, its tokens can be given
  values such that wherever an instance of a rule is reported, a sentence of this rule stands, and
  if a reading of the whole program was found, the program is a sentence of the grammar.
-/
theorem programs_are_sentences (X : Nat → Lang) (S : Sys)
    (graphs : S.graph = graphsOf Cs.grammar 100) (root : S.root = 83) (n : Nat) (O : Order)
    (ts : List Token) (o : Outcome) (h : analyze S n O ts = .ok o) :
    ∃ w, Fits ts w ∧
      (∀ r a b, .matched r a b ∈ o.items → ∃ x y z, w = x ++ y ++ z ∧ a = x.length ∧
        b = a + y.length ∧ Sentence X Cs.grammar r y) ∧
      (∀ i k, valueOf i o.items = some k → w[i]? = some k) ∧
      (o.complete = true → Sentence X Cs.grammar 83 w) := by
  have sent : ∀ {r i y as}, ReadingOf S.graph r i y as → Sentence X Cs.grammar r y := by
    intro r i y as hr
    rw [graphs] at hr
    obtain ⟨g, hg, ha⟩ := reading_accepted X _ _ _ _ _ hr
    cases hc : Cs.grammar r with
    | none => simp [graphsOf, hc] at hg
    | some a =>
      obtain ⟨g', hg', hs⟩ := Gram.language_graphs X r a hc
      rw [hg] at hg'
      cases hg'
      exact (hs y).mp ha
  obtain ⟨w, hf, hm, hv, hc, _⟩ := analyze_good h
  refine ⟨w, hf, fun r a b hab => ?_, hv, fun e => ?_⟩
  · obtain ⟨x, y, z, as, e, ha, hb, hr⟩ := hm r a b hab
    exact ⟨x, y, z, e, ha, hb, sent hr⟩
  · rw [← root]
    exact sent (hc e).1

/-! ## Cases -/

/-- What was done, and whether there was a reading of the whole; for comparing. -/
private def show' : Except Anl.Err Outcome → Option (List Action × Bool)
  | .ok o => some (o.items, o.complete)
  | .error _ => none

private def sameStack : Order := ⟨fun a b => a.stack.map Entry.pos = b.stack.map Entry.pos,
  fun _ _ => false⟩

private def tk (k : Nat) : Token := ⟨[k], false⟩

/-- The language; the numbers of merged nodes are not those of the code. -/
private def cs : Sys :=
  .make (graphsOf Cs.grammar 100) 83 (fun r u => 1000 * r + u + 1) (fun r => 1000 * r) 100

/-- `using A.B; class C { }`: a name, a `using`, and a type, whose attributes and so on are
    missing. -/
private theorem usingRun : show' (analyze cs 30 sameStack
      [tk 65, tk 3, tk 21, tk 3, tk 4, tk 78, tk 3, tk 16, tk 17]) =
    some ([.matched 21 1 4, .matched 20 0 5, .matched 26 5 9], true) := by
  decide +kernel

private theorem of_show {x : Except Anl.Err Outcome} {a : List Action} {b : Bool}
    (h : show' x = some (a, b)) : x = .ok ⟨a, b⟩ := by
  cases x with
  | error e => simp [show'] at h
  | ok o =>
    simp only [show', Option.some.injEq, Prod.mk.injEq] at h
    obtain ⟨rfl, rfl⟩ := h
    rfl

/-- So this is a sentence, and `A.B` is a name. -/
example (X : Nat → Lang) :
    Sentence X Cs.grammar 83 [65, 3, 21, 3, 4, 78, 3, 16, 17] ∧
    Sentence X Cs.grammar 21 [3, 21, 3] := by
  obtain ⟨w, hf, hm, _, hs⟩ := programs_are_sentences X cs rfl rfl 30 sameStack _ _
    (of_show usingRun)
  have : w = [65, 3, 21, 3, 4, 78, 3, 16, 17] := by
    obtain ⟨hl, hk⟩ := hf
    have key : ∀ (i k : Nat), ([65, 3, 21, 3, 4, 78, 3, 16, 17] : List Nat)[i]? = some k →
        w[i]? = some k := by
      intro i k h
      obtain ⟨k', hk', e⟩ := hk i (tk k) (by
        have := congrArg (Option.map tk) h
        rw [← List.getElem?_map] at this
        exact this)
      simp only [tk, List.mem_singleton] at hk'
      rw [e, hk']
    refine List.ext_getElem? fun i => ?_
    rcases Nat.lt_or_ge i 9 with h | h
    · have hi := List.getElem?_eq_getElem (l := [65, 3, 21, 3, 4, 78, 3, 16, 17]) h
      rw [hi]
      exact key i _ hi
    · rw [List.getElem?_eq_none (by rw [hl]; exact h), List.getElem?_eq_none (by exact h)]
  subst this
  refine ⟨hs rfl, ?_⟩
  obtain ⟨x, y, z, e, ha, hb, hy⟩ := hm 21 1 4 (by simp)
  have hx : x = [65] := by
    have := congrArg (List.take x.length) e
    rw [List.append_assoc, List.take_left, ← ha] at this
    exact this.symm
  have : y = [3, 21, 3] := by
    rw [hx] at e
    have e := (List.cons.inj e).2
    have hl : y.length = 3 := by omega
    have := congrArg (List.take y.length) e
    change _ = List.take y.length (y ++ z) at this
    rw [List.take_left, hl] at this
    exact this.symm
  rw [← this]
  exact hy

private def seq : List Item → Seq
  | [] => .nil
  | i :: is => .cons i (seq is)

private def alts : List (List Item) → Alts
  | [] => .nil
  | s :: a => .cons (seq s) (alts a)

private def rules (l : List (List (List Item))) : Grammar := fun r => (l[r]?).map alts

/-- The numbers as the rules are read, if no nodes are merged. -/
private def sys (l : List (List (List Item))) (root : Nat) : Sys :=
  .make (graphsOf (rules l) 20) root (fun r u => 100 * r + u + 1) (fun r => 100 * r) 20

/-- With the rule `(a c) | (b d)`, a token that can be `a` or `b`, and `d`: it is `b`. -/
private theorem severalRun : show' (analyze (sys [[[.tok 1 .once, .tok 3 .once],
      [.tok 2 .once, .tok 4 .once]]] 0) 20 sameStack [⟨[1, 2], true⟩, tk 4]) =
    some ([.chose 0 2], true) := by
  decide +kernel

example : ∃ w, Fits [⟨[1, 2], true⟩, tk 4] w ∧ w[0]? = some 2 :=
  let ⟨w, hf, _, hv, _⟩ := reports_are_reading _ _ _ _ _ (of_show severalRun)
  ⟨w, hf, hv 0 2 rfl⟩

/-! ## What does not hold -/

/--
  C93 does not hold of programs that end too early: of `a b` the beginning `a` is taken without an
  error, as when no reading is left at the end this is no error
  (modules/compile/analyze_tree.cpp:2897-2915).
-/
theorem truncated_refuted : ∃ (G : Grammar) (S : Sys) (n : Nat) (O : Order) (o : Outcome),
    S.graph = graphsOf G n ∧ analyze S n O [⟨[1], false⟩] = .ok o ∧
      ∀ X, Sentence X G S.root [1, 2] ∧ ¬ Sentence X G S.root [1] := by
  refine ⟨rules [[[.tok 1 .once, .tok 2 .once]]], sys [[[.tok 1 .once, .tok 2 .once]]] 0, 20,
    sameStack, ⟨[], false⟩, rfl, of_show (by decide +kernel), fun X => ⟨⟨1, .inl ?_⟩, ?_⟩⟩
  · exact ⟨[1], [2], rfl, rfl, [2], [], rfl, rfl, rfl⟩
  · rintro ⟨n, h⟩
    cases n with
    | zero => exact h
    | succ n =>
      rcases h with ⟨u, v, e, hu, x, y, rfl, hx, rfl⟩ | h
      · simp only [ofItem, repeated] at hu hx
        subst hu hx
        simp at e
      · exact h

/-- In the language, `using A` and the end: no error, and no report. -/
example : show' (analyze cs 30 sameStack [tk 65, tk 3]) = some ([], false) := by decide +kernel

/--
  Not all sentences are accepted.  With `r: b (r? x)?` and `s: r ;` the sentence `b b x ;` is an
  error: `x` can belong to the inner or to the outer `r`, and since for both it is the same node, the
  compiler looks at the inner one only (modules/compile/analyze_tree.cpp:3290-3327); but then the
  outer one has none.
-/
theorem shared_way_refuted : ∃ (G : Grammar) (S : Sys) (n : Nat) (O : Order),
    S.graph = graphsOf G n ∧ (∀ r u, S.dead r u = false) ∧
      (∀ X, Sentence X G S.root [1, 1, 2, 3]) ∧
      analyze S n O [⟨[1], false⟩, ⟨[1], false⟩, ⟨[2], false⟩, ⟨[3], false⟩] = .error .format := by
  let l : List (List (List Item)) :=
    [[[.tok 1 .once, .group (alts [[.ref 0 .question, .tok 2 .once]]) .question]],
      [[.ref 0 .once, .tok 3 .once]]]
  refine ⟨rules l, { sys l 1 with dead := fun _ _ => false }, 20, sameStack, rfl, fun _ _ => rfl,
    fun X => ?_, ?_⟩
  · have h1 : derived X (rules l) 1 0 [1] :=
      .inl ⟨[1], [], rfl, rfl, [], [], rfl, .inl rfl, rfl⟩
    have h2 : derived X (rules l) 2 0 [1, 1, 2] := by
      refine .inl ⟨[1], [1, 2], rfl, rfl, [1, 2], [], rfl, .inr (.inl ?_), rfl⟩
      exact ⟨[1], [2], rfl, .inr h1, [2], [], rfl, rfl, rfl⟩
    exact ⟨3, .inl ⟨[1, 1, 2], [3], rfl, h2, [3], [], rfl, rfl, rfl⟩⟩
  · have : (match analyze { sys l 1 with dead := fun _ _ => false } 20 sameStack
        [tk 1, tk 1, tk 2, tk 3] with
        | .error .format => true
        | _ => false) = true := by decide +kernel
    revert this
    change _ → analyze { sys l 1 with dead := fun _ _ => false } 20 sameStack
        [tk 1, tk 1, tk 2, tk 3] = _
    cases analyze { sys l 1 with dead := fun _ _ => false } 20 sameStack
        [tk 1, tk 1, tk 2, tk 3] with
    | ok o => intro h; cases h
    | error x =>
      intro h
      cases x with
      | format => rfl
      | assertion => cases h
      | endless => cases h

/--
  Not all sentences are accepted, also because of the references that the compiler takes for the
  last of an endless cycle.  With `b: a | c`, `a: b y?` and `s: a ;` the sentence `c ;` is an error:
  from `a` one gets to `b` and from there to `a` again, where it is final, and so the `b` of `a` is
  not taken for the end of an `a` (modules/compile/analyze_tree.cpp:2043-2073, 3085-3088).
-/
theorem dead_cycle_refuted : ∃ (G : Grammar) (S : Sys) (n : Nat) (O : Order) (index : Nat → Nat → Nat)
    (number : Nat → Nat), S = .make (graphsOf G n) S.root index number n ∧
      (∀ X, Sentence X G S.root [1, 3]) ∧
      (∃ o, analyze S n O [⟨[1], false⟩, ⟨[2], false⟩, ⟨[3], false⟩] = .ok o ∧ o.complete = true) ∧
      analyze S n O [⟨[1], false⟩, ⟨[3], false⟩] = .error .format := by
  let l : List (List (List Item)) :=
    [[[.ref 1 .once], [.tok 1 .once]], [[.ref 0 .once, .tok 2 .question]],
      [[.ref 1 .once, .tok 3 .once]]]
  refine ⟨rules l, sys l 2, 20, sameStack, fun r u => 100 * r + u + 1, fun r => 100 * r, rfl,
    fun X => ?_, ⟨⟨[.matched 0 0 1, .matched 1 0 2], true⟩, of_show (by decide +kernel), rfl⟩, ?_⟩
  · have h0 : derived X (rules l) 1 0 [1] := .inr (.inl ⟨[1], [], rfl, rfl, rfl⟩)
    have h1 : derived X (rules l) 2 1 [1] :=
      .inl ⟨[1], [], rfl, h0, [], [], rfl, .inl rfl, rfl⟩
    exact ⟨3, .inl ⟨[1], [3], rfl, h1, [3], [], rfl, rfl, rfl⟩⟩
  · have : (match analyze (sys l 2) 20 sameStack [tk 1, tk 3] with
        | .error .format => true
        | _ => false) = true := by decide +kernel
    revert this
    change _ → analyze (sys l 2) 20 sameStack [tk 1, tk 3] = _
    cases analyze (sys l 2) 20 sameStack [tk 1, tk 3] with
    | ok o => intro h; cases h
    | error x =>
      intro h
      cases x with
      | format => rfl
      | assertion => cases h
      | endless => cases h

/-- `a: (b x | b y)+`, `b: a z | w`.  The two `b` of the first rule are merged, and the node that is made
    for them has a greater number than all others. -/
private def loop : Sys :=
  .make (graphsOf (rules [[[.group (alts [[.ref 1 .once, .tok 1 .once], [.ref 1 .once, .tok 2 .once]]) .plus]],
    [[.ref 0 .once, .tok 3 .once], [.tok 4 .once]]]) 20) 0
    (fun r u => if r = 0 ∧ u = 2 then 1000 else 100 * r + u + 1) (fun r => 100 * r) 20

private theorem loopExpand : ∀ n, expand loop n 0 (loop.first 0) = none ∧
    expand loop n 1 (loop.first 1) = none
  | 0 => ⟨rfl, rfl⟩
  | n + 1 => by
    obtain ⟨h0, h1⟩ := loopExpand n
    have f0 : loop.first 0 = [2] := by decide +kernel
    have f1 : loop.first 1 = [1, 4] := by decide +kernel
    have l0 : loop.label 0 2 = .ref 1 := by decide +kernel
    have l1 : loop.label 1 1 = .ref 0 := by decide +kernel
    have e0 : loop.expandable 0 2 = true := by decide +kernel
    have e1 : loop.expandable 1 1 = true := by decide +kernel
    refine ⟨?_, ?_⟩
    · rw [f0, expand, collect, l0]
      simp only [e0, if_true, h1]
    · rw [f1, expand, collect, l1]
      simp only [e1, if_true, h0]

/--
  The compiler does not get ready for all grammars: with `a: (b x | b y)+` and `b: a z | w` it
  enters `b` from `a` and `a` from `b` without end.  One of the references is to be left out for being made
  before the rule that it refers to, but a node that is made by merging is made after all rules
  (modules/compile/analyze_tree.cpp:1995-1996, 1729-1742).
-/
theorem left_cycle_refuted : ∃ (G : Grammar) (S : Sys) (index : Nat → Nat → Nat)
    (number : Nat → Nat), S = .make (graphsOf G 20) S.root index number 20 ∧
      (∀ X, Sentence X G S.root [4, 1]) ∧
      ∀ n O t ts, t.keys ≠ [] → analyze S n O (t :: ts) = .error .endless := by
  refine ⟨rules [[[.group (alts [[.ref 1 .once, .tok 1 .once], [.ref 1 .once, .tok 2 .once]]) .plus]],
    [[.ref 0 .once, .tok 3 .once], [.tok 4 .once]]], loop, _, _, rfl, fun X => ?_,
    fun n O t ts ht => ?_⟩
  · refine ⟨2, .inl ⟨[4, 1], [], rfl, ⟨[4, 1], [], rfl, .inl ?_, .nil⟩, rfl⟩⟩
    exact ⟨[4], [1], rfl, .inr (.inl ⟨[4], [], rfl, rfl, rfl⟩), [1], [], rfl, rfl, rfl⟩
  · have hu : unitsAll loop n ⟨0, none⟩ t.keys = none := by
      cases hk : t.keys with
      | nil => exact absurd hk ht
      | cons k ks =>
        have : expand loop n 0 (loop.next ⟨0, none⟩) = none := (loopExpand n).1
        rw [unitsAll, units]
        simp only [this]
    rw [analyze, run, go]
    have hp : pushAll loop n t 0 (State.init loop).leaves = .error .endless := by
      change pushAll loop n t 0 [⟨[⟨⟨0, none⟩, none⟩], []⟩] = _
      rw [pushAll, Anl.push]
      simp only [hu]
    rw [hp]

end Verif.Props.Anl
