/-
  C94: the syntax tree is built along the reading of the program.
-/
import Verif.Proof.Elems
import Verif.Props.Anl

namespace Verif.Props.Elems

open Verif.Gram Verif.Gram.Spec Verif.Anl Verif.Anl.Spec Verif.Elems Verif.Elems.Spec

/--
  C94.  If a reading of the whole program was found, there are values of its tokens and a tree of the
  program, along the graphs and with these values, such that, whatever the builders of the rules
  are, the result is what they make of this tree: the builder of every instance is called once,
  after those of the instances within it, and gets the nodes that were made of its parts and its
  other tokens, all of them and in their order.
-/
theorem tree_built (S : Sys) (n : Nat) (O : Order) (ts : List Token) (o : Outcome)
    (h : analyze S n O ts = .ok o) (whole : o.complete = true) (some_token : ts ≠ []) :
    ∃ w g ks, Fits ts w ∧ (∀ i k, valueOf i o.items = some k → w[i]? = some k) ∧
      S.graph S.root = some g ∧ Derives S.graph g g.start 0 w ks ∧
      ∀ {σ ν : Type} (B : Builder σ ν) (s : σ),
        build B o.items ts.length s = .ok ((wholeOf B ks s).1, some (wholeOf B ks s).2) := by
  obtain ⟨w, hf, _, hv, hc⟩ := Anl.reports_are_reading S n O ts o h
  obtain ⟨⟨g, hg, hr⟩, _⟩ := hc whole
  have hl : w.length = ts.length := hf.1
  obtain ⟨ks, hd, hb⟩ := Proof.build_whole hr (by
    intro e
    rw [e] at hl
    exact some_token (List.length_eq_zero_iff.mp hl.symm))
  rw [hl] at hb
  exact ⟨w, g, ks, hf, hv, hg, hd, hb⟩

/-- C94: all tokens of the program are in the tree, in their order. -/
theorem leaves_in_order (Γ : Nat → Option Graph) (g : Graph) (us : List Nat) (i : Nat)
    (w : List Nat) (ks : List Tree) (h : Derives Γ g us i w ks) :
    leavesAll ks = List.range' i w.length := by
  induction h with
  | stop => rfl
  | tok _ _ _ ih =>
    rw [leavesAll, leaves, ih, List.length_cons, List.range'_succ]
    rfl
  | ref _ _ _ _ _ _ ih1 ih2 =>
    rw [leavesAll, leaves, ih1, ih2, List.length_append, List.range'_append_1]

/-- C94: also of a program that is not read to its end a node is made: building ends, and no
    element is asked for that is not there. -/
theorem always_built (S : Sys) (n : Nat) (O : Order) (ts : List Token) (o : Outcome)
    (h : analyze S n O ts = .ok o) (some_token : ts ≠ []) {σ ν : Type} (B : Builder σ ν) (s : σ) :
    ∃ s' x, build B o.items ts.length s = .ok (s', some x) := by
  obtain ⟨w, hf, _, _, _, st, cs, hv⟩ := Anl.Proof.analyze_good h
  have hl : w.length = ts.length := hf.1
  rw [← hl]
  exact Proof.build_always hv (by
    intro e
    rw [e] at hl
    exact some_token (List.length_eq_zero_iff.mp hl.symm)) B s

/-- C94 does not hold for a program without tokens: no error is found in it, and then the element
    before the first one is asked for. -/
theorem no_token_refuted (S : Sys) (n : Nat) (O : Order) {σ ν : Type} (B : Builder σ ν) (s : σ) :
    analyze S (n + 1) O [] = .ok ⟨[], false⟩ ∧ build B [] 0 s = .error .bounds := by
  refine ⟨?_, rfl⟩
  have he : S.ends ⟨S.root, none⟩ = false := rfl
  simp [analyze, run, finish, State.init, popAll, popLeaf, he, pick]

/-! ## Cases -/

/-- A node for every instance, with all it got. -/
private inductive Node where
  | mk (r : Nat) (parts : List (Piece Node))

/-- Tokens and nodes as brackets: a token is its number and 1000, a node is its rule, and the end of
    it is 0. -/
private def flat : Nat → List (Piece Node) → List Nat
  | 0, _ => []
  | _, [] => []
  | n + 1, .raw i :: ps => (1000 + i) :: flat n ps
  | n + 1, .node (.mk r qs) :: ps => r :: flat n qs ++ 0 :: flat n ps

/-- All builders make nodes but those of the rules `rs`; they count. -/
private def free (rs : List Nat) : Builder Nat Node where
  make r ps s := (s + 1, if r ∈ rs then none else some (.mk r ps))
  root ps s := (s, .mk 83 ps)

private def show' : Except Elems.Err (Nat × Option Node) → Option (Nat × List Nat)
  | .ok (s, some x) => some (s, flat 100 [.node x])
  | _ => none

/-- `using A.B; class C { }` once more. -/
private def tk (k : Nat) : Token := ⟨[k], false⟩

private def text : List Token := [65, 3, 21, 3, 4, 78, 3, 16, 17].map tk

private def sameStack : Order := ⟨fun a b => a.stack.map Entry.pos = b.stack.map Entry.pos,
  fun _ _ => false⟩

private def cs : Sys :=
  .make (graphsOf Cs.grammar 100) 83 (fun r u => 1000 * r + u + 1) (fun r => 1000 * r) 100

private def outcome : Except Anl.Err Outcome := analyze cs 30 sameStack text

private theorem outcomeIs : outcome.toOption.map (fun o => (o.items, o.complete)) =
    some ([.matched 21 1 4, .matched 20 0 5, .matched 26 5 9], true) := by
  decide +kernel

/-- The name is within the `using`, and the whole has two parts. -/
example : ∃ o, analyze cs 30 sameStack text = .ok o ∧ o.complete = true ∧
    show' (build (free []) o.items text.length 0) = some (3,
      [83, 20, 1000, 21, 1001, 1002, 1003, 0, 1004, 0, 26, 1005, 1006, 1007, 1008, 0, 0]) ∧
    show' (build (free [20]) o.items text.length 0) = some (3,
      [83, 1000, 21, 1001, 1002, 1003, 0, 1004, 26, 1005, 1006, 1007, 1008, 0, 0]) ∧
    show' (build (free [20, 21]) o.items text.length 0) = some (3,
      [83, 1000, 1001, 1002, 1003, 1004, 26, 1005, 1006, 1007, 1008, 0, 0]) := by
  have h := outcomeIs
  cases ho : outcome with
  | error e => rw [ho] at h; cases h
  | ok o =>
    rw [ho] at h
    simp only [Except.toOption, Option.map_some, Option.some.injEq, Prod.mk.injEq] at h
    refine ⟨o, ho, h.2, ?_⟩
    rw [h.1]
    decide +kernel

/-- A tree and what is made of it, if an instance in the middle is left out. -/
example : (wholeOf (free [2]) [.leaf 0, .inst 1 [.inst 2 [.leaf 1, .inst 3 [.leaf 2]], .leaf 3]] 7).1
      = 10 ∧
    flat 100 [.node (wholeOf (free [2])
      [.leaf 0, .inst 1 [.inst 2 [.leaf 1, .inst 3 [.leaf 2]], .leaf 3]] 7).2] =
      [83, 1000, 1, 1001, 3, 1002, 0, 1003, 0, 0] := by
  decide +kernel

/-- If there was an empty instance, building would not end; so it matters that there is none. -/
example : build (free []) [.matched 1 1 1, .matched 2 0 2] 3 0 = .error .endless := rfl

end Verif.Props.Elems
