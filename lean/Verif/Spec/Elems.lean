/-
  What the tree of a program is, and what is made of it.
-/
import Verif.Model.Elems
import Verif.Spec.Anl

namespace Verif.Elems.Spec

open Verif.Gram Verif.Anl Verif.Elems

/-- A part of a program: a token with its number, or an instance of a rule with its parts. -/
inductive Tree where
  | leaf (i : Nat)
  | inst (r : Nat) (kids : List Tree)

/-- `Derives Γ g us i w kids`: there is a way from one of the nodes `us` of the graph `g` to an end
    on which `w` is read, which begins with the token number `i`; `kids` are the tokens and
    instances on the way. -/
inductive Derives (Γ : Nat → Option Graph) :
    Graph → List Nat → Nat → List Nat → List Tree → Prop where
  | stop {g us i u o} : u ∈ us → g.label u = .stop o → Derives Γ g us i [] []
  | tok {g us i u t w ks} : u ∈ us → g.label u = .tok t → Derives Γ g (g.next u) (i + 1) w ks →
      Derives Γ g us i (t :: w) (.leaf i :: ks)
  | ref {g us i u r h v w js ks} : u ∈ us → g.label u = .ref r → Γ r = some h → v ≠ [] →
      Derives Γ h h.start i v js → Derives Γ g (g.next u) (i + v.length) w ks →
      Derives Γ g us i (v ++ w) (.inst r js :: ks)

mutual

/-- The tokens in a part. -/
def leaves : Tree → List Nat
  | .leaf i => [i]
  | .inst _ ks => leavesAll ks

def leavesAll : List Tree → List Nat
  | [] => []
  | t :: ts => leaves t ++ leavesAll ts

end

variable {σ ν : Type}

mutual

/-- What is made of a part: a token stays what it is.  Of an instance, the builder of its rule makes
    a node of what was made of its parts; if it makes none, that is what is left. -/
def partOf (B : Builder σ ν) : Tree → σ → σ × List (Piece ν)
  | .leaf i, s => (s, [.raw i])
  | .inst r ks, s =>
    match partsOf B ks s with
    | (s, ps) =>
      match B.make r ps s with
      | (s, none) => (s, ps)
      | (s, some x) => (s, [.node x])

/-- One part after the other. -/
def partsOf (B : Builder σ ν) : List Tree → σ → σ × List (Piece ν)
  | [], s => (s, [])
  | t :: ts, s =>
    match partOf B t s with
    | (s, ps) =>
      match partsOf B ts s with
      | (s, qs) => (s, ps ++ qs)

end

/-- What is made of a whole program. -/
def wholeOf (B : Builder σ ν) (ks : List Tree) (s : σ) : σ × ν :=
  match partsOf B ks s with
  | (s, ps) => B.root ps s

end Verif.Elems.Spec
