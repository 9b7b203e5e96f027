/-
  What a reading of a program is.
-/
import Verif.Model.Anl
import Verif.Spec.Gram

namespace Verif.Anl.Spec

open Verif.Gram Verif.Gram.Spec Verif.Anl

/-- `Reading Γ g us i w as`: there is a way from one of the nodes `us` of the graph `g` to an end on
    which `w` is read, which begins with the token number `i`; `as` is a report of every instance of
    a rule on the way, each one after those within it.  There is a token in every instance. -/
inductive Reading (Γ : Nat → Option Graph) :
    Graph → List Nat → Nat → List Nat → List Action → Prop where
  | stop {g us i u o} : u ∈ us → g.label u = .stop o → Reading Γ g us i [] []
  | tok {g us i u t w as} : u ∈ us → g.label u = .tok t → Reading Γ g (g.next u) (i + 1) w as →
      Reading Γ g us i (t :: w) as
  | ref {g us i u r h v w as bs} : u ∈ us → g.label u = .ref r → Γ r = some h →
      v ≠ [] → Reading Γ h h.start i v as → Reading Γ g (g.next u) (i + v.length) w bs →
      Reading Γ g us i (v ++ w) (as ++ .matched r i (i + v.length) :: bs)

/-- A reading as an instance of a rule. -/
def ReadingOf (Γ : Nat → Option Graph) (r i : Nat) (w : List Nat) (as : List Action) : Prop :=
  ∃ g, Γ r = some g ∧ Reading Γ g g.start i w as

/-- Only the reports. -/
def reports : List Action → List Action
  | [] => []
  | .matched r i j :: as => .matched r i j :: reports as
  | .chose _ _ :: as => reports as

/-- The value that token `i` has after all was done. -/
def valueOf (i : Nat) : List Action → Option Nat
  | [] => none
  | .matched _ _ _ :: as => valueOf i as
  | .chose j k :: as =>
    match valueOf i as with
    | some x => some x
    | none => if i = j then some k else none

/-- Words that the tokens can be. -/
def Fits (ts : List Token) (w : List Nat) : Prop :=
  w.length = ts.length ∧ ∀ (i : Nat) (t : Token), ts[i]? = some t → ∃ k ∈ t.keys, w[i]? = some k

end Verif.Anl.Spec
