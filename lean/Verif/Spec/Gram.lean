/-
  What a grammar means, and what a graph accepts.
-/
import Verif.Model.Gram

namespace Verif.Gram.Spec

open Verif.Gram

/-- A language: a set of words, and a word is a list of tokens. -/
abbrev Lang := List Nat → Prop

/-- Words of `M` one after the other. -/
inductive Many (M : Lang) : Lang where
  | nil : Many M []
  | cons {u v : List Nat} : M u → Many M v → Many M (u ++ v)

/-- `M`, `M*`, `M+` and `M?`. -/
def repeated : Rep → Lang → Lang
  | .once, M => M
  | .star, M => Many M
  | .plus, M => fun w => ∃ u v, w = u ++ v ∧ M u ∧ Many M v
  | .question, M => fun w => w = [] ∨ M w

mutual

/-- What an element of a rule matches, if `L` is what the rules match. -/
def ofItem (L : Nat → Lang) : Item → Lang
  | .tok t r => repeated r fun w => w = [t]
  | .ref x r => repeated r (L x)
  | .group a r => repeated r (ofAlts L a)

def ofSeq (L : Nat → Lang) : Seq → Lang
  | .nil => fun w => w = []
  | .cons i s => fun w => ∃ u v, w = u ++ v ∧ ofItem L i u ∧ ofSeq L s v

def ofAlts (L : Nat → Lang) : Alts → Lang
  | .nil => fun _ => False
  | .cons s a => fun w => ofSeq L s w ∨ ofAlts L a w

end

/-- The words that have a derivation of height `n` from a rule; `X` is what is matched by the
    rules that the grammar leaves to the rest of the compiler. -/
def derived (X : Nat → Lang) (G : Grammar) : Nat → Nat → Lang
  | 0, _ => fun _ => False
  | n + 1, r =>
    match G r with
    | none => X r
    | some a => ofAlts (derived X G n) a

/-- The sentences of a rule. -/
def Sentence (X : Nat → Lang) (G : Grammar) (r : Nat) (w : List Nat) : Prop :=
  ∃ n, derived X G n r w

/-- `Accepts X Γ g us w`: there is a way from one of the nodes `us` of the graph `g` to an end on
    which `w` is read; a reference reads what the graph of its rule accepts. -/
inductive Accepts (X : Nat → Lang) (Γ : Nat → Option Graph) :
    Graph → List Nat → List Nat → Prop where
  | stop {g us u o} : u ∈ us → g.label u = .stop o → Accepts X Γ g us []
  | tok {g us u t w} : u ∈ us → g.label u = .tok t → Accepts X Γ g (g.next u) w →
      Accepts X Γ g us (t :: w)
  | ref {g us u r h v w} : u ∈ us → g.label u = .ref r → Γ r = some h →
      Accepts X Γ h h.start v → Accepts X Γ g (g.next u) w → Accepts X Γ g us (v ++ w)
  | other {g us u r v w} : u ∈ us → g.label u = .ref r → Γ r = none →
      X r v → Accepts X Γ g (g.next u) w → Accepts X Γ g us (v ++ w)

mutual

/-- There is something between all `|`. -/
def FullItem : Item → Prop
  | .tok _ _ => True
  | .ref _ _ => True
  | .group a _ => FullAlts a

def FullSeq : Seq → Prop
  | .nil => True
  | .cons i s => FullItem i ∧ FullSeq s

def FullAlts : Alts → Prop
  | .nil => True
  | .cons s a => s ≠ .nil ∧ FullSeq s ∧ FullAlts a

end

/-- The tables of answers that can come about by asking, whatever the order of the questions. -/
inductive Asked (G : Grammar) : Cache → Prop where
  | none : Asked G []
  | ask {c : Cache} (n x : Nat) : Asked G c → Asked G (askRule G n x c).2

/-- What the compiler knows of the rules: their repetition, and an answer to the question whether
    they match nothing, which was given at any time. -/
def Knows (G : Grammar) (e : Env) : Prop :=
  (∀ r a, G r = some a → e.rep r = ruleRep (revise a)) ∧
  (∀ r, G r = none → e.rep r = .once) ∧
  (∀ r, ∃ n c, Asked G c ∧ e.null r = (askRule G n r c).1)

/-- Nodes that a round makes one node of either all can come first or all cannot. -/
def Even (g : Graph) : Prop :=
  ∀ n ∈ g.nodes, ∀ m ∈ g.nodes, g.rename n = g.rename m → (n ∈ g.start ↔ m ∈ g.start)

/-- So it is in all rounds. -/
def Steady : Nat → Graph → Prop
  | 0, _ => True
  | n + 1, g => Even g ∧ ∀ g', g.round = some g' → Steady n g'

/-- The graphs `Γ` were made of the rules. -/
def Made (G : Grammar) (e : Env) (Γ : Nat → Option Graph) : Prop :=
  ∀ r, match G r with
    | none => Γ r = none
    | some a => ∃ n g, build e n a = .ok g ∧ Γ r = some g

/-- Merging the nodes of the graph of a rule is steady. -/
def SteadyRule (e : Env) (a : Alts) : Prop :=
  ∀ n g, exchange (layRule e (revise a)) n = .ok g → Steady g.nodes.length g

end Verif.Gram.Spec
