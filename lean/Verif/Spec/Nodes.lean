/-
  What a builder can get: the parts of an instance of a rule, in the order of the source.
-/
import Verif.Model.Nodes

namespace Verif.Nodes.Spec

open Verif.Gram Verif.Nodes

variable {ν : Type}

/-- A set of lists of parts. -/
abbrev Lang (ν : Type) := List (Given ν) → Prop

inductive Many (M : Lang ν) : Lang ν where
  | nil : Many M []
  | cons {u v : List (Given ν)} : M u → Many M v → Many M (u ++ v)

/-- `M`, `M*`, `M+` and `M?`. -/
def repeated : Rep → Lang ν → Lang ν
  | .once, M => M
  | .star, M => Many M
  | .plus, M => fun w => ∃ u v, w = u ++ v ∧ M u ∧ Many M v
  | .question, M => fun w => w = [] ∨ M w

mutual

/-- What an element of a rule gives, if `L` is what the references give. -/
def ofItem (L : Nat → Lang ν) : Item → Lang ν
  | .tok t r => repeated r fun w => ∃ x, w = [⟨.tok t, x⟩]
  | .ref x r => repeated r (L x)
  | .group a r => repeated r (ofAlts L a)

def ofSeq (L : Nat → Lang ν) : Seq → Lang ν
  | .nil => fun w => w = []
  | .cons i s => fun w => ∃ u v, w = u ++ v ∧ ofItem L i u ∧ ofSeq L s v

def ofAlts (L : Nat → Lang ν) : Alts → Lang ν
  | .nil => fun _ => False
  | .cons s a => fun w => ofSeq L s w ∨ ofAlts L a w

end

/-- A reference to a rule with a builder gives a node, or nothing if the rule matched nothing; the
    number of the reference has its flag, too. -/
def node (x : Nat) : Lang ν := fun w =>
  w = [] ∨ ∃ n, w = [⟨.node (valueOf (x % 100)) (x / 100), n⟩]

/-- What an instance of a rule can give, with rules without a builder inside each other `n` times
    at most. -/
def parts (G : Grammar) : Nat → Nat → Lang ν
  | 0, _ => fun _ => False
  | n + 1, r =>
    match G r with
    | none => fun _ => False
    | some a => ofAlts (fun x => if bare (x % 100) then parts G n (x % 100) else node x) a

/-- What the builder of a rule can get. -/
def Parts (G : Grammar) (r : Nat) (w : List (Given ν)) : Prop := ∃ n, parts G n r w

/-- The part is a node or a name. -/
def matters (g : Given ν) : Bool :=
  match g.sym with
  | .tok t => t == nameTok
  | .node _ _ => true

/-- `x` is at a place of the node. -/
def Made.has (m : Made ν) (x : ν) : Prop := ∃ p, some x ∈ m.at_ p

/-- Lists with a comma between the elements, of which some may be missing. -/
inductive Commas (comma : Nat) : List (Option (Given ν)) → List (Given ν) → Prop where
  | one {o : Option (Given ν)} : Commas comma [o] o.toList
  | more {o : Option (Given ν)} {os : List (Option (Given ν))} {w : List (Given ν)} {c : ν} :
      Commas comma os w → Commas comma (o :: os) (o.toList ++ ⟨.tok comma, c⟩ :: w)

end Verif.Nodes.Spec
