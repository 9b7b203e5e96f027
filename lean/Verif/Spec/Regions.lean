import Verif.Model.Regions

/-!
# What a user of blocks relies on

A block hides nothing of what is around it but the names that it declares itself, and its names end with it.
-/

namespace Verif.Regions

open Verif.Layout (Storage)

/-- The open blocks, the inner first, each with its names, the last declared first. -/
abbrev Blocks := List (List (Nat × Var))

/-- The effect of a step on the blocks; a declared local variable is the one with the number `n`. -/
def Blocks.step (n : Nat) : Blocks → Op → Option Blocks
  | bs, .enter => some ([] :: bs)
  | _ :: b :: bs, .leave => some (b :: bs)
  | b :: bs, .param name position => if b.any (·.1 == name) then none else some (((name, .param position) :: b) :: bs)
  | b :: bs, .declare name _ _ => if b.any (·.1 == name) then none else some (((name, .loc n) :: b) :: bs)
  | _, _ => none

/-- Whether the step declares a local variable. -/
def Op.declares : Op → Nat
  | .declare _ _ _ => 1
  | _ => 0

/-- The blocks after some steps, when `n` local variables were declared before. -/
def Blocks.steps : Nat → Blocks → List Op → Option Blocks
  | _, bs, [] => some bs
  | n, bs, op :: ops =>
    match Blocks.step n bs op with
    | none => none
    | some bs' => Blocks.steps (n + op.declares) bs' ops

/-- What a name stands for: the declaration in the innermost block that has one. -/
def Blocks.find (name : Nat) (bs : Blocks) : Option Var := (bs.flatten.find? (·.1 == name)).map (·.2)

/-- The local variables that are in scope, the last declared first. -/
def Blocks.locals (bs : Blocks) : List Nat :=
  bs.flatten.filterMap fun x => match x.2 with | .loc a => some a | .param _ => none

end Verif.Regions
