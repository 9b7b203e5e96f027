import Verif.Model.Wild

/-! # What `*` and `?` mean -/

namespace Verif.Wild.Spec

open Verif.Paths (Str)

/-- A name fits a pattern: `*` stands for any text, `?` for any one character, every other
character for itself. -/
inductive Fits : Str → Str → Prop
  | done : Fits [] []
  | none {p s} : Fits p s → Fits (star :: p) s
  | some {p s c} : Fits (star :: p) s → Fits (star :: p) (c :: s)
  | one {p s c} : Fits p s → Fits (mark :: p) (c :: s)
  | same {p s c} : c ≠ star → c ≠ mark → Fits p s → Fits (c :: p) (c :: s)

/-- A name on one line. -/
def OneLine (s : Str) : Prop := 10 ∉ s ∧ 13 ∉ s

/-- None of `+ ^ $ |`, which are not escaped. -/
def Tame (p : Str) : Prop := plus ∉ p ∧ caret ∉ p ∧ dollar ∉ p ∧ bar ∉ p

instance (s : Str) : Decidable (OneLine s) := by unfold OneLine; infer_instance
instance (s : Str) : Decidable (Tame s) := by unfold Tame; infer_instance

end Verif.Wild.Spec
