import Verif.Model.Pack
import Verif.Spec.Fields

/-!
# Where the arguments of a call should be
-/

namespace Verif.Pack

open Verif.Fields (Bytes unitSize)

/-- The units that the arguments of a parameter take. -/
def unitsOf : Param → List Nat
  | .one addr size => [if addr then 1 else unitSize size]
  | .many sizes => sizes.map unitSize

/-- The units that the arguments of a method take, `this` first. -/
def allUnits (static : Bool) (ps : List Param) : List Nat := (if static then [] else [1]) ++ ps.flatMap unitsOf

/-- Each argument takes its units. -/
def Fit (us : List Nat) (args : List Bytes) : Prop := args.map List.length = us.map (8 * ·)

end Verif.Pack
