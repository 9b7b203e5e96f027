import Verif.Proof.TypeNames
/-!
# C138: types have their own names at run time
-/

namespace Verif.TypeNames

/-- Two types — classes, instances of generic types to any depth, arrays of arrays of them — that have the same name
at run time are the same: the name tells the type, its arguments and its dimensions.  Missing: nested types
(`nested_refuted`) and templates without arguments (`template_refuted`). -/
theorem names_differ_partial (t u : RTy) (w : Whole t) (v : Whole u) (h : nameOf t = nameOf u) : t = u :=
  (name_inj t u [] [] w v (Or.inl rfl) (Or.inl rfl) (by simpa using h)).1

/-- `System.Tuple<A,B[, ][]>[]` -/
def tupleType : RTy :=
  .inst "System.Tuple".toList [.plain ['A'] [] [], .plain ['B'] [] [2, 1]] [1]

instance (s : Text) : Decidable (Name s) := by unfold Name; infer_instance

/-- Non-vacuity: the name of an array of instances, whose arguments are arrays, too. -/
example : nameOf tupleType = "System.Tuple<A,B[, ][]>[]".toList := by decide +kernel

example : Whole tupleType := by
  refine .inst _ _ _ (by decide) ?_ (by decide)
  intro a ha
  rcases List.mem_cons.mp ha with rfl | ha
  · exact .plain _ _ (by decide) (by decide)
  · rcases List.mem_cons.mp ha with rfl | ha
    · exact .plain _ _ (by decide) (by decide)
    · cases ha

/-- Not so for types nested in others: all that have no type parameters have the same name, which ends with the dot
after the name of the other. -/
theorem nested_refuted (host : RTy) (n m : Text) :
    nameOf (.nested host n [] []) = nameOf host ++ ['.'] ∧
      nameOf (.nested host n [] []) = nameOf (.nested host m [] []) := by
  constructor <;> simp [nameOf, generalName, arrays]

/-- Not so for templates: a template `List<T>` and its instance with a class `T` have the same name. -/
theorem template_refuted :
    nameOf (.plain "List".toList [(['T'], false)] []) = nameOf (.inst "List".toList [.plain ['T'] [] []] []) ∧
      nameOf (.plain "List".toList [(['T'], false)] []) = "List<T>".toList := by
  constructor <;> decide +kernel

/-- A nested instance of a generic type has the name of its host before its own. -/
theorem nested_instance (host : RTy) (n : Text) (as : List RTy) :
    nameOf (.nestedInst host n as []) = nameOf host ++ ['.'] ++ nameOf (.inst n as []) := by
  simp [nameOf, arrays]

example : nameOf (.nestedInst (.plain "Map".toList [] []) "Entry".toList [.plain ['K'] [] []] []) =
    "Map.Entry<K>".toList := by decide +kernel

end Verif.TypeNames
