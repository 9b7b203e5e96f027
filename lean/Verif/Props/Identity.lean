import Verif.Proof.Identity
/-!
# C137: types of the core library are known under their own names
-/

namespace Verif.Identity

/-- No two types of an assembly that are not nested in others — and no two arrays of them — have the same identity:
namespaces, names, the number and the kinds of type parameters and the dimensions of arrays can all be told from
it.  Missing: nested types (`nested_refuted`). -/
theorem distinct_partial (assembly : Option (List Text)) (t u : Ty) (ht : WellNamedTy t) (hu : WellNamedTy u)
    (at' : TopLevel assembly t) (au : TopLevel assembly u) (h : identity t = identity u) : t = u :=
  top_inj assembly t u ht hu at' au h

/-- Nested types, too, can be told from each other if their namespaces have equally many parts. -/
theorem nested_partial (g k : General) (w : WellNamed g) (v : WellNamed k) (ha : g.assembly = k.assembly)
    (hd : depth g.namespace_ = depth k.namespace_) (h : identity (.general g) = identity (.general k)) : g = k :=
  general_inj w v ha hd h

/-- `System.Delegate<,...>`, and a `Map<?K, ?V>.Entry<>` in the namespace `N.M`. -/
def delegateType : General := ⟨some coreAssembly, none, [], "Delegate".toList, [false, true]⟩
def entryType : General :=
  ⟨some ["App".toList], some ["N".toList, "M".toList], [⟨"Map".toList, [("K".toList, false), ("V".toList, false)]⟩],
    "Entry".toList, [false]⟩

instance (s : Text) : Decidable (Identifier s) := by unfold Identifier; infer_instance

theorem delegate_named : WellNamed delegateType where
  assembly := by intro p h; cases h; decide
  namespace_ := by intro p h; cases h
  hosts := by intro h hh; cases hh
  name := by decide

/-- Non-vacuity: what the identities look like; names with all kinds of parts meet the hypotheses. -/
example : identity (.general delegateType) = "System.Delegate<,...>".toList ∧
    identity (.array (.array (.general delegateType) 1) 3) = "System.Delegate<,...>[][,,]".toList ∧
    identity (.general entryType) = "App.N.M.Map<?K, ?V>.Entry<>".toList := by decide

example : WellNamedTy (.array (.general delegateType) 3) ∧ TopLevel (some coreAssembly) (.array (.general delegateType) 3) :=
  ⟨⟨delegate_named, by decide⟩, rfl, rfl⟩

example : WellNamed entryType where
  assembly := by intro p h; cases h; decide
  namespace_ := by intro p h; cases h; decide
  hosts := by
    intro h hh
    cases hh with
    | head => decide
    | tail _ h => cases h
  name := by decide

/-- Not so in general: a type `C` of the namespace `A.B` and the type `C` in the type `B` of the namespace `A` have
the same identity. -/
theorem nested_refuted : ∃ g k : General, WellNamed g ∧ WellNamed k ∧ g.assembly = k.assembly ∧ g ≠ k ∧
    identity (.general g) = identity (.general k) := by
  refine ⟨⟨some coreAssembly, some [['A'], ['B']], [], ['C'], []⟩,
    ⟨some coreAssembly, some [['A']], [⟨['B'], []⟩], ['C'], []⟩, ?_, ?_, rfl, by decide, by decide⟩
  · exact ⟨by intro p h; cases h; decide, by intro p h; cases h; decide, (by intro h hh; cases hh), by decide⟩
  · refine ⟨by intro p h; cases h; decide, by intro p h; cases h; decide, ?_, by decide⟩
    intro h hh
    cases hh with
    | head => decide
    | tail _ h => cases h

/-- Whatever types have been declared, in whatever order: each type of the core library that is not nested is found
under its identity — and stays what it was found to be, whatever is declared later. -/
theorem core_found_partial (ts : List Ty) (g : General) (hg : Ty.general g ∈ ts)
    (core : g.assembly = some coreAssembly)
    (named : ∀ t ∈ ts, WellNamedTy t)
    (top : ∀ k, Ty.general k ∈ ts → k.hosts = []) (later : List Ty) :
    getSpecified (ts.foldl append []) (identity (.general g)) none = some g ∧
      getSpecified (later.foldl append (ts.foldl append [])) (identity (.general g)) (some g) = some g := by
  refine ⟨?_, rfl⟩
  obtain ⟨k, hk⟩ := append_has _ g rfl core ts [] hg
  rcases append_from _ ts [] k hk with h | ⟨hm, hc⟩
  · simp at h
  · have hi := append_lookup _ ts [] (fun _ h => by simp at h) k hk
    have := top_inj (some coreAssembly) (.general k) (.general g) (named _ hm) (named _ hg) ⟨hc, top k hm⟩
      ⟨core, top g hg⟩ hi
    cases this
    exact hk

/-- Non-vacuity: `Array` and `Array<>` are found, each under its own name, with a type of a program between them. -/
def arrayType : General := ⟨some coreAssembly, none, [], "Array".toList, []⟩
def tArrayType : General := ⟨some coreAssembly, none, [], "Array".toList, [false]⟩

example : getSpecified ([Ty.general arrayType, Ty.general entryType, Ty.general tArrayType].foldl append [])
      "System.Array<>".toList none = some tArrayType ∧
    getSpecified ([Ty.general arrayType, Ty.general entryType, Ty.general tArrayType].foldl append [])
      "System.Array".toList none = some arrayType := by decide

/-- What is found under a name is a type of the core library that has been declared and whose identity it is: other
assemblies cannot put their types in place of those of the core library. -/
theorem core_only (ts : List Ty) (name : Text) (g : General)
    (h : getSpecified (ts.foldl append []) name none = some g) :
    Ty.general g ∈ ts ∧ g.assembly = some coreAssembly ∧ identity (.general g) = name := by
  have hi := append_lookup name ts [] (fun _ h => by simp at h) g h
  rcases append_from name ts [] g h with h | ⟨hm, hc⟩
  · simp at h
  · exact ⟨hm, hc, hi⟩

example : getSpecified ([Ty.general { arrayType with assembly := some [['X']] }].foldl append [])
    "System.Array".toList none = none := by decide

end Verif.Identity
