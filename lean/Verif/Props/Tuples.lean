import Verif.Proof.Tuples
import Verif.Props.Fields

/-!
# The items of a tuple are the values it was made with
-/

namespace Verif.Tuples

open Verif.Fields

/-- A tuple is made of values: `Item1` is the first, `Item2` the second and so on, whatever the types are and however many
there are.  The values lie on the stack, each filled up to whole words.  `place` is anything.  Partial: not for items
that are structures, see `structure_item_refuted`; and what the tuple holds fits into 16 bits. -/
theorem item_partial {W : World} {sort : List Item → List Item} (hs : Sorts sort) {n d : Nat} {sb : Bool}
    {base : Option Nat} {args : List Nat} (hk : W.kind d = .obj sb base args) (hf : Fits W n d)
    {m : Bytes} {z : Nat} {st : Verif.Layout.Storage} (hz : sizeOf W sort n d = some (z, st)) (hm : roundUp z ≤ m.length)
    (words : List Bytes) (rest : Bytes) (hlen : words.length = args.length)
    (hw : ∀ (i t : Nat) (v : Bytes) (s : Nat) (sto : Verif.Layout.Storage), args[i]? = some t → words[i]? = some v →
      varSize W (sizeOf W sort n) t = some (s, sto) → v.length = roundUp s)
    {address : Nat → Nat} (hp : Placed address args.length) (intType : Nat) (place : Bytes) :
    ∃ m1, tupleSet W sort n m d (words.flatten ++ rest) = some m1 ∧
      ∀ (i t : Nat) (v : Bytes), args[i]? = some t → words[i]? = some v → isStruct W t = false →
        ∃ s sto, varSize W (sizeOf W sort n) t = some (s, sto) ∧
          readMember W sort n intType address d m1 place (itemName (i + 1)) = some (.value (v.take s)) := by
  obtain ⟨m1, h1, -, h3⟩ := tuple_items_partial hs hk hf hz hm words rest hlen hw
  refine ⟨m1, h1, ?_⟩
  intro i t v hi hv hns
  obtain ⟨s, sto, j1, j2⟩ := h3 i t v hi hv
  refine ⟨s, sto, j1, ?_⟩
  have hft : fieldType W d i = some t := by simp only [fieldType, hk, hi]
  simp only [getField, resolve, hft] at j2
  cases ho : fieldOffset W sort n d i with
  | none => simp [ho] at j2
  | some o =>
    simp only [ho, j1] at j2
    have hwd : width W t = s := width_of hns j1
    rw [itemName_eq, readMember_item hp hk hi ho (v := v.take s) (by rw [hwd]; exact j2), if_neg (by simp [hns])]

/-- The members of a tuple are `Count`, one item for each type argument, of that type, and the private fields: no others, such
as `Item0` or one more item than there are. -/
theorem members (intType : Nat) (args : List Nat) (n : Name) (x : Member) :
    findMember intType args n = some x ↔
      (∃ k t, args[k]? = some t ∧ n = itemName (k + 1) ∧
        x = .property ⟨n, t, "get_".toList ++ n⟩) ∨
      (∃ k, k < args.length ∧ n = fieldName (k + 1) ∧ x = .field k) ∨
      (n = "Count".toList ∧ x = .property ⟨n, intType, "get_Count".toList⟩) := by
  by_cases hf : ∃ k, k < args.length ∧ n = fieldName (k + 1)
  · obtain ⟨k, hk, rfl⟩ := hf
    have h1 : findMember intType args (fieldName (k + 1)) = some (.field k) := by
      have := find_field (k := 0) hk
      rw [Nat.zero_add] at this
      rw [fieldName_eq, findMember, this]
    rw [h1, Option.some.injEq]
    constructor
    · intro h
      exact .inr (.inl ⟨k, hk, rfl, h.symm⟩)
    · rintro (⟨j, t, -, h2, -⟩ | ⟨j, -, h2, h3⟩ | ⟨h2, -⟩)
      · rw [fieldName_eq, itemName_eq] at h2; simp [numbered] at h2
      · rw [fieldName_eq, fieldName_eq] at h2; rw [numbered_inj h2]; exact h3.symm
      · rw [fieldName_eq] at h2; simp [numbered] at h2
  have hn := find_field_none (ts := args) (n := n) (fun i hi e => hf ⟨i, hi, by rw [fieldName_eq]; exact e⟩)
  by_cases hi : ∃ k t, args[k]? = some t ∧ n = itemName (k + 1)
  · obtain ⟨k, t, hk, rfl⟩ := hi
    rw [itemName_eq, findMember_item hk, Option.some.injEq]
    constructor
    · intro h
      exact .inl ⟨k, t, hk, (itemName_eq k).symm, h.symm⟩
    · rintro (⟨j, u, h1, h2, h3⟩ | ⟨j, -, h2, h3⟩ | ⟨h2, -⟩)
      · rw [itemName_eq] at h2
        rw [← numbered_inj h2, hk] at h1
        cases h1
        exact h3.symm
      · rw [fieldName_eq] at h2; simp [numbered] at h2
      · simp [numbered] at h2
  · have hp := find_none (ts := args) (k := 0) (n := n) (fun i hl e =>
      hi ⟨i, _, List.getElem?_eq_getElem hl, by rw [itemName_eq, e, Nat.zero_add]⟩)
    rw [findMember, hn]
    simp only [List.find?_append, hp, Option.none_or]
    constructor
    · intro h
      refine .inr (.inr ?_)
      by_cases he : "Count".toList = n
      · subst he; exact ⟨rfl, by simpa [ownProperties] using h.symm⟩
      · simp only [ownProperties, List.find?_cons, he, decide_false, List.find?_nil, Option.map_none] at h
        cases h
    · rintro (⟨j, u, h1, h2, -⟩ | ⟨j, h1, h2, -⟩ | ⟨rfl, rfl⟩)
      · exact absurd ⟨j, u, h1, h2⟩ hi
      · exact absurd ⟨j, h1, h2⟩ hf
      · simp [ownProperties]

/-- Every method that the virtual machine makes is read as it was written. -/
theorem body_round_trip {cs : List RtCommand} (h : ∀ c ∈ cs, Small c) : (toBody cs).bind readAll = some cs := by
  obtain ⟨b, h1, h2⟩ := body_read h
  rw [h1]
  exact h2

/-! ## Refuted -/

/-- The tuple of the examples: a structure of 3 bytes, a `string`, a `byte`, a structure of 16 bytes and a `short`. -/
def words : List Bytes :=
  [[1, 2, 3, 91, 92, 93, 94, 95], [11, 12, 13, 14, 15, 16, 17, 18], [5, 91, 92, 93, 94, 95, 96, 97],
    [51, 52, 53, 54, 55, 56, 57, 58, 61, 62, 63, 64, 71, 99, 99, 99], [41, 42, 91, 92, 93, 94, 95, 96]]

/-- The tuple holds the structure, but reading the item leaves the place for it as it was, whatever that is: the method
ends as one that gives a structure back, but nothing has been copied. -/
theorem structure_item_refuted : ∃ m1, tupleSet demo insSort 4 (List.replicate 40 255) 8 words.flatten = some m1 ∧
    getField demo insSort 4 m1 8 [3] = some [51, 52, 53, 54, 55, 56, 57, 58, 61, 62, 63, 64, 71, 99, 99, 99] ∧
    ∀ place, readMember demo insSort 4 2 (fun k => 4096 + 48 * k) 8 m1 place (itemName 4) = some (.place place) := by
  refine ⟨[11, 12, 13, 14, 15, 16, 17, 18] ++ [5, 255, 41, 42] ++ [1, 2, 3, 91] ++
      [51, 52, 53, 54, 55, 56, 57, 58, 61, 62, 63, 64, 71, 99, 99, 99] ++ List.replicate 8 255, by decide +kernel,
      by decide +kernel, ?_⟩
  intro place
  rw [itemName_eq, readMember_item (args := [4, 10, 0, 5, 1]) (t := 5) (o := 16) (v := [51, 52, 53, 54, 55, 56, 57, 58])
    ⟨by decide, by decide⟩ rfl rfl (by decide +kernel) (by decide +kernel)]
  rfl

/-! ## Examples -/

/-- The hypotheses of `item_partial` hold of that tuple. -/
example : ∃ m1, tupleSet demo insSort 4 (List.replicate 40 255) 8 (words.flatten ++ []) = some m1 ∧
    readMember demo insSort 4 2 (fun k => 4096 + 48 * k) 8 m1 [] "Item2".toList =
      some (.value [11, 12, 13, 14, 15, 16, 17, 18]) ∧
    readMember demo insSort 4 2 (fun k => 4096 + 48 * k) 8 m1 [] "Item5".toList = some (.value [41, 42]) := by
  have h10 : varSize demo (Verif.Fields.sizeOf demo insSort 4) 10 = some (8, .ref) := by decide +kernel
  have h1 : varSize demo (Verif.Fields.sizeOf demo insSort 4) 1 = some (2, .value) := by decide +kernel
  obtain ⟨m1, h, h3⟩ := item_partial insSort_sorts (W := demo) (n := 4) (d := 8) rfl demo_fits.2
    (m := List.replicate 40 255) (z := 32) (st := .mixture) (by decide +kernel) (by decide) words [] rfl (by
      intro i t v s sto hi hv hs
      match i with
      | 0 => cases hi; cases hv; have : varSize demo (Verif.Fields.sizeOf demo insSort 4) 4 = some (3, .value) := by decide +kernel
             rw [this] at hs; cases hs; rfl
      | 1 => cases hi; cases hv; rw [h10] at hs; cases hs; rfl
      | 2 => cases hi; cases hv; have : varSize demo (Verif.Fields.sizeOf demo insSort 4) 0 = some (1, .value) := by decide +kernel
             rw [this] at hs; cases hs; rfl
      | 3 => cases hi; cases hv; have : varSize demo (Verif.Fields.sizeOf demo insSort 4) 5 = some (16, .mixture) := by decide +kernel
             rw [this] at hs; cases hs; rfl
      | 4 => cases hi; cases hv; rw [h1] at hs; cases hs; rfl
      | _ + 5 => cases hi)
    (address := fun k => 4096 + 48 * k) ⟨by decide, by decide⟩ 2 []
  refine ⟨m1, h, ?_, ?_⟩
  · obtain ⟨s, sto, k1, k2⟩ := h3 1 10 _ rfl rfl rfl
    rw [h10] at k1; cases k1
    exact k2
  · obtain ⟨s, sto, k1, k2⟩ := h3 4 1 _ rfl rfl rfl
    rw [h1] at k1; cases k1
    exact k2

/-- `Item3` of a tuple of three is its third type, there is no `Item4` and no `Item0`. -/
example : findMember 2 [7, 8, 9] "Item3".toList = some (.property ⟨"Item3".toList, 9, "get_Item3".toList⟩) ∧
    findMember 2 [7, 8, 9] "Item4".toList = none ∧ findMember 2 [7, 8, 9] "Item0".toList = none ∧
    findMember 2 [7, 8, 9] "__item1".toList = some (.field 0) := by decide +kernel

example : ∀ c ∈ [RtCommand.pushArgument 0, .pushField 140737488355327, .ret], Small c := by
  intro c hc
  simp only [List.mem_cons, List.not_mem_nil, or_false] at hc
  rcases hc with rfl | rfl | rfl <;> simp [Small]

end Verif.Tuples
