import Verif.Proof.Arr

/-!
# Arrays: properties
-/

namespace Verif.Arr.Props

open Verif.Arr

/-- What is created. -/
theorem newArray_eq (size : Nat) (ls : List Int) (h : Lengths ls) :
    newArray size ls = some ⟨ls.length, product ls, if ls.length = 1 then [] else cumsP ls.reverse 1,
      bytesFor size (ls.headD 0)⟩ := by
  obtain ⟨hne, hpos, hlt⟩ := h
  match ls, hne with
  | [n], _ => simp [newArray, product]
  | n :: m :: rest, _ =>
    have hr : ∀ l ∈ m :: rest, 1 ≤ l := fun x hx => hpos x (List.mem_cons_of_mem _ hx)
    have hm := multiply_ok (m :: rest) n hr (hpos n (by simp)) hlt
    have hc := cumulate_ok (n :: m :: rest).reverse 1 (fun x hx => hpos x (List.mem_reverse.mp hx)) (by omega)
      (by rw [product_reverse]; omega)
    rw [newArray]
    · rw [hm, hc]
      simp only [Option.bind_eq_bind, Option.bind_some, List.headD_cons]
      rw [if_neg (by simp)]
      rfl
    · simp

/-- **C45 (partial).**  The array has the number of dimensions and elements that were asked for, and reports the
length of each dimension. -/
theorem lengths_partial (size : Nat) (ls : List Int) (h : Lengths ls) :
    ∃ a, newArray size ls = some a ∧ a.dimension = ls.length ∧ a.total = product ls ∧
      ∀ k (hk : k < ls.length), lengthOf a k = some ls[k] := by
  refine ⟨_, newArray_eq size ls h, rfl, rfl, ?_⟩
  obtain ⟨hne, hpos, hlt⟩ := h
  intro k hk
  rw [lengthOf]
  simp only
  by_cases h1 : ls.length = 1
  · obtain ⟨n, rfl⟩ := List.length_eq_one_iff.mp h1
    simp only [List.length_cons, List.length_nil] at hk
    have : k = 0 := by omega
    subst this
    simp [product]
  · rw [if_neg (by omega), if_neg h1]
    have hget : ∀ j, j < ls.length → (cumsP ls.reverse 1)[j]? = some (product (ls.reverse.take (j + 1))) := by
      intro j hj
      rw [cumsP_get ls.reverse 1 j (by rw [List.length_reverse]; exact hj), Int.one_mul]
    by_cases hlast : k + 1 = ls.length
    · rw [if_pos (by omega), hget 0 (by omega)]
      have hl : ls.reverse = ls[k] :: (ls.reverse.drop 1) := by
        have : ls.reverse[0]'(by rw [List.length_reverse]; omega) = ls[k] := by
          rw [List.getElem_reverse]; congr 1; omega
        rw [← this]
        have hd := List.drop_eq_getElem_cons (l := ls.reverse) (i := 0) (by rw [List.length_reverse]; omega)
        rw [List.drop_zero] at hd
        exact hd
      rw [hl]
      simp [product]
    · rw [if_neg (by omega), if_neg (by omega)]
      have hi : ((ls.length : Int) - k - 1).toNat = ls.length - k - 1 := by omega
      rw [hi, hget _ (by omega), hget _ (by omega)]
      simp only [Option.bind_eq_bind, Option.bind_some]
      have hj : ls.length - k - 1 - 1 + 1 = ls.length - k - 1 := by omega
      rw [hj]
      have htake : ls.reverse.take (ls.length - k - 1 + 1) = ls.reverse.take (ls.length - k - 1) ++ [ls[k]] := by
        rw [List.take_succ_eq_append_getElem (by rw [List.length_reverse]; omega)]
        congr 2
        rw [List.getElem_reverse]; congr 1; omega
      have hp := product_pos (ls.reverse.take (ls.length - k - 1))
        (fun x hx => hpos x (List.mem_reverse.mp (List.mem_of_mem_take hx)))
      have hs : product [ls[k]] = ls[k] := by simp [product]
      rw [htake, product_append, hs, if_neg (by omega), Int.mul_tdiv_cancel_left _ (by omega)]
      have hk1 := hpos ls[k] (List.getElem_mem hk)
      refine int32_ok (by omega) ?_
      have hall : product ls = product (ls.reverse.take (ls.length - k - 1)) *
          (ls[k] * product (ls.reverse.drop (ls.length - k - 1 + 1))) := by
        rw [← product_reverse ls]
        have : ls.reverse = ls.reverse.take (ls.length - k - 1) ++ ([ls[k]] ++ ls.reverse.drop (ls.length - k - 1 + 1)) := by
          rw [← List.append_assoc, ← htake, List.take_append_drop]
        rw [this, product_append, product_append, hs]
        rw [← this]
      have hd := product_pos (ls.reverse.drop (ls.length - k - 1 + 1))
        (fun x hx => hpos x (List.mem_reverse.mp (List.mem_of_mem_drop hx)))
      have h2 : ls[k] ≤ ls[k] * product (ls.reverse.drop (ls.length - k - 1 + 1)) := by
        have := Int.mul_le_mul_of_nonneg_left hd (show 0 ≤ ls[k] by omega)
        rw [Int.mul_one] at this; exact this
      have h3 : ls[k] * product (ls.reverse.drop (ls.length - k - 1 + 1)) ≤ product ls := by
        rw [hall]
        have := Int.mul_le_mul_of_nonneg_right hp (show 0 ≤ ls[k] * product (ls.reverse.drop (ls.length - k - 1 + 1)) by omega)
        rw [Int.one_mul] at this; exact this
      omega

example : Lengths [2, 3, 5] := by
  refine ⟨by simp, by simp, by decide⟩
example : (newArray 4 [2, 3, 5]).map (fun a => (a.total, lengthOf a 0, lengthOf a 1, lengthOf a 2))
    = some (30, some 2, some 3, some 5) := by decide

/-- **C45 (partial).**  Every element is found at its place, row by row, and that is within the number of
elements; for up to 8 dimensions, and for more unless their number is 2 more than a multiple of 8. -/
theorem element_partial (size : Nat) (ls is : List Int) (a : Arr) (h : Lengths ls) (ha : newArray size ls = some a)
    (hv : Valid ls is) (hd : ls.length ≤ 8 ∨ ls.length % 8 ≠ 2) :
    checked a is.reverse = some (.element (rowMajor ls is)) ∧
      popElement a is.reverse = some (.element (rowMajor ls is)) ∧
      pickElement a is.reverse = some (.element (rowMajor ls is)) ∧
      0 ≤ rowMajor ls is ∧ rowMajor ls is < product ls := by
  rw [newArray_eq size ls h, Option.some.injEq] at ha
  obtain ⟨hne, hpos, hlt⟩ := h
  obtain ⟨hlen, hin⟩ := hv
  have hrm := rowMajor_place ls is hlen
  have hvz : VZ (ls.reverse.zip is.reverse) := by
    rw [← zip_reverse ls is hlen]
    intro p hp
    exact hin p (List.mem_reverse.mp hp)
  have hbound := place_bound _ hvz
  have hmap : (ls.reverse.zip is.reverse).map (·.1) = ls.reverse := by
    rw [List.map_fst_zip]; rw [List.length_reverse, List.length_reverse]; omega
  rw [hmap, product_reverse, ← hrm] at hbound
  have hnn : ∀ i ∈ is.reverse, 0 ≤ i := by
    intro i hi
    obtain ⟨l, hl⟩ := mem_zip_of_right ls is i hlen (List.mem_reverse.mp hi)
    exact (hin (l, i) hl).1
  have key : elementIndex a is.reverse = some (rowMajor ls is) := by
    have hdim : a.dimension = ls.length := by rw [← ha]
    have hcums : a.cums = if ls.length = 1 then [] else cumsP ls.reverse 1 := by rw [← ha]
    cases hir : is.reverse with
    | nil =>
      have : is.length = 0 := by rw [← List.length_reverse, hir]; rfl
      exact absurd (List.length_eq_zero_iff.mp (hlen.trans this)) hne
    | cons i rest =>
      cases hlr : ls.reverse with
      | nil => exact absurd (List.reverse_eq_nil_iff.mp hlr) hne
      | cons l lrest =>
        have hl2 : lrest.length = rest.length := by
          have h1 : ls.reverse.length = lrest.length + 1 := by rw [hlr]; rfl
          have h2 : is.reverse.length = rest.length + 1 := by rw [hir]; rfl
          rw [List.length_reverse] at h1 h2; omega
        have hl3 : ls.length = lrest.length + 1 := by
          have h1 : ls.reverse.length = lrest.length + 1 := by rw [hlr]; rfl
          rw [List.length_reverse] at h1; exact h1
        have hplace : rowMajor ls is = i + l * place (lrest.zip rest) := by
          rw [hrm, hlr, hir]; rfl
        rw [elementIndex, hdim]
        by_cases h1 : ls.length = 1
        · have e1 : lrest = [] := List.length_eq_zero_iff.mp (by omega)
          subst e1
          rw [if_pos (by omega), if_neg (by omega), hplace]
          simp [place]
        · rw [hcums, if_neg h1, hlr]
          have hsum := sumProd_cums l lrest rest 1 hl2
          rw [Int.one_mul] at hsum
          have hcn := cumsP_nonneg (l :: lrest) 1
            (fun x hx => hpos x (List.mem_reverse.mp (by rw [hlr]; exact hx))) (by omega)
          have hrn : ∀ x ∈ rest, 0 ≤ x := fun x hx => hnn x (by rw [hir]; exact List.mem_cons_of_mem _ hx)
          have hi0 : 0 ≤ i := hnn i (by rw [hir]; simp)
          have hs0 := sumProd_nonneg rest (cumsP (l :: lrest) 1) hrn hcn
          by_cases h8 : ls.length ≤ 8
          · rw [if_pos h8, if_pos (by omega)]
            have hn : ls.length - 1 = rest.length := by omega
            have hcl : rest.length ≤ (cumsP (l :: lrest) 1).length := by
              rw [cumsP_length, List.length_cons]; omega
            have hst : sumProd (rest.take rest.length) ((cumsP (l :: lrest) 1).take rest.length)
                = sumProd rest (cumsP (l :: lrest) 1) := by
              have := sumProd_split rest.length rest (cumsP (l :: lrest) 1) (Nat.le_refl _) hcl
              simp only [List.drop_length, sumProd] at this
              omega
            rw [hn, mulIndex_ok rest.length rest _ (Nat.le_refl _) hcl hrn hcn (by omega), hst]
            simp only [Option.bind_eq_bind, Option.bind_some]
            rw [hsum, ← hplace]
            exact int32_ok hbound.1 (by omega)
          · rw [if_neg h8]
            have hn : (ls.length : Int) - 1 = (rest.length : Nat) := by omega
            rw [hn, arrayIndex_ok (rest.length + 1) 0 rest (cumsP (l :: lrest) 1) (by omega)
              (by rw [cumsP_length, List.length_cons]; omega) (by omega) (by omega) hrn hcn (by omega)]
            simp only [Option.bind_eq_bind, Option.bind_some]
            rw [hsum, Int.zero_add, ← hplace]
            exact int32_ok hbound.1 (by omega)
  have htot : a.total = product ls := by rw [← ha]
  have hc : checked a is.reverse = some (.element (rowMajor ls is)) := by
    rw [checked, key]
    simp only [Option.bind_eq_bind, Option.bind_some, htot]
    rw [if_neg (by omega)]; rfl
  refine ⟨hc, ?_, ?_, hbound.1, hbound.2⟩
  · rw [popElement]
    split
    · exact hc
    · rw [key]; rfl
  · rw [pickElement, key]; rfl

/-- **C45.**  Different elements have different places. -/
theorem element_distinct (ls is js : List Int) (hi : Valid ls is) (hj : Valid ls js)
    (h : rowMajor ls is = rowMajor ls js) : is = js := by
  rw [rowMajor_place ls is hi.1, rowMajor_place ls js hj.1] at h
  have vi : VZ (ls.reverse.zip is.reverse) := by
    rw [← zip_reverse ls is hi.1]; intro p hp; exact hi.2 p (List.mem_reverse.mp hp)
  have vj : VZ (ls.reverse.zip js.reverse) := by
    rw [← zip_reverse ls js hj.1]; intro p hp; exact hj.2 p (List.mem_reverse.mp hp)
  have := place_inj ls.reverse is.reverse js.reverse (by simp [hi.1]) (by simp [hj.1]) vi vj h
  exact List.reverse_inj.mp this

/-- Elements of `width` bytes at different places do not overlap. -/
theorem element_disjoint (p q : Int) (width : Nat) (h : p ≠ q) :
    p * width + width ≤ q * width ∨ q * width + width ≤ p * width := by
  rcases Int.lt_or_gt_of_ne h with h | h
  · left
    have := Int.mul_le_mul_of_nonneg_right (show p + 1 ≤ q by omega) (show (0 : Int) ≤ width by omega)
    rw [Int.add_mul, Int.one_mul] at this; exact this
  · right
    have := Int.mul_le_mul_of_nonneg_right (show q + 1 ≤ p by omega) (show (0 : Int) ≤ width by omega)
    rw [Int.add_mul, Int.one_mul] at this; exact this

example : Valid [2, 3, 5] [1, 0, 4] ∧ rowMajor [2, 3, 5] [1, 0, 4] = 19 := by
  refine ⟨⟨rfl, ?_⟩, by decide⟩
  intro p hp
  simp at hp
  rcases hp with rfl | rfl | rfl <;> decide
example : ((newArray 4 [2, 3, 5]).bind (fun a => checked a [4, 0, 1])) = some (.element 19) := by decide

/-! ## The memory -/

theorem alignf_le (n : Nat) : n ≤ alignf n 8 := by rw [alignf]; omega

/-- **C45 (partial).**  With one dimension, every element that is not wider than the element size the array was
created with is within the memory of the array. -/
theorem inside_partial (size : Nat) (n i : Int) (width : Nat) (h : 1 ≤ n) (hn : n < 2 ^ 31)
    (hi : 0 ≤ i ∧ i < n) (hw : width ≤ unitAlign 1 size) :
    ∃ a, newArray size [n] = some a ∧ checked a [i] = some (.element i) ∧ i * width + width ≤ a.bytes := by
  refine ⟨⟨1, n, [], bytesFor size n⟩, rfl, ?_, ?_⟩
  · simp only [checked, elementIndex, Nat.reduceLeDiff, if_true, if_false]
    simp only [Option.bind_eq_bind, Option.bind_some]
    rw [if_neg (by omega)]; rfl
  · have hu : unitAlign 1 size ≤ 8 := by
      unfold unitAlign; split <;> simp [alignf]
    simp only [bytesFor]
    have hmul : n * (unitAlign 1 size : Nat) < 2 ^ 35 := by
      have h1 := Int.mul_le_mul (show n ≤ 2 ^ 31 by omega) (show ((unitAlign 1 size : Nat) : Int) ≤ 8 by omega)
        (by omega) (by omega)
      omega
    have hnn : 0 ≤ n * (unitAlign 1 size : Nat) := Int.mul_nonneg (by omega) (by omega)
    have hmod : (n * (unitAlign 1 size : Nat)) % 2 ^ 64 = n * (unitAlign 1 size : Nat) :=
      Int.emod_eq_of_lt hnn (by omega)
    rw [hmod]
    have hle := alignf_le (n * (unitAlign 1 size : Nat)).toNat
    have hub : alignf (n * (unitAlign 1 size : Nat)).toNat 8 < 2 ^ 64 := by
      rw [alignf]; omega
    rw [Nat.mod_eq_of_lt hub]
    have h1 : i * width + width ≤ n * (unitAlign 1 size : Nat) := by
      have h2 := Int.mul_le_mul (show i + 1 ≤ n by omega) (show (width : Int) ≤ (unitAlign 1 size : Nat) by omega)
        (by omega) (by omega)
      rw [Int.add_mul, Int.one_mul] at h2; exact h2
    omega

/-- **C45, partial.**  Elements of 1, 2, 4 and 8 bytes have as many bytes each (`inside_struct_refuted`: others do
not). -/
theorem element_size_partial (size : Nat) (h : size = 1 ∨ size = 2 ∨ size = 4 ∨ size = 8) :
    unitAlign 1 size = size := by
  rcases h with rfl | rfl | rfl | rfl <;> rfl

/-- **C45 (refuted).**  With two dimensions the memory is that of the first length: an `int` array of 2 × 3 has
8 bytes, and its last element is at 20. -/
theorem inside_refuted : ∃ a, newArray 4 [2, 3] = some a ∧ a.bytes = 8 ∧ Valid [2, 3] [1, 2] ∧
    checked a [2, 1] = some (.element 5) ∧ ¬ (5 * 4 + 4 ≤ a.bytes) := by
  refine ⟨⟨2, 6, [3, 6], 8⟩, by decide, by decide, ⟨rfl, ?_⟩, by decide, by decide⟩
  intro p hp
  simp at hp
  rcases hp with rfl | rfl <;> decide

/-- **C45 (refuted).**  An array of structures of 16 bytes has 8 bytes for each; an array of references to objects
of 4 bytes has 4 bytes for each reference. -/
theorem inside_struct_refuted :
    (newArray 16 [3]).map (·.bytes) = some 24 ∧ ¬ (2 * 16 + 16 ≤ 24) ∧
    (newArray 4 [4]).map (·.bytes) = some 16 ∧ ¬ (3 * 8 + 8 ≤ 16) := by decide

/-! ## Indices out of range -/

/-- An index past the end raises the exception, with one dimension. -/
theorem out_of_range_partial (size : Nat) (n i : Int) (h : n ≤ i) :
    ∃ a, newArray size [n] = some a ∧ checked a [i] = some .outOfRange ∧ popElement a [i] = some .outOfRange := by
  refine ⟨⟨1, n, [], bytesFor size n⟩, rfl, ?_, ?_⟩
  · simp [checked, elementIndex, h]
  · simp [popElement, checked, elementIndex, h]

/-- **C45 (refuted).**  A negative index is taken for an element, before the array. -/
theorem negative_refuted (size : Nat) (n i : Int) (hn : 0 ≤ n) (h : i < 0) :
    ∃ a, newArray size [n] = some a ∧ checked a [i] = some (.element i) := by
  refine ⟨⟨1, n, [], bytesFor size n⟩, rfl, ?_⟩
  have : ¬ n ≤ i := by omega
  simp [checked, elementIndex, this]

/-- **C45 (refuted).**  An index past its dimension is taken for an element of the next row. -/
theorem dimension_refuted : ∃ a, newArray 4 [2, 3] = some a ∧
    checked a [3, 0] = some (.element 3) ∧ checked a [0, 1] = some (.element 3) := by
  exact ⟨⟨2, 6, [3, 6], 8⟩, by decide, by decide, by decide⟩

/-- **C45 (refuted).**  The command for an assignment that is used as a value has no check. -/
theorem pick_refuted (size : Nat) (n i : Int) :
    ∃ a, newArray size [n] = some a ∧ pickElement a [i] = some (.element i) :=
  ⟨⟨1, n, [], bytesFor size n⟩, rfl, rfl⟩

/-- **C45 (refuted).**  With 10, 18, ... dimensions no element is found: the loop has no case for one dimension. -/
theorem dimensions_refuted (size : Nat) (ls stack : List Int) (a : Arr) (h : Lengths ls)
    (ha : newArray size ls = some a) (h8 : 8 < ls.length) (hd : ls.length % 8 = 2) :
    elementIndex a stack = none := by
  rw [newArray_eq size ls h, Option.some.injEq] at ha
  have hdim : a.dimension = ls.length := by rw [← ha]
  cases stack with
  | nil => rfl
  | cons i rest =>
    rw [elementIndex, hdim, if_neg (by omega), arrayIndex_bad _ _ _ _ _ (by omega)]
    rfl

example : Lengths (List.replicate 10 2) ∧ (List.replicate 10 (2 : Int)).length % 8 = 2 := by
  refine ⟨⟨by simp, by simp, by decide⟩, by simp⟩

/-- **C45 (refuted).**  The first length of an array with a length of 0 cannot be asked for: division by zero. -/
theorem zero_length_refuted : ∃ a, newArray 4 [3, 0] = some a ∧ lengthOf a 0 = none ∧ lengthOf a 1 = some 0 :=
  ⟨⟨2, 0, [0, 0], 16⟩, by decide, by decide, by decide⟩

end Verif.Arr.Props
