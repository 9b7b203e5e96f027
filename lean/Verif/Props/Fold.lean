import Verif.Model.Fold
import Verif.Spec.Fold
import Verif.Proof.Fold

/-!
Operators on typed values: the result-type table, constant folding, and its agreement with execution.
-/

namespace Verif.Fold.Props

open Verif.Fold Spec

/-! ## C12: folding integer arithmetic

Disagreements of the code with the property: a `uint32` with a signed type of at most 32 bits is computed modulo 2^32 although
the table says `int64`; division by zero (and signed overflow) is executed inside the compiler; shifts are not folded. -/

/-- C12.  A folded arithmetic or bitwise operator on two integer constants has the type of the table, and its value is the
operator applied to the operands converted to that type — for every pair of integer types but `uint32` with `int8`, `int16`
or `int32`.  `_partial`: those pairs violate the property (`fold_mixed`, `fold_mixed_refuted`). -/
theorem fold_arith_partial (op : Arith) (a b c : Const) (ia : a.ty.isInt = true) (ib : b.ty.isInt = true)
    (hm : ¬ Mixed a.ty b.ty) (h : foldBinary (.arith op) a b = some (.ok c)) :
    resultOf (.arith op) a.ty b.ty = some c.ty ∧
      ∃ x y, Wrapped c.ty a.v x ∧ Wrapped c.ty b.v y ∧ Result c.ty x y c.v op := by
  by_cases hs : op ≠ .shl ∧ op ≠ .shr
  · rw [fold_int op a b ia ib hs] at h
    have hi := (common_num a.ty b.ty).1
    have hn := num_of_isInt hi
    simp only [hm, if_false] at h
    cases he : evalArith (common a.ty b.ty) (conv (common a.ty b.ty) a.v) (conv (common a.ty b.ty) b.v) op with
    | none => rw [he] at h; cases h
    | some x =>
      rw [he] at h
      have hres := evalArith_result hi (conv_wrapped hn a.v).1 hs he
      have hv := result_value hres
      dsimp only at h
      rw [conv_id hn hv] at h
      cases h
      refine ⟨?_, _, _, conv_wrapped hn a.v, conv_wrapped hn b.v, hres⟩
      rw [resultOf_int _ ia ib]
      simpa [hm] using table_common _ _ ia ib
  · exfalso
    have : op = .shl ∨ op = .shr := by
      cases op <;> simp at hs ⊢
    rcases this with rfl | rfl <;> cases h

/-- Sums, differences and products are exact whenever the exact value fits in the result type. -/
theorem fold_exact_partial (op : Arith) (a b c : Const) (ia : a.ty.isInt = true) (ib : b.ty.isInt = true)
    (hm : ¬ Mixed a.ty b.ty) (h : foldBinary (.arith op) a b = some (.ok c)) :
    (op = .add → Value c.ty (a.v + b.v) → c.v = a.v + b.v) ∧
      (op = .sub → Value c.ty (a.v - b.v) → c.v = a.v - b.v) ∧
      (op = .mul → Value c.ty (a.v * b.v) → c.v = a.v * b.v) := by
  obtain ⟨ht, x, y, hx, hy, hr⟩ := fold_arith_partial op a b c ia ib hm h
  have hn : c.ty.num = true := by
    rw [resultOf_int _ ia ib, table_common _ _ ia ib] at ht
    simp only [hm, if_false, Option.some.injEq] at ht
    rw [← ht]; exact num_of_isInt (common_num _ _).1
  refine ⟨?_, ?_, ?_⟩
  · rintro rfl hv
    refine wrapped_unique hn ⟨hr.1, ?_⟩ (wrapped_self hv)
    obtain ⟨p, hp⟩ := hx.2; obtain ⟨q, hq⟩ := hy.2; obtain ⟨r, hr⟩ := hr.2
    exact ⟨p + q + r, by rw [Int.mul_add, Int.mul_add]; omega⟩
  · rintro rfl hv
    refine wrapped_unique hn ⟨hr.1, ?_⟩ (wrapped_self hv)
    obtain ⟨p, hp⟩ := hx.2; obtain ⟨q, hq⟩ := hy.2; obtain ⟨r, hr⟩ := hr.2
    exact ⟨p - q + r, by rw [Int.mul_add, Int.mul_sub]; omega⟩
  · rintro rfl hv
    refine wrapped_unique hn ⟨hr.1, ?_⟩ (wrapped_self hv)
    obtain ⟨p, hp⟩ := mul_congr hx.2 hy.2; obtain ⟨r, hr⟩ := hr.2
    exact ⟨p + r, by rw [Int.mul_add]; omega⟩

/-- Folding is undefined behaviour of the compiler exactly on division by zero and when the exact value (for `%`: the
quotient) does not fit in a signed type; here for operands that are values of the result type. -/
theorem fold_ub_iff (op : Arith) (a b : Const) (t : VT) (ia : a.ty.isInt = true) (ib : b.ty.isInt = true)
    (hs : op ≠ .shl ∧ op ≠ .shr) (hm : ¬ Mixed a.ty b.ty) (ht : resultOf (.arith op) a.ty b.ty = some t)
    (ha : Value t a.v) (hb : Value t b.v) :
    foldBinary (.arith op) a b = some .ub ↔
      exact op a.v b.v = none ∨ (t.signed = true ∧ ∃ e, exact op a.v b.v = some e ∧ ¬ Value t e) := by
  rw [resultOf_int _ ia ib, table_common _ _ ia ib] at ht
  simp only [hm, if_false, Option.some.injEq] at ht
  subst ht
  have hi := (common_num a.ty b.ty).1
  rw [fold_int op a b ia ib hs, conv_id (num_of_isInt hi) ha, conv_id (num_of_isInt hi) hb, ← evalArith_none hi _ _ _ hs]
  cases evalArith (common a.ty b.ty) a.v b.v op <;> simp

/-- Otherwise, and for the other operators, the compiler folds; only shifts are left to run time. -/
theorem fold_defined (op : Arith) (a b : Const) (ia : a.ty.isInt = true) (ib : b.ty.isInt = true) :
    (foldBinary (.arith op) a b = none ↔ op = .shl ∨ op = .shr) ∧
      (op ≠ .shl ∧ op ≠ .shr → foldBinary (.arith op) a b = some .ub ∨ ∃ c, foldBinary (.arith op) a b = some (.ok c)) := by
  refine ⟨by cases op <;> simp [foldBinary, regions], fun hs => ?_⟩
  rw [fold_int op a b ia ib hs]
  cases evalArith (common a.ty b.ty) (conv (common a.ty b.ty) a.v) (conv (common a.ty b.ty) b.v) op with
  | none => exact .inl rfl
  | some x => exact .inr ⟨_, rfl⟩

/-- `uint32` with a narrower-or-equal signed type: the declared result type is `int64`, but a folded sum, difference or product
is the exact value reduced modulo 2^32. -/
theorem fold_mixed (a b : Const) (hm : Mixed a.ty b.ty) :
    resultOf (.arith .add) a.ty b.ty = some .int64 ∧
      foldBinary (.arith .add) a b = some (.ok ⟨.int64, (a.v + b.v) % 4294967296⟩) ∧
      foldBinary (.arith .sub) a b = some (.ok ⟨.int64, (a.v - b.v) % 4294967296⟩) ∧
      foldBinary (.arith .mul) a b = some (.ok ⟨.int64, (a.v * b.v) % 4294967296⟩) := by
  obtain ⟨hc, ia, ib⟩ := mixed_common _ _ hm
  have hk : ∀ v : Int, conv .uint32 v = v % 4294967296 := fun v => rfl
  have h64 : ∀ v : Int, conv .int64 (v % 4294967296) = v % 4294967296 := fun v =>
    conv_id (by decide) (by simp only [Value, lo, hi]; omega)
  have ho : ∀ v : Int, overflow .uint32 v = some (v % 4294967296) := fun v => rfl
  refine ⟨?_, ?_, ?_, ?_⟩
  · rw [resultOf_int _ ia ib, table_common _ _ ia ib]; simp [hm]
  · rw [fold_int _ a b ia ib (by decide), hc]
    simp only [hm, if_true, hk, evalArith, ho, h64, ← Int.add_emod]
  · rw [fold_int _ a b ia ib (by decide), hc]
    simp only [hm, if_true, hk, evalArith, ho, h64, ← Int.sub_emod]
  · rw [fold_int _ a b ia ib (by decide), hc]
    simp only [hm, if_true, hk, evalArith, ho, h64, ← Int.mul_emod]

/-- The property fails there: `-1 + 0u` is declared `long` and folds to 4294967295. -/
theorem fold_mixed_refuted : ∃ a b c : Const, Valid a ∧ Valid b ∧ a.ty.isInt = true ∧ b.ty.isInt = true ∧
    foldBinary (.arith .add) a b = some (.ok c) ∧ resultOf (.arith .add) a.ty b.ty = some c.ty ∧
    Value c.ty (a.v + b.v) ∧ c.v ≠ a.v + b.v :=
  ⟨⟨.int32, -1⟩, ⟨.uint32, 0⟩, ⟨.int64, 4294967295⟩, by simp [Valid, Value, lo, hi], by simp [Valid, Value, lo, hi], rfl, rfl,
    by decide +kernel, by decide +kernel, by simp [Value, lo, hi], by decide⟩

/-- Folding a division or remainder by a literal zero, and an overflowing signed sum, is undefined behaviour inside the
compiler. -/
theorem fold_div_zero_refuted (a b : Const) (ia : a.ty.isInt = true) (ib : b.ty.isInt = true) (hb : b.v = 0) :
    foldBinary (.arith .div) a b = some .ub ∧ foldBinary (.arith .mod) a b = some .ub := by
  have hz : conv (common a.ty b.ty) b.v = 0 := by
    rw [hb]; exact conv_id (num_of_isInt (common_num _ _).1) (by
      rcases (common_num a.ty b.ty).2.2 with h | h | h | h <;> rw [h] <;> simp [Value, lo, hi])
  rw [fold_int _ a b ia ib (by decide), fold_int _ a b ia ib (by decide), hz]
  simp [evalArith]

/-- The right operand being `char` makes the compiler fold `1 + 'a'` to the `int` 0 and `1 - 'a'` likewise, for all values. -/
theorem fold_int_char_refuted (a b : Const) (ia : a.ty.isInt = true) (ib : b.ty = .char) :
    foldBinary (.arith .add) a b = some (.ok ⟨.int32, 0⟩) ∧ foldBinary (.arith .sub) a b = some (.ok ⟨.int32, 0⟩) := by
  obtain ⟨ta, va⟩ := a
  obtain ⟨tb, vb⟩ := b
  simp only at ia ib
  subst ib
  cases ta <;> simp [VT.isInt] at ia <;> exact ⟨rfl, rfl⟩

/-- A character plus or minus an integer (not `uint32` or `uint64`) is folded to the character that many places on, fitted
into a 32-bit character. -/
theorem fold_char_int (a b c : Const) (ia : a.ty = .char)
    (hb : b.ty = .int8 ∨ b.ty = .uint8 ∨ b.ty = .int16 ∨ b.ty = .uint16 ∨ b.ty = .int32 ∨ b.ty = .int64)
    (va : Valid a) (vb : Valid b) :
    (foldBinary (.arith .add) a b = some (.ok c) → c.ty = .char ∧ Wrapped .char (a.v + b.v) c.v) ∧
      (foldBinary (.arith .sub) a b = some (.ok c) → c.ty = .char ∧ Wrapped .char (a.v - b.v) c.v) := by
  obtain ⟨ta, x⟩ := a
  obtain ⟨tb, y⟩ := b
  simp only at ia hb
  subst ia
  have ib : tb.isInt = true := by rcases hb with rfl | rfl | rfl | rfl | rfl | rfl <;> rfl
  have cx : ∀ t : VT, (t = .int32 ∨ t = .int64) → conv t x = x := by
    rintro t (rfl | rfl) <;> exact conv_id (by decide) (by
      simp only [Valid, Value, lo, hi] at va ⊢; omega)
  have main : ∀ t, (t = .int32 ∨ t = .int64) → common .char tb = t → conv t y = y →
      resultOf (.arith .add) .char tb = some .char → resultOf (.arith .sub) .char tb = some .char →
      (foldBinary (.arith .add) ⟨.char, x⟩ ⟨tb, y⟩ = some (.ok c) → c.ty = .char ∧ Wrapped .char (x + y) c.v) ∧
      (foldBinary (.arith .sub) ⟨.char, x⟩ ⟨tb, y⟩ = some (.ok c) → c.ty = .char ∧ Wrapped .char (x - y) c.v) := by
    intro t ht hc hy r1 r2
    have hi1 : VT.isInt .char = false := rfl
    have hf1 : VT.isFloat .char = false := rfl
    have hfb : tb.isFloat = false := by cases tb <;> simp [VT.isInt] at ib <;> rfl
    constructor
    · intro h
      simp only [foldBinary, regions, Option.map_some, hi1, hf1, ib, hfb, binaryOperator, r1, cppBinary, cppArith, hc, cx t ht,
        hy, evalArith, charRegion] at h
      cases ho : overflow t (x + y) with
      | none => simp [ho] at h
      | some w =>
        have : w = x + y := by
          rcases ht with rfl | rfl <;> simp only [overflow, VT.signed, if_true] at ho <;> split at ho <;> cases ho <;> rfl
        subst this
        simp [ho] at h
        rw [← h]
        exact ⟨rfl, conv_wrapped (by decide) _⟩
    · intro h
      simp only [foldBinary, regions, Option.map_some, hi1, hf1, ib, hfb, binaryOperator, r2, cppBinary, cppArith, hc, cx t ht,
        hy, evalArith, charRegion] at h
      cases ho : overflow t (x - y) with
      | none => simp [ho] at h
      | some w =>
        have : w = x - y := by
          rcases ht with rfl | rfl <;> simp only [overflow, VT.signed, if_true] at ho <;> split at ho <;> cases ho <;> rfl
        subst this
        simp [ho] at h
        rw [← h]
        exact ⟨rfl, conv_wrapped (by decide) _⟩
  rcases hb with rfl | rfl | rfl | rfl | rfl | rfl
  all_goals first
    | exact main .int32 (.inl rfl) rfl (conv_id (by decide) (by simp only [Valid, Value, lo, hi] at vb ⊢; omega)) rfl rfl
    | exact main .int64 (.inr rfl) rfl (conv_id (by decide) (by simp only [Valid, Value, lo, hi] at vb ⊢; omega)) rfl rfl

example : foldBinary (.arith .mul) ⟨.int16, -300⟩ ⟨.uint8, 200⟩ = some (.ok ⟨.int32, -60000⟩) := by decide +kernel
example : ¬ Mixed .int16 .uint8 := by decide
example : foldBinary (.arith .sub) ⟨.uint32, 1⟩ ⟨.uint16, 2⟩ = some (.ok ⟨.uint32, 4294967295⟩) := by decide +kernel
example : foldBinary (.arith .div) ⟨.int64, -7⟩ ⟨.int8, 2⟩ = some (.ok ⟨.int64, -3⟩) := by decide +kernel
example : foldBinary (.arith .bitXor) ⟨.int32, -1⟩ ⟨.int8, 5⟩ = some (.ok ⟨.int32, -6⟩) := by decide +kernel
example : foldBinary (.arith .add) ⟨.int32, 2147483647⟩ ⟨.int32, 1⟩ = some .ub := by decide +kernel
example : foldBinary (.arith .add) ⟨.char, 97⟩ ⟨.int32, 2⟩ = some (.ok ⟨.char, 99⟩) := by decide +kernel

/-! ## C13: folding comparisons

The property fails for a negative operand compared in an unsigned type, as in C++. -/

/-- C13.  A folded comparison is the comparison of the mathematical values whenever both operands are values of the type the
comparison is made in.  `_partial`: see `fold_cmp_refuted` for the other case. -/
theorem fold_cmp_partial (c : Cmp) (a b : Const) (ia : a.ty.isInt = true) (ib : b.ty.isInt = true)
    (va : Valid a) (vb : Valid b)
    (h : (common a.ty b.ty).signed = true ∨ (0 ≤ a.v ∧ 0 ≤ b.v)) :
    ∃ r : Int, foldBinary (.cmp c) a b = some (.ok ⟨.bool, r⟩) ∧ (Holds c a.v b.v → r = 1) ∧ (¬ Holds c a.v b.v → r = 0) := by
  have hn := num_of_isInt (common_num a.ty b.ty).1
  have n1 := num_of_isInt ia
  have n2 := num_of_isInt ib
  have ha : conv (common a.ty b.ty) a.v = a.v := by
    rcases h with h | ⟨h, _⟩
    · exact conv_id hn ((common_signed_value n1 n2 h).1 _ va)
    · exact conv_id hn ((common_nonneg_value n1 n2).1 _ h va)
  have hb : conv (common a.ty b.ty) b.v = b.v := by
    rcases h with h | ⟨_, h⟩
    · exact conv_id hn ((common_signed_value n1 n2 h).2 _ vb)
    · exact conv_id hn ((common_nonneg_value n1 n2).2 _ h vb)
  have hr : resultOf (.cmp c) a.ty b.ty = some .bool := resultOf_int (.cmp c) ia ib
  have hf : foldBinary (.cmp c) a b = some (.ok ⟨.bool, ofBool (cmpInt c a.v b.v)⟩) := by
    cases c <;> simp only [foldBinary, regions, Option.map_some, ia, ib, Bool.and_self, if_true, binaryOperator, hr, cppBinary,
      ha, hb, conv_ofBool]
  refine ⟨_, hf, fun hh => ?_, fun hh => ?_⟩
  · rw [(cmpInt_iff c a.v b.v).mpr hh]; rfl
  · have : cmpInt c a.v b.v = false := by
      cases he : cmpInt c a.v b.v with
      | true => exact absurd ((cmpInt_iff c a.v b.v).mp he) hh
      | false => rfl
    rw [this]; rfl

/-- The side condition in terms of types: comparisons of two signed types, or of two unsigned types, or of a signed type with
a narrower unsigned one, are always right. -/
theorem fold_cmp_types (a b : Const) (ia : a.ty.isInt = true) (ib : b.ty.isInt = true) (va : Valid a) (vb : Valid b)
    (h : a.ty.signed = b.ty.signed ∨ (a.ty.signed = true ∧ b.ty.bits < a.ty.bits) ∨
      (b.ty.signed = true ∧ a.ty.bits < b.ty.bits)) :
    (common a.ty b.ty).signed = true ∨ (0 ≤ a.v ∧ 0 ≤ b.v) := by
  obtain ⟨ta, x⟩ := a
  obtain ⟨tb, y⟩ := b
  simp only [Valid] at *
  cases ta <;> simp [VT.isInt] at ia <;> cases tb <;> simp [VT.isInt] at ib <;>
    first
      | exact .inl rfl
      | (exfalso; revert h; decide)
      | (refine .inr ⟨?_, ?_⟩ <;> simp only [Value, lo] at va vb <;> omega)

/-- A negative signed operand compared in an unsigned type is taken to be huge: `-1 < 1u` folds to false, and in general every
negative `int` compares greater than every `uint` up to 2^31. -/
theorem fold_cmp_refuted (x y : Int) (h1 : -2147483648 ≤ x) (h2 : x < 0) (h3 : 0 ≤ y) (h4 : y < 2147483648) :
    Holds .lt x y ∧ foldBinary (.cmp .lt) ⟨.int32, x⟩ ⟨.uint32, y⟩ = some (.ok ⟨.bool, 0⟩) ∧
      foldBinary (.cmp .gt) ⟨.int32, x⟩ ⟨.uint32, y⟩ = some (.ok ⟨.bool, 1⟩) := by
  have hx : conv .uint32 x = x + 4294967296 := by show x % 4294967296 = _; omega
  have hy : conv .uint32 y = y := by show y % 4294967296 = _; omega
  have hc : common .int32 .uint32 = .uint32 := rfl
  have hr : ∀ c, resultOf (.cmp c) .int32 .uint32 = some .bool := fun c => resultOf_int (.cmp c) rfl rfl
  refine ⟨by simp only [Holds]; omega, ?_, ?_⟩
  · have : cmpInt .lt (x + 4294967296) y = false := by simp [cmpInt]; omega
    simp only [foldBinary, regions, Option.map_some, VT.isInt, Bool.and_self, if_true, binaryOperator, hr, cppBinary, hc, hx,
      hy, this]
    rfl
  · have : cmpInt .gt (x + 4294967296) y = true := by simp [cmpInt]; omega
    simp only [foldBinary, regions, Option.map_some, VT.isInt, Bool.and_self, if_true, binaryOperator, hr, cppBinary, hc, hx,
      hy, this]
    rfl

/-- `!=` on characters is refused although `==` is folded; `1 < 'a'` and the like are refused too. -/
theorem fold_cmp_char (x y : Int) :
    foldBinary (.cmp .ne) ⟨.char, x⟩ ⟨.char, y⟩ = some .refused ∧
      foldBinary (.cmp .lt) ⟨.char, x⟩ ⟨.char, y⟩ = some .refused ∧
      foldBinary (.cmp .eq) ⟨.char, x⟩ ⟨.char, x⟩ = some (.ok ⟨.bool, 1⟩) := by
  refine ⟨rfl, rfl, ?_⟩
  have : cmpInt .eq (conv .int32 x) (conv .int32 x) = true := by simp [cmpInt]
  show some (binaryOperator (.cmp .eq) ⟨.char, x⟩ ⟨.char, x⟩) = _
  have hr : resultOf (.cmp .eq) .char .char = some .bool := by decide +kernel
  simp only [binaryOperator, hr, cppBinary]
  rw [show common .char .char = .int32 from rfl, this]
  rfl

example : foldBinary (.cmp .lt) ⟨.int8, -1⟩ ⟨.uint64, 5⟩ = some (.ok ⟨.bool, 0⟩) := by decide +kernel
example : foldBinary (.cmp .le) ⟨.int8, -1⟩ ⟨.int64, 5⟩ = some (.ok ⟨.bool, 1⟩) := by decide +kernel

/-! ## C14: folding increments

`--x` runs the operator of `x++`, and `x++` the one of `--x`. -/

/-- C14 for `++x` and `x--`: the incremented value, fitted into the type, and the old value; undefined only at the limit of a
type of 32 or 64 signed bits.  `_partial`: the other two are wrong (`fold_inc_dec_refuted`). -/
theorem fold_inc_partial (a : Const) (ia : a.ty.isInt = true) (va : Valid a) :
    (¬ ((a.ty = .int32 ∨ a.ty = .int64) ∧ a.v = hi a.ty) → ∃ v, foldUnary .preInc a = .ok ⟨a.ty, v⟩ ∧ Wrapped a.ty (a.v + 1) v) ∧
      (¬ ((a.ty = .int32 ∨ a.ty = .int64) ∧ a.v = lo a.ty) → foldUnary .postDec a = .ok a) := by
  obtain ⟨t, v⟩ := a
  simp only [Valid] at *
  have hn := num_of_isInt ia
  constructor
  · intro h
    obtain ⟨w, hw, hd⟩ := overflow_promote_inc ia va h
    refine ⟨conv t w, ?_, ?_⟩
    · simp only [foldUnary, ia, if_true, unaryOperator, executedOp, uresultOf_inc ia, cppUnary, hw, Option.map_some,
        conv_conv hn]
    · exact wrapped_trans hn hd
  · intro h
    obtain ⟨w, hw, _⟩ := overflow_promote_dec ia va h
    simp only [foldUnary, ia, if_true, unaryOperator, executedOp, uresultOf_inc ia, cppUnary, hw, Option.map_some,
      conv_id hn va]

/-- C14 is false for the other two: folding `--x` gives the old value, and folding `x++` gives the old value minus one. -/
theorem fold_inc_dec_refuted (a : Const) (ia : a.ty.isInt = true) (va : Valid a) :
    (¬ ((a.ty = .int32 ∨ a.ty = .int64) ∧ a.v = hi a.ty) → foldUnary .preDec a = .ok a) ∧
      (¬ ((a.ty = .int32 ∨ a.ty = .int64) ∧ a.v = lo a.ty) →
        ∃ v, foldUnary .postInc a = .ok ⟨a.ty, v⟩ ∧ Wrapped a.ty (a.v - 1) v ∧ v ≠ a.v) := by
  obtain ⟨t, v⟩ := a
  simp only [Valid] at *
  have hn := num_of_isInt ia
  constructor
  · intro h
    obtain ⟨w, hw, _⟩ := overflow_promote_inc ia va h
    simp only [foldUnary, ia, if_true, unaryOperator, executedOp, uresultOf_inc ia, cppUnary, hw, Option.map_some,
      conv_id hn va]
  · intro h
    obtain ⟨w, hw, hd⟩ := overflow_promote_dec ia va h
    have hwr := wrapped_trans hn hd
    refine ⟨conv t w, ?_, hwr, ?_⟩
    · simp only [foldUnary, ia, if_true, unaryOperator, executedOp, uresultOf_inc ia, cppUnary, hw, Option.map_some,
        conv_conv hn]
    · intro he
      rw [he] at hwr
      obtain ⟨_, p, hp⟩ := hwr
      cases t <;> simp [VT.isInt] at ia <;> simp only [lo, hi] at hp <;> omega

/-- At the limits the compiler runs into undefined behaviour. -/
theorem fold_inc_ub : foldUnary .preInc ⟨.int32, 2147483647⟩ = .ub ∧ foldUnary .preInc ⟨.int64, 9223372036854775807⟩ = .ub ∧
    foldUnary .postDec ⟨.int32, -2147483648⟩ = .ub := by decide +kernel

example : foldUnary .preInc ⟨.uint8, 255⟩ = .ok ⟨.uint8, 0⟩ := by decide +kernel
example : foldUnary .preDec ⟨.int32, 5⟩ = .ok ⟨.int32, 5⟩ := by decide +kernel
example : foldUnary .postInc ⟨.int32, 5⟩ = .ok ⟨.int32, 4⟩ := by decide +kernel

/-! ## C15: folding negation -/

/-- C15 for every type but `uint32` and `uint64`: the negated value, of a type that is wide enough, except that negating the
smallest `int` or `long` is undefined.  `_partial`: `fold_neg_refuted`. -/
theorem fold_neg_partial (a : Const) (ia : a.ty.isInt = true) (va : Valid a) (h32 : a.ty ≠ .uint32) (h64 : a.ty ≠ .uint64) :
    ∃ t, uresultOf .minus a.ty = some t ∧
      foldUnary .minus a = if Value t (-a.v) then .ok ⟨t, -a.v⟩ else .ub := by
  obtain ⟨t, v⟩ := a
  simp only [Valid] at *
  have key : ∀ r, (r = VT.int32 ∨ r = VT.int64) → promote t = r → uresultOf .minus t = some r →
      ∃ r, uresultOf .minus t = some r ∧ foldUnary .minus ⟨t, v⟩ = if Value r (-v) then .ok ⟨r, -v⟩ else .ub := by
    intro r hr hp hu
    have hn : r.num = true := by rcases hr with rfl | rfl <;> rfl
    have hsg : r.signed = true := by rcases hr with rfl | rfl <;> rfl
    refine ⟨r, hu, ?_⟩
    simp only [foldUnary, ia, if_true, unaryOperator, executedOp, hu, cppUnary, hp, overflow, hsg]
    by_cases hv : Value r (-v)
    · rw [(inRange_iff hn _).mpr hv, if_pos hv]
      simp [conv_id hn hv]
    · have : inRange r (-v) = false := by
        cases hh : inRange r (-v) with
        | true => exact absurd ((inRange_iff hn _).mp hh) hv
        | false => rfl
      rw [this, if_neg hv]; rfl
  cases t <;> simp [VT.isInt] at ia <;> first
    | exact absurd rfl h32
    | exact absurd rfl h64
    | exact key .int32 (.inl rfl) rfl rfl
    | exact key .int64 (.inr rfl) rfl rfl

/-- C15 is false for a `uint32`: the declared type is `long`, which can hold the negated value, but the constant is
2^32 minus it; and negating a `uint64` gives the `int` 0. -/
theorem fold_neg_refuted (v : Int) (h1 : 0 < v) (h2 : v ≤ 4294967295) :
    uresultOf .minus .uint32 = some .int64 ∧ Value .int64 (-v) ∧
      foldUnary .minus ⟨.uint32, v⟩ = .ok ⟨.int64, 4294967296 - v⟩ ∧ foldUnary .minus ⟨.uint64, v⟩ = .ok ⟨.int32, 0⟩ := by
  refine ⟨rfl, by simp only [Value, lo, hi]; omega, ?_, rfl⟩
  have hc : overflow .uint32 (-v) = some (4294967296 - v) := by
    show some ((-v) % 4294967296) = _
    congr 1; omega
  have h64 : conv .int64 (4294967296 - v) = 4294967296 - v := conv_id (by decide) (by simp only [Value, lo, hi]; omega)
  simp only [foldUnary, VT.isInt, if_true, unaryOperator, executedOp, uresultOf, cppUnary, promote, hc, h64]

/-- Complement is right for every type: all bits of the operand, extended to the result type, are flipped. -/
theorem fold_not (a : Const) (ia : a.ty.isInt = true) (va : Valid a) :
    ∃ t v, uresultOf .bitNot a.ty = some t ∧ foldUnary .bitNot a = .ok ⟨t, v⟩ ∧ Value t v ∧
      BitVec.ofInt t.bits v = ~~~ BitVec.ofInt t.bits a.v := by
  obtain ⟨t, v⟩ := a
  simp only [Valid] at *
  have hp : uresultOf .bitNot t = some (promote t) ∧ (promote t).num = true := by
    cases t <;> simp [VT.isInt] at ia <;> exact ⟨rfl, rfl⟩
  refine ⟨promote t, conv (promote t) (-v - 1), hp.1, ?_, (conv_wrapped hp.2 _).1, ?_⟩
  · simp only [foldUnary, ia, if_true, unaryOperator, hp.1, cppUnary, conv_conv hp.2]
  · rw [ofInt_conv hp.2]; exact ofInt_not _ _

example : foldUnary .minus ⟨.int8, -128⟩ = .ok ⟨.int32, 128⟩ := by decide +kernel
example : foldUnary .minus ⟨.int32, -2147483648⟩ = .ub := by decide +kernel
example : foldUnary .bitNot ⟨.uint8, 5⟩ = .ok ⟨.int32, -6⟩ := by decide +kernel

/-! ## C16: result types -/

/-- C16.  On integers every arithmetic or bitwise operator has a result type, at least 32 bits wide and the same for both
operand orders; comparisons give `bool` whenever they are defined. -/
theorem result_types (op : Arith) (t1 t2 : VT) (h1 : t1.isInt = true) (h2 : t2.isInt = true) :
    ∃ t, resultOf (.arith op) t1 t2 = some t ∧ resultOf (.arith op) t2 t1 = some t ∧ t.isInt = true ∧ 32 ≤ t.bits := by
  have e1 := table_common t1 t2 h1 h2
  have e2 := table_common t2 t1 h2 h1
  have hsym : (if Mixed t2 t1 then VT.int64 else common t2 t1) = (if Mixed t1 t2 then VT.int64 else common t1 t2) := by
    cases t1 <;> cases t2 <;> decide
  have hw : (if Mixed t1 t2 then VT.int64 else common t1 t2).isInt = true ∧
      32 ≤ (if Mixed t1 t2 then VT.int64 else common t1 t2).bits := by
    split
    · decide
    · exact ⟨(common_num t1 t2).1, (common_num t1 t2).2.1⟩
  refine ⟨_, ?_, ?_, hw⟩
  · rw [resultOf_int _ h1 h2]; exact e1
  · rw [resultOf_int _ h2 h1]
    show lookup intRows t2 t1 = _
    rw [e2, hsym]

/-- The result type holds every value of both operand types unless it is an unsigned type with a signed operand — that is,
except for `uint64` with a signed type. -/
theorem result_types_hold (op : Arith) (t1 t2 t : VT) (h1 : t1.isInt = true) (h2 : t2.isInt = true)
    (h : resultOf (.arith op) t1 t2 = some t) (v : Int) (hv : Value t1 v ∨ Value t2 v) :
    Value t v ∨ (t = .uint64 ∧ (t1.signed = true ∨ t2.signed = true)) := by
  rw [resultOf_int _ h1 h2] at h
  simp only [table_common t1 t2 h1 h2, Option.some.injEq] at h
  subst h
  cases t1 <;> simp [VT.isInt] at h1 <;> cases t2 <;> simp [VT.isInt] at h2 <;>
    first
      | exact .inr ⟨by decide, by decide⟩
      | (refine .inl ?_
         simp only [Mixed, common, promote, Value, lo, hi] at hv ⊢
         simp
         omega)

/-- Comparisons and logical operators give `bool`, compound assignments the type of the left operand, on all types. -/
theorem result_types_other (t1 t2 t : VT) :
    (∀ c, resultOf (.cmp c) t1 t2 = some t → t = .bool) ∧ (resultOf .logicAnd t1 t2 = some t → t = .bool) ∧
      (resultOf .logicOr t1 t2 = some t → t = .bool) ∧ (∀ a, resultOf (.assign a) t1 t2 = some t → t = t1) := by
  refine ⟨fun c h => ?_, fun h => ?_, fun h => ?_, fun a h => ?_⟩
  · cases c <;> simp only [resultOf, Option.map_eq_some_iff] at h <;> obtain ⟨_, _, rfl⟩ := h <;> rfl
  · revert h; cases t1 <;> cases t2 <;> cases t <;> decide
  · revert h; cases t1 <;> cases t2 <;> cases t <;> decide
  · cases a <;> simp only [resultOf, Option.map_eq_some_iff] at h <;> obtain ⟨_, _, rfl⟩ := h <;> rfl

/-- Operators on integers and floating-point numbers do not depend on operand order either, and comparison is defined for a
pair of types exactly when it is for the swapped pair. -/
theorem result_types_sym : ∀ t1 ∈ allVT, ∀ t2 ∈ allVT,
    (∀ a ∈ [Arith.mul, .div, .mod, .bitAnd, .bitOr, .bitXor, .shl, .shr],
      resultOf (.arith a) t1 t2 = resultOf (.arith a) t2 t1) ∧
    (∀ c ∈ [Cmp.gt, .ge, .lt, .le, .eq, .ne], resultOf (.cmp c) t1 t2 = resultOf (.cmp c) t2 t1) := by
  decide +kernel

/-- Addition does depend on the order when a character is involved: `'a' + 1` has a type and `1 + 'a'` has none. -/
theorem result_types_char_refuted :
    resultOf (.arith .add) .char .int32 = some .char ∧ resultOf (.arith .add) .int32 .char = none := by decide +kernel

/-- The type of a folded operator is the type of the table, for all types the table covers. -/
theorem fold_type (op : Op) (a b c : Const) (t : VT) (ht : resultOf op a.ty b.ty = some t)
    (h : foldBinary op a b = some (.ok c)) : c.ty = t := by
  have hb : ∀ o, o = binaryOperator op a b → o = .ok c → c.ty = t := by
    intro o ho h
    rw [ho] at h
    simp only [binaryOperator, ht] at h
    split at h <;> cases h
    rfl
  unfold foldBinary at h
  cases hr : regions op with
  | none => rw [hr] at h; cases h
  | some q =>
    obtain ⟨d, f, bo, ch⟩ := q
    rw [hr] at h
    simp only [Option.map_some, Option.some.injEq] at h
    split at h
    · exact hb _ rfl h
    · split at h
      · cases h
      · split at h
        · exact hb _ rfl h
        · split at h
          · exact hb _ rfl h
          · cases h

example : resultOf (.arith .add) .uint32 .int8 = some .int64 := by decide +kernel
example : resultOf (.cmp .lt) .char .uint8 = some .bool := by decide +kernel

/-! ## C61: folding agrees with execution -/

/-- C61.  For two integer operands, or two `bool` operands of a logical operator, a folded operator gives exactly what the
virtual machine would compute at run time, including undefinedness: whenever the compiler folds and the machine has an
instruction, the outcomes are equal.  `_partial`: see the two theorems below for operand types where one of them has no
answer. -/
theorem fold_agrees_partial (op : Op) (a b : Const) (o o' : Outcome) (h : foldBinary op a b = some o) (ho : o ≠ .refused)
    (h' : vmBinary op a b = some o') : o = o' := by
  rcases fold_cases h with hr | ⟨h1, hf⟩ | ⟨h1, h2, h3⟩
  · exact absurd hr ho
  · rcases vm_cases h' with ⟨h2, _⟩ | ⟨_, h2, h3⟩
    · rw [h1, h2]
    · rcases hf with hf | hf
      · rw [h2] at hf; cases hf
      · rw [h3] at hf; cases hf
  · rcases vm_cases h' with ⟨_, hf⟩ | ⟨h4, _⟩
    · rcases hf with hf | hf
      · rw [h2] at hf; cases hf
      · rw [h3] at hf; cases hf
    · rw [h1, h4]

/-- The machine executes every arithmetic, bitwise and comparison operator on integers. -/
theorem vm_total (a b : Const) (ia : a.ty.isInt = true) (ib : b.ty.isInt = true) :
    (∀ op, ∃ o, vmBinary (.arith op) a b = some o) ∧ (∀ c, ∃ o, vmBinary (.cmp c) a b = some o) ∧
      (∀ op, (op = .minus ∨ op = .positive ∨ op = .bitNot) → vmUnary op a = some (foldUnary op a)) := by
  refine ⟨fun op => ?_, fun c => ?_, fun op h => ?_⟩
  · cases op <;> simp [vmBinary, ia, ib]
  · cases c <;> simp [vmBinary, ia, ib]
  · rcases h with rfl | rfl | rfl <;> simp [vmUnary, foldUnary, ia, executedOp]

/-- What the compiler accepts and folds but the machine cannot run: `uint64` with a floating-point operand on the right,
arithmetic on characters, and increments. -/
theorem fold_agrees_refuted (x y : Int) :
    (foldBinary (.arith .add) ⟨.uint64, x⟩ ⟨.double, y⟩ = some (.float (some .double)) ∧
      vmBinary (.arith .add) ⟨.uint64, x⟩ ⟨.double, y⟩ = none) ∧
    (resultOf (.arith .add) .char .int32 = some .char ∧ vmBinary (.arith .add) ⟨.char, x⟩ ⟨.int32, y⟩ = none) ∧
    (uresultOf .preInc .int32 = some .int32 ∧ vmUnary .preInc ⟨.int32, x⟩ = none) := by
  have h1 : resultOf (.arith .add) .uint64 .double = some .double := by decide +kernel
  refine ⟨⟨?_, rfl⟩, ⟨by decide +kernel, rfl⟩, rfl, rfl⟩
  simp [foldBinary, regions, VT.isInt, VT.isFloat, h1]

/-- Run-time shifts: the left operand shifted by the right one, in the promoted type of the left operand (then fitted into the
type of the table), undefined for negative or too large shift counts. -/
theorem vm_shift (a b c : Const) (ia : a.ty.isInt = true) (ib : b.ty.isInt = true) (va : Valid a)
    (hp : resultOf (.arith .shl) a.ty b.ty = some (promote a.ty)) :
    (vmBinary (.arith .shl) a b = some (.ok c) → c.ty = promote a.ty ∧ Result c.ty a.v b.v c.v .shl) ∧
      (vmBinary (.arith .shr) a b = some (.ok c) → c.ty = promote a.ty ∧ Result c.ty a.v b.v c.v .shr) ∧
      (vmBinary (.arith .shl) a b = some .ub ↔ b.v < 0 ∨ ((promote a.ty).bits : Int) ≤ b.v) := by
  have hp2 : resultOf (.arith .shr) a.ty b.ty = some (promote a.ty) := hp
  obtain ⟨ta, x⟩ := a
  obtain ⟨tb, y⟩ := b
  simp only [Valid] at *
  have hn : (promote ta).num = true ∧ ∀ v, Value ta v → Value (promote ta) v := by
    cases ta <;> simp [VT.isInt] at ia <;> refine ⟨rfl, fun v h => ?_⟩ <;> simp only [promote, Value, lo, hi] at h ⊢ <;> omega
  refine ⟨fun h => ?_, fun h => ?_, ?_⟩
  · simp only [vmBinary, ia, ib, Bool.and_self, if_true, Option.some.injEq, binaryOperator, hp, cppBinary, cppArith,
      evalArith] at h
    split at h
    · cases h
    · rename_i hs
      split at hs
      · cases hs
      · cases hs
        cases h
        refine ⟨rfl, by omega, ?_⟩
        simp only [conv_conv hn.1]
        exact conv_wrapped hn.1 _
  · simp only [vmBinary, ia, ib, Bool.and_self, if_true, Option.some.injEq, binaryOperator, hp2, cppBinary, cppArith,
      evalArith] at h
    split at h
    · cases h
    · rename_i hs
      split at hs
      · cases hs
      · cases hs
        cases h
        have hv := value_shr hn.1 (hn.2 x va) y.toNat
        refine ⟨rfl, by omega, ?_, ?_⟩
        · simp only [conv_id hn.1 hv]; exact hv
        · simp only [conv_id hn.1 hv]
  · simp only [vmBinary, ia, ib, Bool.and_self, if_true, Option.some.injEq, binaryOperator, hp, cppBinary, cppArith,
      evalArith]
    by_cases hs : y < 0 ∨ ((promote ta).bits : Int) ≤ y
    · simp [hs]
    · simp [hs]

example : vmBinary (.arith .shl) ⟨.int16, -3⟩ ⟨.uint8, 4⟩ = some (.ok ⟨.int32, -48⟩) := by decide +kernel
example : vmBinary (.arith .shr) ⟨.int32, -48⟩ ⟨.int32, 4⟩ = some (.ok ⟨.int32, -3⟩) := by decide +kernel

end Verif.Fold.Props
