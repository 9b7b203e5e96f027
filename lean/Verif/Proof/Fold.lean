import Verif.Model.Fold
import Verif.Spec.Fold

namespace Verif.Fold

open Spec

/-- Types whose values are integers, other than `bool`. -/
def VT.num (t : VT) : Bool := t.isInt || t == .char

theorem num_of_isInt {t : VT} (h : t.isInt = true) : t.num = true := by simp [VT.num, h]

theorem bmod_bounds (v : Int) (m : Nat) (k : Int) (hk : (m : Int) = 2 * k) (hp : 0 < k) :
    (-k ≤ v.bmod m ∧ v.bmod m ≤ k - 1) ∧ (m : Int) ∣ v - v.bmod m := by
  have h1 := Int.emod_nonneg v (show (m : Int) ≠ 0 by omega)
  have h2 := Int.emod_lt_of_pos v (show (0 : Int) < m by omega)
  have h3 : (m : Int) ∣ v - v % m := ⟨v / m, by have := Int.mul_ediv_add_emod v m; omega⟩
  have e : (m + 1 : Int) / 2 = k := by omega
  unfold Int.bmod
  simp only [e]
  split
  · exact ⟨by omega, h3⟩
  · refine ⟨by omega, ?_⟩
    obtain ⟨q, hq⟩ := h3
    exact ⟨q + 1, by rw [Int.mul_add, Int.mul_one]; omega⟩

theorem emod_bounds (v : Int) (m : Nat) (hp : 0 < (m : Int)) :
    (0 ≤ v % (m : Int) ∧ v % (m : Int) ≤ m - 1) ∧ (m : Int) ∣ v - v % m := by
  have h1 := Int.emod_nonneg v (show (m : Int) ≠ 0 by omega)
  have h2 := Int.emod_lt_of_pos v hp
  exact ⟨by omega, ⟨v / m, by have := Int.mul_ediv_add_emod v m; omega⟩⟩

theorem conv_wrapped {t : VT} (ht : t.num = true) (v : Int) : Wrapped t v (conv t v) := by
  cases t <;> simp [VT.num, VT.isInt] at ht
  · exact bmod_bounds v 256 128 (by omega) (by omega)
  · exact emod_bounds v 256 (by omega)
  · exact bmod_bounds v 65536 32768 (by omega) (by omega)
  · exact emod_bounds v 65536 (by omega)
  · exact bmod_bounds v 4294967296 2147483648 (by omega) (by omega)
  · exact emod_bounds v 4294967296 (by omega)
  · exact bmod_bounds v 18446744073709551616 9223372036854775808 (by omega) (by omega)
  · exact emod_bounds v 18446744073709551616 (by omega)
  · exact bmod_bounds v 4294967296 2147483648 (by omega) (by omega)

theorem wrapped_unique {t : VT} {e v w : Int} (ht : t.num = true) (h1 : Wrapped t e v) (h2 : Wrapped t e w) : v = w := by
  obtain ⟨⟨a, b⟩, ⟨p, hp⟩⟩ := h1
  obtain ⟨⟨c, d⟩, ⟨q, hq⟩⟩ := h2
  cases t <;> simp [VT.num, VT.isInt] at ht <;> simp only [lo, hi] at * <;> omega

theorem wrapped_self {t : VT} {v : Int} (h : Value t v) : Wrapped t v v := ⟨h, ⟨0, by omega⟩⟩

theorem conv_id {t : VT} (ht : t.num = true) {v : Int} (h : Value t v) : conv t v = v := by
  exact wrapped_unique ht (conv_wrapped ht v) (wrapped_self h)

theorem and_decide_iff (a b v : Int) : (decide (a ≤ v) && decide (v < b)) = true ↔ a ≤ v ∧ v ≤ b - 1 := by
  rw [Bool.and_eq_true, decide_eq_true_eq, decide_eq_true_eq]; omega

theorem inRange_iff {t : VT} (ht : t.num = true) (v : Int) : inRange t v = true ↔ Value t v := by
  cases t <;> simp [VT.num, VT.isInt] at ht
  · exact and_decide_iff (-128) 128 v
  · exact and_decide_iff 0 256 v
  · exact and_decide_iff (-32768) 32768 v
  · exact and_decide_iff 0 65536 v
  · exact and_decide_iff (-2147483648) 2147483648 v
  · exact and_decide_iff 0 4294967296 v
  · exact and_decide_iff (-9223372036854775808) 9223372036854775808 v
  · exact and_decide_iff 0 18446744073709551616 v
  · exact and_decide_iff (-2147483648) 2147483648 v

theorem overflow_wrapped {t : VT} (ht : t.num = true) {v w : Int} (h : overflow t v = some w) : Wrapped t v w := by
  unfold overflow at h
  split at h
  · split at h
    · rename_i hr
      cases h
      exact ⟨(inRange_iff ht v).mp hr, ⟨0, by omega⟩⟩
    · cases h
  · cases h
    exact conv_wrapped ht v

theorem overflow_none {t : VT} (ht : t.num = true) (v : Int) :
    overflow t v = none ↔ t.signed = true ∧ ¬ Value t v := by
  unfold overflow
  rw [← inRange_iff ht]
  by_cases h : t.signed = true <;> by_cases h' : inRange t v = true <;> simp [h, h']

/-- The operand types for which the table's result type is not the type C++ computes in. -/
def Mixed (t1 t2 : VT) : Prop :=
  (t1 = .uint32 ∧ (t2 = .int8 ∨ t2 = .int16 ∨ t2 = .int32)) ∨ (t2 = .uint32 ∧ (t1 = .int8 ∨ t1 = .int16 ∨ t1 = .int32))

instance (t1 t2 : VT) : Decidable (Mixed t1 t2) := by unfold Mixed; infer_instance

theorem mem_allVT (t : VT) : t ∈ allVT := by cases t <;> decide

theorem table_common (t1 t2 : VT) (h1 : t1.isInt = true) (h2 : t2.isInt = true) :
    lookup intRows t1 t2 = some (if Mixed t1 t2 then .int64 else common t1 t2) := by
  have : ∀ t1 ∈ allVT, ∀ t2 ∈ allVT, t1.isInt = true → t2.isInt = true →
      lookup intRows t1 t2 = some (if Mixed t1 t2 then .int64 else common t1 t2) := by decide +kernel
  exact this t1 (mem_allVT t1) t2 (mem_allVT t2) h1 h2

theorem mixed_common (t1 t2 : VT) (h : Mixed t1 t2) : common t1 t2 = .uint32 ∧ t1.isInt = true ∧ t2.isInt = true := by
  rcases h with ⟨rfl, rfl | rfl | rfl⟩ | ⟨rfl, rfl | rfl | rfl⟩ <;> decide

/-- The integer rows come first and cover every pair of integer types, so they decide. -/
theorem lookup_append_int (rows : List (VT × VT × VT × Bool)) {t1 t2 : VT} (h1 : t1.isInt = true) (h2 : t2.isInt = true) :
    lookup (intRows ++ rows) t1 t2 = lookup intRows t1 t2 := by
  have h := table_common t1 t2 h1 h2
  have hs : lookup intRows t1 t2 = some (if Mixed t1 t2 then .int64 else common t1 t2) := h
  unfold lookup at hs ⊢
  rw [List.find?_append]
  cases hf : intRows.find? fun (_, a, b, both) => (a == t1 && b == t2) || (both && a == t2 && b == t1) with
  | none => rw [hf] at hs; cases hs
  | some r => rfl

theorem resultOf_int (op : Op) {t1 t2 : VT} (h1 : t1.isInt = true) (h2 : t2.isInt = true) :
    resultOf op t1 t2 = match op with
      | .arith _ => lookup intRows t1 t2
      | .assign _ => some t1
      | .cmp _ => some .bool
      | .logicAnd | .logicOr => none := by
  have ht := table_common t1 t2 h1 h2
  cases op with
  | arith a => cases a <;> simp only [resultOf, List.append_assoc, lookup_append_int _ h1 h2]
  | assign a => cases a <;> simp only [resultOf, List.append_assoc, lookup_append_int _ h1 h2, ht] <;> rfl
  | cmp c => cases c <;> simp only [resultOf, List.append_assoc, lookup_append_int _ h1 h2, ht] <;> rfl
  | logicAnd => cases t1 <;> simp [VT.isInt] at h1 <;> rfl
  | logicOr => cases t1 <;> simp [VT.isInt] at h1 <;> rfl

theorem common_num (t1 t2 : VT) : (common t1 t2).isInt = true ∧ 32 ≤ (common t1 t2).bits ∧
    (common t1 t2 = .int32 ∨ common t1 t2 = .uint32 ∨ common t1 t2 = .int64 ∨ common t1 t2 = .uint64) := by
  cases t1 <;> cases t2 <;> decide

/-- Values of the operand types are values of a signed common type. -/
theorem common_signed_value {t1 t2 : VT} (h1 : t1.num = true) (h2 : t2.num = true) (hs : (common t1 t2).signed = true) :
    (∀ v, Value t1 v → Value (common t1 t2) v) ∧ (∀ v, Value t2 v → Value (common t1 t2) v) := by
  cases t1 <;> simp [VT.num, VT.isInt] at h1 <;> cases t2 <;> simp [VT.num, VT.isInt] at h2 <;>
    first
      | (simp [common, promote, VT.signed] at hs; done)
      | (refine ⟨fun v h => ?_, fun v h => ?_⟩ <;> simp only [Value, common, promote, lo, hi] at h ⊢ <;> omega)

/-- Non-negative values of the operand types are values of the common type. -/
theorem common_nonneg_value {t1 t2 : VT} (h1 : t1.num = true) (h2 : t2.num = true) :
    (∀ v, 0 ≤ v → Value t1 v → Value (common t1 t2) v) ∧ (∀ v, 0 ≤ v → Value t2 v → Value (common t1 t2) v) := by
  cases t1 <;> simp [VT.num, VT.isInt] at h1 <;> cases t2 <;> simp [VT.num, VT.isInt] at h2 <;>
    (refine ⟨fun v h0 h => ?_, fun v h0 h => ?_⟩ <;> simp only [Value, common, promote, lo, hi] at h ⊢ <;> omega)

theorem conv_zero {t1 t2 : VT} (h1 : t1.num = true) (h2 : t2.num = true) {v : Int} (hv : Value t2 v) :
    conv (common t1 t2) v = 0 ↔ v = 0 := by
  have hn := num_of_isInt (common_num t1 t2).1
  constructor
  · intro h
    obtain ⟨_, p, hp⟩ := conv_wrapped hn v
    rw [h] at hp
    cases t1 <;> simp [VT.num, VT.isInt] at h1 <;> cases t2 <;> simp [VT.num, VT.isInt] at h2 <;>
      simp only [Value, common, promote, lo, hi] at hv hp <;> omega
  · rintro rfl
    exact conv_id hn (by
      rcases (common_num t1 t2).2.2 with h | h | h | h <;> rw [h] <;> simp [Value, lo, hi])

theorem value_tmod {t : VT} (ht : t.num = true) {x y : Int} (hx : Value t x) : Value t (x.tmod y) := by
  have key : (0 ≤ x → 0 ≤ x.tmod y ∧ x.tmod y ≤ x) ∧ (x ≤ 0 → x ≤ x.tmod y ∧ x.tmod y ≤ 0) := by
    have hb : ∀ z : Int, 0 ≤ z → 0 ≤ z.tmod y ∧ z.tmod y ≤ z := by
      intro z hz
      have h1 : 0 ≤ z.tmod y := Int.tmod_nonneg y hz
      have h2 := Int.natAbs_tmod z y
      have h3 := Nat.mod_le z.natAbs y.natAbs
      omega
    refine ⟨hb x, fun hx => ?_⟩
    have := hb (-x) (by omega)
    rw [Int.neg_tmod] at this
    omega
  cases t <;> simp [VT.num, VT.isInt] at ht <;> simp only [Value, lo, hi] at hx ⊢ <;> omega

theorem ofInt_bmod (n : Nat) (x : Int) : BitVec.ofInt n (x.bmod (2 ^ n)) = BitVec.ofInt n x := by
  apply BitVec.eq_of_toInt_eq
  rw [BitVec.toInt_ofInt, BitVec.toInt_ofInt, Int.bmod_bmod]

theorem ofInt_congr {n : Nat} {x y : Int} (h : ((2 ^ n : Nat) : Int) ∣ x - y) : BitVec.ofInt n x = BitVec.ofInt n y := by
  rw [← ofInt_bmod n x, ← ofInt_bmod n y]
  congr 1
  unfold Int.bmod
  rw [Int.emod_eq_emod_iff_emod_sub_eq_zero.mpr (Int.emod_eq_zero_of_dvd h)]

theorem span_eq {t : VT} (ht : t.num = true) : hi t - lo t + 1 = ((2 ^ t.bits : Nat) : Int) := by
  cases t <;> simp [VT.num, VT.isInt] at ht <;> rfl

theorem ofInt_conv {t : VT} (ht : t.num = true) (z : Int) : BitVec.ofInt t.bits (conv t z) = BitVec.ofInt t.bits z := by
  apply ofInt_congr
  have h := (conv_wrapped ht z).2
  rw [span_eq ht] at h
  obtain ⟨q, hq⟩ := h
  exact ⟨-q, by rw [Int.mul_neg]; omega⟩

theorem setWidth_ofInt {n : Nat} (hn : n ≤ 64) (x : Int) : (BitVec.ofInt 64 x).setWidth n = BitVec.ofInt n x := by
  have hd : ((2 ^ n : Nat) : Int) ∣ ((2 ^ 64 : Nat) : Int) := by
    exact Int.natCast_dvd_natCast.mpr (Nat.pow_dvd_pow 2 hn)
  apply BitVec.eq_of_toNat_eq
  rw [BitVec.toNat_setWidth, BitVec.toNat_ofInt, BitVec.toNat_ofInt]
  apply Int.ofNat_inj.mp
  have h1 := Int.emod_nonneg x (show ((2 ^ 64 : Nat) : Int) ≠ 0 by decide)
  have h2 := Int.emod_nonneg x (show ((2 ^ n : Nat) : Int) ≠ 0 by
    have := Nat.two_pow_pos n; omega)
  rw [Int.natCast_emod, Int.toNat_of_nonneg h1, Int.toNat_of_nonneg h2, Int.emod_emod_of_dvd x hd]

theorem ofInt_toInt64 {n : Nat} (hn : n ≤ 64) (w : BitVec 64) : BitVec.ofInt n w.toInt = w.setWidth n := by
  rw [← setWidth_ofInt hn, BitVec.ofInt_toInt]

theorem bits_le {t : VT} : t.bits ≤ 64 := by cases t <;> decide

/-- An operator that is not undefined gives the specified result. -/
theorem evalArith_result {t : VT} (ht : t.isInt = true) {x y v : Int} (hx : Value t x) {a : Arith}
    (hs : a ≠ .shl ∧ a ≠ .shr) (h : evalArith t x y a = some v) : Result t x y v a := by
  have hn := num_of_isInt ht
  cases a with
  | add => exact overflow_wrapped hn h
  | sub => exact overflow_wrapped hn h
  | mul => exact overflow_wrapped hn h
  | div =>
    simp only [evalArith] at h
    split at h
    · cases h
    · exact ⟨‹_›, overflow_wrapped hn h⟩
  | mod =>
    simp only [evalArith] at h
    split at h
    · cases h
    · refine ⟨‹_›, ?_⟩
      cases ho : overflow t (x.tdiv y) with
      | none => rw [ho] at h; cases h
      | some w =>
        rw [ho] at h; cases h
        exact wrapped_self (value_tmod hn hx)
  | bitAnd =>
    cases h
    refine ⟨(conv_wrapped hn _).1, ?_⟩
    rw [ofInt_conv hn, ofInt_toInt64 bits_le, BitVec.setWidth_and, setWidth_ofInt bits_le, setWidth_ofInt bits_le]
  | bitOr =>
    cases h
    refine ⟨(conv_wrapped hn _).1, ?_⟩
    rw [ofInt_conv hn, ofInt_toInt64 bits_le, BitVec.setWidth_or, setWidth_ofInt bits_le, setWidth_ofInt bits_le]
  | bitXor =>
    cases h
    refine ⟨(conv_wrapped hn _).1, ?_⟩
    rw [ofInt_conv hn, ofInt_toInt64 bits_le, BitVec.setWidth_xor, setWidth_ofInt bits_le, setWidth_ofInt bits_le]
  | shl => exact absurd rfl hs.1
  | shr => exact absurd rfl hs.2

theorem fold_int (op : Arith) (a b : Const) (ia : a.ty.isInt = true) (ib : b.ty.isInt = true) (hs : op ≠ .shl ∧ op ≠ .shr) :
    foldBinary (.arith op) a b = some
      (match evalArith (common a.ty b.ty) (conv (common a.ty b.ty) a.v) (conv (common a.ty b.ty) b.v) op with
      | none => .ub
      | some x =>
        .ok ⟨if Mixed a.ty b.ty then .int64 else common a.ty b.ty,
          conv (if Mixed a.ty b.ty then .int64 else common a.ty b.ty) x⟩) := by
  have hr : resultOf (.arith op) a.ty b.ty = some (if Mixed a.ty b.ty then .int64 else common a.ty b.ty) := by
    rw [resultOf_int _ ia ib]; exact table_common _ _ ia ib
  cases op <;> first
    | exact absurd rfl hs.1
    | exact absurd rfl hs.2
    | (simp only [foldBinary, regions, Option.map_some, ia, ib, Bool.and_self, if_true, binaryOperator, hr, cppBinary,
        cppArith] <;> rfl)

theorem mul_congr {m a b x y : Int} (h1 : m ∣ a - x) (h2 : m ∣ b - y) : m ∣ a * b - x * y := by
  obtain ⟨p, hp⟩ := h1
  obtain ⟨q, hq⟩ := h2
  refine ⟨a * q + p * y, ?_⟩
  have h1 : a = x + m * p := by omega
  have h2 : b = y + m * q := by omega
  subst h1 h2
  grind

/-- When an operator is undefined on two values of a type. -/
theorem evalArith_none {t : VT} (ht : t.isInt = true) (x y : Int) (a : Arith) (hs : a ≠ .shl ∧ a ≠ .shr) :
    evalArith t x y a = none ↔
      exact a x y = none ∨ (t.signed = true ∧ ∃ e, exact a x y = some e ∧ ¬ Value t e) := by
  have hn := num_of_isInt ht
  have hz : Value t 0 := by cases t <;> simp [VT.isInt] at ht <;> simp [Value, lo, hi]
  cases a with
  | add => simp [evalArith, exact, overflow_none hn]
  | sub => simp [evalArith, exact, overflow_none hn]
  | mul => simp [evalArith, exact, overflow_none hn]
  | div => by_cases hy : y = 0 <;> simp [evalArith, exact, overflow_none hn, hy]
  | mod => by_cases hy : y = 0 <;> simp [evalArith, exact, overflow_none hn, hy]
  | bitAnd => simp [evalArith, exact, hz]
  | bitOr => simp [evalArith, exact, hz]
  | bitXor => simp [evalArith, exact, hz]
  | shl => exact absurd rfl hs.1
  | shr => exact absurd rfl hs.2

theorem result_value {t : VT} {x y v : Int} {a : Arith} (h : Result t x y v a) : Value t v := by
  cases a <;> simp only [Result] at h
  · exact h.1
  · exact h.1
  · exact h.1
  · exact h.2.1
  · exact h.2.1
  · exact h.1
  · exact h.1
  · exact h.1
  · exact h.2.1
  · exact h.2.1

theorem conv_ofBool (b : Bool) : conv .bool (ofBool b) = ofBool b := by cases b <;> rfl

theorem cmpInt_iff (c : Cmp) (x y : Int) : cmpInt c x y = true ↔ Holds c x y := by
  cases c <;> simp [cmpInt, Holds]

theorem conv_conv {t : VT} (ht : t.num = true) (v : Int) : conv t (conv t v) = conv t v := conv_id ht (conv_wrapped ht v).1

theorem uresultOf_inc {t : VT} (ht : t.isInt = true) : uresultOf .preInc t = some t ∧ uresultOf .postInc t = some t ∧
    uresultOf .preDec t = some t ∧ uresultOf .postDec t = some t := by
  cases t <;> simp [VT.isInt] at ht <;> exact ⟨rfl, rfl, rfl, rfl⟩

theorem wrapped_trans {t : VT} (ht : t.num = true) {e w : Int} (h : (hi t - lo t + 1) ∣ e - w) : Wrapped t e (conv t w) := by
  obtain ⟨h1, q, hq⟩ := conv_wrapped ht w
  obtain ⟨p, hp⟩ := h
  exact ⟨h1, p + q, by rw [Int.mul_add]; omega⟩

theorem overflow_promote_inc {t : VT} (ht : t.isInt = true) {v : Int} (hv : Value t v)
    (h : ¬ ((t = .int32 ∨ t = .int64) ∧ v = hi t)) :
    ∃ w, overflow (promote t) (v + 1) = some w ∧ (hi t - lo t + 1) ∣ v + 1 - w := by
  have hn : (promote t).num = true := by cases t <;> simp [VT.isInt] at ht <;> rfl
  cases ho : overflow (promote t) (v + 1) with
  | none =>
    exfalso
    obtain ⟨hs, hr⟩ := (overflow_none hn _).mp ho
    apply hr
    cases t <;> simp [VT.isInt] at ht <;> first
      | (simp [promote, VT.signed] at hs; done)
      | (simp only [promote, Value, lo, hi] at *; simp at *; omega)
  | some w =>
    refine ⟨w, rfl, ?_⟩
    obtain ⟨-, p, hp⟩ := overflow_wrapped hn ho
    cases t <;> simp [VT.isInt] at ht <;> simp only [promote, lo, hi, Int.reduceSub, Int.reduceNeg, Int.reduceAdd] at * <;> omega

theorem overflow_promote_dec {t : VT} (ht : t.isInt = true) {v : Int} (hv : Value t v)
    (h : ¬ ((t = .int32 ∨ t = .int64) ∧ v = lo t)) :
    ∃ w, overflow (promote t) (v - 1) = some w ∧ (hi t - lo t + 1) ∣ v - 1 - w := by
  have hn : (promote t).num = true := by cases t <;> simp [VT.isInt] at ht <;> rfl
  cases ho : overflow (promote t) (v - 1) with
  | none =>
    exfalso
    obtain ⟨hs, hr⟩ := (overflow_none hn _).mp ho
    apply hr
    cases t <;> simp [VT.isInt] at ht <;> first
      | (simp [promote, VT.signed] at hs; done)
      | (simp only [promote, Value, lo, hi] at *; simp at *; omega)
  | some w =>
    refine ⟨w, rfl, ?_⟩
    obtain ⟨-, p, hp⟩ := overflow_wrapped hn ho
    cases t <;> simp [VT.isInt] at ht <;> simp only [promote, lo, hi, Int.reduceSub, Int.reduceNeg, Int.reduceAdd] at * <;> omega

theorem ofInt_not (n : Nat) (v : Int) : BitVec.ofInt n (-v - 1) = ~~~ BitVec.ofInt n v := by
  rw [BitVec.not_eq_neg_add, Int.sub_eq_add_neg, BitVec.ofInt_add, BitVec.ofInt_neg, BitVec.sub_eq_add_neg]
  congr 1
  rw [BitVec.ofInt_neg]; rfl

theorem value_shr {t : VT} (ht : t.num = true) {x : Int} (hx : Value t x) (n : Nat) : Value t (x / 2 ^ n) := by
  have hp : (0 : Int) < 2 ^ n := Int.pow_pos (by omega)
  have key : (0 ≤ x → 0 ≤ x / 2 ^ n ∧ x / 2 ^ n ≤ x) ∧ (x < 0 → x ≤ x / 2 ^ n ∧ x / 2 ^ n < 0) := by
    refine ⟨fun h => ⟨Int.ediv_nonneg h (by omega), Int.ediv_le_self _ h⟩, fun h => ⟨?_, Int.ediv_neg_of_neg_of_pos h hp⟩⟩
    rw [Int.le_ediv_iff_mul_le hp]
    have : x * 2 ^ n ≤ x * 1 := Int.mul_le_mul_of_nonpos_left (by omega) (by omega)
    omega
  cases t <;> simp [VT.num, VT.isInt] at ht <;> simp only [Value, lo, hi] at hx ⊢ <;> omega

theorem isInt_not_float {t : VT} (h : t.isInt = true) : t.isFloat = false := by cases t <;> simp [VT.isInt] at h <;> rfl

theorem charRegion_not_float {op : Op} {t1 t2 : VT} (h : charRegion op t1 t2 = true) :
    t1.isFloat = false ∧ t2.isFloat = false := by
  have key : (t1 == .char && t2 == .char) = true ∨ (t1 == .char && t2.isInt) = true ∨ (t1.isInt && t2 == .char) = true := by
    unfold charRegion at h
    split at h <;> (try simp only [Bool.or_eq_true] at h)
    · rcases h with (h | h) | h
      · exact .inl h
      · exact .inr (.inl h)
      · exact .inr (.inr h)
    · rcases h with (h | h) | h
      · exact .inl h
      · exact .inr (.inl h)
      · exact .inr (.inr h)
    · rcases h with (h | h) | h
      · exact .inl h
      · exact .inr (.inl h)
      · exact .inr (.inr h)
    all_goals first
      | (rcases h with h | h
         · exact .inr (.inl h)
         · exact .inr (.inr h))
      | cases h
  cases t1 <;> cases t2 <;> first | exact ⟨rfl, rfl⟩ | (revert key; decide)

/-- What a folded operator can be. -/
theorem fold_cases {op : Op} {a b : Const} {o : Outcome} (h : foldBinary op a b = some o) :
    o = .refused ∨ (o = .float (resultOf op a.ty b.ty) ∧ (a.ty.isFloat = true ∨ b.ty.isFloat = true)) ∨
      (o = binaryOperator op a b ∧ a.ty.isFloat = false ∧ b.ty.isFloat = false) := by
  unfold foldBinary at h
  cases hr : regions op with
  | none => rw [hr] at h; cases h
  | some q =>
    obtain ⟨d, f, bo, ch⟩ := q
    rw [hr] at h
    simp only [Option.map_some, Option.some.injEq] at h
    split at h
    · rename_i hc
      simp only [Bool.and_eq_true] at hc
      exact .inr (.inr ⟨h.symm, isInt_not_float hc.1.2, isInt_not_float hc.2⟩)
    · split at h
      · rename_i hc
        simp only [Bool.and_eq_true, Bool.or_eq_true] at hc
        refine .inr (.inl ⟨h.symm, ?_⟩)
        rcases hc.2 with hc | hc
        · exact .inl hc.1
        · exact .inr hc.2
      · split at h
        · rename_i hc
          simp only [Bool.and_eq_true, beq_iff_eq] at hc
          exact .inr (.inr ⟨h.symm, by rw [hc.1.2]; rfl, by rw [hc.2]; rfl⟩)
        · split at h
          · rename_i hc
            simp only [Bool.and_eq_true] at hc
            exact .inr (.inr ⟨h.symm, charRegion_not_float hc.2⟩)
          · exact .inl h.symm

theorem vmFloat_float {t1 t2 : VT} (h : vmFloat t1 t2 = true) : t1.isFloat = true ∨ t2.isFloat = true := by
  simp only [vmFloat, Bool.and_eq_true, Bool.or_eq_true] at h
  rcases h with h | h
  · exact .inl h.1
  · exact .inr h.2

/-- What an executed operator can be. -/
theorem vm_cases {op : Op} {a b : Const} {o : Outcome} (h : vmBinary op a b = some o) :
    (o = .float (resultOf op a.ty b.ty) ∧ (a.ty.isFloat = true ∨ b.ty.isFloat = true)) ∨
      (o = binaryOperator op a b ∧ a.ty.isFloat = false ∧ b.ty.isFloat = false) := by
  unfold vmBinary at h
  have hi : ∀ {x : Outcome}, (a.ty.isInt && b.ty.isInt) = true → some (binaryOperator op a b) = some x →
      x = binaryOperator op a b ∧ a.ty.isFloat = false ∧ b.ty.isFloat = false := by
    intro x hc hx
    simp only [Bool.and_eq_true] at hc
    exact ⟨(Option.some.inj hx).symm, isInt_not_float hc.1, isInt_not_float hc.2⟩
  split at h
  all_goals first
    | (cases h; done)
    | skip
  all_goals split at h
  all_goals first
    | exact .inr (hi ‹_› h)
    | (cases h; done)
    | skip
  all_goals first
    | (rename_i hc
       simp only [Bool.and_eq_true, beq_iff_eq] at hc
       exact .inr ⟨(Option.some.inj h).symm, by rw [hc.1]; rfl, by rw [hc.2]; rfl⟩)
    | skip
  all_goals split at h
  all_goals first
    | (rename_i hc
       exact .inl ⟨(Option.some.inj h).symm, vmFloat_float hc⟩)
    | (cases h; done)
    | skip
  all_goals split at h
  all_goals first
    | (cases h; done)
    | skip
  all_goals
    rename_i hc
    simp only [Bool.or_eq_true, Bool.and_eq_true, beq_iff_eq] at hc
    first
      | exact .inr ⟨(Option.some.inj h).symm, by rw [hc.1]; rfl, by rw [hc.2]; rfl⟩
      | (rcases hc with hc | hc <;> exact .inr ⟨(Option.some.inj h).symm, by rw [hc.1]; rfl, by rw [hc.2]; rfl⟩)

end Verif.Fold
