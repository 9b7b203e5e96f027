import Verif.Spec.Value
import Verif.Proof.Heap

namespace Verif.Value

theorem less_general {fl : FloatLess} {a b : TValue} (h : a.tag ≠ b.tag) :
    less fl a b = if a.isFloat || b.isFloat then fl a b
      else if a.tag = 8 || b.tag = 8 then a.toBits64.ult b.toBits64
      else a.toBits64.slt b.toBits64 := by
  cases a <;> cases b <;> first | rfl | exact absurd rfl h

theorem bits_toInt {a : TValue} {x : Int} (h : a.num = some x) (h8 : a.tag ≠ 8) : a.toBits64.toInt = x := by
  cases a <;> simp only [TValue.num, Option.some.injEq, reduceCtorEq] at h <;> subst h <;>
    simp only [TValue.toBits64]
  case uint64 v => exact absurd rfl h8
  case bool v => cases v <;> rfl
  case int8 v => exact BitVec.toInt_signExtend_of_le (by decide)
  case int16 v => exact BitVec.toInt_signExtend_of_le (by decide)
  case int32 v => exact BitVec.toInt_signExtend_of_le (by decide)
  case char v => exact BitVec.toInt_signExtend_of_le (by decide)
  all_goals
    rename_i v
    have := v.isLt
    rw [BitVec.toInt_eq_toNat_of_lt (by rw [BitVec.toNat_setWidth]; omega), BitVec.toNat_setWidth]
    omega

theorem bits_toNat {a : TValue} {x : Int} (h : a.num = some x) (h0 : 0 ≤ x) : (a.toBits64.toNat : Int) = x := by
  by_cases h8 : a.tag = 8
  · cases a <;> simp only [TValue.tag] at h8 <;> try (exact absurd h8 (by decide))
    simp only [TValue.num, Option.some.injEq] at h
    exact h
  · have := bits_toInt h h8
    rw [← this] at h0 ⊢
    rw [BitVec.toInt_eq_toNat_cond] at h0 ⊢
    have := a.toBits64.isLt
    split <;> rename_i h1
    · rfl
    · rw [if_neg h1] at h0; omega

theorem num_isFloat {a : TValue} {x : Int} (h : a.num = some x) : a.isFloat = false := by
  cases a <;> first | rfl | cases h

theorem less_same {fl : FloatLess} {a b : TValue} {x y : Int} (ha : a.num = some x) (hb : b.num = some y)
    (h : a.tag = b.tag) : less fl a b = decide (x < y) := by
  cases a <;> cases ha <;> cases b <;> cases hb <;> simp [TValue.tag] at h <;>
    first
      | (simp [less, BitVec.slt_eq_decide, BitVec.ult_eq_decide]; done)
      | (rename_i v w; cases v <;> cases w <;> rfl)

theorem shl_or (a b : BitVec 32) :
    ((a.setWidth 64 <<< 32) ||| b.setWidth 64).toNat = a.toNat * 4294967296 + b.toNat := by
  have ha := a.isLt
  have hb := b.isLt
  rw [BitVec.toNat_or, BitVec.toNat_shiftLeft, BitVec.toNat_setWidth, BitVec.toNat_setWidth,
    Nat.mod_eq_of_lt (by omega : a.toNat < 2 ^ 64), Nat.mod_eq_of_lt (by omega : b.toNat < 2 ^ 64),
    Nat.mod_eq_of_lt (by rw [Nat.shiftLeft_eq]; omega), ← Nat.shiftLeft_add_eq_or_of_lt hb, Nat.shiftLeft_eq]

theorem ofLe64_le64 (v : BitVec 64) : ofLe64 (le64 v) = v := by
  apply BitVec.eq_of_toNat_eq
  have := v.isLt
  simp [ofLe64, le64, List.range, List.range.loop, Nat.shiftRight_eq_div_pow]
  omega

theorem le64_length (v : BitVec 64) : (le64 v).length = 8 := by simp [le64]

theorem toNat_app16 (a b : BitVec 16) : (a ++ b : BitVec 32).toNat = a.toNat * 65536 + b.toNat := by
  rw [BitVec.toNat_append, ← Nat.shiftLeft_add_eq_or_of_lt b.isLt, Nat.shiftLeft_eq]

/-- The high word is stored in the row itself. -/
def inlined (v : BitVec 64) : Prop :=
  v.toNat / 4294967296 ≤ 0xFFFF ∨ 4294967295 - v.toNat / 4294967296 ≤ 0xFFFF

theorem high_toNat (v : BitVec 64) : ((v >>> 32).setWidth 32 : BitVec 32).toNat = v.toNat / 4294967296 := by
  have := v.isLt
  rw [BitVec.toNat_setWidth, BitVec.toNat_ushiftRight, Nat.shiftRight_eq_div_pow]
  omega

theorem not_toNat (v : BitVec 32) : (~~~v).toNat = 4294967295 - v.toNat := by
  rw [BitVec.toNat_not]

theorem assign64_inline {c : Heap.Codec} {g : Nat → Heap.Byte} {h : Heap.Heap} {r : Row} {v : BitVec 64}
    (hr : r.extern = false ∧ r.cpl = false) (hv : inlined v) :
    ∃ r', assign64 c g h r v = some (r', h) ∧ r'.ctype = r.ctype ∧
      ∀ h2, ∃ w, read64 h2 r' = some w ∧ (w = v ↔ v.toNat % 65536 = 0) := by
  have hlt := v.isLt
  unfold assign64
  simp only
  by_cases h1 : ((v >>> 32).setWidth 32 : BitVec 32).toNat ≤ 0xFFFF
  · rw [if_pos h1]
    refine ⟨_, rfl, rfl, fun h2 => ?_⟩
    simp only [read64, hr.1, hr.2, Bool.not_false, if_true, Bool.false_eq_true, if_false]
    refine ⟨_, rfl, ?_⟩
    rw [← BitVec.toNat_inj, shl_or, toNat_app16]
    rw [high_toNat] at h1
    simp only [BitVec.extractLsb'_toNat, BitVec.toNat_setWidth, BitVec.toNat_ushiftRight, Nat.shiftRight_eq_div_pow,
      Nat.reducePow, Nat.div_one]
    generalize v.toNat = n at *
    have e1 : n / 4294967296 % 4294967296 % 65536 = n / 4294967296 := by omega
    have e2 : n % 4294967296 % 65536 = n % 65536 := by omega
    rw [e1, e2]
    omega
  · rw [if_neg h1]
    rw [high_toNat] at h1
    rcases hv with hv | hv
    · omega
    rw [if_pos (by rw [not_toNat, high_toNat]; exact hv)]
    refine ⟨_, rfl, rfl, fun h2 => ?_⟩
    simp only [read64, hr.1, Bool.not_false, if_true]
    refine ⟨_, rfl, ?_⟩
    rw [← BitVec.toNat_inj, shl_or, not_toNat, toNat_app16]
    simp only [BitVec.extractLsb'_toNat, BitVec.toNat_setWidth, Nat.shiftRight_eq_div_pow, not_toNat,
      BitVec.toNat_ushiftRight, Nat.reducePow, Nat.div_one]
    generalize v.toNat = n at *
    have e1 : (4294967295 - n / 4294967296 % 4294967296) % 65536 = 4294967295 - n / 4294967296 := by omega
    have e2 : n % 4294967296 % 65536 = n % 65536 := by omega
    rw [e1, e2]
    omega

theorem assign64_extern {c : Heap.Codec} {g : Nat → Heap.Byte} {h : Heap.Heap} {r : Row} {v : BitVec 64}
    (hv : ¬ inlined v) :
    assign64 c g h r v = (Heap.step c g h (.bytes (le64 v))).map fun p =>
      ({ r with extern := true, data2 := p.2 }, p.1) := by
  unfold inlined at hv
  unfold assign64
  simp only
  rw [if_neg (by rw [high_toNat]; omega), if_neg (by rw [not_toNat, high_toNat]; omega)]
  cases Heap.step c g h (.bytes (le64 v)) with
  | none => rfl
  | some p => rfl

theorem readConst_wide {h : Heap.Heap} {r : Row} :
    (r.ctype = 39#8 → readConst h r = (read64 h r).map .int64) ∧
    (r.ctype = 40#8 → readConst h r = (read64 h r).map .uint64) ∧
    (r.ctype = 42#8 → readConst h r = (read64 h r).map .double) := by
  refine ⟨?_, ?_, ?_⟩ <;> intro e <;> unfold readConst <;> rw [e] <;> rfl

end Verif.Value
