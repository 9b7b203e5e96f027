import Verif.Proof.Varint

/-!
# C01, C02 — variable-length integers
-/

namespace Verif.Varint

/-- **C01 (partial).**  For an unsigned type of `w ≥ 8` bits, every value below `2^(7*⌊w/7⌋)`
round-trips whatever follows it in the buffer, and the reported length is the encoded length.
Missing from C01: the remaining values of the type, which the decoder rejects
(`varint_roundtrip_refuted`, `varint_rejected_iff`). -/
theorem varint_roundtrip_partial {w : Nat} (hw : 8 ≤ w) (v : BitVec w)
    (hv : v.toNat < 2 ^ (7 * (w / 7))) (rest : List (BitVec 8)) :
    fromVarint w (toVarint v ++ rest) = .ok v (toVarint v).length := by
  have h := fromVarintLoop_toVarint hw rest v 0#w 0 0 (by simp) (by simpa using v.isLt) (by simp)
  rw [fromVarint, h, if_pos ⟨by omega, by simpa using hv⟩]
  simp

example : (300#32).toNat < 2 ^ (7 * (32 / 7)) ∧ toVarint 300#32 = [0xAC#8, 0x02#8] := by
  constructor
  · decide
  · simp [toVarint]

/-- Exactly which values the decoder refuses: the round trip ends in the `overflow` exception for
every value that needs the incomplete last group of bits. -/
theorem varint_rejected_iff {w : Nat} (hw : 8 ≤ w) (v : BitVec w) (rest : List (BitVec 8)) :
    fromVarint w (toVarint v ++ rest) = .overflow ↔ 2 ^ (7 * (w / 7)) ≤ v.toNat := by
  have h := fromVarintLoop_toVarint hw rest v 0#w 0 0 (by simp) (by simpa using v.isLt) (by simp)
  rw [fromVarint, h]
  by_cases hv : v.toNat < 2 ^ (7 * (w / 7))
  · rw [if_pos ⟨by omega, by simpa using hv⟩]
    simp; omega
  · rw [if_neg (by simp; omega)]
    simp; omega

/-- **C01 is false of the code**: the 32-bit value `2^28` is encoded to five bytes which the decoder
refuses with the overflow exception (`include/algorithm.h:777`). -/
theorem varint_roundtrip_refuted :
    ¬ ∀ (v : BitVec 32) (rest : List (BitVec 8)),
      fromVarint 32 (toVarint v ++ rest) = .ok v (toVarint v).length := by
  intro h
  have h1 := h (BitVec.ofNat 32 (2 ^ 28)) []
  rw [(varint_rejected_iff (by decide) _ []).mpr (by decide)] at h1
  cases h1

/-- **C02.**  Every byte but the last carries the continuation bit and the last does not. -/
theorem varint_framing {w : Nat} (hw : 8 ≤ w) (v : BitVec w) :
    ∃ (init : List (BitVec 8)) (last : BitVec 8), toVarint v = init ++ [last] ∧
      (∀ b ∈ init, b.getLsbD 7 = true) ∧ last.getLsbD 7 = false := by
  obtain ⟨init, last, h1, h2, h3⟩ := toVarint_shape hw v
  have key : ∀ b : BitVec 8, b &&& 0x80#8 ≠ 0#8 ↔ b.getLsbD 7 = true := by decide +kernel
  refine ⟨init, last, h1, fun b hb => (key b).mp (h2 b hb), ?_⟩
  cases h : last.getLsbD 7
  · rfl
  · exact absurd h3 ((key last).mpr h)

/-- The decoder's answer determines the encoded value even where it overflows: two values with the
same encoding are equal. -/
theorem toVarint_injective {w : Nat} (hw : 8 ≤ w) : ∀ a b : BitVec w, toVarint a = toVarint b → a = b := by
  intro a
  induction hn : a.toNat using Nat.strongRecOn generalizing a with
  | _ n ih =>
    intro b hab
    have la := toNat_low7 a hw
    have lb := toNat_low7 b hw
    have ca := cont_byte _ (by rw [la]; omega : ((a &&& 0x7F#w).setWidth 8).toNat < 128)
    have cb := cont_byte _ (by rw [lb]; omega : ((b &&& 0x7F#w).setWidth 8).toNat < 128)
    have ia := shiftRight_ne_zero_iff a
    have ib := shiftRight_ne_zero_iff b
    have sa := toNat_shift7 a
    have sb := toNat_shift7 b
    apply BitVec.eq_of_toNat_eq
    rw [toVarint.eq_1 a, toVarint.eq_1 b] at hab
    by_cases h1 : a >>> 7 ≠ 0#w <;> by_cases h2 : b >>> 7 ≠ 0#w
    · rw [dif_pos h1, dif_pos h2] at hab
      have ⟨hhd, htl⟩ := List.cons.inj hab
      have := ia.mp h1
      have e := ih (a >>> 7).toNat (by omega) (a >>> 7) rfl _ htl
      have e2 : (a &&& 0x7F#w).setWidth 8 = (b &&& 0x7F#w).setWidth 8 := by
        rw [← ca.2.1, hhd, cb.2.1]
      have e3 : a.toNat % 128 = b.toNat % 128 := by rw [← la, ← lb, e2]
      have e4 : a.toNat / 128 = b.toNat / 128 := by rw [← sa, ← sb, e]
      omega
    · rw [dif_pos h1, dif_neg h2] at hab
      have ⟨hhd, _⟩ := List.cons.inj hab
      exact absurd cb.2.2 (by rw [← hhd]; exact ca.1)
    · rw [dif_neg h1, dif_pos h2] at hab
      have ⟨hhd, _⟩ := List.cons.inj hab
      exact absurd ca.2.2 (by rw [hhd]; exact cb.1)
    · rw [dif_neg h1, dif_neg h2] at hab
      have ⟨hhd, _⟩ := List.cons.inj hab
      have e3 : a.toNat % 128 = b.toNat % 128 := by rw [← la, ← lb, hhd]
      have := mt ia.mpr h1
      have := mt ib.mpr h2
      omega

/-- **C02.**  No encoding is a proper prefix of another, and distinct values have distinct
encodings: if one encoding starts with another, the two values are equal. -/
theorem varint_prefix_free {w : Nat} (hw : 8 ≤ w) (a b : BitVec w) (h : toVarint a <+: toVarint b) :
    a = b := by
  obtain ⟨t, ht⟩ := h
  obtain ⟨ia, la, ha, ha2, ha3⟩ := toVarint_shape hw a
  obtain ⟨ib, lb, hb, hb2, hb3⟩ := toVarint_shape hw b
  rw [ha, hb] at ht
  have := framed_prefix (p := fun x => x &&& 0x80#8 = 0#8) ia ib la lb t ha2 hb2 ha3 hb3 ht
  apply toVarint_injective hw
  rw [ha, hb, this.2.1, this.2.2]

example : toVarint 5#32 <+: toVarint 5#32 := ⟨[], by simp⟩

/-- The encoding is never longer than needed: it has one byte per started group of seven bits. -/
theorem varint_length {w : Nat} (hw : 8 ≤ w) : ∀ (v : BitVec w) (n : Nat), 0 < n →
    ((toVarint v).length ≤ n ↔ v.toNat < 2 ^ (7 * n)) := by
  intro v
  induction hn : v.toNat using Nat.strongRecOn generalizing v with
  | _ m ih =>
    intro n hpos
    have iv := shiftRight_ne_zero_iff v
    have sv := toNat_shift7 v
    rw [toVarint.eq_1 v]
    obtain ⟨k, rfl⟩ : ∃ k, n = k + 1 := ⟨n - 1, by omega⟩
    have hp : 2 ^ (7 * (k + 1)) = 128 * 2 ^ (7 * k) := by
      rw [show 7 * (k + 1) = 7 + 7 * k by omega, Nat.pow_add]
    have hpk : 0 < 2 ^ (7 * k) := Nat.pow_pos (by decide)
    by_cases h1 : v >>> 7 ≠ 0#w
    · have := iv.mp h1
      rw [dif_pos h1, List.length_cons]
      by_cases hk : k = 0
      · subst hk
        have hne : (toVarint (v >>> 7)).length ≠ 0 := by
          rw [toVarint]; split <;> simp
        rw [hp, Nat.mul_zero, Nat.pow_zero]; omega
      · have e := ih (v >>> 7).toNat (by omega) (v >>> 7) rfl k (by omega)
        rw [show (toVarint (v >>> 7)).length + 1 ≤ k + 1 ↔ (toVarint (v >>> 7)).length ≤ k by omega, e,
          sv, hp, ← hn]
        omega
    · have := mt iv.mpr h1
      rw [dif_neg h1, hp]
      simp
      omega

example : (toVarint 300#32).length = 2 := by simp [toVarint]

end Verif.Varint
