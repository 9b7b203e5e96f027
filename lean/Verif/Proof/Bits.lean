import Verif.Model.Bits

namespace Verif.Bits

theorem and_pow_sub_one (x : BitVec 64) (k : Nat) (hk : k < 64) :
    (x &&& (BitVec.ofNat 64 (2 ^ k) - 1#64)).toNat = x.toNat % 2 ^ k := by
  have h1 : 2 ^ k < 2 ^ 64 := Nat.pow_lt_pow_right (by decide) hk
  have h0 : 0 < 2 ^ k := Nat.pow_pos (by decide)
  have h2 : (BitVec.ofNat 64 (2 ^ k) - 1#64).toNat = 2 ^ k - 1 := by
    rw [BitVec.toNat_sub, BitVec.toNat_ofNat, BitVec.toNat_ofNat, Nat.mod_eq_of_lt h1]
    omega
  rw [BitVec.toNat_and, h2, Nat.and_two_pow_sub_one_eq_mod]

theorem and_not_toNat (x m : BitVec 64) : (x &&& ~~~m).toNat = x.toNat - (x &&& m).toNat := by
  have h : x = (x &&& ~~~m) + (x &&& m) := by
    rw [BitVec.add_eq_or_of_and_eq_zero]
    · ext i hi; simp; cases x[i] <;> cases m[i] <;> rfl
    · ext i hi; simp; cases x[i] <;> cases m[i] <;> simp
  have hdis : (x &&& ~~~m).toNat + (x &&& m).toNat = x.toNat := by
    have h3 : (x &&& ~~~m) &&& (x &&& m) = 0#64 := by
      ext i hi; simp; cases x[i] <;> cases m[i] <;> simp
    have := BitVec.toNat_add_of_and_eq_zero h3
    rw [← h] at this
    omega
  omega

end Verif.Bits
