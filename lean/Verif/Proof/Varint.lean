import Verif.Model.Varint

namespace Verif.Varint

theorem toNat_low7 {w : Nat} (v : BitVec w) (hw : 8 ≤ w) :
    ((v &&& 0x7F#w).setWidth 8).toNat = v.toNat % 128 := by
  have h127 : (127 : Nat) % 2 ^ w = 127 := by
    apply Nat.mod_eq_of_lt
    calc 127 < 2 ^ 8 := by decide
      _ ≤ 2 ^ w := Nat.pow_le_pow_right (by decide) hw
  have h1 : (v &&& 0x7F#w).toNat = v.toNat % 128 := by
    rw [BitVec.toNat_and, BitVec.toNat_ofNat, h127]
    exact Nat.and_two_pow_sub_one_eq_mod v.toNat 7
  rw [BitVec.toNat_setWidth, h1]
  omega

theorem toNat_shift7 {w : Nat} (v : BitVec w) : (v >>> 7).toNat = v.toNat / 128 := by
  simp [BitVec.toNat_ushiftRight, Nat.shiftRight_eq_div_pow]

theorem cont_byte (b : BitVec 8) (hb : b.toNat < 128) :
    (b ||| 0x80#8) &&& 0x80#8 ≠ 0#8 ∧ ((b ||| 0x80#8) &&& 0x7F#8) = b ∧ b &&& 0x80#8 = 0#8 := by
  have key : ∀ n : Fin 256, n.val < 128 →
      ((BitVec.ofFin n : BitVec 8) ||| 0x80#8) &&& 0x80#8 ≠ 0#8 ∧
      (((BitVec.ofFin n : BitVec 8) ||| 0x80#8) &&& 0x7F#8) = BitVec.ofFin n ∧
      (BitVec.ofFin n : BitVec 8) &&& 0x80#8 = 0#8 := by
    decide +kernel
  exact key b.toFin hb

theorem shiftRight_ne_zero_iff {w : Nat} (v : BitVec w) : v >>> 7 ≠ 0#w ↔ 128 ≤ v.toNat := by
  rw [Ne, ← BitVec.toNat_inj, toNat_shift7]
  simp only [BitVec.toNat_ofNat, Nat.zero_mod]
  omega

theorem toNat_or_shift {w : Nat} (acc : BitVec w) (b : BitVec 8) (off : Nat)
    (hacc : acc.toNat < 2 ^ off) (hb : b.toNat * 2 ^ off < 2 ^ w) :
    (acc ||| ((b.setWidth w) <<< off)).toNat = acc.toNat + b.toNat * 2 ^ off := by
  have hbw : b.toNat < 2 ^ w := by
    calc b.toNat = b.toNat * 1 := by omega
      _ ≤ b.toNat * 2 ^ off := Nat.mul_le_mul_left _ (Nat.one_le_two_pow)
      _ < 2 ^ w := hb
  rw [BitVec.toNat_or, BitVec.toNat_shiftLeft, BitVec.toNat_setWidth, Nat.mod_eq_of_lt hbw,
    Nat.shiftLeft_eq, Nat.mod_eq_of_lt hb, Nat.or_comm, Nat.mul_comm b.toNat,
    ← Nat.two_pow_add_eq_or_of_lt hacc]
  omega

/-- Decoding an encoding, in any loop state: the exact outcome. -/
theorem fromVarintLoop_toVarint {w : Nat} (hw : 8 ≤ w) (rest : List (BitVec 8)) :
    ∀ (v acc : BitVec w) (off len : Nat), acc.toNat < 2 ^ off → v.toNat * 2 ^ off < 2 ^ w →
      off % 7 = 0 →
      fromVarintLoop acc off len (toVarint v ++ rest) =
        if off + 7 ≤ w ∧ v.toNat * 2 ^ off < 2 ^ (7 * (w / 7)) then
          .ok (BitVec.ofNat w (acc.toNat + v.toNat * 2 ^ off)) (len + (toVarint v).length)
        else .overflow := by
  intro v
  induction hn : v.toNat using Nat.strongRecOn generalizing v with
  | _ n ih =>
    intro acc off len hacc hv hoff
    subst hn
    by_cases hlim : off + 7 > w
    · rw [if_neg (by omega)]
      cases toVarint v ++ rest <;> simp only [fromVarintLoop, if_pos hlim]
    · have hb128 : ((v &&& 0x7F#w).setWidth 8).toNat < 128 := by
        rw [toNat_low7 v hw]; omega
      have hcb := cont_byte _ hb128
      have hoffw : off + 7 ≤ w := by omega
      have hpow : (2 : Nat) ^ (off + 7) = 128 * 2 ^ off := by rw [Nat.pow_add]; omega
      have hpos : 0 < 2 ^ off := Nat.two_pow_pos off
      have hle7 : off + 7 ≤ 7 * (w / 7) := by omega
      have hple : (2 : Nat) ^ (off + 7) ≤ 2 ^ (7 * (w / 7)) :=
        Nat.pow_le_pow_right (by decide) hle7
      have hplew : (2 : Nat) ^ (off + 7) ≤ 2 ^ w := Nat.pow_le_pow_right (by decide) hoffw
      have hlow : ((v &&& 0x7F#w).setWidth 8).toNat * 2 ^ off < 2 ^ (off + 7) := by
        rw [hpow]; exact Nat.mul_lt_mul_of_pos_right hb128 hpos
      have hor := toNat_or_shift acc ((v &&& 0x7F#w).setWidth 8) off hacc (by omega)
      by_cases hc : v >>> 7 ≠ 0#w
      · have h128 := (shiftRight_ne_zero_iff v).1 hc
        rw [toVarint, dif_pos hc]
        simp only [List.cons_append, fromVarintLoop]
        rw [if_neg hlim, if_pos hcb.1, hcb.2.1]
        have hs := toNat_shift7 v
        have hdm : v.toNat = 128 * (v.toNat / 128) + v.toNat % 128 := by omega
        have hexp : v.toNat * 2 ^ off
            = (v.toNat / 128) * 2 ^ (off + 7) + (v.toNat % 128) * 2 ^ off := by
          conv => lhs; rw [hdm]
          rw [hpow, Nat.add_mul]
          congr 1
          rw [Nat.mul_comm 128, Nat.mul_assoc]
        rw [ih (v >>> 7).toNat (by rw [hs]; omega) (v >>> 7) rfl
          _ (off + 7) (len + 1) ?_ ?_ (by omega)]
        · rw [hor, toNat_low7 v hw, hs]
          by_cases hfit : v.toNat * 2 ^ off < 2 ^ (7 * (w / 7))
          · have h1 : v.toNat / 128 * 2 ^ (off + 7) < 2 ^ (7 * (w / 7)) := by omega
            have h2 : off + 7 + 7 ≤ w := by
              have h3 : 1 ≤ v.toNat / 128 := by omega
              have h4 : 2 ^ (off + 7) < 2 ^ (7 * (w / 7)) := by
                calc 2 ^ (off + 7) = 1 * 2 ^ (off + 7) := by omega
                  _ ≤ v.toNat / 128 * 2 ^ (off + 7) := Nat.mul_le_mul_right _ h3
                  _ < _ := h1
              have h5 := (Nat.pow_lt_pow_iff_right (by decide : 1 < 2)).1 h4
              omega
            rw [if_pos ⟨h2, h1⟩, if_pos ⟨hoffw, hfit⟩]
            congr 1
            · congr 1; rw [hexp]; omega
            · simp only [List.length_cons]; omega
          · rw [if_neg (c := _ ∧ v.toNat * 2 ^ off < _) (by omega)]
            apply if_neg
            rintro ⟨h2, h1⟩
            apply hfit
            rw [hexp]
            -- the high part is a multiple of 2^(off+7), as is the bound
            have hd : 2 ^ (7 * (w / 7)) = 2 ^ (off + 7) * 2 ^ (7 * (w / 7) - (off + 7)) := by
              rw [← Nat.pow_add]; congr 1; omega
            rw [hd] at h1 ⊢
            have hpp : 0 < 2 ^ (off + 7) := Nat.two_pow_pos _
            rw [Nat.mul_comm (v.toNat / 128)] at h1 ⊢
            have h6 := Nat.lt_of_mul_lt_mul_left h1
            have h7 : 2 ^ (off + 7) * (v.toNat / 128 + 1)
                ≤ 2 ^ (off + 7) * 2 ^ (7 * (w / 7) - (off + 7)) := Nat.mul_le_mul_left _ h6
            have h8 : v.toNat % 128 * 2 ^ off < 2 ^ (off + 7) := by
              rw [hpow]; exact Nat.mul_lt_mul_of_pos_right (by omega) hpos
            rw [Nat.mul_add] at h7
            omega
        · rw [hor, hpow]
          rw [hpow] at hlow
          have : ((v &&& 0x7F#w).setWidth 8).toNat ≤ 127 := by omega
          have := Nat.mul_le_mul_right (2 ^ off) this
          omega
        · rw [hs]; omega
      · have hlt : v.toNat < 128 := by
          have := (not_congr (shiftRight_ne_zero_iff v)).1 hc
          omega
        rw [toVarint, dif_neg hc]
        simp only [List.cons_append, List.nil_append, fromVarintLoop]
        rw [if_neg hlim, if_neg (by rw [hcb.2.2]; exact fun h => h rfl)]
        have hfit : v.toNat * 2 ^ off < 2 ^ (7 * (w / 7)) := by
          have : v.toNat * 2 ^ off < 2 ^ (off + 7) := by
            rw [hpow]; exact Nat.mul_lt_mul_of_pos_right hlt hpos
          omega
        rw [if_pos ⟨hoffw, hfit⟩]
        congr 1
        apply BitVec.eq_of_toNat_eq
        rw [hor, toNat_low7 v hw, BitVec.toNat_ofNat, Nat.mod_eq_of_lt hlt]
        rw [Nat.mod_eq_of_lt]
        have : v.toNat * 2 ^ off ≤ 127 * 2 ^ off := Nat.mul_le_mul_right _ (by omega)
        omega

/-- All bytes but the last carry the continuation bit. -/
theorem toVarint_shape {w : Nat} (hw : 8 ≤ w) : ∀ (v : BitVec w),
    ∃ (init : List (BitVec 8)) (last : BitVec 8), toVarint v = init ++ [last] ∧
      (∀ b ∈ init, b &&& 0x80#8 ≠ 0#8) ∧ last &&& 0x80#8 = 0#8 := by
  intro v
  induction hn : v.toNat using Nat.strongRecOn generalizing v with
  | _ n ih =>
    subst hn
    have hb128 : ((v &&& 0x7F#w).setWidth 8).toNat < 128 := by
      rw [toNat_low7 v hw]; omega
    have hcb := cont_byte _ hb128
    by_cases hc : v >>> 7 ≠ 0#w
    · have h128 := (shiftRight_ne_zero_iff v).1 hc
      obtain ⟨init, last, h1, h2, h3⟩ := ih (v >>> 7).toNat (by rw [toNat_shift7]; omega) _ rfl
      refine ⟨_ :: init, last, by rw [toVarint, dif_pos hc, h1]; rfl, ?_, h3⟩
      intro b hb
      rcases List.mem_cons.1 hb with rfl | hb
      · exact hcb.1
      · exact h2 b hb
    · exact ⟨[], _, by rw [toVarint, dif_neg hc]; rfl, by simp, hcb.2.2⟩

/-- Two framed sequences, one a prefix of the other, are equal. -/
theorem framed_prefix {p : BitVec 8 → Prop} : ∀ (i1 i2 : List (BitVec 8)) (l1 l2 : BitVec 8)
    (t : List (BitVec 8)), (∀ b ∈ i1, ¬ p b) → (∀ b ∈ i2, ¬ p b) → p l1 → p l2 →
    i1 ++ [l1] ++ t = i2 ++ [l2] → t = [] ∧ i1 = i2 ∧ l1 = l2
  | [], [], l1, l2, t, _, _, _, _, h => by simp at h; simp [h]
  | [], b :: i2, l1, l2, t, _, h2, hp, _, h => by
      simp at h
      exact absurd (h.1 ▸ hp) (h2 b (by simp))
  | b :: i1, [], l1, l2, t, h1, _, _, hp, h => by
      simp at h
  | b1 :: i1, b2 :: i2, l1, l2, t, h1, h2, hp1, hp2, h => by
      simp only [List.cons_append, List.cons.injEq] at h
      have := framed_prefix i1 i2 l1 l2 t (fun b hb => h1 b (by simp [hb]))
        (fun b hb => h2 b (by simp [hb])) hp1 hp2 h.2
      simp [this, h.1]

end Verif.Varint
