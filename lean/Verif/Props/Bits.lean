import Verif.Proof.Bits

/-!
# C03 alignment, C04 jump displacement, C05 references, C40 pointer tags, C41 flags
-/

namespace Verif.Bits

/-! ## C03 -/

/-- **C03.**  `_align` gives the largest multiple of the alignment not above the size. -/
theorem align_floor (size : BitVec 64) (k : Nat) (hk : k < 64) :
    2 ^ k ∣ (align size (BitVec.ofNat 64 (2 ^ k))).toNat ∧
    (align size (BitVec.ofNat 64 (2 ^ k))).toNat ≤ size.toNat ∧
    ∀ m : Nat, 2 ^ k ∣ m → m ≤ size.toNat → m ≤ (align size (BitVec.ofNat 64 (2 ^ k))).toNat := by
  have e : (align size (BitVec.ofNat 64 (2 ^ k))).toNat = size.toNat - size.toNat % 2 ^ k := by
    rw [align, and_not_toNat, and_pow_sub_one _ k hk]
  have h0 : 0 < 2 ^ k := Nat.pow_pos (by decide)
  rw [e]
  refine ⟨Nat.dvd_sub_mod _, Nat.sub_le _ _, ?_⟩
  rintro m ⟨c, rfl⟩ hm
  have := Nat.div_add_mod size.toNat (2 ^ k)
  have hc : c ≤ size.toNat / 2 ^ k := (Nat.le_div_iff_mul_le h0).mpr (by rw [Nat.mul_comm]; exact hm)
  have := Nat.mul_le_mul_left (2 ^ k) hc
  omega

/-- **C03.**  `__is_aligned` is divisibility. -/
theorem isAligned_iff (size : BitVec 64) (k : Nat) (hk : k < 64) :
    isAligned size (BitVec.ofNat 64 (2 ^ k)) = true ↔ 2 ^ k ∣ size.toNat := by
  have e := and_pow_sub_one size k hk
  rw [isAligned, decide_eq_true_iff, ← BitVec.toNat_inj, e]
  simp [Nat.dvd_iff_mod_eq_zero]

/-- **C03.**  `_alignf` gives the smallest multiple of the alignment not below the size, whenever
rounding up does not leave the machine word. -/
theorem alignf_ceil (size : BitVec 64) (k : Nat) (hk : k < 64)
    (hnowrap : size.toNat + 2 ^ k - 1 < 2 ^ 64) :
    2 ^ k ∣ (alignf size (BitVec.ofNat 64 (2 ^ k))).toNat ∧
    size.toNat ≤ (alignf size (BitVec.ofNat 64 (2 ^ k))).toNat ∧
    ∀ m : Nat, 2 ^ k ∣ m → size.toNat ≤ m → (alignf size (BitVec.ofNat 64 (2 ^ k))).toNat ≤ m := by
  have h1 : 2 ^ k < 2 ^ 64 := Nat.pow_lt_pow_right (by decide) hk
  have h0 : 0 < 2 ^ k := Nat.pow_pos (by decide)
  have hs : (size + BitVec.ofNat 64 (2 ^ k) - 1#64).toNat = size.toNat + 2 ^ k - 1 := by
    rw [BitVec.toNat_sub, BitVec.toNat_add, BitVec.toNat_ofNat, BitVec.toNat_ofNat,
      Nat.mod_eq_of_lt h1]
    have := size.isLt
    omega
  have e : (alignf size (BitVec.ofNat 64 (2 ^ k))).toNat =
      (size.toNat + 2 ^ k - 1) - (size.toNat + 2 ^ k - 1) % 2 ^ k := by
    rw [alignf, and_not_toNat, and_pow_sub_one _ k hk, hs]
  rw [e]
  have hmod := Nat.mod_lt (size.toNat + 2 ^ k - 1) h0
  refine ⟨Nat.dvd_sub_mod _, by omega, ?_⟩
  rintro m ⟨c, rfl⟩ hm
  have hd := Nat.div_add_mod (size.toNat + 2 ^ k - 1) (2 ^ k)
  have hc : (size.toNat + 2 ^ k - 1) / 2 ^ k < c + 1 := by
    rw [Nat.div_lt_iff_lt_mul h0, Nat.mul_comm, Nat.mul_add]
    omega
  have := Nat.mul_le_mul_left (2 ^ k) (Nat.le_of_lt_succ hc)
  omega

example : (13#64).toNat + 2 ^ 3 - 1 < 2 ^ 64 ∧ alignf 13#64 (BitVec.ofNat 64 (2 ^ 3)) = 16#64 := by
  decide

/-- The hypothesis of `alignf_ceil` cannot be dropped: near the top of the word `_alignf` wraps to 0. -/
theorem alignf_wraps : alignf (BitVec.ofNat 64 (2 ^ 64 - 3)) (BitVec.ofNat 64 (2 ^ 3)) = 0#64 := by
  decide

/-- The `_alignd` loop: with enough iterations it returns the first doubling that reaches the request. -/
theorem aligndLoop_spec (a : BitVec 64) (ha : a.toNat ≤ 2 ^ 63) :
    ∀ (fuel : Nat) (s : BitVec 64), a.toNat ≤ s.toNat * 2 ^ fuel →
      ∃ (r : BitVec 64) (n : Nat), aligndLoop a fuel s = some r ∧ r.toNat = s.toNat * 2 ^ n ∧
        a.toNat ≤ r.toNat ∧ (∀ m < n, s.toNat * 2 ^ m < a.toNat) := by
  intro fuel
  induction fuel with
  | zero =>
    intro s hs
    refine ⟨s, 0, ?_, by simp, by simpa using hs, by simp⟩
    rw [aligndLoop, if_neg (by simpa [BitVec.lt_def] using hs)]
  | succ fuel ih =>
    intro s hs
    rw [aligndLoop]
    by_cases hlt : s < a
    · rw [if_pos hlt]
      have hlt' : s.toNat < a.toNat := hlt
      have e : (s <<< 1).toNat = s.toNat * 2 := by
        rw [BitVec.toNat_shiftLeft, Nat.shiftLeft_eq]
        omega
      obtain ⟨r, n, h1, h2, h3, h4⟩ := ih (s <<< 1) (by
        rw [e, Nat.mul_assoc, ← Nat.pow_succ']; exact hs)
      refine ⟨r, n + 1, h1, ?_, h3, ?_⟩
      · rw [h2, e, Nat.mul_assoc, ← Nat.pow_succ']
      · intro m hm
        cases m with
        | zero => simpa using hlt'
        | succ m =>
          have := h4 m (by omega)
          rw [e, Nat.mul_assoc, ← Nat.pow_succ'] at this
          exact this
    · rw [if_neg hlt]
      exact ⟨s, 0, rfl, by simp, by simpa [BitVec.lt_def] using hlt, by simp⟩

/-- **C03.**  `_alignd` returns the first of `size, 2*size, 4*size, …` that reaches the request (a
zero size counts as one), after at most 63 doublings, for every request up to `2^63`. -/
theorem alignd_doubles (size a : BitVec 64) (ha : a.toNat ≤ 2 ^ 63) (fuel : Nat) (hf : 63 ≤ fuel) :
    ∃ (r : BitVec 64) (n : Nat), alignd fuel size a = some r ∧
      r.toNat = max 1 size.toNat * 2 ^ n ∧ a.toNat ≤ r.toNat ∧
      ∀ m < n, max 1 size.toNat * 2 ^ m < a.toNat := by
  have h63 : 2 ^ 63 ≤ 2 ^ fuel := Nat.pow_le_pow_right (by decide) hf
  have e : (if size = 0#64 then 1#64 else size).toNat = max 1 size.toNat := by
    by_cases h : size = 0#64
    · subst h; decide
    · rw [if_neg h]
      have : size.toNat ≠ 0 := fun h0 => h (BitVec.eq_of_toNat_eq (by simpa using h0))
      omega
  have := aligndLoop_spec a ha fuel (if size = 0#64 then 1#64 else size) (by
    rw [e]
    have : 1 * 2 ^ fuel ≤ max 1 size.toNat * 2 ^ fuel := Nat.mul_le_mul_right _ (by omega)
    omega)
  rw [e] at this
  exact this

example : alignd 63 24#64 100#64 = some 192#64 := by decide

/-- Above `2^63` the loop can shift every bit out and then never ends: no number of iterations is
enough (`include/common.h:326-329`). -/
theorem alignd_diverges_refuted :
    ∀ fuel : Nat, alignd fuel 1#64 (BitVec.ofNat 64 (2 ^ 63 + 1)) = none := by
  have hz : ∀ fuel, aligndLoop (BitVec.ofNat 64 (2 ^ 63 + 1)) fuel 0#64 = none := by
    intro fuel
    induction fuel with
    | zero => decide
    | succ n ih => rw [aligndLoop, if_pos (by decide)]; exact ih
  have step : ∀ (k : Nat), k ≤ 63 → ∀ fuel,
      aligndLoop (BitVec.ofNat 64 (2 ^ 63 + 1)) fuel (BitVec.ofNat 64 (2 ^ (63 - k))) = none := by
    intro k
    induction k with
    | zero =>
      intro _ fuel
      cases fuel with
      | zero => decide
      | succ n => rw [aligndLoop, if_pos (by decide)]; exact hz n
    | succ k ih =>
      intro hk fuel
      have hlt : BitVec.ofNat 64 (2 ^ (63 - (k + 1))) < BitVec.ofNat 64 (2 ^ 63 + 1) := by
        rw [BitVec.lt_def, BitVec.toNat_ofNat]
        have : 2 ^ (63 - (k + 1)) ≤ 2 ^ 63 := Nat.pow_le_pow_right (by decide) (by omega)
        have h2 := Nat.mod_le (2 ^ (63 - (k + 1))) (2 ^ 64)
        have h3 : (BitVec.ofNat 64 (2 ^ 63 + 1)).toNat = 2 ^ 63 + 1 := by decide
        omega
      cases fuel with
      | zero => rw [aligndLoop, if_pos hlt]
      | succ n =>
        rw [aligndLoop, if_pos hlt]
        have e : BitVec.ofNat 64 (2 ^ (63 - (k + 1))) <<< 1 = BitVec.ofNat 64 (2 ^ (63 - k)) := by
          apply BitVec.eq_of_toNat_eq
          rw [BitVec.toNat_shiftLeft, Nat.shiftLeft_eq, BitVec.toNat_ofNat, BitVec.toNat_ofNat,
            show 63 - k = (63 - (k + 1)) + 1 by omega, Nat.pow_succ]
          omega
        rw [e]
        exact ih (by omega) n
  intro fuel
  exact step 63 (by omega) fuel

/-! ## C04 -/

/-- **C04.**  A displacement stored in a jump instruction reads back, whatever the instruction held
before, if it fits in 24 signed bits; otherwise it is refused.  The jump kind and the command are
never disturbed. -/
theorem jmp_step_roundtrip (x : Jmp) (step : BitVec 32) :
    (-(2 ^ 23) ≤ step.toInt ∧ step.toInt < 2 ^ 23 →
      ∃ y, x.setStep step = some y ∧ y.step = some step ∧ y.model = x.model ∧ y.cmd1 = x.cmd1) ∧
    (¬(-(2 ^ 23) ≤ step.toInt ∧ step.toInt < 2 ^ 23) → x.setStep step = none) := by
  have r8 : inRange 8 8 step.toInt = true ↔ -128 ≤ step.toInt ∧ step.toInt ≤ 127 := by
    rw [inRange, show maxOfBits 8 8 = 127 by decide, show minOfBits 8 8 = -128 by decide]
    simp; omega
  have r24 : inRange 32 24 step.toInt = true ↔ -(2 ^ 23) ≤ step.toInt ∧ step.toInt < 2 ^ 23 := by
    rw [inRange, show maxOfBits 32 24 = 2 ^ 23 - 1 by decide,
      show minOfBits 32 24 = -(2 ^ 23) by decide]
    simp; omega
  have m0 : ∀ h : BitVec 4, ((h &&& 0x7#4) ||| (0#4 <<< 3)) &&& 0x7#4 = h &&& 0x7#4 := by decide
  have m1 : ∀ h : BitVec 4, ((h &&& 0x7#4) ||| (1#4 <<< 3)) &&& 0x7#4 = h &&& 0x7#4 := by decide
  have d0 : ∀ h : BitVec 4, ((h &&& 0x7#4) ||| (0#4 <<< 3)) >>> 3 = 0#4 := by decide
  have d1 : ∀ h : BitVec 4, ((h &&& 0x7#4) ||| (1#4 <<< 3)) >>> 3 = 1#4 := by decide
  constructor
  · intro hr
    by_cases h8 : inRange 8 8 step.toInt = true
    · rw [Jmp.setStep, if_pos h8]
      refine ⟨_, rfl, ?_, ?_, rfl⟩
      · rw [Jmp.step, if_pos (by exact d0 _)]
        simp only [Jmp.setDistance]
        congr 1
        apply BitVec.eq_of_toInt_eq
        rw [BitVec.toInt_signExtend_of_le (by decide), BitVec.toInt_setWidth]
        have := r8.mp h8
        have e : step.toInt = (step.toNat : Int).bmod (2 ^ 32) := BitVec.toInt_eq_toNat_bmod step
        have e2 : ((step.toNat : Int)).bmod (2 ^ 8) = step.toInt.bmod (2 ^ 8) := by
          rw [e, Int.bmod_bmod_of_dvd (by decide)]
        rw [e2]
        apply Int.bmod_eq_of_le <;> omega
      · simp only [Jmp.model, Jmp.setDistance, m0]
    · rw [Jmp.setStep, if_neg h8, if_pos (r24.mpr hr)]
      refine ⟨_, rfl, ?_, ?_, rfl⟩
      · rw [Jmp.step, if_neg (by rw [Jmp.distance, Jmp.setDistance, d1]; decide), if_pos (by exact d1 _)]
        simp only [Jmp.setDistance]
        congr 1
        have e0 : step.extractLsb' 16 8 ++ step.extractLsb' 8 8 ++ step.extractLsb' 0 8 =
            step.setWidth 24 := by
          ext i hi
          simp only [BitVec.getElem_append, BitVec.getElem_extractLsb', BitVec.getElem_setWidth]
          split
          · simp
          · split
            · congr 1; omega
            · congr 1; omega
        rw [e0]
        apply BitVec.eq_of_toInt_eq
        rw [BitVec.toInt_signExtend_of_le (by decide), BitVec.toInt_setWidth]
        have e : step.toInt = (step.toNat : Int).bmod (2 ^ 32) := BitVec.toInt_eq_toNat_bmod step
        have e2 : ((step.toNat : Int)).bmod (2 ^ 24) = step.toInt.bmod (2 ^ 24) := by
          rw [e, Int.bmod_bmod_of_dvd (by decide)]
        rw [e2]
        apply Int.bmod_eq_of_le <;> omega
      · simp only [Jmp.model, Jmp.setDistance, m1]
  · intro hr
    have h24 : ¬ inRange 32 24 step.toInt = true := fun h => hr (r24.mp h)
    have h8 : ¬ inRange 8 8 step.toInt = true := fun h => hr (by have := r8.mp h; omega)
    rw [Jmp.setStep, if_neg h8, if_neg h24]

example : (-(2 ^ 23) ≤ (BitVec.ofInt 32 (-300)).toInt ∧ (BitVec.ofInt 32 (-300)).toInt < 2 ^ 23) ∧
    ¬(-(2 ^ 23) ≤ (BitVec.ofInt 32 (2 ^ 23)).toInt ∧ (BitVec.ofInt 32 (2 ^ 23)).toInt < 2 ^ 23) := by
  decide

/-- **C04.**  Setting the jump kind keeps the displacement, and gives the kind back (kinds are below 8). -/
theorem jmp_setModel (x : Jmp) (m : BitVec 4) (hm : m < 8#4) :
    (x.setModel m).model = m ∧ (x.setModel m).step = x.step := by
  have h1 : ∀ (h m : BitVec 4), m < 8#4 → ((h &&& 0x8#4) ||| m) &&& 0x7#4 = m := by decide +kernel
  have h2 : ∀ (h m : BitVec 4), m < 8#4 → ((h &&& 0x8#4) ||| m) >>> 3 = h >>> 3 := by decide +kernel
  constructor
  · exact h1 x.hdata m hm
  · have : (x.setModel m).distance = x.distance := h2 x.hdata m hm
    rw [Jmp.step, Jmp.step, this]
    rfl

example : (3#4 : BitVec 4) < 8#4 := by decide

/-- **C04 (switch form).**  A switch table number in 0..255 stored in a jump reads back; any other is
refused. -/
theorem jmp_tbl_roundtrip (x : Jmp) (index : BitVec 32) :
    (0 ≤ index.toInt ∧ index.toInt ≤ 255 →
      ∃ y, x.setTbl index = some y ∧ y.tbl = index ∧ y.model = x.model) ∧
    (¬(0 ≤ index.toInt ∧ index.toInt ≤ 255) → x.setTbl index = none) := by
  constructor
  · rintro ⟨h1, h2⟩
    rw [Jmp.setTbl, if_neg (by omega)]
    refine ⟨_, rfl, ?_, rfl⟩
    apply BitVec.eq_of_toNat_eq
    have h3 := BitVec.toInt_eq_toNat_cond index
    have := index.isLt
    simp only [Jmp.tbl, BitVec.toNat_setWidth]
    split at h3 <;> omega
  · intro h
    rw [Jmp.setTbl, if_pos (by omega)]

/-! ## C05 -/

/-- **C05.**  A reference gives back its three parts reduced to the widths of their fields, and
survives its 32-bit image. -/
theorem ref_parts (index count extra : BitVec 32) :
    (Ref.mk' index count extra).index.toNat = index.toNat % 2 ^ 20 ∧
    (Ref.mk' index count extra).count.toNat = count.toNat % 2 ^ 9 ∧
    (Ref.mk' index count extra).extra.toNat = extra.toNat % 2 ^ 3 := by
  simp [Ref.mk', BitVec.toNat_setWidth]

/-- **C05.**  The 32-bit image of a reference determines it. -/
theorem ref_word_roundtrip (r : Ref) : Ref.ofWord r.toWord = r := by
  cases r with
  | mk i e c =>
    simp only [Ref.ofWord, Ref.toWord]
    congr 1
    · ext k hk
      simp only [BitVec.getElem_extractLsb', BitVec.getLsbD_append]
      simp [hk]
    · ext k hk
      simp only [BitVec.getElem_extractLsb', BitVec.getLsbD_append]
      have h1 : ¬ 20 + k < 20 := by omega
      have h2 : 20 + k - 20 = k := by omega
      simp [h1, h2, hk]
    · ext k hk
      simp only [BitVec.getElem_extractLsb', BitVec.getLsbD_append]
      have h1 : ¬ 23 + k < 20 := by omega
      have h2 : ¬ 23 + k - 20 < 3 := by omega
      have h3 : 23 + k - 20 - 3 = k := by omega
      simp [h1, h2, h3, hk]

/-- **C05.**  The 32-bit image is onto: every word is the image of the reference read from it. -/
theorem word_ref_roundtrip (x : BitVec 32) : (Ref.ofWord x).toWord = x := by
  apply BitVec.eq_of_getLsbD_eq
  intro i hi
  simp only [Ref.ofWord, Ref.toWord, BitVec.getLsbD_append, BitVec.getLsbD_extractLsb']
  by_cases h1 : i < 20
  · simp [h1]
  · by_cases h2 : i - 20 < 3
    · have : 20 + (i - 20) = i := by omega
      simp [h1, h2, this]
    · have h3 : 23 + (i - 20 - 3) = i := by omega
      have h4 : i - 20 - 3 < 9 := by omega
      simp [h1, h2, h3, h4]

/-- **C05.**  Two references built from parts are the same 32-bit word exactly when the index agrees
modulo `2^20`, the tag modulo `2^3` and the count modulo `2^9`: nothing reports a part that does not
fit. -/
theorem ref_collide_iff (i1 c1 e1 i2 c2 e2 : BitVec 32) :
    (Ref.mk' i1 c1 e1).toWord = (Ref.mk' i2 c2 e2).toWord ↔
      i1.toNat % 2 ^ 20 = i2.toNat % 2 ^ 20 ∧ e1.toNat % 2 ^ 3 = e2.toNat % 2 ^ 3 ∧
      c1.toNat % 2 ^ 9 = c2.toNat % 2 ^ 9 := by
  have a := ref_parts i1 c1 e1
  have b := ref_parts i2 c2 e2
  constructor
  · intro h
    have : Ref.mk' i1 c1 e1 = Ref.mk' i2 c2 e2 := by
      rw [← ref_word_roundtrip (Ref.mk' i1 c1 e1), h, ref_word_roundtrip]
    rw [← a.1, ← a.2.1, ← a.2.2, ← b.1, ← b.2.1, ← b.2.2, this]
    simp
  · rintro ⟨h1, h2, h3⟩
    congr 1
    rw [Ref.mk', Ref.mk']
    congr 1 <;> apply BitVec.eq_of_toNat_eq <;> rw [BitVec.toNat_setWidth, BitVec.toNat_setWidth] <;>
      assumption

example : (Ref.mk' 1048577#32 1#32 0#32).toWord = (Ref.mk' 1#32 1#32 0#32).toWord := by decide

/-- **C05.**  Reference equality is equality of the parts except that all references with count 0 are
equal (they are all "null"). -/
theorem ref_beq_iff (a b : Ref) : a.beq b = true ↔ a = b ∨ (a.count = 0#9 ∧ b.count = 0#9) := by
  have : a.toWord = b.toWord ↔ a = b := by
    constructor
    · intro h; rw [← ref_word_roundtrip a, h, ref_word_roundtrip]
    · intro h; rw [h]
  simp [Ref.beq, this]

/-- **C05.**  Reference equality is an equivalence relation. -/
theorem ref_beq_equivalence : Equivalence (fun a b : Ref => a.beq b = true) where
  refl a := by rw [ref_beq_iff]; exact Or.inl rfl
  symm := by
    intro a b h
    rw [ref_beq_iff] at *
    rcases h with h | h
    · exact Or.inl h.symm
    · exact Or.inr ⟨h.2, h.1⟩
  trans := by
    intro a b c h1 h2
    rw [ref_beq_iff] at *
    rcases h1 with rfl | h1
    · exact h2
    · rcases h2 with rfl | h2
      · exact Or.inr h1
      · exact Or.inr ⟨h1.1, h2.2⟩

/-- **C05.**  The `k`-th element of a range reference refers to row `index + k`, as one row, while the
sum stays below `2^20`. -/
theorem ref_nth (r : Ref) (k : BitVec 32) (h : r.index.toNat + k.toNat < 2 ^ 20) :
    (r.nth k).index.toNat = r.index.toNat + k.toNat ∧ (r.nth k).count = 1#9 ∧
      (r.nth k).extra = r.extra := by
  refine ⟨?_, by rfl, ?_⟩
  · simp only [Ref.nth, Ref.mk', BitVec.toNat_setWidth, BitVec.toNat_add]
    have := r.index.isLt
    omega
  · apply BitVec.eq_of_toNat_eq
    simp only [Ref.nth, Ref.mk', BitVec.toNat_setWidth]
    have := r.extra.isLt
    omega

example : (⟨5#20, 2#3, 7#9⟩ : Ref).index.toNat + (3#32).toNat < 2 ^ 20 := by decide

/-! ## C40 -/

theorem low3_iff (p : BitVec 64) : p &&& 0x7#64 = 0#64 ↔ 8 ∣ p.toNat := by
  have e := and_pow_sub_one p 3 (by decide)
  rw [show BitVec.ofNat 64 (2 ^ 3) - 1#64 = 0x7#64 by decide] at e
  rw [← BitVec.toNat_inj, e]
  simp [Nat.dvd_iff_mod_eq_zero]

theorem tag_iff (v : BitVec 64) : v &&& 0x7#64 = v ↔ v.toNat < 8 := by
  have e := and_pow_sub_one v 3 (by decide)
  rw [show BitVec.ofNat 64 (2 ^ 3) - 1#64 = 0x7#64 by decide] at e
  rw [← BitVec.toNat_inj, e]
  omega

/-- **C40.**  Combining an aligned pointer with a tag below 8 gives both back. -/
theorem incorp_parts (p v : BitVec 64) (hp : 8 ∣ p.toNat) (hv : v.toNat < 8) :
    incorpP (incorp p v) = p ∧ incorpV (incorp p v) = v := by
  have hp' := (low3_iff p).mpr hp
  have hv' := (tag_iff v).mpr hv
  simp only [incorpP, incorpV, incorp, incorpMask]
  constructor
  · ext i hi
    have := congrArg (fun x : BitVec 64 => x[i]) hp'
    simp only [BitVec.getElem_and, BitVec.getElem_or, BitVec.getElem_not, BitVec.getElem_zero] at this ⊢
    revert this
    cases p[i] <;> cases v[i] <;> cases (7#64)[i] <;> simp
  · rw [hv']
    ext i hi
    have h1 := congrArg (fun x : BitVec 64 => x[i]) hp'
    have h2 := congrArg (fun x : BitVec 64 => x[i]) hv'
    simp only [BitVec.getElem_and, BitVec.getElem_or, BitVec.getElem_not, BitVec.getElem_zero] at h1 h2 ⊢
    revert h1 h2
    cases p[i] <;> cases v[i] <;> cases (7#64)[i] <;> simp

example : 8 ∣ (0x7ffe1230#64).toNat ∧ (5#64).toNat < 8 := by decide

/-- **C40 (partial).**  Replacing the tag gives the new tag only for an untagged null pointer; what is
provable for every pointer is that the low three bits become `old tag ∪ new tag`.  Missing: keeping the
pointer and replacing the tag — false of the code, see `setIncorpV_refuted`. -/
theorem setIncorpV_partial (p v : BitVec 64) (hv : v.toNat < 8) :
    incorpP (setIncorpV p v) = 0#64 ∧ incorpV (setIncorpV p v) = incorpV p ||| v := by
  have hv' := (tag_iff v).mpr hv
  simp only [incorpP, incorpV, setIncorpV, incorpMask]
  constructor
  · ext i hi
    have h2 := congrArg (fun x : BitVec 64 => x[i]) hv'
    simp only [BitVec.getElem_and, BitVec.getElem_or, BitVec.getElem_not, BitVec.getElem_zero] at h2 ⊢
    revert h2
    cases p[i] <;> cases v[i] <;> cases (7#64)[i] <;> simp
  · ext i hi
    have h2 := congrArg (fun x : BitVec 64 => x[i]) hv'
    simp only [BitVec.getElem_and, BitVec.getElem_or, BitVec.getElem_not, BitVec.getElem_zero] at h2 ⊢
    revert h2
    cases p[i] <;> cases v[i] <;> cases (7#64)[i] <;> simp

/-- **C40 is false of the code** for replacing the tag: the pointer is destroyed
(`include/algorithm.h:836`). -/
theorem setIncorpV_refuted :
    ¬ ∀ (p v : BitVec 64), 8 ∣ (incorpP p).toNat → v.toNat < 8 →
      incorpP (setIncorpV p v) = incorpP p ∧ incorpV (setIncorpV p v) = v := by
  intro h
  have := h 0x1000#64 1#64 (by decide) (by decide)
  revert this; decide

/-- **C40 (partial).**  Replacing the pointer: the tag is lost too (the mask clears it and nothing puts
it back), and the old pointer bits stay unless they are also in the new pointer. -/
theorem setIncorpP_partial (p q : BitVec 64) (hq : 8 ∣ q.toNat) :
    incorpV (setIncorpP p q) = 0#64 ∧ incorpP (setIncorpP p q) = incorpP p ||| q := by
  have hq' := (low3_iff q).mpr hq
  simp only [incorpP, incorpV, setIncorpP, incorpMask]
  constructor
  · ext i hi
    have h2 := congrArg (fun x : BitVec 64 => x[i]) hq'
    simp only [BitVec.getElem_and, BitVec.getElem_or, BitVec.getElem_not, BitVec.getElem_zero] at h2 ⊢
    revert h2
    cases p[i] <;> cases q[i] <;> cases (7#64)[i] <;> simp
  · ext i hi
    have h2 := congrArg (fun x : BitVec 64 => x[i]) hq'
    simp only [BitVec.getElem_and, BitVec.getElem_or, BitVec.getElem_not, BitVec.getElem_zero] at h2 ⊢
    revert h2
    cases p[i] <;> cases q[i] <;> cases (7#64)[i] <;> simp

/-- **C40 is false of the code** for replacing the pointer (`include/algorithm.h:829-830`): the tag is
not kept, and the new pointer is merged with the old one. -/
theorem setIncorpP_refuted :
    ¬ ∀ (p q : BitVec 64), 8 ∣ q.toNat →
      incorpP (setIncorpP p q) = q ∧ incorpV (setIncorpP p q) = incorpV p := by
  intro h
  have := h 0x1001#64 0x2000#64 (by decide)
  revert this; decide

/-! ## C41 -/

section
variable {w : Nat}

theorem foldl_or_getElem (l : List (BitVec w)) (a : BitVec w) (i : Nat) (hi : i < w) :
    (l.foldl (· ||| ·) a)[i] = (a[i] || l.any (fun x => x.getLsbD i)) := by
  induction l generalizing a with
  | nil => simp
  | cons x xs ih =>
    simp only [List.foldl_cons, ih, List.any_cons, BitVec.getElem_or, BitVec.getLsbD_eq_getElem hi,
      Bool.or_assoc]

theorem bitOr_getLsbD (l : List (BitVec w)) (i : Nat) (hi : i < w) :
    (bitOr l).getLsbD i = l.any (fun x => x.getLsbD i) := by
  rw [BitVec.getLsbD_eq_getElem hi, bitOr, foldl_or_getElem]
  simp

/-- **C41.**  Combining flag sets is union: a flag is in the combination iff it is in some argument. -/
theorem flags_or_union (l : List (BitVec w)) (i : Nat) (hi : i < w) :
    (bitOr l).getLsbD i = true ↔ ∃ x ∈ l, x.getLsbD i = true := by
  rw [bitOr_getLsbD l i hi]; simp

/-- **C41.**  Adding flags is union with the old value. -/
theorem flags_add_union (v : BitVec w) (l : List (BitVec w)) (i : Nat) (hi : i < w) :
    (enumAdd v l).getLsbD i = true ↔ v.getLsbD i = true ∨ ∃ x ∈ l, x.getLsbD i = true := by
  rw [enumAdd, bitOr_getLsbD _ i hi]; simp

/-- **C41.**  Removing flags is set difference. -/
theorem flags_remove_diff (v : BitVec w) (l : List (BitVec w)) (i : Nat) (hi : i < w) :
    (enumRemove v l).getLsbD i = true ↔ v.getLsbD i = true ∧ ¬ ∃ x ∈ l, x.getLsbD i = true := by
  have hm : (-1#w).getLsbD i = true := by
    rw [BitVec.neg_one_eq_allOnes]; simp [hi]
  simp only [enumRemove, bitRemoveFlag, bitAndEnum, bitNot, List.map_cons, List.map_nil,
    List.foldl_cons, List.foldl_nil, BitVec.getLsbD_and, BitVec.getLsbD_not, hm,
    bitOr_getLsbD _ i hi, hi, Bool.true_and]
  simp

/-- **C41.**  `has` is "some of the listed flags is present". -/
theorem flags_has_iff (v : BitVec w) (l : List (BitVec w)) :
    enumHas v l = true ↔ ∃ i, i < w ∧ v.getLsbD i = true ∧ ∃ x ∈ l, x.getLsbD i = true := by
  have hz : ∀ a : BitVec w, a ≠ 0#w ↔ ∃ i, i < w ∧ a.getLsbD i = true := by
    intro a
    constructor
    · intro h
      apply Classical.byContradiction
      intro hn
      apply h
      apply BitVec.eq_of_getLsbD_eq
      intro i hi
      cases hb : a.getLsbD i
      · simp
      · exact absurd ⟨i, hi, hb⟩ hn
    · rintro ⟨i, _, h⟩ rfl
      simp at h
  have e : bitAndEnum [v, bitXor [bitOr l]] = v &&& bitOr l := by
    simp [bitAndEnum, bitXor, BitVec.neg_one_eq_allOnes]
  rw [enumHas, bitHasFlag, e, decide_eq_true_iff, hz]
  constructor
  · rintro ⟨i, hi, h⟩
    rw [BitVec.getLsbD_and, Bool.and_eq_true, flags_or_union l i hi] at h
    exact ⟨i, hi, h⟩
  · rintro ⟨i, hi, h⟩
    refine ⟨i, hi, ?_⟩
    rw [BitVec.getLsbD_and, Bool.and_eq_true, flags_or_union l i hi]
    exact h

/-- **C41.**  `has_only` is "non-empty and included in the listed flags". -/
theorem flags_hasOnly_iff (v : BitVec w) (l : List (BitVec w)) :
    enumHasOnly v l = true ↔
      (∃ i, i < w ∧ v.getLsbD i = true) ∧
      ∀ i, i < w → v.getLsbD i = true → ∃ x ∈ l, x.getLsbD i = true := by
  have hz : ∀ a : BitVec w, a = 0#w ↔ ∀ i, i < w → a.getLsbD i = false := by
    intro a
    constructor
    · rintro rfl i _; simp
    · intro h
      apply BitVec.eq_of_getLsbD_eq
      intro i hi
      rw [h i hi]; simp
  have h1 : (v ≠ 0#w) ↔ ∃ i, i < w ∧ v.getLsbD i = true := by
    rw [Ne, hz]; simp
  rw [enumHasOnly, Bool.and_eq_true, decide_eq_true_iff, decide_eq_true_iff, h1, hz]
  refine and_congr_right fun _ => forall_congr' fun i => forall_congr' fun hi => ?_
  rw [← flags_or_union l i hi]
  simp [hi]

/-- **C41.**  `bit_match_flag` is inclusion of the flag set. -/
theorem flags_match_iff (v f : BitVec w) :
    bitMatchFlag v f = true ↔ ∀ i, i < w → f.getLsbD i = true → v.getLsbD i = true := by
  have e : bitAndEnum [v, f] = v &&& f := by
    simp [bitAndEnum, BitVec.neg_one_eq_allOnes]
  rw [bitMatchFlag, e, decide_eq_true_iff]
  constructor
  · intro h i _ hf
    have := congrArg (fun x => x.getLsbD i) h
    simp only [BitVec.getLsbD_and, hf, Bool.and_true] at this
    exact this
  · intro h
    apply BitVec.eq_of_getLsbD_eq
    intro i hi
    have := h i hi
    rw [BitVec.getLsbD_and]
    revert this
    cases f.getLsbD i <;> simp

example : enumHas 6#8 [2#8, 8#8] = true ∧ enumHasOnly 6#8 [2#8, 4#8] = true ∧
    enumRemove 6#8 [2#8] = 4#8 := by decide

/-- **C41 is false of the code** for the integer instantiation of `bit_and`: it folds with `^`
(`include/common.h:1492`). -/
theorem bitAndInt_refuted : ¬ ∀ a b : BitVec 8, bitAndInt [a, b] = a &&& b := by
  intro h
  have := h 0#8 0#8
  revert this; decide

/-- **C41 is false of the code** for `bit_has_flag` with several overlapping flags: the flags are
combined with `^`, so a flag named twice is not tested (`include/common.h:1539`). -/
theorem bitHasFlag_repeated_refuted :
    ¬ ∀ (v : BitVec 8) (l : List (BitVec 8)),
      bitHasFlag v l = true ↔ ∃ i, i < 8 ∧ v.getLsbD i = true ∧ ∃ x ∈ l, x.getLsbD i = true := by
  intro h
  have := (h 1#8 [1#8, 1#8]).mpr ⟨0, by decide, by decide, 1#8, by simp, by decide⟩
  revert this; decide

end

end Verif.Bits
