import Verif.Spec.Expr
import Verif.Proof.Fold

/-! Lemmas about memory and values for `Verif.Props.Expr`. -/

namespace Verif.Expr

open Verif.Fold Spec

/-! ## Values -/

theorem plain_cases {t : VT} (h : plain t = true) : t.isInt = true ∨ t = .bool := by
  simpa [plain] using h

theorem plain_of_int {t : VT} (h : t.isInt = true) : plain t = true := by simp [plain, h]

theorem conv_bool (v : Int) : conv .bool v = if v = 0 then 0 else 1 := rfl

theorem conv_idem {t : VT} (h : plain t = true) (v : Int) : conv t (conv t v) = conv t v := by
  rcases plain_cases h with h | rfl
  · exact conv_conv (num_of_isInt h) v
  · rw [conv_bool, conv_bool]; split <;> simp

theorem conv_congr {t : VT} (h : t.isInt = true) {x y : Int} (hd : ((2 ^ t.bits : Nat) : Int) ∣ x - y) :
    conv t x = conv t y := by
  have hn := num_of_isInt h
  rw [← span_eq hn] at hd
  exact wrapped_unique hn (conv_wrapped hn x) (wrapped_trans hn hd)

theorem conv_dvd {t : VT} (h : t.isInt = true) (x : Int) : ((2 ^ t.bits : Nat) : Int) ∣ conv t x - x := by
  have hn := num_of_isInt h
  have := (conv_wrapped hn x).2
  rw [span_eq hn] at this
  obtain ⟨q, hq⟩ := this
  exact ⟨-q, by rw [Int.mul_neg, ← hq]; omega⟩

theorem bytes_bits {t : VT} (h : t.isInt = true) : 256 ^ bytes t = 2 ^ t.bits := by
  cases t <;> simp [VT.isInt] at h <;> rfl

theorem bytes_pos {t : VT} (h : plain t = true) : 0 < bytes t := by
  rcases plain_cases h with h | rfl
  · cases t <;> simp [VT.isInt] at h <;> decide
  · decide

theorem bytes_le (t : VT) : bytes t ≤ 8 := by cases t <;> decide

theorem bytes_mono {t1 t2 : VT} (h1 : t1.isInt = true) (h2 : t2.isInt = true) (h : t1.bits ≤ t2.bits) :
    bytes t1 ≤ bytes t2 := by
  cases t1 <;> simp [VT.isInt] at h1 <;> cases t2 <;> simp [VT.isInt] at h2 <;> simp [VT.bits] at h <;> decide

/-! ## Memory -/

theorem load_lt (mem : Mem) : ∀ (n a : Nat), load mem a n < 256 ^ n
  | 0, _ => by simp [load]
  | n + 1, a => by
    have h1 := load_lt mem n (a + 1)
    have h2 : (mem a).byte < 256 := by cases mem a <;> simp [Cell.byte]; omega
    rw [load, Nat.pow_succ]; omega

theorem load_congr {mem mem' : Mem} : ∀ {n a : Nat}, (∀ x, a ≤ x → x < a + n → mem' x = mem x) → load mem' a n = load mem a n
  | 0, _, _ => rfl
  | n + 1, a, h => by
    rw [load, load, h a (by omega) (by omega), load_congr (n := n) (a := a + 1)]
    intro x h1 h2
    exact h x (by omega) (by omega)

theorem load_mod (mem : Mem) : ∀ {k n a : Nat}, k ≤ n → load mem a k = load mem a n % 256 ^ k
  | 0, n, a, _ => by simp [load, Nat.mod_one]
  | k + 1, 0, _, h => by omega
  | k + 1, n + 1, a, h => by
    have h2 : (mem a).byte < 256 := by cases mem a <;> simp [Cell.byte]; omega
    rw [load, load, load_mod mem (k := k) (n := n) (a := a + 1) (by omega), Nat.pow_succ]
    generalize (mem a).byte = b at *
    generalize load mem (a + 1) n = l
    rw [Nat.mul_comm (256 ^ k) 256, Nat.mod_mul]
    have e1 : (b + 256 * l) % 256 = b := by omega
    have e2 : (b + 256 * l) / 256 = l := by omega
    rw [e1, e2]

theorem load_store (mem : Mem) (a n v : Nat) : ∀ {k j : Nat}, j + k ≤ n →
    load (store mem a n v) (a + j) k = v / 256 ^ j % 256 ^ k
  | 0, j, _ => by simp [load, Nat.mod_one]
  | k + 1, j, h => by
    rw [load, Nat.add_assoc, load_store mem a n v (k := k) (j := j + 1) (by omega)]
    have e : (store mem a n v (a + j)).byte = v / 256 ^ j % 256 := by
      unfold store
      rw [if_pos (by omega)]
      simp [Cell.byte]
    rw [e, Nat.pow_succ 256 j, ← Nat.div_div_eq_div_mul, Nat.pow_succ 256 k, Nat.mul_comm (256 ^ k) 256, Nat.mod_mul]

theorem load_store_same (mem : Mem) (a n v : Nat) {k : Nat} (h : k ≤ n) : load (store mem a n v) a k = v % 256 ^ k := by
  have := load_store mem a n v (k := k) (j := 0) (by omega)
  simpa using this

theorem store_out {mem : Mem} {a n v x : Nat} (h : ¬ (a ≤ x ∧ x < a + n)) : store mem a n v x = mem x := if_neg h

theorem readAt_congr {t : VT} {mem mem' : Mem} {a : Nat} (h : ∀ x, a ≤ x → x < a + bytes t → mem' x = mem x) :
    readAt t mem' a = readAt t mem a := by rw [readAt, readAt, load_congr h]

theorem readAt_valid {t : VT} (h : plain t = true) (mem : Mem) (a : Nat) : conv t (readAt t mem a) = readAt t mem a :=
  conv_idem h _

theorem enc_lt (t : VT) (v : Int) : enc t v < 256 ^ bytes t := by
  have hp : (0 : Int) < (256 ^ bytes t : Nat) := by
    have : 0 < 256 ^ bytes t := Nat.pow_pos (by omega)
    omega
  have h1 := Int.emod_nonneg v (show ((256 ^ bytes t : Nat) : Int) ≠ 0 by omega)
  have h2 := Int.emod_lt_of_pos v hp
  unfold enc
  omega

theorem conv_enc {t : VT} (h : plain t = true) {v : Int} (hv : conv t v = v) : conv t (enc t v : Int) = v := by
  have hp : (0 : Int) < (256 ^ bytes t : Nat) := by
    have : 0 < 256 ^ bytes t := Nat.pow_pos (by omega)
    omega
  have h1 := Int.emod_nonneg v (show ((256 ^ bytes t : Nat) : Int) ≠ 0 by omega)
  have e : (enc t v : Int) = v % (256 ^ bytes t : Nat) := by unfold enc; omega
  rw [e]
  rcases plain_cases h with hi | rfl
  · rw [bytes_bits hi]
    refine (conv_congr hi ?_).trans hv
    have := Int.mul_ediv_add_emod v ((2 ^ t.bits : Nat) : Int)
    exact ⟨-(v / ((2 ^ t.bits : Nat) : Int)), by rw [Int.mul_neg]; omega⟩
  · rw [conv_bool] at hv
    split at hv
    · subst hv; rfl
    · subst hv; rfl

/-- A pushed value is read back. -/
theorem readAt_push {t : VT} (h : plain t = true) {v : Int} (hv : conv t v = v) (mem : Mem) (a j : Nat) :
    readAt t (store mem a 8 (enc t v + 256 ^ bytes t * j)) a = v := by
  rw [readAt, load_store_same _ _ _ _ (bytes_le t), Nat.add_mul_mod_self_left, Nat.mod_eq_of_lt (enc_lt t v)]
  exact conv_enc h hv

/-- A written value is read back. -/
theorem readAt_write {t : VT} (h : plain t = true) {v : Int} (hv : conv t v = v) (mem : Mem) (a : Nat) :
    readAt t (writeAt t mem a v) a = v := by
  rw [readAt, writeAt, load_store_same _ _ _ _ (Nat.le_refl _), Nat.mod_eq_of_lt (enc_lt t v)]
  exact conv_enc h hv

/-- Reading fewer bytes converts. -/
theorem readAt_narrow {t1 t2 : VT} (h1 : t1.isInt = true) (h2 : t2.isInt = true) (h : t1.bits ≤ t2.bits) (mem : Mem)
    (a : Nat) : readAt t1 mem a = conv t1 (readAt t2 mem a) := by
  unfold readAt
  rw [load_mod mem (bytes_mono h1 h2 h), bytes_bits h1]
  apply conv_congr h1
  generalize hl : load mem a (bytes t2) = l
  obtain ⟨q, hq⟩ := conv_dvd h2 (l : Int)
  have hp : (2 ^ t2.bits : Nat) = 2 ^ t1.bits * 2 ^ (t2.bits - t1.bits) := by
    rw [← Nat.pow_add]; congr 1; omega
  have hm := Nat.mod_add_div l (2 ^ t1.bits)
  have hm' : (l : Int) = ((l % 2 ^ t1.bits : Nat) : Int) + ((2 ^ t1.bits : Nat) : Int) * ((l / 2 ^ t1.bits : Nat) : Int) := by
    rw [← Int.natCast_mul, ← Int.natCast_add, hm]
  rw [hp, Int.natCast_mul, Int.mul_assoc] at hq
  refine ⟨-((l / 2 ^ t1.bits : Nat) : Int) - (((2 ^ (t2.bits - t1.bits) : Nat) : Int) * q), ?_⟩
  rw [Int.mul_sub, Int.mul_neg, ← hq]
  omega

end Verif.Expr
