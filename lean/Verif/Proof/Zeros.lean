import Verif.Spec.Zeros

namespace Verif.Zeros

open Verif.Copy (Mem clear)
open Verif.Arr (alignf bytesFor)

theorem zeroT_at : ∀ (n : Nat) (m : Mem) (p a : Nat),
    zeroT n m p a = if p ≤ a ∧ a < p + 8 * n then 0 else m a
  | 0, m, p, a => by
    rw [zeroT, if_neg (by omega)]
  | n + 1, m, p, a => by
    rw [zeroT, zeroT_at n, clear]
    by_cases h1 : p + 8 ≤ a ∧ a < p + 8 + 8 * n
    · rw [if_pos h1, if_pos (by omega)]
    · rw [if_neg h1]
      by_cases h2 : p ≤ a ∧ a < p + 8
      · rw [if_pos h2, if_pos (by omega)]
      · rw [if_neg h2, if_neg (by omega)]

theorem zeroLoop_at : ∀ (fuel : Nat) (m : Mem) (p size : Nat), size < fuel →
    ∃ m', zeroLoop fuel m p size = some m' ∧ ∀ a, m' a = if p ≤ a ∧ a < p + 8 * size then 0 else m a
  | 0, _, _, _, h => by omega
  | fuel + 1, m, p, size, h => by
    rw [zeroLoop]
    by_cases hs : size ≤ 16
    · refine ⟨zeroT size m p, by simp [zeroSwitch, hs], fun a => zeroT_at size m p a⟩
    · obtain ⟨m', e, h'⟩ := zeroLoop_at fuel (zeroT maxZeroSize m p) (p + 8 * maxZeroSize) (size - maxZeroSize)
        (by unfold maxZeroSize; omega)
      refine ⟨m', by simp [zeroSwitch, hs, e], fun a => ?_⟩
      rw [h' a, zeroT_at]
      unfold maxZeroSize
      by_cases h1 : p + 8 * 16 ≤ a ∧ a < p + 8 * 16 + 8 * (size - 16)
      · rw [if_pos h1, if_pos (by omega)]
      · rw [if_neg h1]
        by_cases h2 : p ≤ a ∧ a < p + 8 * 16
        · rw [if_pos h2, if_pos (by omega)]
        · rw [if_neg h2, if_neg (by omega)]

theorem zeroMemory_at (m : Mem) (p size : Nat) :
    ∃ m', zeroMemory m p size = some m' ∧ ∀ a, m' a = if p ≤ a ∧ a < p + 8 * size then 0 else m a :=
  zeroLoop_at (size + 1) m p size (Nat.lt_succ_self _)

theorem alignf_eight (n : Nat) : alignf n 8 = 8 * (alignf n 8 / 8) ∧ n ≤ alignf n 8 := by
  unfold alignf
  omega

theorem bytesFor_eight (size : Nat) (n : Int) : bytesFor size n = 8 * (bytesFor size n / 8) := by
  unfold bytesFor alignf
  omega

theorem number_store (m : Mem) (p : Nat) : ∀ (n value k : Nat), 
    (∀ j, j < n → m (p + j) = BitVec.ofNat 8 (value / 256 ^ (k + j))) →
    number m p n = (value / 256 ^ k) % 256 ^ n := by
  intro n
  induction n generalizing p with
  | zero => intro value k _; simp [number, Nat.mod_one]
  | succ n ih =>
    intro value k h
    have h0 := h 0 (by omega)
    simp only [Nat.add_zero] at h0
    rw [number, h0, ih (p + 1) value (k + 1) (fun j hj => by
      have := h (j + 1) (by omega)
      rw [show p + 1 + j = p + (j + 1) by omega, this, show k + 1 + j = k + (j + 1) by omega])]
    rw [BitVec.toNat_ofNat, show (2 : Nat) ^ 8 = 256 by rfl, Nat.pow_succ 256 k, ← Nat.div_div_eq_div_mul,
      Nat.pow_succ 256 n, Nat.mul_comm (256 ^ n) 256, Nat.mod_mul]

theorem store_at (m : Mem) (p n value a : Nat) : store m p n value a =
    if p ≤ a ∧ a < p + n then BitVec.ofNat 8 (value / 256 ^ (a - p)) else m a := rfl

theorem zeroBytes_at (size : Nat) : ∀ (level n : Nat) (m : Mem) (p a : Nat),
    zeroBytes size level n m p a =
      if p ≤ a ∧ a < p + (2 ^ level * n + size % 2 ^ level) then 0 else m a := by
  intro level
  induction level with
  | zero =>
    intro n
    induction n with
    | zero =>
      intro m p a
      rw [zeroBytes, if_neg (by simp [Nat.mod_one])]
    | succ n ih =>
      intro m p a
      rw [zeroBytes, ih, clear]
      simp only [Nat.pow_zero, Nat.one_mul, Nat.mod_one, Nat.add_zero]
      by_cases h1 : p + 1 ≤ a ∧ a < p + 1 + n
      · rw [if_pos h1, if_pos (by omega)]
      · rw [if_neg h1]
        by_cases h2 : p ≤ a ∧ a < p + 1
        · rw [if_pos h2, if_pos (by omega)]
        · rw [if_neg h2, if_neg (by omega)]
  | succ level ihl =>
    intro n
    induction n with
    | zero =>
      intro m p a
      rw [zeroBytes, ihl]
      have : 2 ^ level * (size % 2 ^ (level + 1) / 2 ^ level) + size % 2 ^ level =
          2 ^ (level + 1) * 0 + size % 2 ^ (level + 1) := by
        have h1 := Nat.div_add_mod (size % 2 ^ (level + 1)) (2 ^ level)
        have h2 : size % 2 ^ (level + 1) % 2 ^ level = size % 2 ^ level :=
          Nat.mod_mod_of_dvd _ ⟨2, by rw [Nat.pow_succ]⟩
        omega
      rw [this]
    | succ n ih =>
      intro m p a
      rw [zeroBytes, ih, clear, Nat.mul_succ]
      generalize 2 ^ (level + 1) = u
      generalize u * n = v
      by_cases h1 : p + u ≤ a ∧ a < p + u + (v + size % u)
      · rw [if_pos h1, if_pos (by omega)]
      · rw [if_neg h1]
        by_cases h2 : p ≤ a ∧ a < p + u
        · rw [if_pos h2, if_pos (by omega)]
        · rw [if_neg h2, if_neg (by omega)]

theorem setLengths_above (cs : List Int) : ∀ (m : Mem) (p a : Nat), p + 4 ≤ a → setLengths m p cs a = m a := by
  induction cs with
  | nil => intro m p a _; rfl
  | cons c cs ih =>
    intro m p a h
    rw [setLengths, ih _ _ _ (by omega), store_at, if_neg (by omega)]

theorem setLengths_below (cs : List Int) : ∀ (m : Mem) (p a : Nat), a + 4 * cs.length < p + 4 →
    setLengths m p cs a = m a := by
  induction cs with
  | nil => intro m p a _; rfl
  | cons c cs ih =>
    intro m p a h
    simp only [List.length_cons] at h
    rw [setLengths]
    by_cases hp : cs = []
    · subst hp
      simp only [List.length_nil] at h
      rw [setLengths, store_at, if_neg (by omega)]
    · have : 0 < cs.length := by cases cs <;> simp_all
      rw [ih _ _ _ (by omega), store_at, if_neg (by omega)]

theorem cumulate_length : ∀ (ls : List Int) (b : Int) (cs : List Int), Verif.Arr.cumulate ls b = some cs →
    cs.length = ls.length
  | [], _, cs, h => by
    rw [Verif.Arr.cumulate] at h
    cases h
    rfl
  | l :: ls, b, cs, h => by
    rw [Verif.Arr.cumulate] at h
    simp only [Option.bind_eq_bind, Option.bind_eq_some_iff, Option.pure_def] at h
    obtain ⟨c, _, cs', e, h⟩ := h
    cases h
    simp [cumulate_length ls c cs' e]

theorem word_nat (n : Nat) (h : n < 2 ^ 31) : word (n : Int) = n := by
  unfold word
  omega

theorem unitAlign_le (size : Nat) (h : size ≤ 8) :
    size ≤ Verif.Arr.unitAlign 1 size ∧ Verif.Arr.unitAlign 1 size ≤ 8 := by
  match size, h with
  | 0, _ => decide
  | 1, _ => decide
  | 2, _ => decide
  | 3, _ => decide
  | 4, _ => decide
  | 5, _ => decide
  | 6, _ => decide
  | 7, _ => decide
  | 8, _ => decide

theorem bytesFor_enough (size n : Nat) (h : size ≤ 8) (hn : n < 2 ^ 31) :
    n * size ≤ bytesFor size (n : Int) := by
  obtain ⟨h1, h2⟩ := unitAlign_le size h
  unfold bytesFor alignf
  generalize Verif.Arr.unitAlign 1 size = u at h1 h2 ⊢
  have e1 : n * size ≤ n * u := Nat.mul_le_mul_left n h1
  have e2 : n * u ≤ n * 8 := Nat.mul_le_mul_left n h2
  rw [← Int.natCast_mul]
  generalize n * size = x at *
  generalize n * u = y at *
  omega

theorem newObj_spec (m : Mem) (block type size : Nat) (ht : type < 2 ^ 64) :
    ∃ m', newObj m block type size = some (m', block + 8) ∧ Zero m' (block + 8) size ∧
      number m' block 8 = type ∧ Only m m' block (objectBytes size) := by
  obtain ⟨m1, e, h⟩ := zeroMemory_at m (block + 8) (alignf size 8 / 8)
  obtain ⟨h8, hle⟩ := alignf_eight size
  refine ⟨setType m1 (block + 8) type, by simp [newObj, e], ?_, ?_, ?_⟩
  · intro k hk
    rw [setType, store_at, if_neg (by omega), h, if_pos (by omega)]
  · rw [number_store _ block 8 type 0 (fun j hj => by
      rw [setType, store_at, if_pos (by omega)]
      congr 3
      omega)]
    omega
  · intro a ha
    unfold objectBytes at ha
    rw [setType, store_at, if_neg (by omega), h, if_neg (by omega)]

/-- The bytes of an array of one dimension. -/
theorem newArray_one (m : Mem) (block type size n : Nat) (ht : type < 2 ^ 64) (hn : n < 2 ^ 31) (hs : size ≤ 8) :
    ∃ m', newArray m block type size [(n : Int)] = some (m', block + 16) ∧ Zero m' (block + 16) (n * size) ∧
      number m' (block + 8) 8 = type ∧ number m' (block + 4) 4 = n := by
  have hh : headerBytes 1 = 16 := rfl
  obtain ⟨m2, e, h⟩ := zeroMemory_at (setLength (setType m (block + 16) type) (block + 16) (word n)) (block + 16)
    (bytesFor size (n : Int) / 8)
  have h8 := bytesFor_eight size (n : Int)
  have hle := bytesFor_enough size n hs hn
  rw [word_nat n hn] at e h
  refine ⟨m2, by simp [newArray, hh, word_nat n hn, e], ?_, ?_, ?_⟩
  · intro k hk
    rw [h, if_pos (by omega)]
  · rw [number_store _ (block + 8) 8 type 0 (fun j hj => by
      rw [h, if_neg (by omega), setLength, store_at, if_neg (by omega), setType, store_at, if_pos (by omega)]
      congr 3
      omega)]
    omega
  · rw [number_store _ (block + 4) 4 n 0 (fun j hj => by
      rw [h, if_neg (by omega), setLength, store_at, if_pos (by omega)]
      congr 3
      omega)]
    omega

/-- Whatever an array is made of, only the bytes that were allocated change. -/
theorem newArray_only (m m' : Mem) (block type size : Nat) (lengths : List Int) (obj : Nat)
    (h : newArray m block type size lengths = some (m', obj)) :
    obj = block + headerBytes lengths.length ∧ Only m m' block (arrayBytes size lengths) := by
  match lengths, h with
  | [n], h =>
    have hh : headerBytes 1 = 16 := rfl
    obtain ⟨m2, e, h2⟩ := zeroMemory_at (setLength (setType m (block + 16) type) (block + 16) (word n)) (block + 16)
      (bytesFor size n / 8)
    have h8 := bytesFor_eight size n
    simp [newArray, hh, e] at h
    obtain ⟨rfl, rfl⟩ := h
    refine ⟨rfl, fun a ha => ?_⟩
    simp only [arrayBytes, List.length_cons, List.length_nil, Nat.zero_add, hh, List.headD_cons] at ha
    rw [h2, if_neg (by omega), setLength, store_at, if_neg (by omega), setType, store_at, if_neg (by omega)]
  | n :: x :: rest, h =>
    simp only [newArray, Option.bind_eq_bind, Option.bind_eq_some_iff, Option.pure_def] at h
    obtain ⟨total, _, cums, hc, m3, e, h⟩ := h
    cases h
    have hl := cumulate_length _ _ _ hc
    rw [List.length_reverse] at hl
    have hd : 2 ≤ (n :: x :: rest).length := by simp
    have hh : 8 + 4 * (n :: x :: rest).length + 4 ≤ headerBytes (n :: x :: rest).length := by
      unfold headerBytes alignf
      rw [if_neg (by omega)]
      omega
    refine ⟨rfl, fun a ha => ?_⟩
    unfold arrayBytes at ha
    simp only [List.headD_cons] at ha
    generalize headerBytes (n :: x :: rest).length = hb at *
    generalize (n :: x :: rest).length = d at *
    obtain ⟨m4, e', h4⟩ := zeroMemory_at (setLengths (setLength (setType m (block + hb) type) (block + hb)
      (word total)) (block + hb - 8 - 8) cums) (block + hb) (bytesFor size n / 8)
    rw [e'] at e
    cases e
    have h8 := bytesFor_eight size n
    rw [h4, if_neg (by omega)]
    have hs : setLengths (setLength (setType m (block + hb) type) (block + hb) (word total)) (block + hb - 8 - 8)
        cums a = setLength (setType m (block + hb) type) (block + hb) (word total) a := by
      rcases ha with ha | ha
      · exact setLengths_below _ _ _ _ (by omega)
      · exact setLengths_above _ _ _ _ (by omega)
    rw [hs, setLength, store_at, if_neg (by omega), setType, store_at, if_neg (by omega)]

end Verif.Zeros
