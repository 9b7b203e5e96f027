import Verif.Model.Copy

/-!
# C38 fast memory copy and clearing
-/

namespace Verif.Copy

/-! ## Specification -/

/-- `memmove`: the destination gets the bytes the source had before, nothing else changes. -/
def memmove (m : Mem) (dst src size : Nat) : Mem :=
  fun a => if dst ≤ a ∧ a < dst + size then m (src + (a - dst)) else m a

/-- `memset(p, 0, size)`. -/
def memzero (m : Mem) (p size : Nat) : Mem := fun a => if p ≤ a ∧ a < p + size then 0 else m a

/-! ## Helper lemmas -/

/-- The state in which exactly the offsets in `[lo, hi)` have been copied. -/
def part (m : Mem) (dst src lo hi : Nat) : Mem :=
  fun a => if dst + lo ≤ a ∧ a < dst + hi then m (src + (a - dst)) else m a

theorem part_empty (m : Mem) (dst src k : Nat) : part m dst src k k = m := by
  funext a; rw [part, if_neg (by omega)]

theorem part_full (m : Mem) (dst src n : Nat) : part m dst src 0 n = memmove m dst src n := rfl

/-- Copying the next chunk upwards, when no byte still to be read has been overwritten. -/
theorem move_up (m : Mem) (dst src lo hi n : Nat) (hlh : lo ≤ hi)
    (h : ∀ x, hi ≤ x → x < hi + n → ¬ (dst + lo ≤ src + x ∧ src + x < dst + hi)) :
    move (part m dst src lo hi) (dst + hi) (src + hi) n = part m dst src lo (hi + n) := by
  funext a
  by_cases h1 : dst + hi ≤ a ∧ a < dst + hi + n
  · rw [move, if_pos h1, part, part, if_pos (by omega : dst + lo ≤ a ∧ a < dst + (hi + n))]
    have h2 := h (a - dst) (by omega) (by omega)
    rw [if_neg (by omega)]
    congr 1; omega
  · rw [move, if_neg h1, part, part]
    by_cases h2 : dst + lo ≤ a ∧ a < dst + hi
    · rw [if_pos h2, if_pos (by omega)]
    · rw [if_neg h2, if_neg (by omega)]

/-- Copying the next chunk downwards. -/
theorem move_down (m : Mem) (dst src lo hi n : Nat) (hn : n ≤ lo) (hlh : lo ≤ hi)
    (h : ∀ x, lo - n ≤ x → x < lo → ¬ (dst + lo ≤ src + x ∧ src + x < dst + hi)) :
    move (part m dst src lo hi) (dst + (lo - n)) (src + (lo - n)) n = part m dst src (lo - n) hi := by
  funext a
  by_cases h1 : dst + (lo - n) ≤ a ∧ a < dst + (lo - n) + n
  · rw [move, if_pos h1, part, part, if_pos (by omega : dst + (lo - n) ≤ a ∧ a < dst + hi)]
    have h2 := h (a - dst) (by omega) (by omega)
    rw [if_neg (by omega)]
    congr 1; omega
  · rw [move, if_neg h1, part, part]
    by_cases h2 : dst + lo ≤ a ∧ a < dst + hi
    · rw [if_pos h2, if_pos (by omega)]
    · rw [if_neg h2, if_neg (by omega)]

/-- The condition under which copying upwards is safe for the first `n` bytes. -/
def UpSafe (dst src n : Nat) : Prop := dst ≤ src ∨ src + n ≤ dst

theorem UpSafe.cond {dst src N : Nat} (h : UpSafe dst src N) {hi n : Nat} (hn : hi + n ≤ N) :
    ∀ x, hi ≤ x → x < hi + n → ¬ (dst + 0 ≤ src + x ∧ src + x < dst + hi) := by
  intro x h1 h2; rcases h with h | h <;> omega

theorem small_up (m : Mem) (dst src hi n N : Nat) (h : UpSafe dst src N) (hn : hi + n ≤ N) (h8 : n ≤ 8) :
    quickCopySmall (part m dst src 0 hi) (dst + hi) (src + hi) n = part m dst src 0 (hi + n) := by
  have step : ∀ off k, off + k ≤ n →
      move (part m dst src 0 (hi + off)) (dst + hi + off) (src + hi + off) k =
        part m dst src 0 (hi + off + k) := by
    intro off k hk
    rw [Nat.add_assoc dst, Nat.add_assoc src]
    exact move_up m dst src 0 (hi + off) k (by omega) (h.cond (by omega))
  unfold quickCopySmall
  match n, h8 with
  | 0, _ => rfl
  | 1, _ => simpa [chunks, moves] using step 0 1 (by omega)
  | 2, _ => simpa [chunks, moves] using step 0 2 (by omega)
  | 3, _ =>
    have a := step 0 2 (by omega); have b := step 2 1 (by omega)
    simp only [Nat.add_zero] at a
    simp only [chunks, moves, Nat.add_zero]; rw [a, b]
  | 4, _ => simpa [chunks, moves] using step 0 4 (by omega)
  | 5, _ =>
    have a := step 0 4 (by omega); have b := step 4 1 (by omega)
    simp only [Nat.add_zero] at a
    simp only [chunks, moves, Nat.add_zero]; rw [a, b]
  | 6, _ =>
    have a := step 0 4 (by omega); have b := step 4 2 (by omega)
    simp only [Nat.add_zero] at a
    simp only [chunks, moves, Nat.add_zero]; rw [a, b]
  | 7, _ =>
    have a := step 0 4 (by omega); have b := step 4 2 (by omega); have c := step 6 1 (by omega)
    simp only [Nat.add_zero] at a
    simp only [chunks, moves, Nat.add_zero]; rw [a, b, c]
  | 8, _ => simpa [chunks, moves] using step 0 8 (by omega)
  | n + 9, h => omega

theorem wordLoop_up (m : Mem) (dst src N : Nat) (h : UpSafe dst src N) (hi n : Nat) (hn : hi + n = N) :
    ∃ k, k ≤ n ∧ n - k < 8 ∧
      wordLoop (part m dst src 0 hi) (dst + hi) (src + hi) n =
        (part m dst src 0 (hi + k), dst + (hi + k), src + (hi + k), n - k) := by
  induction n using Nat.strongRecOn generalizing hi with
  | ind n ih =>
    rw [wordLoop]
    by_cases h8 : 8 ≤ n
    · rw [if_pos h8, move_up m dst src 0 hi 8 (by omega) (h.cond (by omega))]
      obtain ⟨k, h1, h2, h3⟩ := ih (n - 8) (by omega) (hi + 8) (by omega)
      refine ⟨k + 8, by omega, by omega, ?_⟩
      rw [Nat.add_assoc dst, Nat.add_assoc src, h3]
      have e : hi + 8 + k = hi + (k + 8) := by omega
      have e2 : n - 8 - k = n - (k + 8) := by omega
      rw [e, e2]
    · rw [if_neg h8]
      exact ⟨0, by omega, by omega, rfl⟩

theorem quickCopyUp_eq (m : Mem) (dst src size : Nat) (h : UpSafe dst src size) (h9 : 8 < size) :
    quickCopyUp m dst src size = memmove m dst src size := by
  have fin : ∀ hi, hi ≤ size →
      (let (m', dst', src', size') := wordLoop (part m dst src 0 hi) (dst + hi) (src + hi) (size - hi)
       quickCopySmall m' dst' src' size') = memmove m dst src size := by
    intro hi hle
    obtain ⟨k, h1, h2, h3⟩ := wordLoop_up m dst src size h hi (size - hi) (by omega)
    rw [h3]
    show quickCopySmall (part m dst src 0 (hi + k)) (dst + (hi + k)) (src + (hi + k)) (size - hi - k) = _
    rw [small_up m dst src (hi + k) (size - hi - k) size h (by omega) (by omega),
      show hi + k + (size - hi - k) = size by omega, part_full]
  unfold quickCopyUp
  by_cases ho : src % 8 > 0
  · simp only [if_pos ho]
    have := small_up m dst src 0 (8 - src % 8) size h (by omega) (by omega)
    simp only [Nat.add_zero, Nat.zero_add, part_empty] at this
    rw [this]
    exact fin (8 - src % 8) (by omega)
  · simp only [if_neg ho]
    have := fin 0 (by omega)
    simpa only [Nat.add_zero, part_empty, Nat.sub_zero] using this

theorem back_cond {dst src hi : Nat} (h : src ≤ dst) {lo n : Nat} :
    ∀ x, lo - n ≤ x → x < lo → ¬ (dst + lo ≤ src + x ∧ src + x < dst + hi) := by
  intro x h1 h2; omega

/-- The backward small copy of the bytes `[lo, lo+n)`, those from `lo+n` on being already there. -/
theorem small_down (m : Mem) (dst src lo n hi : Nat) (h : src ≤ dst) (hn : lo + n ≤ hi) (h8 : n ≤ 8) :
    quickCopyBackSmall (part m dst src (lo + n) hi) (dst + lo) (src + lo) n = part m dst src lo hi := by
  have step : ∀ off k, off + k ≤ n →
      move (part m dst src (lo + (off + k)) hi) (dst + lo + off) (src + lo + off) k =
        part m dst src (lo + off) hi := by
    intro off k hk
    have e : lo + off = lo + (off + k) - k := by omega
    rw [Nat.add_assoc dst, Nat.add_assoc src, e]
    exact move_down m dst src (lo + (off + k)) hi k (by omega) (by omega) (back_cond h)
  unfold quickCopyBackSmall
  match n, h8 with
  | 0, _ => rfl
  | 1, _ => simpa [chunksBack, moves] using step 0 1 (by omega)
  | 2, _ => simpa [chunksBack, moves] using step 0 2 (by omega)
  | 3, _ =>
    have a := step 2 1 (by omega); have b := step 0 2 (by omega)
    simp only [Nat.add_zero, Nat.zero_add] at b
    simp only [chunksBack, moves, Nat.add_zero]; rw [a, b]
  | 4, _ => simpa [chunksBack, moves] using step 0 4 (by omega)
  | 5, _ =>
    have a := step 4 1 (by omega); have b := step 0 4 (by omega)
    simp only [Nat.add_zero, Nat.zero_add] at b
    simp only [chunksBack, moves, Nat.add_zero]; rw [a, b]
  | 6, _ =>
    have a := step 4 2 (by omega); have b := step 0 4 (by omega)
    simp only [Nat.add_zero, Nat.zero_add] at b
    simp only [chunksBack, moves, Nat.add_zero]; rw [a, b]
  | 7, _ =>
    have a := step 6 1 (by omega); have b := step 4 2 (by omega); have c := step 0 4 (by omega)
    simp only [Nat.add_zero, Nat.zero_add] at c
    simp only [chunksBack, moves, Nat.add_zero]; rw [a, b, c]
  | 8, _ => simpa [chunksBack, moves] using step 0 8 (by omega)
  | n + 9, h => omega

theorem wordLoop_down (m : Mem) (dst src hi : Nat) (h : src ≤ dst) (n : Nat) (hn : n ≤ hi) :
    ∃ k, k < 8 ∧ k ≤ n ∧
      wordLoopBack (part m dst src n hi) (dst + n) (src + n) n = (part m dst src k hi, k) := by
  induction n using Nat.strongRecOn with
  | ind n ih =>
    rw [wordLoopBack]
    by_cases h8 : 8 ≤ n
    · rw [if_pos h8]
      have e1 : dst + n - 8 = dst + (n - 8) := by omega
      have e2 : src + n - 8 = src + (n - 8) := by omega
      rw [e1, e2, move_down m dst src n hi 8 h8 hn (back_cond h)]
      obtain ⟨k, h1, h2, h3⟩ := ih (n - 8) (by omega) (by omega)
      exact ⟨k, h1, by omega, h3⟩
    · rw [if_neg h8]
      exact ⟨n, by omega, by omega, rfl⟩

theorem quickCopyDown_eq (m : Mem) (dst src size : Nat) (h : src ≤ dst) (h9 : 8 < size) :
    quickCopyDown m dst src size = memmove m dst src size := by
  have fin : ∀ n, n ≤ size →
      (let (m', size') := wordLoopBack (part m dst src n size) (dst + n) (src + n) n
       quickCopyBackSmall m' dst src size') = memmove m dst src size := by
    intro n hle
    obtain ⟨k, h1, h2, h3⟩ := wordLoop_down m dst src size h n hle
    rw [h3]
    show quickCopyBackSmall (part m dst src k size) dst src k = _
    have := small_down m dst src 0 k size h (by omega) (by omega)
    simp only [Nat.zero_add, Nat.add_zero] at this
    rw [this, part_full]
  unfold quickCopyDown
  by_cases ho : (src + size) % 8 > 0
  · simp only [if_pos ho]
    generalize hoff : 8 - (src + size) % 8 = off
    have e1 : src + size - off = src + (size - off) := by omega
    have e2 : dst + size - off = dst + (size - off) := by omega
    have := small_down m dst src (size - off) off size h (by omega) (by omega)
    rw [show size - off + off = size by omega, part_empty] at this
    rw [e1, e2, this]
    exact fin (size - off) (by omega)
  · simp only [if_neg ho]
    have := fin size (by omega)
    rwa [part_empty] at this

/-! ## The property -/

/-- **C38, everywhere it holds.**  `quick_copy` is `memmove` — for every memory, pair of addresses, overlap
and length — except possibly for lengths 3, 5, 6 and 7 when the destination starts inside the source. -/
theorem quick_copy_memmove_partial (m : Mem) (dst src size : Nat)
    (h : ¬ (size ∈ [3, 5, 6, 7] ∧ src < dst ∧ dst < src + size)) :
    quickCopy m dst src size = memmove m dst src size := by
  unfold quickCopy
  by_cases h0 : dst = src ∨ size = 0
  · rw [if_pos h0]
    funext a
    rw [memmove]
    rcases h0 with rfl | rfl
    · by_cases ha : dst ≤ a ∧ a < dst + size
      · rw [if_pos ha]; congr 1; omega
      · rw [if_neg ha]
    · rw [if_neg (by omega)]
  · rw [if_neg h0]
    by_cases h8 : size ≤ 8
    · rw [if_pos h8]
      by_cases hs : size ∈ [3, 5, 6, 7]
      · have hu : UpSafe dst src size := by
          have : ¬ (src < dst ∧ dst < src + size) := fun hc => h ⟨hs, hc⟩
          unfold UpSafe; omega
        have := small_up m dst src 0 size size hu (by omega) h8
        simpa [part_empty, part_full] using this
      · have : size = 1 ∨ size = 2 ∨ size = 4 ∨ size = 8 := by
          simp at hs; omega
        rcases this with rfl | rfl | rfl | rfl <;> rfl
    · rw [if_neg h8]
      by_cases hb : src < dst ∧ dst ≤ src + size
      · rw [if_pos hb]; exact quickCopyDown_eq m dst src size (by omega) (by omega)
      · rw [if_neg hb]
        exact quickCopyUp_eq m dst src size (by unfold UpSafe; omega) (by omega)

/-- The copy never touches anything outside the destination, whatever the overlap and length. -/
theorem quick_copy_frame (m : Mem) (dst src size a : Nat) (ha : ¬ (dst ≤ a ∧ a < dst + size)) :
    quickCopy m dst src size a = m a := by
  by_cases h : size ∈ [3, 5, 6, 7] ∧ src < dst ∧ dst < src + size
  · have hm : ∀ (m' : Mem) off n, off + n ≤ size → m' a = m a →
        move m' (dst + off) (src + off) n a = m a := by
      intro m' off n hn he
      rw [move, if_neg (by omega), he]
    rw [quickCopy, if_neg (by omega)]
    obtain ⟨hs, -⟩ := h
    simp only [List.mem_cons, List.not_mem_nil, or_false] at hs
    rw [if_pos (by omega), quickCopySmall]
    rcases hs with rfl | rfl | rfl | rfl <;> simp only [chunks, moves] <;>
      repeat' first | rfl | (apply hm; omega)
  · rw [quick_copy_memmove_partial m dst src size h, memmove, if_neg ha]

/-- **C38 is false in general**: moving three bytes up by one in 1, 2, 3, 4 gives 1, 1, 2, 2 instead of
1, 1, 2, 3. -/
theorem quick_copy_refuted :
    let m : Mem := fun a => if a = 0 then 1 else if a = 1 then 2 else if a = 2 then 3 else 4
    (quickCopy m 1 0 3 3 = 2) ∧ (memmove m 1 0 3 3 = 3) := by decide

/-- The excluded overlaps are all real failures: for each of these lengths and every such overlap there is a
memory on which the result differs from `memmove`. -/
theorem quick_copy_refuted_all (dst src size : Nat) (hs : size ∈ [3, 5, 6, 7]) (h1 : src < dst)
    (h2 : dst < src + size) : ∃ m, quickCopy m dst src size ≠ memmove m dst src size := by
  -- all bytes equal to their distance from the source
  refine ⟨fun a => BitVec.ofNat 8 (a - src), fun he => ?_⟩
  obtain ⟨d, rfl⟩ : ∃ d, dst = src + d := ⟨dst - src, by omega⟩
  simp only [List.mem_cons, List.not_mem_nil, or_false] at hs
  have hd : 0 < d ∧ d < size := by omega
  have hat : ∀ k, k < size → moves (fun a => BitVec.ofNat 8 (a - src)) (src + d) src (chunks size) (src + d + k) =
      BitVec.ofNat 8 k := by
    intro k hk
    have hl := congrFun he (src + d + k)
    rw [memmove, if_pos (by omega), quickCopy, if_neg (by omega), if_pos (by omega), quickCopySmall] at hl
    rw [hl]
    congr 1; omega
  rcases hs with rfl | rfl | rfl | rfl
  · have hc : d = 1 ∨ d = 2 := by omega
    have h := hat 2 (by omega)
    rcases hc with rfl | rfl <;> simp [chunks, moves, move] at h
  · have hc : d = 1 ∨ d = 2 ∨ d = 3 ∨ d = 4 := by omega
    have h := hat 4 (by omega)
    rcases hc with rfl | rfl | rfl | rfl <;> simp [chunks, moves, move] at h
  · have hc : d = 1 ∨ d = 2 ∨ d = 3 ∨ d = 4 ∨ d = 5 := by omega
    have h := hat 4 (by omega)
    have h' := hat 5 (by omega)
    rcases hc with rfl | rfl | rfl | rfl | rfl <;> simp [chunks, moves, move] at h h'
  · have hc : d = 1 ∨ d = 2 ∨ d = 3 ∨ d = 4 ∨ d = 5 ∨ d = 6 := by omega
    have h := hat 6 (by omega)
    rcases hc with rfl | rfl | rfl | rfl | rfl | rfl <;> simp [chunks, moves, move] at h
    rw [show src + 4 + 1 - src = 5 by omega] at h
    exact absurd h (by decide)

/-- Non-vacuity of `quick_copy_memmove_partial`: overlapping moves of 20 bytes in both directions. -/
example : ¬ (20 ∈ [3, 5, 6, 7] ∧ 100 < 103 ∧ 103 < 100 + 20) ∧ ¬ (20 ∈ [3, 5, 6, 7] ∧ 103 < 100 ∧ 100 < 103 + 20) := by
  decide

/-! ## Fixed-size forms -/

theorem quickCopyT_aux (m : Mem) (dst src N : Nat) (h : UpSafe dst src N) (hi n : Nat) (hn : hi + n = N) :
    quickCopyT (part m dst src 0 hi) (dst + hi) (src + hi) n = memmove m dst src N := by
  induction n using Nat.strongRecOn generalizing hi with
  | ind n ih =>
    rw [quickCopyT]
    by_cases h8 : n ≤ 8
    · rw [if_pos h8]
      have := small_up m dst src hi n N h (by omega) h8
      rw [quickCopySmall] at this
      rw [this, hn, part_full]
    · rw [if_neg h8, move_up m dst src 0 hi 8 (by omega) (h.cond (by omega)), Nat.add_assoc dst,
        Nat.add_assoc src]
      exact ih (n - 8) (by omega) (hi + 8) (by omega)

/-- **C38 (fixed size).**  The fixed-size copy is `memmove` unless the destination starts inside the source. -/
theorem quick_copyT_memmove_partial (m : Mem) (dst src size : Nat) (h : dst ≤ src ∨ src + size ≤ dst) :
    quickCopyT m dst src size = memmove m dst src size := by
  have := quickCopyT_aux m dst src size h 0 size (by omega)
  simpa [part_empty] using this

/-- The fixed-size copy of 16 bytes to an address 8 above is wrong: the second word is overwritten first. -/
theorem quick_copyT_refuted :
    let m : Mem := fun a => BitVec.ofNat 8 a
    quickCopyT m 8 0 16 16 = 0 ∧ memmove m 8 0 16 16 = 8 := by
  intro m
  rw [quickCopyT, if_neg (by decide), quickCopyT, if_pos (by decide)]
  exact ⟨by decide, by decide⟩

/-- **C38 is false of the fixed-size backward copy above 8 bytes**: even on disjoint ranges it writes past the
destination (7 bytes) and leaves destination bytes uncopied. -/
theorem quick_copyBackT_refuted (m : Mem) (dst src : Nat) (h : src + 100 ≤ dst) :
    quickCopyBackT m dst src 9 (dst + 9) = m (src + 9) ∧ memmove m dst src 9 (dst + 9) = m (dst + 9) ∧
    quickCopyBackT m dst src 9 (dst + 1) = m (dst + 1) ∧ memmove m dst src 9 (dst + 1) = m (src + 1) := by
  rw [quickCopyBackT, if_neg (by omega), quickCopyBackT, if_pos (by omega)]
  simp only [chunksBack, moves, move, memmove, Nat.sub_self]
  refine ⟨?_, ?_, ?_, ?_⟩
  · rw [if_neg (by omega), if_pos (by omega)]; congr 1; omega
  · rw [if_neg (by omega)]
  · rw [if_neg (by omega), if_neg (by omega)]
  · rw [if_pos (by omega)]; congr 1; omega

/-! ## Clearing -/

theorem clears_eq (m : Mem) (p n : Nat) (h : n ≤ 8) : clears m p (chunks n) = memzero m p n := by
  have key : ∀ (m : Mem) off k, clear (memzero m p off) (p + off) k = memzero m p (off + k) := by
    intro m off k
    funext a
    rw [clear, memzero, memzero]
    by_cases h1 : p + off ≤ a ∧ a < p + off + k
    · rw [if_pos h1, if_pos (by omega)]
    · rw [if_neg h1]
      by_cases h2 : p ≤ a ∧ a < p + off
      · rw [if_pos h2, if_pos (by omega)]
      · rw [if_neg h2, if_neg (by omega)]
  have z : memzero m p 0 = m := by funext a; rw [memzero, if_neg (by omega)]
  have k0 : ∀ k, clear m (p + 0) k = memzero m p k := by
    intro k; have := key m 0 k; rwa [z, Nat.zero_add] at this
  match n, h with
  | 0, _ => exact z.symm
  | 1, _ => exact k0 1
  | 2, _ => exact k0 2
  | 3, _ => simp only [chunks, clears]; rw [k0 2, key]
  | 4, _ => exact k0 4
  | 5, _ => simp only [chunks, clears]; rw [k0 4, key]
  | 6, _ => simp only [chunks, clears]; rw [k0 4, key]
  | 7, _ => simp only [chunks, clears]; rw [k0 4, key, key]
  | 8, _ => exact k0 8
  | n + 9, h => omega

theorem memzero_cons (m : Mem) (p n : Nat) (h : 8 ≤ n) :
    memzero (clear m p 8) (p + 8) (n - 8) = memzero m p n := by
  funext a
  rw [memzero, memzero, clear]
  by_cases h1 : p + 8 ≤ a ∧ a < p + 8 + (n - 8)
  · rw [if_pos h1, if_pos (by omega)]
  · rw [if_neg h1]
    by_cases h2 : p ≤ a ∧ a < p + 8
    · rw [if_pos h2, if_pos (by omega)]
    · rw [if_neg h2, if_neg (by omega)]

/-- **C38 (clearing).**  `quick_zero(p, size)` clears exactly the `size` bytes from `p`. -/
theorem quick_zero_memzero (m : Mem) (p size : Nat) : quickZero m p size = memzero m p size := by
  induction size using Nat.strongRecOn generalizing m p with
  | ind n ih =>
    rw [quickZero]
    by_cases h : 8 < n
    · rw [if_pos h, ih (n - 8) (by omega), memzero_cons m p n (by omega)]
    · rw [if_neg h, clears_eq m p n (by omega)]

/-- **C38 (clearing, fixed size).** -/
theorem quick_zeroT_memzero (m : Mem) (p size : Nat) : quickZeroT m p size = memzero m p size := by
  induction size using Nat.strongRecOn generalizing m p with
  | ind n ih =>
    rw [quickZeroT]
    by_cases h : n ≤ 8
    · rw [if_pos h, clears_eq m p n h]
    · rw [if_neg h, ih (n - 8) (by omega), memzero_cons m p n (by omega)]

example : memzero (fun _ => 7) 10 3 12 = 0 ∧ memzero (fun _ => 7) 10 3 13 = 7 := by decide

end Verif.Copy
