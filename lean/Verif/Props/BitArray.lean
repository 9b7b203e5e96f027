import Verif.Spec.BitArray

/-! # C32: the bit array -/

namespace Verif.BitArray.Props

/-! ## Helper lemmas -/

theorem and_flag (w : BitVec 64) (k : Nat) (hk : k < 64) : (w &&& (1#64 <<< k) ≠ 0#64) ↔ w.getLsbD k = true := by
  constructor
  · intro h
    apply Classical.byContradiction
    intro hn
    apply h
    apply BitVec.eq_of_getLsbD_eq
    intro i hi
    simp only [BitVec.getLsbD_and, BitVec.getLsbD_shiftLeft, BitVec.getLsbD_zero, BitVec.getLsbD_one]
    by_cases he : i = k
    · subst he; simp only [Bool.not_eq_true] at hn; simp [hn]
    · by_cases hlt : i < k
      · simp [hlt]
      · have : ¬ (i - k = 0) := by omega
        simp [this]
  · intro h hz
    have := congrArg (fun v => v.getLsbD k) hz
    simp only [BitVec.getLsbD_and, BitVec.getLsbD_shiftLeft, BitVec.getLsbD_zero, BitVec.getLsbD_one, h] at this
    simp [hk] at this

theorem flag_bit (i j : Nat) (hj : j < 64) : (flag i).getLsbD j = decide (j = i % 64) := by
  rw [flag, BitVec.getLsbD_shiftLeft, BitVec.getLsbD_one]
  by_cases h : j = i % 64
  · subst h; simp [hj]
  · by_cases hlt : j < i % 64
    · simp [hlt, h]
    · have : ¬ (j - i % 64 = 0) := by omega
      simp [hj, this, h]

/-- `__cut` is not zero exactly when one of the bits of the range is set. -/
theorem cut_ne_zero (v : BitVec 64) (f t : Nat) (hft : f ≤ t) (ht : t < 64) :
    cut v f t ≠ 0#64 ↔ ∃ k, f ≤ k ∧ k ≤ t ∧ v.getLsbD k = true := by
  constructor
  · intro h
    apply Classical.byContradiction
    intro hn
    apply h
    apply BitVec.eq_of_getLsbD_eq
    intro i hi
    rw [cut, BitVec.getLsbD_ushiftRight, BitVec.getLsbD_shiftLeft, BitVec.getLsbD_zero]
    by_cases hlt : f + (64 - t - 1) + i < 64
    · have : v.getLsbD (f + (64 - t - 1) + i - (64 - t - 1)) = false := by
        apply Bool.eq_false_iff.mpr
        intro hk
        exact hn ⟨_, by omega, by omega, hk⟩
      simp [this]
    · simp [hlt]
  · intro ⟨k, h1, h2, h3⟩ hz
    have := congrArg (fun w => w.getLsbD (k - f)) hz
    simp only [cut, BitVec.getLsbD_ushiftRight, BitVec.getLsbD_shiftLeft, BitVec.getLsbD_zero] at this
    rw [show f + (64 - t - 1) + (k - f) - (64 - t - 1) = k by omega, h3] at this
    simp only [Bool.and_true, Bool.and_eq_false_imp, decide_eq_true_eq, Bool.not_eq_eq_eq_not, Bool.not_false] at this
    have := this (by omega)
    omega

/-- The least set bit from `f` on, up to `e`. -/
def Least (v : BitVec 64) (f e : Nat) : Option Nat → Prop
  | some i => f ≤ i ∧ i ≤ e ∧ v.getLsbD i = true ∧ ∀ j, f ≤ j → j < i → v.getLsbD j = false
  | none => ∀ j, f ≤ j → j ≤ e → v.getLsbD j = false

theorem search_least (v : BitVec 64) : ∀ (fuel f e : Nat), f ≤ e → e < 64 → e - f < fuel →
    ∃ r, search v fuel f e = .ok r ∧ Least v f e r
  | 0, f, e, _, _, h => by omega
  | fuel + 1, f, e, hfe, he, hfuel => by
    rw [search]
    rw [if_neg (by omega)]
    have hcut := cut_ne_zero v f ((f + e) / 2) (by omega) (by omega)
    by_cases hc : cut v f ((f + e) / 2) ≠ 0#64
    · rw [if_pos hc]
      obtain ⟨k, k1, k2, k3⟩ := hcut.mp hc
      by_cases hi : (f + e) / 2 = f
      · rw [if_pos hi]
        refine ⟨_, rfl, by omega, by omega, ?_, by intro j h1 h2; omega⟩
        rwa [show (f + e) / 2 = k by omega]
      · rw [if_neg hi]
        obtain ⟨r, h1, h2⟩ := search_least v fuel f ((f + e) / 2) (by omega) (by omega) (by omega)
        refine ⟨r, h1, ?_⟩
        cases r with
        | none => exact absurd (h2 k k1 k2) (by simp [k3])
        | some i => exact ⟨h2.1, by have := h2.2.1; omega, h2.2.2⟩
    · rw [if_neg hc]
      have hz : ∀ j, f ≤ j → j ≤ (f + e) / 2 → v.getLsbD j = false := by
        intro j h1 h2
        apply Bool.eq_false_iff.mpr
        intro hj
        exact hc (hcut.mpr ⟨j, h1, h2, hj⟩)
      by_cases hge : (f + e) / 2 ≥ e
      · rw [if_pos hge]
        exact ⟨none, rfl, fun j h1 h2 => hz j h1 (by omega)⟩
      · rw [if_neg hge]
        obtain ⟨r, h1, h2⟩ := search_least v fuel ((f + e) / 2 + 1) e (by omega) he (by omega)
        refine ⟨r, h1, ?_⟩
        cases r with
        | none =>
          intro j j1 j2
          by_cases hj : j ≤ (f + e) / 2
          · exact hz j j1 hj
          · exact h2 j (by omega) j2
        | some i =>
          refine ⟨by have := h2.1; omega, h2.2.1, h2.2.2.1, ?_⟩
          intro j j1 j2
          by_cases hj : j ≤ (f + e) / 2
          · exact hz j j1 hj
          · exact h2.2.2.2 j (by omega) j2

theorem indexOfTrue_least (v : BitVec 64) (f : Nat) (hf : f < 64) :
    ∃ r, indexOfTrue v f = .ok r ∧ Least v f 63 r := by
  rw [indexOfTrue, if_neg (by omega)]
  by_cases h : v &&& (1#64 <<< f) ≠ 0#64
  · rw [if_pos h]
    exact ⟨_, rfl, Nat.le_refl _, by omega, (and_flag v f hf).mp h, by intro j h1 h2; omega⟩
  · rw [if_neg h]
    exact search_least v 64 f 63 (by omega) (by omega) (by omega)

/-- Bit `i` of a list of words. -/
def bitOf (d : List (BitVec 64)) (i : Nat) : Bool := ((d[i / 64]?).getD 0#64).getLsbD (i % 64)

/-- What is true of a bit array with words. -/
structure Inv (a : BA) (d : List (BitVec 64)) (bits : Nat → Bool) : Prop where
  data : a.data = some d
  room : dataLengthOf a.bitLength ≤ d.length
  same : ∀ i, bitOf d i = bits i
  high : ∀ i, a.bitLength ≤ i → bits i = false

theorem bitOf_append_zeros (d : List (BitVec 64)) (n i : Nat) : bitOf (d ++ List.replicate n 0#64) i = bitOf d i := by
  rw [bitOf, bitOf]
  by_cases h : i / 64 < d.length
  · rw [List.getElem?_append_left h]
  · rw [List.getElem?_append_right (by omega), List.getElem?_eq_none (l := d) (by omega), List.getElem?_replicate]
    split <;> rfl

theorem copied_take (d : List (BitVec 64)) (mem : Nat → BitVec 64) (n : Nat) (h : d.length ≤ n) :
    (copied d mem n).take d.length = d := by
  apply List.ext_getElem?
  intro i
  rw [List.getElem?_take]
  by_cases hi : i < d.length
  · rw [if_pos hi, copied, List.getElem?_map, List.getElem?_range (by omega)]
    simp [hi]
  · rw [if_neg hi, List.getElem?_eq_none (by omega)]

theorem word_index (i : Nat) : i / 64 < dataLengthOf (i + 1) := by
  rw [dataLengthOf]; omega

theorem newLength_le (n : Nat) : n ≤ newLength n := by
  rw [newLength]; split <;> omega

theorem newLength_lt (n : Nat) (h : 0 < n) : n < newLength n := by
  rw [newLength]; split <;> omega

theorem dataLengthOf_mono {a b : Nat} (h : a ≤ b) : dataLengthOf a ≤ dataLengthOf b := by
  rw [dataLengthOf, dataLengthOf]; omega

/-- Setting the bit in its word. -/
theorem bitOf_set (d : List (BitVec 64)) (k : Nat) (w : BitVec 64) (hw : d[k / 64]? = some w) (v : Bool) (i : Nat) :
    bitOf (d.set (k / 64) (if v then w ||| flag k else w &&& ~~~flag k)) i = if i = k then v else bitOf d i := by
  have hlt : k / 64 < d.length := (List.getElem?_eq_some_iff.mp hw).1
  rw [bitOf, bitOf, List.getElem?_set]
  have hm : i % 64 < 64 := Nat.mod_lt _ (by omega)
  by_cases he : k / 64 = i / 64
  · rw [if_pos he, if_pos hlt, ← he, hw]
    simp only [Option.getD_some]
    by_cases hik : i = k
    · subst hik
      rw [if_pos rfl]
      cases v with
      | true => simp [flag_bit i _ hm]
      | false => simp [flag_bit i _ hm]
    · rw [if_neg hik]
      have hne : i % 64 ≠ k % 64 := by omega
      cases v with
      | true => simp [flag_bit k _ hm, hne]
      | false =>
        rw [if_neg (by simp), BitVec.getLsbD_and, BitVec.getLsbD_not, flag_bit k _ hm]
        simp [hm, hne]
  · rw [if_neg he, if_neg (by intro h; subst h; exact he rfl)]

theorem set_ok (a : BA) (mem : Nat → BitVec 64) (k : Nat) (v : Bool) (bits : Nat → Bool) (len : Nat)
    (h : (a.data = none ∧ (∀ i, bits i = false) ∧ len = 0) ∨ (∃ d, Inv a d bits) ∧ a.bitLength = len) :
    ∃ a' d', a.set mem k v = .ok a' ∧ Inv a' d' (fun i => if i = k then v else bits i) ∧
      a'.bitLength = max len (k + 1) := by
  have main : ∀ (b : BA) (d : List (BitVec 64)), a.checkLength mem (k + 1) = b → Inv b d bits → k < b.bitLength →
      ∃ a' d', a.set mem k v = .ok a' ∧ Inv a' d' (fun i => if i = k then v else bits i) ∧
      a'.bitLength = b.bitLength := by
    intro b d hb hi hk
    have hlt : k / 64 < d.length := by
      have := hi.room
      have h1 := dataLengthOf_mono (show k + 1 ≤ b.bitLength from hk)
      have h2 := word_index k
      omega
    have hw : d[k / 64]? = some d[k / 64] := List.getElem?_eq_getElem hlt
    rw [BA.set]
    simp only [hb, hi.data, hw]
    refine ⟨_, _, rfl, ⟨rfl, ?_, ?_, ?_⟩, rfl⟩
    · simp only [List.length_set]; exact hi.room
    · intro i
      rw [bitOf_set d k _ hw v i, hi.same]
    · intro i hi'
      simp only at hi'
      rw [if_neg (by omega), hi.high i hi']
  rcases h with ⟨h1, h2, h3⟩ | ⟨⟨d, hi⟩, h2⟩
  · have := main ⟨k + 1, some (List.replicate (newLength (dataLengthOf (k + 1))) 0#64)⟩ _
      (by rw [BA.checkLength, h1]) ⟨rfl, by simp only [List.length_replicate]; exact newLength_le _, ?_, ?_⟩ (by simp)
    · subst h3
      simpa using this
    · intro i
      have := bitOf_append_zeros [] (newLength (dataLengthOf (k + 1))) i
      rw [List.nil_append] at this
      rw [this, h2]
      simp [bitOf]
    · intro i _; exact h2 i
  · subst h2
    by_cases hle : k + 1 ≤ a.bitLength
    · have := main a d (by rw [BA.checkLength, hi.data]; simp only [if_pos hle]) hi (by omega)
      rwa [Nat.max_eq_left hle]
    · rw [Nat.max_eq_right (by omega)]
      by_cases hd : dataLengthOf (k + 1) > d.length
      · have hlen := newLength_le (dataLengthOf (k + 1))
        refine main ⟨k + 1, some (d ++ List.replicate (newLength (dataLengthOf (k + 1)) - d.length) 0#64)⟩ _ ?_
          ⟨rfl, ?_, ?_, ?_⟩ (by simp)
        · rw [BA.checkLength, hi.data]
          simp only [if_neg hle, if_pos hd]
          rw [copied_take d mem _ (by omega)]
        · simp only [List.length_append, List.length_replicate]
          omega
        · intro i; rw [bitOf_append_zeros, hi.same]
        · intro i hi'; simp only at hi'; exact hi.high i (by omega)
      · refine main ⟨k + 1, some d⟩ d ?_ ⟨rfl, by simp only; omega, hi.same, ?_⟩ (by simp)
        · rw [BA.checkLength, hi.data]
          simp only [if_neg hle, if_neg hd]
        · intro i hi'; simp only at hi'; exact hi.high i (by omega)

/-- What is true after a history. -/
def Good (a : BA) (bits : Nat → Bool) (len : Nat) : Prop :=
  (a.data = none ∧ (∀ i, bits i = false) ∧ len = 0) ∨ (∃ d, Inv a d bits) ∧ a.bitLength = len

theorem run_good : ∀ (hs : List ((Nat → BitVec 64) × Nat × Bool)) (a : BA) (bits : Nat → Bool) (len : Nat),
    Good a bits len → ∃ a', a.run hs = .ok a' ∧ Good a' (bitAfter bits (hs.map (·.2))) (max len (lengthAfter (hs.map (·.2))))
  | [], a, bits, len, h => ⟨a, rfl, by simpa [bitAfter, lengthAfter] using h⟩
  | (mem, k, v) :: hs, a, bits, len, h => by
    obtain ⟨a', d', h1, h2, h3⟩ := set_ok a mem k v bits len h
    obtain ⟨a'', k1, k2⟩ := run_good hs a' _ _ (Or.inr ⟨⟨d', h2⟩, h3⟩)
    refine ⟨a'', by rw [BA.run, h1]; exact k1, ?_⟩
    simp only [List.map_cons, bitAfter, lengthAfter]
    rwa [Nat.max_assoc] at k2

theorem scan_ok (d : List (BitVec 64)) (value : Bool) (len : Nat) : ∀ (n pos f : Nat), f < 64 →
    pos + n ≤ d.length → len ≤ (pos + n) * 64 →
    ∃ r, scan d value len n pos f = .ok r ∧ IsFirst (bitOf d) len value (pos * 64 + f) r
  | 0, pos, f, hf, hn, hl => by
    refine ⟨none, rfl, ?_⟩
    intro j h1 h2
    omega
  | n + 1, pos, f, hf, hn, hl => by
    rw [scan]
    have hw : d[pos]? = some d[pos] := List.getElem?_eq_getElem (by omega)
    rw [hw]
    simp only
    generalize hwd : d[pos] = w at hw
    have hbit : ∀ j, pos * 64 ≤ j → j < pos * 64 + 64 →
        ((if value then w else ~~~w).getLsbD (j - pos * 64) = true ↔ bitOf d j = value) := by
      intro j h1 h2
      have e1 : j / 64 = pos := by omega
      have e2 : j % 64 = j - pos * 64 := by omega
      rw [bitOf, e1, e2, hw]
      cases value with
      | true => simp
      | false =>
        rw [if_neg (by simp), BitVec.getLsbD_not]
        simp
        omega
    obtain ⟨r, h1, h2⟩ := indexOfTrue_least (if value then w else ~~~w) f hf
    rw [h1]
    cases r with
    | some i =>
      simp only
      obtain ⟨i1, i2, i3, i4⟩ := h2
      have hbi : bitOf d (i + pos * 64) = value := by
        rw [← hbit _ (by omega) (by omega), Nat.add_sub_cancel]; exact i3
      have hbj : ∀ j, pos * 64 + f ≤ j → j < i + pos * 64 → bitOf d j ≠ value := by
        intro j j1 j2 hj
        rw [← hbit _ (by omega) (by omega), i4 _ (by omega) (by omega)] at hj
        cases hj
      refine ⟨_, rfl, ?_⟩
      split
      · intro j j1 j2
        exact hbj j j1 (by omega)
      · exact ⟨by omega, by omega, hbi, hbj⟩
    | none =>
      simp only
      have hbj : ∀ j, pos * 64 + f ≤ j → j < pos * 64 + 64 → bitOf d j ≠ value := by
        intro j j1 j2 hj
        rw [← hbit _ (by omega) (by omega), h2 _ (by omega) (by omega)] at hj
        cases hj
      obtain ⟨r, k1, k2⟩ := scan_ok d value len n (pos + 1) 0 (by omega) (by omega) (by omega)
      refine ⟨r, k1, ?_⟩
      cases r with
      | none =>
        intro j j1 j2
        by_cases hj : j < pos * 64 + 64
        · exact hbj j j1 hj
        · exact k2 j (by omega) j2
      | some i =>
        refine ⟨by have := k2.1; omega, k2.2.1, k2.2.2.1, ?_⟩
        intro j j1 j2
        by_cases hj : j < pos * 64 + 64
        · exact hbj j j1 hj
        · exact k2.2.2.2 j (by omega) j2

/-! ## The property -/

/-- **C32**.  After any history of settings, whatever lies in memory behind the words when they are
copied, reading an index gives the value set last at this index, or false if it was never set. -/
theorem get_last_set (initLength : Nat) (hs : List ((Nat → BitVec 64) × Nat × Bool)) (i : Nat) :
    ∃ a, (BA.empty initLength).run hs = .ok a ∧ a.get i = .ok (bitAfter (fun _ => false) (hs.map (·.2)) i) := by
  obtain ⟨a, h1, h2⟩ := run_good hs (BA.empty initLength) (fun _ => false) 0 (Or.inl ⟨rfl, fun _ => rfl, rfl⟩)
  refine ⟨a, h1, ?_⟩
  rw [BA.get]
  rcases h2 with ⟨k1, k2, _⟩ | ⟨⟨d, hi⟩, _⟩
  · rw [k1, k2]
  · rw [hi.data]
    simp only
    have hb := hi.same i
    by_cases hd : dataLengthOf (i + 1) > d.length
    · rw [if_pos hd]
      have hlen : a.bitLength ≤ i := by
        apply Classical.byContradiction
        intro hlt
        have := dataLengthOf_mono (show i + 1 ≤ a.bitLength by omega)
        have := hi.room
        omega
      rw [hi.high i hlen]
    · rw [if_neg hd]
      have hlt : i / 64 < d.length := by have := word_index i; omega
      have hw : d[i / 64]? = some d[i / 64] := List.getElem?_eq_getElem hlt
      generalize d[i / 64] = w at hw
      rw [hw]
      rw [bitOf, hw] at hb
      simp only at hb ⊢
      rw [← hb]
      have := and_flag w (i % 64) (Nat.mod_lt _ (by omega))
      rw [flag]
      cases hv : w.getLsbD (i % 64) with
      | true => simp only [Option.getD_some, hv]; rw [bne_iff_ne.mpr (this.mpr hv)]
      | false =>
        simp only [Option.getD_some, hv]
        have hz : w &&& 1#64 <<< (i % 64) = 0#64 := Classical.byContradiction (fun hne => by
          rw [this.mp hne] at hv; cases hv)
        rw [hz]
        rfl

/-- **C32**.  After any history with at least one setting, searching gives the first index from the
start on whose bit has the value, up to the largest index that was set; and "not found" exactly when
there is none.  (Before the first setting the search reads through a null pointer: `search_empty_refuted`.) -/
theorem index_of_first_partial (initLength : Nat) (hs : List ((Nat → BitVec 64) × Nat × Bool)) (hne : hs ≠ [])
    (value : Bool) (from_ : Nat) :
    ∃ a r, (BA.empty initLength).run hs = .ok a ∧ a.indexOf value from_ = .ok r ∧
      IsFirst (bitAfter (fun _ => false) (hs.map (·.2))) (lengthAfter (hs.map (·.2))) value from_ r := by
  obtain ⟨a, h1, h2⟩ := run_good hs (BA.empty initLength) (fun _ => false) 0 (Or.inl ⟨rfl, fun _ => rfl, rfl⟩)
  rw [Nat.zero_max] at h2
  rcases h2 with ⟨_, _, k3⟩ | ⟨⟨d, hi⟩, hlen⟩
  · cases hs with
    | nil => exact absurd rfl hne
    | cons x hs => simp only [List.map_cons, lengthAfter] at k3; omega
  · rw [← hlen]
    have hb : bitOf d = bitAfter (fun _ => false) (hs.map (·.2)) := funext hi.same
    rw [← hb]
    by_cases hge : from_ ≥ a.bitLength
    · exact ⟨a, none, h1, by rw [BA.indexOf, if_pos hge], by intro j j1 j2; omega⟩
    · have hroom := hi.room
      obtain ⟨r, k1, k2⟩ := scan_ok d value a.bitLength (dataLengthOf a.bitLength - from_ / 64) (from_ / 64) (from_ % 64)
        (Nat.mod_lt _ (by omega)) (by rw [dataLengthOf] at *; omega) (by rw [dataLengthOf]; omega)
      refine ⟨a, r, h1, ?_, ?_⟩
      · rw [BA.indexOf, if_neg hge, if_neg (by rw [dataLengthOf]; omega), hi.data]
        exact k1
      · rwa [show from_ / 64 * 64 + from_ % 64 = from_ by omega] at k2

/-- **C32 refuted** for an array in which nothing was set: the search follows a null pointer. -/
theorem search_empty_refuted (initLength : Nat) (h : 0 < initLength) (value : Bool) :
    (BA.empty initLength).indexOf value 0 = .error .ub := by
  rw [BA.indexOf, BA.empty, if_neg (by simp only; omega), if_neg (by simp only [dataLengthOf]; omega)]

/-- **C32 refuted** for memory safety: whenever the words are moved to a larger buffer, words behind the
old one are read. -/
theorem growth_overreads_refuted (a : BA) (d : List (BitVec 64)) (hd : a.data = some d) (bitLength : Nat)
    (h1 : a.bitLength < bitLength) (h2 : d.length < dataLengthOf bitLength) : a.overreads bitLength = true := by
  have := newLength_le (dataLengthOf bitLength)
  rw [BA.overreads, hd]
  simp
  omega

/-- Some settings, with growth in between; reading and searching. -/
example : ((BA.empty 1).run [(fun _ => 5#64, 3, true), (fun _ => 7#64, 200, true), (fun _ => 9#64, 3, false),
    (fun _ => 9#64, 64, true)]).toOption.map (fun a => ([3, 200, 5000].map (fun i => (a.get i).toOption),
    [0, 65, 201].map (fun i => (a.indexOf true i).toOption), (a.indexOf false 64).toOption)) =
    some ([some false, some true, some false], [some (some 64), some (some 200), some none], some (some 65)) := by
  decide +kernel
example : ∃ a d, (BA.empty 1).run [(fun _ => 0#64, 3, true)] = .ok a ∧ a.data = some d ∧ a.bitLength < 201 ∧
    d.length < dataLengthOf 201 := ⟨_, _, rfl, rfl, by decide, by decide⟩

end Verif.BitArray.Props
