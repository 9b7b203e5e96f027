import Verif.Model.Guid
import Verif.Spec.Guid

namespace Verif.Guid

open Verif.CStr (Ch)
open Spec

theorem digitValue_iff (c : Ch) (v : Nat) : digitValue c = some v ↔ IsDigit c v := by
  have hs : ∀ k : Nat, k < 2 ^ 31 → ((BitVec.ofNat 32 k).sle c = true ↔ k ≤ c.toNat ∧ c.toNat < 2 ^ 31) := by
    intro k hk
    rw [BitVec.sle_iff_toInt_le, BitVec.toInt_eq_toNat_cond, BitVec.toInt_eq_toNat_cond, BitVec.toNat_ofNat]
    have := c.isLt
    rw [Nat.mod_eq_of_lt (by omega)]
    split <;> split <;> omega
  have hs' : ∀ k : Nat, k < 2 ^ 31 → (c.sle (BitVec.ofNat 32 k) = true ↔ c.toNat ≤ k ∨ 2 ^ 31 ≤ c.toNat) := by
    intro k hk
    rw [BitVec.sle_iff_toInt_le, BitVec.toInt_eq_toNat_cond, BitVec.toInt_eq_toNat_cond, BitVec.toNat_ofNat]
    have := c.isLt
    rw [Nat.mod_eq_of_lt (by omega)]
    split <;> split <;> omega
  have hd : ∀ v : Nat, IsDigit c v ↔ (v < 10 ∧ c.toNat = 48 + v) ∨ (10 ≤ v ∧ v < 16 ∧ c.toNat = 87 + v) ∨
      (10 ≤ v ∧ v < 16 ∧ c.toNat = 55 + v) := by
    intro v
    by_cases hv : v < 16
    · have : v = 0 ∨ v = 1 ∨ v = 2 ∨ v = 3 ∨ v = 4 ∨ v = 5 ∨ v = 6 ∨ v = 7 ∨ v = 8 ∨ v = 9 ∨ v = 10 ∨ v = 11 ∨ v = 12 ∨
        v = 13 ∨ v = 14 ∨ v = 15 := by omega
      rcases this with rfl|rfl|rfl|rfl|rfl|rfl|rfl|rfl|rfl|rfl|rfl|rfl|rfl|rfl|rfl|rfl <;>
        simp [IsDigit, lower, upper] <;> omega
    · constructor
      · rintro (⟨ch, h, _⟩ | ⟨ch, h, _⟩)
        · have : v < lower.length := by rw [List.getElem?_eq_some_iff] at h; exact h.1
          have e : lower.length = 16 := by decide
          omega
        · have : v < upper.length := by rw [List.getElem?_eq_some_iff] at h; exact h.1
          have e : upper.length = 16 := by decide
          omega
      · omega
  rw [hd]
  have sub : ∀ k : Nat, k ≤ c.toNat → k < 2 ^ 32 → (c - BitVec.ofNat 32 k).toNat = c.toNat - k := by
    intro k h h2
    rw [BitVec.toNat_sub, BitVec.toNat_ofNat, Nat.mod_eq_of_lt h2]
    have := c.isLt
    omega
  have h48 := hs 48 (by omega); have h65 := hs 65 (by omega); have h97 := hs 97 (by omega)
  have h57 := hs' 57 (by omega); have h70 := hs' 70 (by omega); have h102 := hs' 102 (by omega)
  unfold digitValue
  simp only [Bool.and_eq_true]
  simp only [h48, h57, h65, h70, h97, h102]
  split
  · rw [sub 48 (by omega) (by omega)]
    simp only [Option.some.injEq]; omega
  · split
    · rw [sub 65 (by omega) (by omega)]
      simp only [Option.some.injEq]; omega
    · split
      · rw [sub 97 (by omega) (by omega)]
        simp only [Option.some.injEq]; omega
      · simp only [reduceCtorEq, false_iff]; omega

theorem isDigit_lt {c : Ch} {v : Nat} (h : IsDigit c v) : v < 16 := by
  rcases h with ⟨ch, h, _⟩ | ⟨ch, h, _⟩
  · have : v < lower.length := by rw [List.getElem?_eq_some_iff] at h; exact h.1
    simpa [lower] using this
  · have : v < upper.length := by rw [List.getElem?_eq_some_iff] at h; exact h.1
    simpa [upper] using this

theorem isDigit_ne {c : Ch} {v : Nat} (h : IsDigit c v) : c ≠ 45#32 ∧ c ≠ 0#32 := by
  rw [← digitValue_iff] at h
  constructor <;> rintro rfl <;> revert h <;> simp [digitValue]

/-- How many hyphen positions are at or after `i`. -/
def left (i : Nat) : Nat := (hyphens.filter (i ≤ ·)).length

theorem left_le (i : Nat) : left (i + 1) ≤ left i ∧ left (i + 2) ≤ left i ∧
    (i ∈ hyphens → left i = left (i + 1) + 1) := by
  by_cases h : i < 24
  · have : ∀ i < 24, left (i + 1) ≤ left i ∧ left (i + 2) ≤ left i ∧
      (i ∈ hyphens → left i = left (i + 1) + 1) := by decide
    exact this i h
  · have hz : ∀ j, 24 ≤ j → left j = 0 := by
      intro j hj
      unfold left hyphens
      simp only [List.length_eq_zero_iff, List.filter_eq_nil_iff, decide_eq_true_eq]
      intro a ha
      simp only [List.mem_cons, List.not_mem_nil, or_false] at ha
      omega
    rw [hz i (by omega), hz (i + 1) (by omega), hz (i + 2) (by omega)]
    refine ⟨by omega, by omega, ?_⟩
    intro hm
    simp only [hyphens, List.mem_cons, List.not_mem_nil, or_false] at hm
    omega

/-- A run that succeeds has enough room left for the digits still to come. -/
theorem room {s : List Ch} {g : List Byte} : ∀ (n i : Nat) (out : List Byte), 36 - i ≤ n → out.length ≤ 16 →
    parseLoop s i out = .ok g → 36 ≤ i + 2 * (16 - out.length) + left i := by
  intro n
  induction n with
  | zero => intro i out h _ _; omega
  | succ n ih =>
    intro i out hn ho h
    rw [parseLoop] at h
    by_cases hi : i < 36
    · rw [if_pos hi] at h
      have hl := left_le i
      cases hc : s[i]? with
      | none => rw [hc] at h; simp at h
      | some c =>
        rw [hc] at h
        simp only at h
        split at h
        · split at h
          · simp at h
          · have := ih (i + 1) out (by omega) ho h
            have hm : i ∈ hyphens := by
              simp only [hyphens, List.mem_cons, List.not_mem_nil, or_false]; omega
            have := hl.2.2 hm
            omega
        · cases hc' : s[i + 1]? with
          | none => rw [hc'] at h; simp at h
          | some c' =>
            rw [hc'] at h
            simp only at h
            split at h
            · split at h
              · have := ih (i + 2) _ (by omega) (by simp; omega) h
                simp only [List.length_append, List.length_singleton] at this
                omega
              · simp at h
            · simp at h
    · omega

theorem room' {s : List Ch} {g : List Byte} {i : Nat} {out : List Byte} (ho : out.length ≤ 16)
    (h : parseLoop s i out = .ok g) : 36 ≤ i + 2 * (16 - out.length) + left i := room 36 i out (by omega) ho h

theorem or_eq (a b : Nat) (hb : b < 16) : (a <<< 4) ||| b = 16 * a + b := by
  rw [← Nat.shiftLeft_add_eq_or_of_lt (by omega : b < 2 ^ 4), Nat.shiftLeft_eq]
  omega

/-- One byte is read. -/
theorem digits_step {s : List Ch} {g out : List Byte} {i : Nat} (hi : i < 36) (ho : out.length < 16)
    (hn : i ∉ hyphens ∨ 36 > i + 1 + 2 * (16 - out.length) + left (i + 1)) :
    parseLoop s i out = .ok g ↔ ∃ c c' hi lo, s[i]? = some c ∧ s[i + 1]? = some c' ∧ IsDigit c hi ∧ IsDigit c' lo ∧
      parseLoop s (i + 2) (out ++ [BitVec.ofNat 8 (16 * hi + lo)]) = .ok g := by
  rw [parseLoop, if_pos hi]
  cases hc : s[i]? with
  | none => simp
  | some c =>
    simp only
    split
    · rename_i hd
      subst hd
      constructor
      · split
        · simp
        · rename_i hm
          intro h
          exfalso
          have := room' (by omega) h
          rcases hn with hn | hn
          · apply hn
            simp only [hyphens, List.mem_cons, List.not_mem_nil, or_false]; omega
          · omega
      · rintro ⟨c, c', hi, lo, h1, _, h3, _⟩
        simp only [Option.some.injEq] at h1
        exact absurd h1.symm (isDigit_ne h3).1
    · cases hc' : s[i + 1]? with
      | none => simp
      | some c' =>
        simp only
        constructor
        · intro h
          cases h1 : digitValue c with
          | none => rw [h1] at h; simp at h
          | some d1 =>
            cases h2 : digitValue c' with
            | none => rw [h1, h2] at h; simp at h
            | some d2 =>
              rw [h1, h2] at h
              simp only [if_pos ho] at h
              have e2 := (digitValue_iff c' d2).mp h2
              rw [or_eq d1 d2 (isDigit_lt e2)] at h
              exact ⟨c, c', d1, d2, rfl, rfl, (digitValue_iff c d1).mp h1, e2, h⟩
        · rintro ⟨a, a', d1, d2, h1, h2, h3, h4, h5⟩
          cases h1; cases h2
          rw [(digitValue_iff _ _).mpr h3, (digitValue_iff _ _).mpr h4]
          simp only [if_pos ho]
          rw [or_eq d1 d2 (isDigit_lt h4)]
          exact h5

/-- A hyphen is read. -/
theorem hyphen_step {s : List Ch} {g out : List Byte} {i : Nat} (hi : i ∈ hyphens) (ho : out.length < 16)
    (hn : 36 > i + 2 + 2 * (16 - (out.length + 1)) + left (i + 2)) :
    parseLoop s i out = .ok g ↔ s[i]? = some 45#32 ∧ parseLoop s (i + 1) out = .ok g := by
  have hi36 : i < 36 := by
    simp only [hyphens, List.mem_cons, List.not_mem_nil, or_false] at hi; omega
  constructor
  · intro h
    rw [parseLoop, if_pos hi36] at h
    cases hc : s[i]? with
    | none => rw [hc] at h; simp at h
    | some c =>
      rw [hc] at h
      simp only at h
      split at h
      · rename_i hd
        subst hd
        rw [if_neg (by simp only [hyphens, List.mem_cons, List.not_mem_nil, or_false] at hi; omega)] at h
        exact ⟨rfl, h⟩
      · exfalso
        cases hc' : s[i + 1]? with
        | none => rw [hc'] at h; simp at h
        | some c' =>
          rw [hc'] at h
          simp only at h
          split at h
          · have := room' (by simp; omega) h
            simp only [List.length_append, List.length_singleton] at this
            omega
          · simp at h
  · rintro ⟨h1, h2⟩
    rw [parseLoop, if_pos hi36, h1]
    show (if (45#32 : Ch) = 45#32 then _ else _) = _
    rw [if_pos rfl, if_neg (by simp only [hyphens, List.mem_cons, List.not_mem_nil, or_false] at hi; omega)]
    exact h2

theorem done {s : List Ch} {g out : List Byte} : parseLoop s 36 out = .ok g ↔ out = g := by
  rw [parseLoop, if_neg (by omega)]
  simp

/-- The byte whose digits are at `p`. -/
def At (s : List Ch) (p : Nat) (b : Byte) : Prop :=
  ∃ c c' hi lo, s[p]? = some c ∧ s[p + 1]? = some c' ∧ IsDigit c hi ∧ IsDigit c' lo ∧ b.toNat = 16 * hi + lo

theorem digits_at {s : List Ch} {g out : List Byte} {i : Nat} (hi : i < 36) (ho : out.length < 16)
    (hn : i ∉ hyphens ∨ 36 > i + 1 + 2 * (16 - out.length) + left (i + 1)) :
    parseLoop s i out = .ok g ↔ ∃ b, At s i b ∧ parseLoop s (i + 2) (out ++ [b]) = .ok g := by
  rw [digits_step hi ho hn]
  constructor
  · rintro ⟨c, c', d1, d2, h1, h2, h3, h4, h5⟩
    refine ⟨_, ⟨c, c', d1, d2, h1, h2, h3, h4, ?_⟩, h5⟩
    have := isDigit_lt h3
    have := isDigit_lt h4
    rw [BitVec.toNat_ofNat, Nat.mod_eq_of_lt (by omega)]
  · rintro ⟨b, ⟨c, c', d1, d2, h1, h2, h3, h4, h5⟩, h6⟩
    refine ⟨c, c', d1, d2, h1, h2, h3, h4, ?_⟩
    rw [← h5, BitVec.ofNat_toNat, BitVec.setWidth_eq]
    exact h6

theorem parse_unrolled (s : List Ch) (g : List Byte) : parseLoop s 0 [] = .ok g ↔
    ∃ b0, At s 0 b0 ∧ ∃ b1, At s 2 b1 ∧ ∃ b2, At s 4 b2 ∧ ∃ b3, At s 6 b3 ∧ s[8]? = some 45#32 ∧
    ∃ b4, At s 9 b4 ∧ ∃ b5, At s 11 b5 ∧ s[13]? = some 45#32 ∧
    ∃ b6, At s 14 b6 ∧ ∃ b7, At s 16 b7 ∧ s[18]? = some 45#32 ∧
    ∃ b8, At s 19 b8 ∧ ∃ b9, At s 21 b9 ∧ s[23]? = some 45#32 ∧
    ∃ b10, At s 24 b10 ∧ ∃ b11, At s 26 b11 ∧ ∃ b12, At s 28 b12 ∧ ∃ b13, At s 30 b13 ∧ ∃ b14, At s 32 b14 ∧
    ∃ b15, At s 34 b15 ∧ [b0, b1, b2, b3, b4, b5, b6, b7, b8, b9, b10, b11, b12, b13, b14, b15] = g := by
  have h0 : (0 : Nat) ∉ hyphens := by decide
  have h2 : (2 : Nat) ∉ hyphens := by decide
  have h4 : (4 : Nat) ∉ hyphens := by decide
  have h6 : (6 : Nat) ∉ hyphens := by decide
  have h8 : (8 : Nat) ∈ hyphens := by decide
  have h9 : (9 : Nat) ∉ hyphens := by decide
  have h11 : (11 : Nat) ∉ hyphens := by decide
  have h13 : (13 : Nat) ∈ hyphens := by decide
  have h14 : (14 : Nat) ∉ hyphens := by decide
  have h16 : (16 : Nat) ∉ hyphens := by decide
  have h18 : (18 : Nat) ∈ hyphens := by decide
  have h19 : (19 : Nat) ∉ hyphens := by decide
  have h21 : (21 : Nat) ∉ hyphens := by decide
  have h23 : (23 : Nat) ∈ hyphens := by decide
  have h24 : (24 : Nat) ∉ hyphens := by decide
  have h26 : (26 : Nat) ∉ hyphens := by decide
  have h28 : (28 : Nat) ∉ hyphens := by decide
  have h30 : (30 : Nat) ∉ hyphens := by decide
  have h32 : (32 : Nat) ∉ hyphens := by decide
  have h34 : (34 : Nat) ∉ hyphens := by decide
  rw [digits_at (by omega) (by simp) (.inl h0)]
  refine exists_congr fun b0 => and_congr_right fun _ => ?_
  rw [digits_at (by omega) (by simp) (.inl h2)]
  refine exists_congr fun b1 => and_congr_right fun _ => ?_
  rw [digits_at (by omega) (by simp) (.inl h4)]
  refine exists_congr fun b2 => and_congr_right fun _ => ?_
  rw [digits_at (by omega) (by simp) (.inl h6)]
  refine exists_congr fun b3 => and_congr_right fun _ => ?_
  rw [hyphen_step h8 (by simp) (by simp [left, hyphens])]
  refine and_congr_right fun _ => ?_
  rw [digits_at (by omega) (by simp) (.inl h9)]
  refine exists_congr fun b4 => and_congr_right fun _ => ?_
  rw [digits_at (by omega) (by simp) (.inl h11)]
  refine exists_congr fun b5 => and_congr_right fun _ => ?_
  rw [hyphen_step h13 (by simp) (by simp [left, hyphens])]
  refine and_congr_right fun _ => ?_
  rw [digits_at (by omega) (by simp) (.inl h14)]
  refine exists_congr fun b6 => and_congr_right fun _ => ?_
  rw [digits_at (by omega) (by simp) (.inl h16)]
  refine exists_congr fun b7 => and_congr_right fun _ => ?_
  rw [hyphen_step h18 (by simp) (by simp [left, hyphens])]
  refine and_congr_right fun _ => ?_
  rw [digits_at (by omega) (by simp) (.inl h19)]
  refine exists_congr fun b8 => and_congr_right fun _ => ?_
  rw [digits_at (by omega) (by simp) (.inl h21)]
  refine exists_congr fun b9 => and_congr_right fun _ => ?_
  rw [hyphen_step h23 (by simp) (by simp [left, hyphens])]
  refine and_congr_right fun _ => ?_
  rw [digits_at (by omega) (by simp) (.inl h24)]
  refine exists_congr fun b10 => and_congr_right fun _ => ?_
  rw [digits_at (by omega) (by simp) (.inl h26)]
  refine exists_congr fun b11 => and_congr_right fun _ => ?_
  rw [digits_at (by omega) (by simp) (.inl h28)]
  refine exists_congr fun b12 => and_congr_right fun _ => ?_
  rw [digits_at (by omega) (by simp) (.inl h30)]
  refine exists_congr fun b13 => and_congr_right fun _ => ?_
  rw [digits_at (by omega) (by simp) (.inl h32)]
  refine exists_congr fun b14 => and_congr_right fun _ => ?_
  rw [digits_at (by omega) (by simp) (.inl h34)]
  refine exists_congr fun b15 => and_congr_right fun _ => ?_
  rw [done]
  simp

/-! ## Words -/

theorem fold_inj : ∀ (a b : List Byte), a.length = b.length →
    a.foldr (fun b acc => b.toNat + 256 * acc) 0 = b.foldr (fun b acc => b.toNat + 256 * acc) 0 → a = b := by
  intro a
  induction a with
  | nil => intro b h _; cases b with
    | nil => rfl
    | cons => simp at h
  | cons x a ih =>
    intro b h e
    cases b with
    | nil => simp at h
    | cons y b =>
      simp only [List.foldr_cons] at e
      simp only [List.length_cons, Nat.add_right_cancel_iff] at h
      have hx := x.isLt
      have hy := y.isLt
      have h1 : x.toNat = y.toNat := by omega
      have h2 := ih b h (by omega)
      rw [BitVec.eq_of_toNat_eq h1, h2]

theorem fold_lt : ∀ (a : List Byte), a.foldr (fun b acc => b.toNat + 256 * acc) 0 < 256 ^ a.length := by
  intro a
  induction a with
  | nil => simp
  | cons x a ih =>
    have := x.isLt
    simp only [List.foldr_cons, List.length_cons, Nat.pow_succ]
    omega

theorem word_inj {a b : List Byte} (ha : a.length = 8) (hb : b.length = 8) (h : word a = word b) : a = b := by
  apply fold_inj a b (by omega)
  have h1 := fold_lt a
  have h2 := fold_lt b
  rw [ha] at h1
  rw [hb] at h2
  have := congrArg BitVec.toNat h
  unfold word at this
  rw [BitVec.toNat_ofNat, BitVec.toNat_ofNat, Nat.mod_eq_of_lt (by omega), Nat.mod_eq_of_lt (by omega)] at this
  exact this

end Verif.Guid
