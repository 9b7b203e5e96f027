import Verif.Proof.CStr
/-!
C37 — C-string primitives; C53 — character classes; C54 — case-insensitive strings.
-/

namespace Verif.CStr

/-! ## C37 — comparison and search -/

/-- A text of Unicode characters: no NUL and every unit below 2^31. -/
def UText (t : List Ch) : Prop := ∀ c ∈ t, 0 < c.toNat ∧ c.toNat < 2 ^ 31

theorem UText.text {t : List Ch} (h : UText t) : Text t := by
  intro c hc e
  have := (h c hc).1
  subst e
  simp at this

theorem UText.units_pos {t : List Ch} (h : UText t) : ∀ x ∈ units t, 0 < x := by
  intro x hx
  obtain ⟨c, hc, rfl⟩ := List.mem_map.1 hx
  obtain ⟨h1, h2⟩ := h c hc
  rw [BitVec.toInt_eq_toNat_cond, if_pos (by omega)]
  omega

/-- **C37.** `strlen` of an array holding a text is the length of the text, and no read is out of bounds. -/
theorem strlen_spec {t : List Ch} (ht : Text t) (junk : List Ch) : strlen (asArray t junk) = some t.length := by
  induction t with
  | nil => simp [asArray, strlen]
  | cons c t ih =>
    obtain ⟨hc, ht'⟩ := text_cons.1 ht
    show strlen (c :: asArray t junk) = _
    rw [strlen, if_neg hc, ih ht']
    simp

/-- **C37.** Comparing two strings never reads past their terminators; the verdict is "equal" exactly for equal
texts, "less" exactly when the first comes first in dictionary order of the code units, "greater" exactly when the
second does. -/
theorem strcmp_lexicographic {t u : List Ch} (ht : UText t) (hu : UText u) (j k : List Ch) :
    ∃ o, strcmp charOp (asArray t j) (asArray u k) = some o ∧
      (o = .eq ↔ t = u) ∧ (o = .lt ↔ DictLt (units t) (units u)) ∧ (o = .gt ↔ DictLt (units u) (units t)) := by
  obtain ⟨o, h1, h2, h3, h4⟩ := strcmp_spec sees_plain j k ht.text hu.text (fun _ _ => trivial) (fun _ _ => trivial)
  simp only [List.map_id] at h2 h3 h4
  have h3' := fun h => dictLt_snoc ht.units_pos hu.units_pos (h3 h)
  have h4' := fun h => dictLt_snoc hu.units_pos ht.units_pos (h4 h)
  refine ⟨o, h1, ⟨h2, ?_⟩, ⟨h3', ?_⟩, ⟨h4', ?_⟩⟩
  · rintro rfl
    cases o with
    | eq => rfl
    | lt => exact absurd (h3' rfl) (dictLt_irrefl _)
    | gt => exact absurd (h4' rfl) (dictLt_irrefl _)
  · intro h
    cases o with
    | eq => rw [h2 rfl] at h; exact absurd h (dictLt_irrefl _)
    | lt => rfl
    | gt => exact absurd h (dictLt_asymm (h4' rfl))
  · intro h
    cases o with
    | eq => rw [h2 rfl] at h; exact absurd h (dictLt_irrefl _)
    | lt => exact absurd h (dictLt_asymm (h3' rfl))
    | gt => rfl

example : UText [97#32, 0x4e2d#32] ∧ UText [97#32] ∧
    strcmp charOp (asArray [97#32, 0x4e2d#32] []) (asArray [97#32] [5#32]) = some .gt := by
  refine ⟨?_, ?_, by decide⟩ <;> intro c hc <;> simp at hc
  · rcases hc with rfl | rfl <;> decide
  · subst hc; decide

/-- With units of 2^31 or more — negative as `wchar_t` — equality is still decided exactly. -/
theorem strcmp_equal_iff {t u : List Ch} (ht : Text t) (hu : Text u) (j k : List Ch) :
    strcmp charOp (asArray t j) (asArray u k) = some .eq ↔ t = u := by
  obtain ⟨o, h1, h2, h3, h4⟩ := strcmp_spec sees_plain j k ht hu (fun _ _ => trivial) (fun _ _ => trivial)
  simp only [List.map_id] at h2 h3 h4
  rw [h1]
  constructor
  · intro h; exact h2 (Option.some.inj h)
  · rintro rfl
    cases o with
    | eq => rfl
    | lt => exact absurd (h3 rfl) (dictLt_irrefl _)
    | gt => exact absurd (h4 rfl) (dictLt_irrefl _)

/-- … but the order is not the dictionary order any more: a text starting with such a unit sorts before the empty
text, its own prefix. -/
theorem strcmp_negative_unit : strcmp charOp (asArray [0xffffffff#32] []) (asArray [] []) = some .lt := by decide

/-- **C37.** Substring search never reads past the terminators and returns the first position where the second text
occurs in the first, or nothing when it occurs nowhere. -/
theorem strstr_first {t w : List Ch} (ht : Text t) (hw : Text w) (j k : List Ch) :
    ∃ r, strstr charOp (asArray t j) (asArray w k) = some r ∧
      (r = none → ∀ i, ¬ OccursAt w t i) ∧
      (∀ i, r = some i → OccursAt w t i ∧ ∀ i', i' < i → ¬ OccursAt w t i') := by
  cases w with
  | nil =>
    refine ⟨some 0, by simp [strstr, asArray], by simp, ?_⟩
    intro i h
    cases h
    exact ⟨⟨by simp, by simp⟩, fun i' h => by omega⟩
  | cons d w =>
    obtain ⟨r, h1, h2, h3⟩ := strstrLoop_spec sees_plain j k hw (fun _ _ => trivial) 0 ht (fun _ _ => trivial)
    simp only [List.map_id] at h2 h3
    refine ⟨r, ?_, ?_, ?_⟩
    · show strstr charOp _ (d :: asArray w k) = _
      rw [strstr, if_neg (text_cons.1 hw).1, h1]
    · intro hr i ho
      exact h2 hr i (by have := ho.2; simp at this; omega) ho.1
    · intro p hp
      obtain ⟨i, e, hi, hm, hf⟩ := h3 p hp
      have : p = i := by omega
      subst this
      refine ⟨⟨hm, ?_⟩, fun i' hi' ho => hf i' hi' ho.1⟩
      have := hm.length_le
      rw [List.length_drop] at this
      omega

example : Text [97#32, 97#32, 98#32] ∧ Text [97#32, 98#32] ∧
    strstr charOp (asArray [97#32, 97#32, 98#32] []) (asArray [97#32, 98#32] []) = some (some 1) := by
  refine ⟨?_, ?_, by decide⟩ <;> intro c hc <;> simp at hc <;> rcases hc with rfl | rfl <;> decide

/-- **C37.** Character search returns the first position holding the character, or nothing when none does. -/
theorem strchr_first {t : List Ch} (ht : Text t) (d : Ch) (j : List Ch) :
    ∃ r, strchrLoop charOp d 0 (asArray t j) = some r ∧
      (r = none → d ∉ t) ∧
      (∀ i, r = some i → t[i]? = some d ∧ ∀ i', i' < i → t[i']? ≠ some d) := by
  obtain ⟨r, h1, h2, h3⟩ := strchrLoop_spec sees_plain j (d := d) trivial 0 ht (fun _ _ => trivial)
  refine ⟨r, h1, ?_, ?_⟩
  · intro hr hd; exact h2 hr d hd rfl
  · intro p hp
    obtain ⟨i, e, ⟨c, hc, hcd⟩, hmin⟩ := h3 p hp
    have : p = i := by omega
    subst this
    simp at hcd
    subst hcd
    exact ⟨hc, fun i' hi' h => hmin i' c hi' h rfl⟩

example : strchrLoop charOp 98#32 0 (asArray [97#32, 98#32, 98#32] []) = some (some 1) := by decide

/-! ## C53 — character classes -/

theorem isUpper_iff (c : Ch) : isUpper c = true ↔ 65 ≤ c.toNat ∧ c.toNat ≤ 90 :=
  hasFlag_iff c 2 (fun n => 65 ≤ n ∧ n ≤ 90) (by decide +kernel) (by omega)

theorem isLower_iff (c : Ch) : isLower c = true ↔ 97 ≤ c.toNat ∧ c.toNat ≤ 122 :=
  hasFlag_iff c 4 (fun n => 97 ≤ n ∧ n ≤ 122) (by decide +kernel) (by omega)

theorem isLetter_iff (c : Ch) :
    isLetter c = true ↔ 65 ≤ c.toNat ∧ c.toNat ≤ 90 ∨ 97 ≤ c.toNat ∧ c.toNat ≤ 122 :=
  hasFlag_iff c (2 ||| 4) (fun n => 65 ≤ n ∧ n ≤ 90 ∨ 97 ≤ n ∧ n ≤ 122) (by decide +kernel) (by omega)

theorem isDigit_iff (c : Ch) : isDigit c = true ↔ 48 ≤ c.toNat ∧ c.toNat ≤ 57 :=
  hasFlag_iff c 8 (fun n => 48 ≤ n ∧ n ≤ 57) (by decide +kernel) (by omega)

theorem isODigit_iff (c : Ch) : isODigit c = true ↔ 48 ≤ c.toNat ∧ c.toNat ≤ 55 :=
  hasFlag_iff c 128 (fun n => 48 ≤ n ∧ n ≤ 55) (by decide +kernel) (by omega)

theorem isBDigit_iff (c : Ch) : isBDigit c = true ↔ c.toNat = 48 ∨ c.toNat = 49 :=
  hasFlag_iff c 256 (fun n => n = 48 ∨ n = 49) (by decide +kernel) (by omega)

theorem isXDigit_iff (c : Ch) : isXDigit c = true ↔ hexValue c ≠ none := by
  have h := hasFlag_iff c 64 (fun n => 48 ≤ n ∧ n ≤ 57 ∨ 65 ≤ n ∧ n ≤ 70 ∨ 97 ≤ n ∧ n ≤ 102)
    (by decide +kernel) (by omega)
  unfold isXDigit
  rw [h]
  unfold hexValue
  split
  · simp_all
  · split
    · simp_all
    · split <;> simp_all

theorem isWord_iff (c : Ch) : isWord c = true ↔
    65 ≤ c.toNat ∧ c.toNat ≤ 90 ∨ 97 ≤ c.toNat ∧ c.toNat ≤ 122 ∨ 48 ≤ c.toNat ∧ c.toNat ≤ 57 ∨ c.toNat = 95 :=
  hasFlag_iff c 16 (fun n => 65 ≤ n ∧ n ≤ 90 ∨ 97 ≤ n ∧ n ≤ 122 ∨ 48 ≤ n ∧ n ≤ 57 ∨ n = 95)
    (by decide +kernel) (by omega)

theorem isWhitespace_iff (c : Ch) : isWhitespace c = true ↔
    c.toNat = 32 ∨ c.toNat = 9 ∨ c.toNat = 13 ∨ c.toNat = 10 ∨ c.toNat = 0 :=
  hasFlag_iff c 1 (fun n => n = 32 ∨ n = 9 ∨ n = 13 ∨ n = 10 ∨ n = 0) (by decide +kernel) (by omega)

theorem isLineEnd_iff (c : Ch) : isLineEnd c = true ↔ c.toNat = 13 ∨ c.toNat = 10 ∨ c.toNat = 0 :=
  hasFlag_iff c 32 (fun n => n = 13 ∨ n = 10 ∨ n = 0) (by decide +kernel) (by omega)

/-- **C53.** For every one of the 2^32 characters, each class test holds exactly for the ASCII characters of that
class. -/
theorem char_classes (c : Ch) :
    (isUpper c = true ↔ 'A'.toNat ≤ c.toNat ∧ c.toNat ≤ 'Z'.toNat) ∧
    (isLower c = true ↔ 'a'.toNat ≤ c.toNat ∧ c.toNat ≤ 'z'.toNat) ∧
    (isLetter c = true ↔ isUpper c = true ∨ isLower c = true) ∧
    (isDigit c = true ↔ '0'.toNat ≤ c.toNat ∧ c.toNat ≤ '9'.toNat) ∧
    (isODigit c = true ↔ '0'.toNat ≤ c.toNat ∧ c.toNat ≤ '7'.toNat) ∧
    (isBDigit c = true ↔ c.toNat = '0'.toNat ∨ c.toNat = '1'.toNat) ∧
    (isXDigit c = true ↔ hexValue c ≠ none) ∧
    (isWord c = true ↔ isLetter c = true ∨ isDigit c = true ∨ c.toNat = '_'.toNat) ∧
    (isWordOrDigit c = true ↔ isWord c = true) ∧
    (isWhitespace c = true ↔ c.toNat = ' '.toNat ∨ c.toNat = '\t'.toNat ∨ c.toNat = '\r'.toNat ∨
      c.toNat = '\n'.toNat ∨ c.toNat = 0) ∧
    (isLineEnd c = true ↔ c.toNat = '\r'.toNat ∨ c.toNat = '\n'.toNat ∨ c.toNat = 0) := by
  have hw := hasFlag_iff c (16 ||| 8) (fun n => 65 ≤ n ∧ n ≤ 90 ∨ 97 ≤ n ∧ n ≤ 122 ∨ 48 ≤ n ∧ n ≤ 57 ∨ n = 95)
    (by decide +kernel) (by omega)
  refine ⟨isUpper_iff c, isLower_iff c, ?_, isDigit_iff c, isODigit_iff c, isBDigit_iff c, isXDigit_iff c, ?_, ?_,
    isWhitespace_iff c, isLineEnd_iff c⟩
  · rw [isLetter_iff, isUpper_iff, isLower_iff]
  · rw [isWord_iff, isLetter_iff, isDigit_iff]
    show _ ↔ _ ∨ _ ∨ c.toNat = 95
    omega
  · unfold isWordOrDigit
    rw [isWord_iff, hw]

/-- **C53, partial.** The value of a digit, and whether a character is a digit of a radix, are right for 7-bit
characters.  Missing: every other character, see `digit_value_refuted`. -/
theorem digit_value_partial {c : Ch} (h : Ascii c) :
    digitValue c = (match hexValue c with | some v => (v : Int) | none => -1) ∧
    ∀ radix, radix ≤ 16 → (isDigitOf c radix = true ↔ ∃ v, hexValue c = some v ∧ v < radix) := by
  unfold Ascii at h
  have hv : digitValue c = (match hexValue c with | some v => (v : Int) | none => -1) := by
    unfold digitValue hexValue
    rw [tableIndex_eq, show c.toNat % 256 = c.toNat by omega]
    by_cases h1 : c.toNat < 127
    · simp only [h1, if_true]
      repeat' split
      all_goals first | omega | grind
    · simp only [h1, if_false]
      rw [if_neg (by omega), if_neg (by omega), if_neg (by omega)]
  refine ⟨hv, ?_⟩
  intro radix _
  unfold isDigitOf
  rw [hv]
  cases hexValue c <;> simp

example : Ascii 55#32 ∧ isDigitOf 55#32 8 = true ∧ isDigitOf 56#32 8 = false := by
  refine ⟨by unfold Ascii; decide, by decide, by decide⟩

/-- **C53, refuted in full.** U+0131 (dotless ı) counts as the decimal digit 1 when a number is read: only the low
byte of the character is looked at.  The class test `is_digit(c)` disagrees. -/
theorem digit_value_refuted : isDigitOf 0x131#32 10 = true ∧ digitValue 0x131#32 = 1 ∧ isDigit 0x131#32 = false := by
  decide

/-- **C53, partial.** Case conversion is right for 7-bit characters … -/
theorem case_conversion_partial {c : Ch} (h : Ascii c) : toUpper c = capital c ∧ toLower c = small c :=
  ⟨toUpper_ascii h, toLower_ascii h⟩

/-- … and for characters whose low byte is at least 127 it leaves the character alone. -/
theorem case_conversion_high {c : Ch} (h : 127 ≤ c.toNat % 256) : toUpper c = c ∧ toLower c = c := by
  unfold toUpper toLower
  rw [tableIndex_eq, if_neg (by omega)]
  exact ⟨rfl, rfl⟩

/-- **C53, refuted in full.** Every other wide character is replaced by a 7-bit character: case conversion loses
the character. -/
theorem case_conversion_refuted {c : Ch} (h : 127 ≤ c.toNat) (hl : c.toNat % 256 < 127) :
    toUpper c ≠ c ∧ toLower c ≠ c := by
  have hu : (toUpper c).toNat < 127 := by
    unfold toUpper
    rw [tableIndex_eq, if_pos hl]
    simp only
    split <;> rw [BitVec.toNat_ofNat] <;> omega
  have hd : (toLower c).toNat < 127 := by
    unfold toLower
    rw [tableIndex_eq, if_pos hl]
    simp only
    split <;> rw [BitVec.toNat_ofNat] <;> omega
  constructor <;> intro e
  · rw [e] at hu; omega
  · rw [e] at hd; omega

example : toUpper 0x4e2d#32 = 0x2d#32 := by decide

/-! ## C54 — case-insensitive comparison and search -/

/-- **C54, partial.** On 7-bit texts, comparing without regard to case is comparing the capitalised texts.
Missing: wide characters, see `stricmp_refuted`. -/
theorem stricmp_partial {t u : List Ch} (ht : Text t) (hu : Text u) (at_ : ∀ c ∈ t, Ascii c) (au : ∀ c ∈ u, Ascii c)
    (j k : List Ch) :
    ∃ o, strcmp ignoreCaseOp (asArray t j) (asArray u k) = some o ∧
      (o = .eq ↔ t.map capital = u.map capital) ∧
      (o = .lt ↔ DictLt (units (t.map capital)) (units (u.map capital))) ∧
      (o = .gt ↔ DictLt (units (u.map capital)) (units (t.map capital))) := by
  have pos : ∀ {t : List Ch}, Text t → (∀ c ∈ t, Ascii c) → UText (t.map capital) := by
    intro t ht ha x hx
    obtain ⟨c, hc, rfl⟩ := List.mem_map.1 hx
    have hn : capital c ≠ 0#32 := fun e => ht c hc (capital_zero.1 e)
    have hlt := ha c hc
    unfold Ascii at hlt
    constructor
    · have : (capital c).toNat ≠ 0 := fun e => hn (ch_ext e)
      omega
    · unfold capital
      split
      · rw [BitVec.toNat_sub]
        have : (32#32).toNat = 32 := rfl
        omega
      · omega
  obtain ⟨o, h1, h2, h3, h4⟩ := strcmp_spec sees_ignoreCase j k ht hu at_ au
  have h3' := fun h => dictLt_snoc (pos ht at_).units_pos (pos hu au).units_pos (h3 h)
  have h4' := fun h => dictLt_snoc (pos hu au).units_pos (pos ht at_).units_pos (h4 h)
  refine ⟨o, h1, ⟨h2, ?_⟩, ⟨h3', ?_⟩, ⟨h4', ?_⟩⟩
  · intro e
    cases o with
    | eq => rfl
    | lt => have := h3' rfl; rw [e] at this; exact absurd this (dictLt_irrefl _)
    | gt => have := h4' rfl; rw [e] at this; exact absurd this (dictLt_irrefl _)
  · intro h
    cases o with
    | eq => rw [h2 rfl] at h; exact absurd h (dictLt_irrefl _)
    | lt => rfl
    | gt => exact absurd h (dictLt_asymm (h4' rfl))
  · intro h
    cases o with
    | eq => rw [h2 rfl] at h; exact absurd h (dictLt_irrefl _)
    | lt => exact absurd h (dictLt_asymm (h3' rfl))
    | gt => rfl

example : strcmp ignoreCaseOp (asArray [97#32, 66#32] []) (asArray [65#32, 98#32] []) = some .eq := by decide

/-- **C54, refuted in full.** U+0161 (š) equals the letter "a"; and U+0100 (Ā) equals the terminator, so comparing
the one-character text "Ā" with the empty text goes on past the end of both strings. -/
theorem stricmp_refuted :
    strcmp ignoreCaseOp (asArray [0x161#32] []) (asArray [97#32] []) = some .eq ∧
    strcmp ignoreCaseOp (asArray [0x100#32] []) (asArray [] []) = none := by decide

/-- **C54, partial.** On 7-bit texts, case-insensitive search returns the first position where the capitalised
second text occurs in the capitalised first. -/
theorem stristr_partial {t w : List Ch} (ht : Text t) (hw : Text w) (at_ : ∀ c ∈ t, Ascii c)
    (aw : ∀ c ∈ w, Ascii c) (j k : List Ch) :
    ∃ r, strstr ignoreCaseOp (asArray t j) (asArray w k) = some r ∧
      (r = none → ∀ i, ¬ OccursAt (w.map capital) (t.map capital) i) ∧
      (∀ i, r = some i → OccursAt (w.map capital) (t.map capital) i ∧
        ∀ i', i' < i → ¬ OccursAt (w.map capital) (t.map capital) i') := by
  cases w with
  | nil =>
    refine ⟨some 0, by simp [strstr, asArray], by simp, ?_⟩
    intro i h
    cases h
    exact ⟨⟨by simp, by simp⟩, fun i' h => by omega⟩
  | cons d w =>
    obtain ⟨r, h1, h2, h3⟩ := strstrLoop_spec sees_ignoreCase j k hw aw 0 ht at_
    refine ⟨r, ?_, ?_, ?_⟩
    · show strstr ignoreCaseOp _ (d :: asArray w k) = _
      rw [strstr, if_neg (text_cons.1 hw).1, h1]
    · intro hr i ho
      refine h2 hr i (by have := ho.2; simp at this; omega) ?_
      have := ho.1
      rwa [← List.map_drop] at this
    · intro p hp
      obtain ⟨i, e, hi, hm, hf⟩ := h3 p hp
      have : p = i := by omega
      subst this
      refine ⟨⟨by rwa [← List.map_drop], ?_⟩, fun i' hi' ho => hf i' hi' (by
        have := ho.1
        rwa [← List.map_drop] at this)⟩
      have := hm.length_le
      simp at this ⊢
      omega

example : strstr ignoreCaseOp (asArray [120#32, 97#32, 66#32] []) (asArray [65#32, 98#32] []) = some (some 1) := by
  decide

end Verif.CStr
