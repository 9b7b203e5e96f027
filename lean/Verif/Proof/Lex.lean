import Verif.Model.Lex
import Verif.Spec.Lex
import Verif.Proof.Numeric
import Verif.Proof.LexSym
import Verif.Props.CStr

namespace Verif.Lex

open Verif.CStr (Ch isWhitespace isWord isLineEnd)
open Verif.Numeric (at0 Lit parseNumeric TokErr numberError)
open Spec

/-! ## What is left is always a suffix -/

theorem skipWs_spec (s : List Ch) : ∃ ws, s = ws ++ skipWs s ∧ ∀ c ∈ ws, isWhitespace c = true ∧ c ≠ 0#32 := by
  induction s with
  | nil => exact ⟨[], rfl, by simp⟩
  | cons c s ih =>
    unfold skipWs
    split
    · exact ⟨[], rfl, by simp⟩
    · rename_i h0
      split
      · rename_i h
        obtain ⟨ws, e, hw⟩ := ih
        refine ⟨c :: ws, by rw [List.cons_append, ← e], ?_⟩
        intro d hd
        rcases List.mem_cons.mp hd with rfl | hd
        · exact ⟨h, h0⟩
        · exact hw d hd
      · exact ⟨[], rfl, by simp⟩

theorem skipWs_head {s : List Ch} {c : Ch} {r : List Ch} (h : skipWs s = c :: r) (h0 : c ≠ 0#32) : isWhitespace c = false := by
  induction s with
  | nil => cases h
  | cons d s ih =>
    unfold skipWs at h
    split at h
    · cases h; contradiction
    · split at h
      · exact ih h
      · cases h; simp_all

theorem lineComment_suffix (s : List Ch) : lineComment s <:+ s := by
  induction s with
  | nil => exact List.suffix_refl _
  | cons c s ih =>
    unfold lineComment
    split
    · exact List.suffix_refl _
    · split
      · exact List.suffix_refl _
      · exact ih.trans (List.suffix_cons ..)

theorem tail_suffix (s : List Ch) : s.tail <:+ s := by
  cases s with
  | nil => exact List.suffix_refl _
  | cons c s => exact List.suffix_cons ..

theorem blockComment_suffix (s : List Ch) : (blockComment s).2.2 <:+ s := by
  induction s with
  | nil => exact List.suffix_refl _
  | cons c s ih =>
    unfold blockComment
    split
    · exact List.suffix_cons ..
    · split
      · exact (tail_suffix s).trans (List.suffix_cons ..)
      · exact ih.trans (List.suffix_cons ..)

theorem blockComment_over (s : List Ch) : (blockComment s).1 = false → (blockComment s).2.1 = 0 := by
  induction s with
  | nil => intro h; cases h
  | cons c s ih =>
    unfold blockComment
    split
    · intro h; cases h
    · split
      · intro; rfl
      · exact ih

theorem readName_suffix (s : List Ch) : readName s <:+ s := by
  induction s with
  | nil => exact List.suffix_refl _
  | cons c s ih =>
    unfold readName
    split
    · exact ih.trans (List.suffix_cons ..)
    · exact List.suffix_refl _

theorem readUnknown_suffix (f : Ch) (s : List Ch) : readUnknown f s <:+ s := by
  induction s with
  | nil => exact List.suffix_refl _
  | cons c s ih =>
    unfold readUnknown
    split
    · exact List.suffix_refl _
    · split
      · exact List.suffix_refl _
      · exact ih.trans (List.suffix_cons ..)

theorem readString_suffix (acc : List Ch) (err : Bool) (s : List Ch) : (readString acc err s).2.2 <:+ s := by
  fun_induction readString acc err s with
  | case1 => exact List.suffix_refl _
  | case2 => exact List.nil_suffix
  | case3 => exact List.suffix_cons ..
  | case4 _ _ _ _ _ _ _ ih => exact ih.trans ((List.suffix_cons ..).trans (List.suffix_cons ..))
  | case5 _ _ _ _ _ _ ih => exact ih.trans ((List.suffix_cons ..).trans (List.suffix_cons ..))
  | case6 => exact List.suffix_cons ..
  | case7 => exact List.suffix_refl _
  | case8 _ _ _ _ _ _ _ ih => exact ih.trans (List.suffix_cons ..)

theorem readVerbatim_suffix (acc : List Ch) (s : List Ch) : (readVerbatim acc s).2.2 <:+ s := by
  induction s generalizing acc with
  | nil => exact List.suffix_refl _
  | cons c s ih =>
    unfold readVerbatim
    split
    · split
      · exact (tail_suffix s).trans (List.suffix_cons ..)
      · exact List.suffix_cons ..
    · split
      · exact List.suffix_refl _
      · exact (ih _).trans (List.suffix_cons ..)

theorem readChar_suffix (st : CharSt) (s : List Ch) (r : CharSt) (h : readChar st s = some r) : r.p <:+ s := by
  fun_induction readChar st s with
  | case1 => cases h
  | case2 => cases h; exact List.suffix_cons ..
  | case3 => cases h; exact List.nil_suffix
  | case4 => cases h; exact List.suffix_cons ..
  | case5 _ _ _ _ _ _ _ ih => exact (ih h).trans ((List.suffix_cons ..).trans (List.suffix_cons ..))
  | case6 _ _ _ _ _ _ ih => exact (ih h).trans ((List.suffix_cons ..).trans (List.suffix_cons ..))
  | case7 => cases h
  | case8 _ _ _ _ _ _ ih => exact (ih h).trans (List.suffix_cons ..)

/-! ## Numbers -/

open Numeric in
theorem readPrefix_suffix (s : List Ch) : ∀ (st : St) (prev : Ch), (readPrefix st prev s).2.2 <:+ s := by
  induction s with
  | nil => intro st prev; exact List.suffix_refl _
  | cons c s ih =>
    intro st prev
    have hs := (ih · · |>.trans (List.suffix_cons c s))
    have ht := (tail_suffix s).trans (List.suffix_cons c s)
    unfold readPrefix
    split
    · exact hs ..
    · split
      · exact hs ..
      · split
        · split
          · exact ht
          · split
            · exact ht
            · split
              · exact List.suffix_refl _
              · split
                · exact hs ..
                · exact List.suffix_cons ..
        · split <;> exact List.suffix_refl _

open Numeric in
theorem finish_rest (st : St) (acc : List Ch) (prev : Ch) (e : End) (l : List Ch) : (finish st acc prev e l).2.2 = l := by
  unfold finish; split <;> rfl

open Numeric in
theorem continueRead_suffix' (s : List Ch) : ∀ (st : St) (prev : Ch) (acc : List Ch) (e : End),
    (continueRead st prev acc e s).2.2 <:+ s := by
  induction s with
  | nil => intro st prev acc e; unfold continueRead; rw [finish_rest]; exact List.suffix_refl _
  | cons c s ih =>
    intro st prev acc e
    have hs := fun st prev acc e => (ih st prev acc e).trans (List.suffix_cons c s)
    unfold continueRead
    dsimp only
    have hd : (if (!isWord c) = true then finish st acc prev e (c :: s)
        else continueRead (if e.isSome = true then st.fail else st) c (acc ++ [c]) e s).2.2 <:+ c :: s := by
      split
      · rw [finish_rest]; exact List.suffix_refl _
      · exact hs ..
    split
    · exact hs ..
    · split
      · split
        · exact hs ..
        · exact hd
      · split
        · split
          · exact hs ..
          · exact hd
        · split
          · exact hs ..
          · split
            · exact hs ..
            · split
              · exact hs ..
              · split
                · exact hs ..
                · exact hd

open Numeric in
theorem parseNumeric_suffix (prev : Ch) (s : List Ch) : (parseNumeric prev s).2 <:+ s := by
  simp only [parseNumeric]
  exact (continueRead_suffix' _ _ _ _ _).trans (readPrefix_suffix s {} prev)

theorem numPrefix_iff (c : Ch) : isNumPrefix c = true ↔ (48 ≤ c.toNat ∧ c.toNat ≤ 57) ∨ c = 46#32 := by
  have hlt := c.isLt
  have hse : (c.signExtend 64).toNat < 127 → (c.signExtend 64).toNat = c.toNat := by
    rw [BitVec.toNat_signExtend]
    simp only [BitVec.toNat_setWidth]
    split <;> omega
  have hse' : c.toNat < 127 → (c.signExtend 64).toNat = c.toNat := by
    intro h
    rw [BitVec.toNat_signExtend]
    have : c.msb = false := by rw [BitVec.msb_eq_decide]; simp; omega
    simp only [BitVec.toNat_setWidth, this]
    simp
    omega
  rw [Numeric.ofNat_eq_iff (by decide)]
  unfold isNumPrefix
  dsimp only
  split
  · constructor
    · intro h; cases h
    · intro h; have := hse' (by omega); omega
  · have := hse (by omega)
    rw [this, decide_eq_true_eq]

theorem namePrefix_iff (c : Ch) : isNamePrefix c = true ↔
    (97 ≤ c.toNat ∧ c.toNat ≤ 122) ∨ (65 ≤ c.toNat ∧ c.toNat ≤ 90) ∨ c.toNat = 95 := by
  have hlt := c.isLt
  have hse : (c.signExtend 64).toNat < 127 → (c.signExtend 64).toNat = c.toNat := by
    rw [BitVec.toNat_signExtend]
    simp only [BitVec.toNat_setWidth]
    split <;> omega
  have hse' : c.toNat < 127 → (c.signExtend 64).toNat = c.toNat := by
    intro h
    rw [BitVec.toNat_signExtend]
    have : c.msb = false := by rw [BitVec.msb_eq_decide]; simp; omega
    simp only [BitVec.toNat_setWidth, this]
    simp
    omega
  unfold isNamePrefix
  dsimp only
  split
  · constructor
    · intro h; cases h
    · intro h; have := hse' (by omega); omega
  · have := hse (by omega)
    rw [this, decide_eq_true_eq]

open Numeric in
/-- The parser of numbers consumes the first character if it is a digit, a point or a sign. -/
theorem parseNumeric_lt (prev : Ch) (c : Ch) (s : List Ch) (h : isNumPrefix c = true ∨ c = 43#32 ∨ c = 45#32) :
    (parseNumeric prev (c :: s)).2.length ≤ s.length := by
  have hsuf := fun st prev => (readPrefix_suffix s st prev).length_le
  have hcont := fun s st prev acc e => (continueRead_suffix' s st prev acc e).length_le
  have hcons : isNumPrefix c = true → ∀ st prev, (continueRead st prev [] none (c :: s)).2.2.length ≤ s.length := by
    intro hn st prev
    rw [numPrefix_iff] at hn
    unfold continueRead
    dsimp only
    by_cases h46 : c = 46#32
    · rw [if_pos h46]; exact hcont ..
    · have hd : Spec.digit c = some (c.toNat - 48) := by
        unfold Spec.digit
        rw [if_pos]
        rcases hn with hn | hn
        · exact hn
        · exact absurd hn h46
      have f := digit_facts hd
      have hr : 48 ≤ c.toNat ∧ c.toNat ≤ 57 := by
        rcases hn with hn | hn
        · exact hn
        · exact absurd hn h46
      rw [if_neg h46, if_neg (by rw [f.e]; omega), if_neg (by rw [f.f]; omega), if_neg f.l, if_neg f.u, if_neg f.h, if_neg f.q,
        f.word]
      simp only [Bool.not_true, Bool.false_eq_true, if_false]
      exact hcont ..
  simp only [parseNumeric]
  by_cases h45 : c = 45#32
  · rw [readPrefix, if_pos h45]; exact Nat.le_trans (hcont ..) (hsuf ..)
  · by_cases h43 : c = 43#32
    · rw [readPrefix, if_neg h45, if_pos h43]; exact Nat.le_trans (hcont ..) (hsuf ..)
    · have hn : isNumPrefix c = true := by
        rcases h with h | h | h
        · exact h
        · exact absurd h h43
        · exact absurd h h45
      rw [readPrefix, if_neg h45, if_neg h43]
      have htl := (tail_suffix s).length_le
      split
      · split
        · exact Nat.le_trans (hcont ..) htl
        · split
          · exact Nat.le_trans (hcont ..) htl
          · split
            · exact hcons hn ..
            · split
              · exact Nat.le_trans (hcont ..) (hsuf ..)
              · exact hcont ..
      · split <;> exact hcons hn ..

open Numeric in
/-- The character before the cursor makes no difference to a number that begins with a digit, a point, or a sign. -/
theorem parseNumeric_prev (p q : Ch) (c : Ch) (s : List Ch) (h : isNumPrefix c = true ∨ c = 43#32 ∨ c = 45#32) :
    parseNumeric p (c :: s) = parseNumeric q (c :: s) := by
  have hcons : isNumPrefix c = true → ∀ st p q, continueRead st p [] none (c :: s) = continueRead st q [] none (c :: s) := by
    intro hn st p q
    rw [numPrefix_iff] at hn
    by_cases h46 : c = 46#32
    · subst h46; rw [continueRead, continueRead]; simp
    · have hd : Spec.digit c = some (c.toNat - 48) := by
        unfold Spec.digit
        rw [if_pos]
        rcases hn with hn | hn
        · exact hn
        · exact absurd hn h46
      have f := digit_facts hd
      have hr : 48 ≤ c.toNat ∧ c.toNat ≤ 57 := by
        rcases hn with hn | hn
        · exact hn
        · exact absurd hn h46
      have he : ¬ (c = 69#32 ∨ c = 101#32) := by rw [f.e]; omega
      have hf : ¬ (c = 70#32 ∨ c = 102#32) := by rw [f.f]; omega
      rw [continueRead, continueRead]
      simp only [if_neg h46, if_neg he, if_neg hf, if_neg f.l, if_neg f.u, if_neg f.h, if_neg f.q, f.word, Bool.not_true,
        Bool.false_eq_true, if_false]
  simp only [parseNumeric]
  by_cases h45 : c = 45#32
  · rw [readPrefix, if_pos h45, readPrefix, if_pos h45]
  · by_cases h43 : c = 43#32
    · rw [readPrefix, if_neg h45, if_pos h43, readPrefix, if_neg h45, if_pos h43]
    · have hn : isNumPrefix c = true := by
        rcases h with h | h | h
        · exact h
        · exact absurd h h43
        · exact absurd h h45
      rw [readPrefix, if_neg h45, if_neg h43, readPrefix, if_neg h45, if_neg h43]
      split
      · split
        · rfl
        · split
          · rfl
          · split
            · simp only [hcons hn {} p q]
            · rfl
      · split
        · simp only [hcons hn _ p q]
        · simp only [hcons hn {} p q]

/-! ## Tiling -/

theorem lexNumber_tok (c : Ch) (s : List Ch) (h : isNumPrefix c = true ∨ c = 43#32 ∨ c = 45#32) :
    ∃ l rest text, lexNumber (c :: s) = .tok ⟨.num l, text.length, numberError l⟩ none rest ∧ c :: s = text ++ rest ∧ text ≠ [] := by
  obtain ⟨text, e⟩ := parseNumeric_suffix 0#32 (c :: s)
  have hlt := parseNumeric_lt 0#32 c s h
  have hl := congrArg List.length e
  simp only [List.length_append, List.length_cons] at hl
  refine ⟨(parseNumeric 0#32 (c :: s)).1, (parseNumeric 0#32 (c :: s)).2, text, ?_, e.symm, ?_⟩
  · simp only [lexNumber, List.length_cons]
    congr 2
    omega
  · rintro rfl
    simp at hl
    omega

/-- The length of a token that took a prefix of the rest of the source. -/
theorem suffix_len {c : Ch} {s rest : List Ch} (h : rest <:+ s) :
    ∃ text, c :: s = text ++ rest ∧ text ≠ [] ∧ s.length + 1 - rest.length = text.length := by
  obtain ⟨text, rfl⟩ := h
  exact ⟨c :: text, rfl, by simp, by simp; omega⟩

theorem lexKeyword_mem {c : Ch} {s : List Ch} {b : Bool} {k : List Ch} (h : lexKeyword c s = some (b, k)) :
    (b, k) ∈ keywords ∧ ∃ k', k = c :: k' ∧ k' <+: s ∧ isWord (at0 (s.drop k'.length)) = false := by
  have h1 := List.mem_of_find?_eq_some h
  have h2 := List.find?_some h
  simp only [Bool.and_eq_true, beq_iff_eq, equalsKeyword, Bool.not_eq_true'] at h2
  obtain ⟨h3, h4, h5⟩ := h2
  refine ⟨h1, ?_⟩
  cases k with
  | nil => cases h3
  | cons d k' =>
    cases h3
    exact ⟨k', rfl, List.isPrefixOf_iff_prefix.mp h4, h5⟩

/-- What one token takes from the source. -/
theorem lexAt_tiles (operand : Bool) (c : Ch) (s : List Ch) (t : Tok) (q : Option Tok) (rest : List Ch)
    (h : lexAt operand c s = .tok t q rest) :
    ∃ text, c :: s = text ++ rest ∧ text ≠ [] ∧ (t.len = text.length ∨ (Tok.unclosed t ∧ rest = [] ∧ t.len = text.length + 1)) := by
  have key : ∀ {s' : List Ch} {k e}, s' <:+ s → Step.tok ⟨k, s.length + 1 - s'.length, e⟩ none s' = Step.tok t q rest →
      ∃ text, c :: s = text ++ rest ∧ text ≠ [] ∧
        (t.len = text.length ∨ (Tok.unclosed t ∧ rest = [] ∧ t.len = text.length + 1)) := by
    intro s' k e hs h
    cases h
    obtain ⟨text, e1, e2, e3⟩ := suffix_len (c := c) hs
    exact ⟨text, e1, e2, .inl e3⟩
  have hnum : (isNumPrefix c = true ∨ c = 43#32 ∨ c = 45#32) → lexNumber (c :: s) = Step.tok t q rest →
      ∃ text, c :: s = text ++ rest ∧ text ≠ [] ∧
        (t.len = text.length ∨ (Tok.unclosed t ∧ rest = [] ∧ t.len = text.length + 1)) := by
    intro hc h
    obtain ⟨l, r, text, e, e1, e2⟩ := lexNumber_tok c s hc
    rw [e] at h
    cases h
    exact ⟨text, e1, e2, .inl rfl⟩
  unfold lexAt at h
  dsimp only at h
  split at h
  · rename_i h1
    exact hnum (.inr h1.1) h
  split at h
  · exact key ((lineComment_suffix _).trans (tail_suffix s)) h
  split at h
  · rename_i hc
    have hs := (blockComment_suffix s.tail).trans (tail_suffix s)
    obtain ⟨text, e1, e2, e3⟩ := suffix_len (c := c) hs
    have hover := blockComment_over s.tail
    have hrest : (blockComment s.tail).2.1 ≠ 0 → (blockComment s.tail).2.1 = 1 ∧ (blockComment s.tail).2.2 = [] := by
      generalize s.tail = u
      induction u with
      | nil => intro; exact ⟨rfl, rfl⟩
      | cons d u ih =>
        unfold blockComment
        split
        · intro h; exact absurd rfl h
        · split
          · intro h; exact absurd rfl h
          · exact ih
    cases h
    refine ⟨text, e1, e2, ?_⟩
    by_cases h0 : (blockComment s.tail).2.1 = 0
    · left; simp only [h0, Nat.add_zero]; exact e3
    · right
      obtain ⟨h1, h2⟩ := hrest h0
      have : (blockComment s.tail).1 = true := by
        cases hb : (blockComment s.tail).1
        · exact absurd (hover hb) h0
        · rfl
      refine ⟨⟨rfl, by simp [this]⟩, h2, ?_⟩
      simp only [h1]
      exact congrArg (· + 1) e3
  split at h
  · exact key (readString_suffix ..) h
  split at h
  · exact key ((readVerbatim_suffix ..).trans (tail_suffix s)) h
  split at h
  · exact key (readName_suffix ..) h
  split at h
  · split at h
    · rename_i st hst
      exact key (readChar_suffix _ _ _ hst) h
    · cases h
  split at h
  · rename_i vs k hk
    have hle := lexSym_len hk
    cases h
    exact ⟨c :: s.take k, by simp, by simp, .inl (by simp; omega)⟩
  · split at h
    · rename_i b k hk
      obtain ⟨_, k', rfl, ⟨u, rfl⟩, _⟩ := lexKeyword_mem hk
      cases h
      exact ⟨c :: k', by simp, by simp, .inl (by simp)⟩
    · split at h
      · rename_i hn
        exact hnum (.inl hn) h
      · split at h
        · exact key (readName_suffix ..) h
        · exact key (readUnknown_suffix ..) h

/-! ## Words -/

theorem isWord_namePrefix {c : Ch} (h : isNamePrefix c = true) : isWord c = true := by
  rw [namePrefix_iff] at h
  rw [CStr.isWord_iff]
  have : '_'.toNat = 95 := rfl
  omega

/-- A name prefix is none of the characters with a case of their own. -/
theorem lexAt_word (operand : Bool) {c : Ch} (h : isNamePrefix c = true) (s : List Ch) :
    lexAt operand c s =
      match lexKeyword c s with
      | some (ctx, k) => .tok ⟨if ctx then .contextual k else .keyword k, k.length, .none⟩ none (s.drop (k.length - 1))
      | none => .tok ⟨.name, s.length + 1 - (readName s).length, .none⟩ none (readName s) := by
  have hw := (namePrefix_iff c).mp h
  have hne : ∀ k : Nat, k < 65 ∨ (90 < k ∧ k < 95) ∨ k = 96 ∨ (122 < k ∧ k < 128) → c ≠ BitVec.ofNat 32 k := by
    intro k hk
    rw [Ne, Numeric.ofNat_eq_iff (by omega)]
    omega
  have hsym : lexSym c s = none := by
    unfold lexSym
    dsimp only
    rw [if_neg (hne 40 (by decide)), if_neg (hne 41 (by decide)), if_neg (hne 91 (by decide)), if_neg (hne 93 (by decide)),
      if_neg (hne 123 (by decide)), if_neg (hne 125 (by decide)), if_neg (hne 46 (by decide)), if_neg (hne 59 (by decide)),
      if_neg (hne 44 (by decide)), if_neg (hne 63 (by decide)), if_neg (hne 58 (by decide)), if_neg (hne 36 (by decide)),
      if_neg (hne 60 (by decide)), if_neg (hne 62 (by decide)), if_neg (hne 43 (by decide)), if_neg (hne 45 (by decide)),
      if_neg (hne 42 (by decide)), if_neg (hne 47 (by decide)), if_neg (hne 37 (by decide)), if_neg (hne 38 (by decide)),
      if_neg (hne 124 (by decide)), if_neg (hne 126 (by decide)), if_neg (hne 94 (by decide)), if_neg (hne 33 (by decide)),
      if_neg (hne 61 (by decide))]
  have hnum : ¬ isNumPrefix c = true := by
    rw [numPrefix_iff, Numeric.ofNat_eq_iff (by decide)]; omega
  unfold lexAt
  dsimp only
  rw [if_neg (by rintro ⟨h | h, _⟩; exact hne 43 (by decide) h; exact hne 45 (by decide) h),
    if_neg (fun h => hne 47 (by decide) h.1), if_neg (fun h => hne 47 (by decide) h.1), if_neg (hne 34 (by decide)),
    if_neg (fun h => hne 64 (by decide) h.1), if_neg (fun h => hne 64 (by decide) h.1), if_neg (hne 39 (by decide)), hsym]
  dsimp only
  cases lexKeyword c s with
  | some k => rfl
  | none => dsimp only; rw [if_neg hnum, if_pos h]

theorem keywords_lower : ∀ k ∈ keywords, ∀ d ∈ k.2, 97 ≤ d.toNat ∧ d.toNat ≤ 122 := by
  have h : keywords.all (fun k => k.2.all fun d => Nat.ble 97 d.toNat && Nat.ble d.toNat 122) = true := by decide +kernel
  intro k hk d hd
  have := List.all_eq_true.mp (List.all_eq_true.mp h k hk) d hd
  rw [Bool.and_eq_true, Nat.ble_eq, Nat.ble_eq] at this
  exact this

theorem keywords_word : ∀ k ∈ keywords, ∀ d ∈ k.2, isWord d = true := fun k hk d hd =>
  isWord_namePrefix ((namePrefix_iff d).mpr (.inl (keywords_lower k hk d hd)))

/-- Two words followed by something that is not a word character: one is a prefix of the other's text only if they are equal. -/
theorem word_unique {u w rest : List Ch} (hu : ∀ d ∈ u, isWord d = true) (hw : ∀ d ∈ w, isWord d = true) (hr : WordEnds rest)
    (hp : u <+: w ++ rest) (he : isWord (at0 ((w ++ rest).drop u.length)) = false) : u = w := by
  induction u generalizing w with
  | nil =>
    cases w with
    | nil => rfl
    | cons d w => simp [at0, hw d] at he
  | cons d u ih =>
    cases w with
    | nil =>
      cases rest with
      | nil => simp at hp
      | cons e r =>
        have h1 := hr e r rfl
        have h2 : d = e := by
          obtain ⟨x, hx⟩ := hp
          simp at hx; exact hx.1
        have h3 := hu d List.mem_cons_self
        rw [h2, h1] at h3
        cases h3
    | cons e w =>
      rw [List.cons_append, List.cons_prefix_cons] at hp
      obtain ⟨rfl, hp⟩ := hp
      rw [ih (fun x hx => hu x (List.mem_cons_of_mem _ hx)) (fun x hx => hw x (List.mem_cons_of_mem _ hx)) hp (by simpa using he)]

theorem readName_word {w rest : List Ch} (hw : ∀ d ∈ w, isWord d = true) (hr : WordEnds rest) : readName (w ++ rest) = rest := by
  induction w with
  | nil =>
    cases rest with
    | nil => rfl
    | cons e r => simp [readName, hr e r rfl]
  | cons d w ih =>
    rw [List.cons_append, readName, if_pos (hw d List.mem_cons_self)]
    exact ih (fun x hx => hw x (List.mem_cons_of_mem _ hx))

theorem lexKeyword_word {c : Ch} {w rest : List Ch} (hc : isWord c = true) (hw : ∀ d ∈ w, isWord d = true) (hr : WordEnds rest)
    (b : Bool) (k : List Ch) : lexKeyword c (w ++ rest) = some (b, k) ↔ (b, k) ∈ keywords ∧ k = c :: w := by
  constructor
  · intro h
    obtain ⟨hm, k', rfl, hp, he⟩ := lexKeyword_mem h
    have hk := keywords_word _ hm
    refine ⟨hm, ?_⟩
    rw [word_unique (fun x hx => hk x (List.mem_cons_of_mem _ hx)) hw hr hp he]
  · rintro ⟨hm, rfl⟩
    have hsat : ((c :: w).head? == some c && equalsKeyword (w ++ rest) (c :: w)) = true := by
      have hend : isWord (at0 rest) = false := by
        cases rest with
        | nil => rw [Bool.eq_false_iff, Ne, CStr.isWord_iff]; decide
        | cons e r => exact hr e r rfl
      simp [equalsKeyword, hend]
    cases hf : lexKeyword c (w ++ rest) with
    | none =>
      unfold lexKeyword at hf
      rw [List.find?_eq_none] at hf
      exact absurd hsat (hf _ hm)
    | some x =>
      obtain ⟨b', k''⟩ := x
      obtain ⟨hm', k', rfl, hp, he⟩ := lexKeyword_mem hf
      have hk := keywords_word _ hm'
      have : k' = w := word_unique (fun x hx => hk x (List.mem_cons_of_mem _ hx)) hw hr hp he
      subst this
      have hdist : ∀ x ∈ keywords, ∀ y ∈ keywords, x.2 = y.2 → x.1 = y.1 := by decide +kernel
      have := hdist _ hm' _ hm rfl
      simp only at this
      rw [this]

end Verif.Lex
