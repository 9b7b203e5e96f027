import Verif.Proof.Lex

/-!
The token reader: C17–C21, C64–C67.
-/

namespace Verif.Lex.Props

open Verif.CStr (Ch)
open Verif.Numeric (at0 Lit parseNumeric TokErr numberError)
open Spec

/-! ### Where tokens begin -/

theorem white_iff (c : Ch) : CStr.isWhitespace c = true ↔ c = 32#32 ∨ c = 9#32 ∨ c = 13#32 ∨ c = 10#32 ∨ c = 0#32 := by
  rw [CStr.isWhitespace_iff, Numeric.ofNat_eq_iff (by decide), Numeric.ofNat_eq_iff (by decide), Numeric.ofNat_eq_iff (by decide),
    Numeric.ofNat_eq_iff (by decide), Numeric.ofNat_eq_iff (by decide)]

theorem lineEnd_iff (c : Ch) : CStr.isLineEnd c = true ↔ c = 13#32 ∨ c = 10#32 ∨ c = 0#32 := by
  rw [CStr.isLineEnd_iff, Numeric.ofNat_eq_iff (by decide), Numeric.ofNat_eq_iff (by decide), Numeric.ofNat_eq_iff (by decide)]

theorem skipWs_blank {ws : List Ch} (h : Blank ws) (s : List Ch) : skipWs (ws ++ s) = skipWs s := by
  induction ws with
  | nil => rfl
  | cons c ws ih =>
    have hc := h c List.mem_cons_self
    have h0 : c ≠ 0#32 := by rcases hc with rfl | rfl | rfl | rfl <;> decide
    have hw : CStr.isWhitespace c = true := by rw [white_iff]; rcases hc with h | h | h | h <;> simp [h]
    rw [List.cons_append, skipWs, if_neg h0, if_pos hw]
    exact ih fun d hd => h d (List.mem_cons_of_mem _ hd)

/-- Reading at a character that is not white space. -/
theorem next_at {ws : List Ch} {c : Ch} {s : List Ch} {op : Bool} (hw : Blank ws) (hc : ¬ CStr.isWhitespace c = true) :
    next ⟨ws ++ c :: s, none, op⟩ = match lexAt op c s with
      | .tok t q rest => .tok t ⟨rest, q, t.kind.operand⟩
      | .hang => .hang := by
  have h0 : c ≠ 0#32 := by rintro rfl; exact hc ((white_iff _).mpr (by simp))
  have : skipWs (c :: s) = c :: s := by rw [skipWs, if_neg h0, if_neg hc]
  simp only [next, skipWs_blank hw, this, if_neg h0]
  cases lexAt op c s <;> rfl

/-! ### C17 String literals -/

/-- The escape sequences the reader knows are those of the language, but it takes `\f` for the letter `f`. -/
theorem escape_iff (c v : Ch) : escape c = some v ↔ ((c, v) ∈ escapes ∧ c ≠ 102#32) ∨ (c = 102#32 ∧ v = 102#32) := by
  unfold escape escapes
  simp only [List.mem_cons, List.not_mem_nil, or_false, Prod.mk.injEq]
  constructor
  · intro h
    iterate 12 (
      rcases ite_cases h with ⟨hc, h⟩ | ⟨_, h⟩
      · cases h; subst hc; decide)
    cases h
  · rintro (⟨h, hne⟩ | ⟨rfl, rfl⟩)
    · rcases h with h | h | h | h | h | h | h | h | h | h | h | h
      all_goals (obtain ⟨rfl, rfl⟩ := h; first | rfl | exact absurd rfl hne)
    · rfl

theorem readString_encodes {esc : Ch → Ch → Prop} (he : ∀ c v, esc c v → escape c = some v) {text value : List Ch}
    (h : Encodes esc text value) : ∀ (acc : List Ch) (err : Bool) (s : List Ch),
    readString acc err (text ++ s) = readString (acc ++ value) err s := by
  induction h with
  | nil => intro acc err s; simp
  | plain h1 h2 h3 _ ih =>
    intro acc err s
    rw [List.cons_append, readString.eq_def]
    dsimp only
    rw [if_neg h2, if_neg h1, if_neg h3, ih]
    simp
  | @escaped c v text value h1 _ ih =>
    intro acc err s
    have h0 : c ≠ 0#32 := by
      rintro rfl; have := he _ _ h1; revert this; simp [escape]
    rw [List.cons_append, List.cons_append, readString.eq_def]
    dsimp only
    rw [if_pos rfl, if_neg h0, he _ _ h1]
    dsimp only
    rw [ih]
    simp

theorem stored_eq {v : List Ch} (h : 0#32 ∉ v) : stored v = v := by
  unfold stored
  induction v with
  | nil => rfl
  | cons c v ih =>
    rw [List.mem_cons, not_or] at h
    rw [List.takeWhile_cons, if_pos (by simpa using Ne.symm h.1), ih h.2]

theorem lexAt_quote (op : Bool) (s : List Ch) : lexAt op 34#32 s =
    .tok ⟨.str (stored (readString [] false s).1), s.length + 1 - (readString [] false s).2.2.length,
      if (readString [] false s).2.1 then .string else .none⟩ none (readString [] false s).2.2 := by
  unfold lexAt
  dsimp only
  rw [if_neg (by rintro ⟨h, _⟩; revert h; decide), if_neg (by rintro ⟨h, _⟩; revert h; decide),
    if_neg (by rintro ⟨h, _⟩; revert h; decide), if_pos rfl]

/-- C17.  A string literal that encodes a text gives that text, the token covers exactly the literal, and reading goes on just
after the closing quote.  `_partial`: the text has no NUL and the literal has no `\f` (`string_nul_refuted`,
`string_formfeed_refuted`). -/
theorem string_literal_partial {text value : List Ch} (h : Encodes (fun c v => (c, v) ∈ escapes ∧ c ≠ 102#32) text value)
    (h0 : 0#32 ∉ value) {ws : List Ch} (hw : Blank ws) (rest : List Ch) (op : Bool) :
    next ⟨ws ++ 34#32 :: (text ++ 34#32 :: rest), none, op⟩ =
      .tok ⟨.str value, text.length + 2, .none⟩ ⟨rest, none, true⟩ := by
  have hr : readString [] false (text ++ 34#32 :: rest) = (value, false, rest) := by
    rw [readString_encodes (fun c v h => (escape_iff c v).mpr (.inl h)) h, readString.eq_def]
    simp
  rw [next_at hw (by rw [white_iff]; decide), lexAt_quote, hr]
  simp only [stored_eq h0, Kind.operand, Bool.false_eq_true, if_false, List.length_append, List.length_cons]
  congr 2
  omega

-- `"a\n"`, then `;`
example : Encodes (fun c v => (c, v) ∈ escapes ∧ c ≠ 102#32) [97#32, 92#32, 110#32] [97#32, 10#32] :=
  .plain (by decide) (by decide) (by decide) (.escaped (by decide) .nil)

theorem readString_decodes : ∀ (acc : List Ch) (err : Bool) (s v rest : List Ch), readString acc err s = (v, false, rest) →
    err = false ∧ ∃ text value, s = text ++ 34#32 :: rest ∧ v = acc ++ value ∧ Encodes (fun c v => escape c = some v) text value := by
  intro acc err s v rest h
  fun_induction readString acc err s with
  | case1 => cases h
  | case2 => cases h
  | case3 => cases h
  | case4 acc err d s' h1 e h2 ih =>
    obtain ⟨he, text, value, e1, e2, e3⟩ := ih h
    exact ⟨he, 92#32 :: d :: text, e :: value, by rw [e1]; rfl, by rw [e2]; simp, .escaped h2 e3⟩
  | case5 acc err d s' h1 h2 ih => exact absurd (ih h).1 (by simp)
  | case6 => cases h; exact ⟨rfl, [], [], rfl, by simp, .nil⟩
  | case7 => cases h
  | case8 acc err c s h1 h2 h3 ih =>
    obtain ⟨he, text, value, e1, e2, e3⟩ := ih h
    exact ⟨he, c :: text, c :: value, by rw [e1]; rfl, by rw [e2]; simp, .plain h2 h1 h3 e3⟩

/-- C17.  Conversely a string literal is read without an error only if it is closed and correctly encoded: then the value is what
the text before the closing quote stands for, with `\f` for the letter `f`, cut at the first NUL. -/
theorem string_literal_sound {s : List Ch} {op : Bool} {v : List Ch} {n : Nat} {st : LexSt} {ws : List Ch} (hw : Blank ws)
    (h : next ⟨ws ++ 34#32 :: s, none, op⟩ = .tok ⟨.str v, n, .none⟩ st) :
    ∃ text value, s = text ++ 34#32 :: st.src ∧ n = text.length + 2 ∧ v = value.takeWhile (· ≠ 0#32) ∧
      Encodes (fun c v => ((c, v) ∈ escapes ∧ c ≠ 102#32) ∨ (c = 102#32 ∧ v = 102#32)) text value := by
  rw [next_at hw (by rw [white_iff]; decide), lexAt_quote] at h
  simp only [Next.tok.injEq, Tok.mk.injEq, Kind.str.injEq] at h
  obtain ⟨⟨h1, h2, h3⟩, h4⟩ := h
  have herr : (readString [] false s).2.1 = false := by
    cases hb : (readString [] false s).2.1
    · rfl
    · rw [hb] at h3; cases h3
  obtain ⟨_, text, value, e1, e2, e3⟩ := readString_decodes [] false s (readString [] false s).1 (readString [] false s).2.2
    (Prod.ext rfl (Prod.ext herr rfl))
  subst h4
  refine ⟨text, value, e1, ?_, ?_, ?_⟩
  · have := congrArg List.length e1
    simp only [List.length_append, List.length_cons] at this
    omega
  · rw [← h1, e2]; rfl
  · have hf : (fun c v => escape c = some v) = (fun c v : Ch => ((c, v) ∈ escapes ∧ c ≠ 102#32) ∨ (c = 102#32 ∧ v = 102#32)) := by
      funext c v; rw [escape_iff]
    rw [← hf]; exact e3

/-- C17.  Whatever follows the opening quote, one string token is read, which begins at the quote and lies within the source; the
only error it may have is that of a wrong string literal. -/
theorem string_literal_total {s : List Ch} {op : Bool} {ws : List Ch} (hw : Blank ws) :
    ∃ v n e st text, next ⟨ws ++ 34#32 :: s, none, op⟩ = .tok ⟨.str v, n, e⟩ st ∧ (e = .none ∨ e = .string) ∧
      34#32 :: s = text ++ st.src ∧ n = text.length := by
  have hs := readString_suffix [] false s
  obtain ⟨text, e1, _, e3⟩ := suffix_len (c := 34#32) hs
  have h : (if (readString [] false s).2.1 then TokErr.string else .none) = .none ∨
      (if (readString [] false s).2.1 then TokErr.string else .none) = .string := by split <;> simp
  exact ⟨stored (readString [] false s).1, _, _, ⟨(readString [] false s).2.2, none, true⟩, text,
    by rw [next_at hw (by rw [white_iff]; decide), lexAt_quote]; rfl, h, e1, e3⟩

/-- C17.  An unclosed string literal is an error. -/
theorem string_unclosed {s : List Ch} (h : 34#32 ∉ s) {op : Bool} {ws : List Ch} (hw : Blank ws) :
    ∃ v n st, next ⟨ws ++ 34#32 :: s, none, op⟩ = .tok ⟨.str v, n, .string⟩ st := by
  obtain ⟨v, n, e, st, text, e1, rfl | rfl, _, _⟩ := string_literal_total (s := s) (op := op) hw
  · obtain ⟨text, value, hs, _⟩ := string_literal_sound hw e1
    exact absurd (by rw [hs]; simp) h
  · exact ⟨v, n, st, e1⟩

/-- C17 fails for `\f`: `"\f"` is read without an error as the letter `f`, not as a form feed. -/
theorem string_formfeed_refuted :
    Encodes (fun c v => (c, v) ∈ escapes) [92#32, 102#32] [12#32] ∧
    next { src := [34#32, 92#32, 102#32, 34#32] } = .tok ⟨.str [102#32], 4, .none⟩ ⟨[], none, true⟩ :=
  ⟨.escaped (by decide) .nil, by decide +kernel⟩

/-- C17 fails for texts with a NUL: `"a\0b"` is read without an error as `a`. -/
theorem string_nul_refuted :
    Encodes (fun c v => (c, v) ∈ escapes) [97#32, 92#32, 48#32, 98#32] [97#32, 0#32, 98#32] ∧
    next { src := [34#32, 97#32, 92#32, 48#32, 98#32, 34#32] } = .tok ⟨.str [97#32], 6, .none⟩ ⟨[], none, true⟩ :=
  ⟨.plain (by decide) (by decide) (by decide) (.escaped (by decide) (.plain (by decide) (by decide) (by decide) .nil)), by decide +kernel⟩

/-! ### C18 Verbatim strings -/

theorem lexAt_verbatim (op : Bool) (s : List Ch) : lexAt op 64#32 (34#32 :: s) =
    .tok ⟨.str (stored (readVerbatim [] s).1), s.length + 2 - (readVerbatim [] s).2.2.length,
      if (readVerbatim [] s).2.1 then .string else .none⟩ none (readVerbatim [] s).2.2 := by
  unfold lexAt
  dsimp only
  rw [if_neg (by rintro ⟨h, _⟩; revert h; decide), if_neg (by rintro ⟨h, _⟩; revert h; decide),
    if_neg (by rintro ⟨h, _⟩; revert h; decide), if_neg (by decide), if_pos ⟨rfl, rfl⟩]
  rfl

theorem readVerbatim_plain {text : List Ch} (h : 34#32 ∉ text) (h0 : 0#32 ∉ text) (acc s : List Ch) :
    readVerbatim acc (text ++ s) = readVerbatim (acc ++ text) s := by
  induction text generalizing acc with
  | nil => simp
  | cons c text ih =>
    rw [List.mem_cons, not_or] at h h0
    rw [List.cons_append, readVerbatim, if_neg (Ne.symm h.1), if_neg (Ne.symm h0.1), ih h.2 h0.2]
    simp

/-- C18.  A verbatim literal without quotes in its text gives the text.  `_partial`: texts with a quote are read wrongly
(`verbatim_quote_refuted`). -/
theorem verbatim_literal_partial {text : List Ch} (h : 34#32 ∉ text) (h0 : 0#32 ∉ text) {rest : List Ch} (hr : rest.head? ≠ some 34#32)
    {ws : List Ch} (hw : Blank ws) (op : Bool) :
    next ⟨ws ++ 64#32 :: 34#32 :: (text ++ 34#32 :: rest), none, op⟩ =
      .tok ⟨.str text, text.length + 3, .none⟩ ⟨rest, none, true⟩ := by
  have hq : at0 rest ≠ 34#32 := by
    cases rest with
    | nil => decide
    | cons c r => simpa using hr
  have hv : readVerbatim [] (text ++ 34#32 :: rest) = (text, false, rest) := by
    rw [readVerbatim_plain h h0, readVerbatim, if_pos rfl, if_neg hq]
    simp
  rw [next_at hw (by rw [white_iff]; decide), lexAt_verbatim, hv]
  simp only [stored_eq h0, Kind.operand, Bool.false_eq_true, if_false, List.length_append, List.length_cons]
  congr 2
  omega

-- `@"a\"`, then `;`
example : 34#32 ∉ [97#32, 92#32] ∧ (0#32 : Ch) ∉ [97#32, 92#32] ∧ [(59#32 : Ch)].head? ≠ some 34#32 := by decide

/-- C18 fails for every text with a doubled quote: the literal is reported as an error and ends just after the first doubled
quote, whatever follows. -/
theorem verbatim_quote_refuted {text : List Ch} (h : 34#32 ∉ text) (h0 : 0#32 ∉ text) (rest : List Ch) {ws : List Ch} (hw : Blank ws)
    (op : Bool) :
    next ⟨ws ++ 64#32 :: 34#32 :: (text ++ 34#32 :: 34#32 :: rest), none, op⟩ =
      .tok ⟨.str (text ++ [34#32]), text.length + 4, .string⟩ ⟨rest, none, true⟩ := by
  have hv : readVerbatim [] (text ++ 34#32 :: 34#32 :: rest) = (text ++ [34#32], true, rest) := by
    rw [readVerbatim_plain h h0, readVerbatim, if_pos rfl, if_pos (at0_cons ..)]
    simp
  have h0' : 0#32 ∉ text ++ [34#32] := by simp [h0]
  rw [next_at hw (by rw [white_iff]; decide), lexAt_verbatim, hv]
  simp only [stored_eq h0', Kind.operand, if_true, List.length_append, List.length_cons]
  congr 2
  omega

/-- C18.  An unclosed verbatim literal is an error. -/
theorem verbatim_unclosed {text : List Ch} (h : 34#32 ∉ text) (h0 : 0#32 ∉ text) {rest : List Ch} (hr : AtEnd rest)
    {ws : List Ch} (hw : Blank ws) (op : Bool) :
    next ⟨ws ++ 64#32 :: 34#32 :: (text ++ rest), none, op⟩ = .tok ⟨.str text, text.length + 2, .string⟩ ⟨rest, none, true⟩ := by
  have hv : readVerbatim [] (text ++ rest) = (text, true, rest) := by
    rw [readVerbatim_plain h h0]
    rcases hr with rfl | ⟨r, rfl⟩
    · simp [readVerbatim]
    · rw [readVerbatim, if_neg (by decide), if_pos rfl]; simp
  rw [next_at hw (by rw [white_iff]; decide), lexAt_verbatim, hv]
  simp only [stored_eq h0, Kind.operand, if_true, List.length_append]
  congr 2
  omega

/-! ### C19 Character literals -/

/-- The function of the model that says what the loop of `__read_char` does agrees with running the loop: it has a result exactly
if some number of rounds reaches the end. -/
theorem readChar_iff (p : List Ch) (ret : Ch) (count : Nat) (err : Bool) (r : CharSt) (q : List Ch) :
    readChar ⟨q, ret, count, err⟩ p = some r ↔ ∃ n, charRun n ⟨p, ret, count, err⟩ = some r := by
  have step : ∀ (st : CharSt) (r : CharSt), (∃ n, charRun n st = some r) ↔
      match charStep st with
      | .inr st' => st' = r
      | .inl st' => ∃ n, charRun n st' = some r := by
    intro st r
    constructor
    · rintro ⟨n, h⟩
      cases n with
      | zero => cases h
      | succ n =>
        rw [charRun] at h
        split at h <;> rename_i h'
        · cases h; rw [h']
        · rw [h']; exact ⟨n, h⟩
    · intro h
      split at h <;> rename_i h'
      · exact ⟨1, by rw [charRun, h']; simp [h]⟩
      · obtain ⟨n, h⟩ := h
        exact ⟨n + 1, by rw [charRun, h']; exact h⟩
  -- states in which the loop makes no progress
  have stuck : ∀ n (st : CharSt), (at0 st.p = 13#32 ∨ at0 st.p = 10#32 ∨ at0 st.p = 0#32) → charRun n st = none := by
    intro n
    induction n with
    | zero => intro st _; rfl
    | succ n ih =>
      intro st hst
      have : charStep st = .inl { st with err := true } := by
        unfold charStep
        dsimp only
        rw [if_neg (by rcases hst with h | h | h <;> rw [h] <;> decide), if_neg (by rcases hst with h | h | h <;> rw [h] <;> decide),
          if_pos hst]
      rw [charRun, this]
      exact ih _ hst
  generalize hst : (⟨q, ret, count, err⟩ : CharSt) = st
  have e : (⟨p, ret, count, err⟩ : CharSt) = { st with p := p } := by rw [← hst]
  rw [e]
  clear e hst
  fun_induction readChar st p with
  | case1 st =>
    constructor
    · intro h; cases h
    · rintro ⟨n, h⟩; rw [stuck n _ (.inr (.inr rfl))] at h; cases h
  | case2 st s =>
    rw [step]; simp [charStep]
  | case3 st h => rw [step]; simp [charStep, at0]
  | case4 st s h => rw [step]; simp [charStep]
  | case5 st d s h1 e h2 h3 ih => rw [step]; simp only [charStep, at0_cons, List.tail_cons, if_neg h1, if_pos, h2]; simpa [h3] using ih
  | case6 st d s h1 h2 h3 ih => rw [step]; simp only [charStep, at0_cons, List.tail_cons, if_neg h1, if_pos, h2]; simpa [h3] using ih
  | case7 st c s h1 h2 h3 =>
    constructor
    · intro h; cases h
    · rintro ⟨n, h⟩; rw [stuck n { st with p := c :: s } h3] at h; cases h
  | case8 st c s h1 h2 h3 ih =>
    rw [step]
    have : charStep { st with p := c :: s } = .inl { st with p := s, ret := c, count := st.count + 1 } := by
      unfold charStep
      dsimp only
      rw [at0_cons, if_neg (by assumption), if_neg (by assumption), if_neg (by assumption)]
      rfl
    rw [this]
    exact ih

theorem lexAt_char (op : Bool) (s : List Ch) : lexAt op 39#32 s =
    match readChar { p := s } s with
    | some st => .tok ⟨.chr st.ret, s.length + 1 - st.p.length, charErr st⟩ none st.p
    | none => .hang := by
  unfold lexAt
  dsimp only
  rw [if_neg (by rintro ⟨h, _⟩; revert h; decide), if_neg (by rintro ⟨h, _⟩; revert h; decide),
    if_neg (by rintro ⟨h, _⟩; revert h; decide), if_neg (by decide), if_neg (by rintro ⟨h, _⟩; revert h; decide),
    if_neg (by rintro ⟨h, _⟩; revert h; decide), if_pos rfl]
  cases readChar { p := s } s <;> rfl

/-- C19.  A plain character between quotes. -/
theorem char_plain {c : Ch} (h1 : c ≠ 39#32) (h2 : c ≠ 92#32) (h3 : ¬ Newline c) (h4 : c ≠ 0#32) (rest : List Ch) {ws : List Ch}
    (hw : Blank ws) (op : Bool) :
    next ⟨ws ++ 39#32 :: c :: 39#32 :: rest, none, op⟩ = .tok ⟨.chr c, 3, .none⟩ ⟨rest, none, true⟩ := by
  rw [next_at hw (by rw [white_iff]; decide), lexAt_char, readChar.eq_def]
  dsimp only
  rw [if_neg h1, if_neg h2, if_neg (by simp only [Newline] at h3; simp_all), readChar.eq_def]
  dsimp only
  rw [if_pos rfl]
  simp [charErr, Kind.operand]
  omega

/-- C19.  An escape sequence between quotes.  `_partial`: not for `\f`, which gives the letter `f`
(`char_formfeed_refuted`). -/
theorem char_escaped_partial {c v : Ch} (h : (c, v) ∈ escapes) (hf : c ≠ 102#32) (rest : List Ch) {ws : List Ch} (hw : Blank ws)
    (op : Bool) :
    next ⟨ws ++ 39#32 :: 92#32 :: c :: 39#32 :: rest, none, op⟩ = .tok ⟨.chr v, 4, .none⟩ ⟨rest, none, true⟩ := by
  have he := (escape_iff c v).mpr (.inl ⟨h, hf⟩)
  have h0 : c ≠ 0#32 := by rintro rfl; revert he; simp [escape]
  rw [next_at hw (by rw [white_iff]; decide), lexAt_char, readChar.eq_def]
  dsimp only
  rw [if_neg (by decide), if_pos rfl, if_neg h0, he]
  dsimp only
  rw [readChar.eq_def]
  dsimp only
  rw [if_pos rfl]
  simp [charErr, Kind.operand]
  omega

/-- C19 fails for `'\f'`, which is the letter `f`. -/
theorem char_formfeed_refuted : (102#32, 12#32) ∈ escapes ∧
    next { src := [39#32, 92#32, 102#32, 39#32] } = .tok ⟨.chr 102#32, 4, .none⟩ ⟨[], none, true⟩ := by decide +kernel

theorem readChar_items {items : List Ch} (h : CharItems items) : ∀ (st : CharSt) (s : List Ch),
    ∃ st', readChar st (items ++ s) = readChar st' s := by
  induction h with
  | nil => intro st s; exact ⟨st, rfl⟩
  | plain h1 h2 h3 h4 _ ih =>
    intro st s
    rw [List.cons_append, readChar.eq_def]
    dsimp only
    rw [if_neg h1, if_neg h2, if_neg (by simp only [Newline] at h3; simp_all)]
    exact ih _ _
  | @escaped c s' h1 _ ih =>
    intro st s
    rw [List.cons_append, List.cons_append, readChar.eq_def]
    dsimp only
    rw [if_neg (by decide), if_pos rfl, if_neg h1]
    cases escape c with
    | none => exact ih _ _
    | some e => exact ih _ _

theorem readChar_none (st : CharSt) (s : List Ch) : readChar st s = none ↔
    ∃ items rest, s = items ++ rest ∧ CharItems items ∧ (AtEnd rest ∨ ∃ c r, rest = c :: r ∧ Newline c) := by
  constructor
  · intro h
    fun_induction readChar st s with
    | case1 => exact ⟨[], [], rfl, .nil, .inl (.inl rfl)⟩
    | case2 => cases h
    | case3 => cases h
    | case4 => cases h
    | case5 st d s h1 e _ _ ih =>
      obtain ⟨items, rest, rfl, hi, hr⟩ := ih h
      exact ⟨92#32 :: d :: items, rest, rfl, .escaped h1 hi, hr⟩
    | case6 st d s h1 _ _ ih =>
      obtain ⟨items, rest, rfl, hi, hr⟩ := ih h
      exact ⟨92#32 :: d :: items, rest, rfl, .escaped h1 hi, hr⟩
    | case7 st c s h1 h2 h3 =>
      refine ⟨[], c :: s, rfl, .nil, ?_⟩
      rcases h3 with rfl | rfl | rfl
      · exact .inr ⟨_, _, rfl, .inl rfl⟩
      · exact .inr ⟨_, _, rfl, .inr rfl⟩
      · exact .inl (.inr ⟨_, rfl⟩)
    | case8 st c s h1 h2 h3 ih =>
      obtain ⟨items, rest, rfl, hi, hr⟩ := ih h
      rw [not_or, not_or] at h3
      exact ⟨c :: items, rest, rfl, .plain (by assumption) (by assumption) (not_or.mpr ⟨h3.1, h3.2.1⟩) h3.2.2 hi, hr⟩
  · rintro ⟨items, rest, rfl, hi, hr⟩
    obtain ⟨st', e⟩ := readChar_items hi st rest
    rw [e]
    rcases hr with (rfl | ⟨r, rfl⟩) | ⟨c, r, rfl, hn⟩
    · rfl
    · rw [readChar.eq_def]; rfl
    · rw [readChar.eq_def]
      rcases hn with rfl | rfl <;> rfl

/-- C19 fails: reading a character literal does not end if a line end or the end of the source comes before the closing quote.
These are exactly the literals for which it does not end. -/
theorem char_termination_refuted (s : List Ch) {ws : List Ch} (hw : Blank ws) (op : Bool) :
    next ⟨ws ++ 39#32 :: s, none, op⟩ = .hang ↔
      ∃ items rest, s = items ++ rest ∧ CharItems items ∧ (AtEnd rest ∨ ∃ c r, rest = c :: r ∧ Newline c) := by
  rw [next_at hw (by rw [white_iff]; decide), lexAt_char, ← readChar_none { p := s }]
  cases readChar { p := s } s <;> simp

/-- C19.  Not ending means that no number of rounds of the loop reaches its end. -/
theorem char_hang_loops {s : List Ch} {op : Bool} {ws : List Ch} (hw : Blank ws) :
    next ⟨ws ++ 39#32 :: s, none, op⟩ = .hang ↔ ∀ n, charRun n { p := s } = none := by
  rw [next_at hw (by rw [white_iff]; decide), lexAt_char]
  constructor
  · intro h n
    cases hr : charRun n { p := s } with
    | none => rfl
    | some r => rw [(readChar_iff s 0#32 0 false r s).mpr ⟨n, hr⟩] at h; cases h
  · intro h
    cases hr : readChar { p := s } s with
    | none => rfl
    | some r =>
      obtain ⟨n, e⟩ := (readChar_iff s 0#32 0 false r s).mp hr
      rw [h n] at e; cases e

-- `'a`, end of source
example : next { src := [39#32, 97#32] } = .hang := by decide +kernel

/-- No other token makes the reader hang. -/
theorem hang_only_char {c : Ch} {s : List Ch} {op : Bool} (h : lexAt op c s = .hang) : c = 39#32 := by
  refine Classical.byContradiction fun hc => ?_
  unfold lexAt lexNumber at h
  dsimp only at h
  rw [if_neg hc] at h
  repeat (first | cases h | (split at h))

theorem readChar_count (st : CharSt) (s : List Ch) (r : CharSt) (h : readChar st s = some r) : st.count ≤ r.count := by
  fun_induction readChar st s with
  | case1 => cases h
  | case2 => cases h; exact Nat.le_refl _
  | case3 => cases h; exact Nat.le_refl _
  | case4 => cases h; exact Nat.le_refl _
  | case5 _ _ _ _ _ _ _ ih => have := ih h; simp at this; omega
  | case6 _ _ _ _ _ _ ih => have := ih h; simp at this; omega
  | case7 => cases h
  | case8 _ _ _ _ _ _ ih => have := ih h; simp at this; omega

theorem readChar_err (st : CharSt) (s : List Ch) (r : CharSt) (h : readChar st s = some r) : st.err = true → r.err = true := by
  fun_induction readChar st s with
  | case1 => cases h
  | case2 => cases h; exact id
  | case3 => cases h; intro; rfl
  | case4 => cases h; intro; rfl
  | case5 _ _ _ _ _ _ _ ih => exact ih h
  | case6 _ _ _ _ _ _ ih => intro _; exact ih h rfl
  | case7 => cases h
  | case8 _ _ _ _ _ _ ih => exact ih h

theorem readChar_closed {st : CharSt} {s : List Ch} {r : CharSt} (h : readChar st s = some r) (hc : r.count = st.count)
    (he : r.err = false) : s = 39#32 :: r.p ∧ r.ret = st.ret := by
  cases s with
  | nil => cases h
  | cons c s =>
    rw [readChar.eq_def] at h
    dsimp only at h
    split at h
    · rename_i hc'; cases h; exact ⟨by rw [hc'], rfl⟩
    · split at h
      · cases s with
        | nil => cases h; cases he
        | cons d s =>
          dsimp only at h
          split at h
          · cases h; cases he
          · split at h
            all_goals (have := readChar_count _ _ _ h; simp at this; omega)
      · split at h
        · cases h
        · have := readChar_count _ _ _ h; simp at this; omega

/-- C19.  A character literal is read without an error only if it is one character, plain or escaped, between quotes. -/
theorem char_sound {s : List Ch} {op : Bool} {v : Ch} {n : Nat} {st : LexSt} {ws : List Ch} (hw : Blank ws)
    (h : next ⟨ws ++ 39#32 :: s, none, op⟩ = .tok ⟨.chr v, n, .none⟩ st) :
    (n = 3 ∧ s = v :: 39#32 :: st.src ∧ v ≠ 39#32 ∧ v ≠ 92#32 ∧ ¬ Newline v ∧ v ≠ 0#32) ∨
    ∃ c, n = 4 ∧ s = 92#32 :: c :: 39#32 :: st.src ∧ (((c, v) ∈ escapes ∧ c ≠ 102#32) ∨ (c = 102#32 ∧ v = 102#32)) := by
  rw [next_at hw (by rw [white_iff]; decide), lexAt_char] at h
  cases hr : readChar { p := s } s with
  | none => rw [hr] at h; cases h
  | some r =>
    rw [hr] at h
    simp only [Next.tok.injEq, Tok.mk.injEq, Kind.chr.injEq] at h
    obtain ⟨⟨h1, h2, h3⟩, rfl⟩ := h
    have hcount : r.count = 1 ∧ r.err = false := by
      unfold charErr at h3
      split at h3
      · cases h3
      · split at h3
        · cases h3
        · split at h3
          · cases h3
          · rename_i h; exact ⟨by omega, by simpa using h⟩
    dsimp only
    cases s with
    | nil => cases hr
    | cons c s =>
      rw [readChar.eq_def] at hr
      dsimp only at hr
      split at hr
      · cases hr; simp at hcount
      rename_i hc1
      split at hr
      · rename_i hc2
        cases s with
        | nil => cases hr; simp at hcount
        | cons d s =>
          dsimp only at hr
          split at hr
          · cases hr; simp at hcount
          split at hr
          · rename_i e he
            obtain ⟨rfl, e2⟩ := readChar_closed hr hcount.1 hcount.2
            right
            refine ⟨d, ?_, by rw [hc2], ?_⟩
            · rw [← h2]; simp; omega
            · rw [← escape_iff, he, ← h1, e2]
          · have := readChar_err _ _ _ hr rfl
            rw [hcount.2] at this; cases this
      rename_i hc2
      split at hr
      · cases hr
      rename_i hc3
      obtain ⟨rfl, e2⟩ := readChar_closed hr hcount.1 hcount.2
      left
      rw [not_or, not_or] at hc3
      have hv : v = c := by rw [← h1, e2]
      subst hv
      exact ⟨by rw [← h2]; simp; omega, rfl, hc1, hc2, not_or.mpr ⟨hc3.1, hc3.2.1⟩, hc3.2.2⟩

/-! ### C20 Comments -/

/-- C20.  A line comment ends before the first line end, or at the end of the source. -/
theorem line_comment {text rest : List Ch} (h : ∀ c ∈ text, ¬ Newline c ∧ c ≠ 0#32)
    (hr : AtEnd rest ∨ ∃ c r, rest = c :: r ∧ Newline c) {ws : List Ch} (hw : Blank ws) (op : Bool) :
    next ⟨ws ++ 47#32 :: 47#32 :: (text ++ rest), none, op⟩ = .tok ⟨.comment, text.length + 2, .none⟩ ⟨rest, none, false⟩ := by
  have hl : lineComment (text ++ rest) = rest := by
    induction text with
    | nil =>
      rcases hr with (rfl | ⟨r, rfl⟩) | ⟨c, r, rfl, hn⟩
      · rfl
      · rw [List.nil_append, lineComment, if_pos rfl]
      · rw [List.nil_append, lineComment, if_neg (by rcases hn with rfl | rfl <;> decide),
          if_pos (by rw [lineEnd_iff]; rcases hn with rfl | rfl <;> simp)]
    | cons c text ih =>
      have hc := h c List.mem_cons_self
      rw [List.cons_append, lineComment, if_neg hc.2, if_neg (by
        rw [lineEnd_iff]; rintro (h | h | h)
        · exact hc.1 (.inl h)
        · exact hc.1 (.inr h)
        · exact hc.2 h)]
      exact ih fun d hd => h d (List.mem_cons_of_mem _ hd)
  have : lexAt op 47#32 (47#32 :: (text ++ rest)) = .tok ⟨.comment, text.length + 2, .none⟩ none rest := by
    unfold lexAt
    dsimp only
    rw [if_neg (by rintro ⟨h, _⟩; revert h; decide), if_pos ⟨rfl, rfl⟩]
    simp only [List.tail_cons, hl, List.length_cons, List.length_append]
    congr 2
    omega
  rw [next_at hw (by rw [white_iff]; decide), this]
  rfl

-- `//ab`, then a line end
example : (∀ c ∈ [97#32, 98#32], ¬ Newline c ∧ c ≠ 0#32) ∧ ∃ c r, [10#32, 99#32] = c :: r ∧ Newline c := by
  refine ⟨?_, _, _, rfl, .inr rfl⟩
  intro c hc
  simp only [List.mem_cons, List.not_mem_nil, or_false] at hc
  rcases hc with rfl | rfl <;> simp [Newline]

theorem blockComment_first {text : List Ch} (h : ¬ [42#32, 47#32] <:+: text) (h0 : 0#32 ∉ text) (rest : List Ch) :
    blockComment (text ++ 42#32 :: 47#32 :: rest) = (false, 0, rest) := by
  induction text with
  | nil => rw [List.nil_append, blockComment, if_neg (by decide), if_pos ⟨rfl, rfl⟩]; rfl
  | cons c text ih =>
    rw [List.mem_cons, not_or] at h0
    rw [List.cons_append, blockComment, if_neg (Ne.symm h0.1), if_neg]
    · exact ih (fun hi => h (hi.trans (List.suffix_cons ..).isInfix)) h0.2
    · rintro ⟨rfl, h2⟩
      cases text with
      | nil => simp at h2
      | cons d text =>
        simp at h2
        subst h2
        exact h (List.prefix_append [42#32, 47#32] text).isInfix

theorem lexAt_block (op : Bool) (s : List Ch) : lexAt op 47#32 (42#32 :: s) =
    .tok ⟨.comment, s.length + 2 - (blockComment s).2.2.length + (blockComment s).2.1,
      if (blockComment s).1 then .comment else .none⟩ none (blockComment s).2.2 := by
  unfold lexAt
  dsimp only
  rw [if_neg (by rintro ⟨h, _⟩; revert h; decide), if_neg (by rintro ⟨_, h⟩; revert h; simp), if_pos ⟨rfl, rfl⟩]
  rfl

/-- C20.  A block comment ends after the first `*/`. -/
theorem block_comment {text : List Ch} (h : ¬ [42#32, 47#32] <:+: text) (h0 : 0#32 ∉ text) (rest : List Ch) {ws : List Ch}
    (hw : Blank ws) (op : Bool) :
    next ⟨ws ++ 47#32 :: 42#32 :: (text ++ 42#32 :: 47#32 :: rest), none, op⟩ =
      .tok ⟨.comment, text.length + 4, .none⟩ ⟨rest, none, false⟩ := by
  rw [next_at hw (by rw [white_iff]; decide), lexAt_block, blockComment_first h h0]
  simp [Kind.operand]
  omega

-- `/***/`, then `x`
example : ¬ [42#32, 47#32] <:+: [(42#32 : Ch)] ∧ (0#32 : Ch) ∉ [(42#32 : Ch)] := by decide

theorem blockComment_open {s : List Ch} (h : ¬ [42#32, 47#32] <:+: s) (h0 : 0#32 ∉ s) : blockComment s = (true, 1, []) := by
  induction s with
  | nil => rfl
  | cons c s ih =>
    rw [List.mem_cons, not_or] at h0
    rw [blockComment, if_neg (Ne.symm h0.1), if_neg]
    · exact ih (fun hi => h (hi.trans (List.suffix_cons ..).isInfix)) h0.2
    · rintro ⟨rfl, h2⟩
      cases s with
      | nil => simp [at0] at h2
      | cons d s =>
        simp at h2
        subst h2
        exact h (List.prefix_append [42#32, 47#32] s).isInfix

/-- C20.  An unclosed block comment is reported.  C20 fails in that the token is one character longer than what there is: it ends
beyond the source. -/
theorem block_unclosed_refuted {s : List Ch} (h : ¬ [42#32, 47#32] <:+: s) (h0 : 0#32 ∉ s) {ws : List Ch} (hw : Blank ws) (op : Bool) :
    next ⟨ws ++ 47#32 :: 42#32 :: s, none, op⟩ = .tok ⟨.comment, s.length + 3, .comment⟩ ⟨[], none, false⟩ := by
  rw [next_at hw (by rw [white_iff]; decide), lexAt_block, blockComment_open h h0]
  simp [Kind.operand]

/-! ### C21 Keywords are whole words -/

theorem reserved_iff (w : List Ch) : w ∈ reserved ↔ (false, w) ∈ keywords := by
  have h1 : ∀ w ∈ reserved, (false, w) ∈ keywords := by decide +kernel
  have h2 : ∀ k ∈ keywords, k.1 = false → k.2 ∈ reserved := by decide +kernel
  exact ⟨h1 w, fun h => h2 _ h rfl⟩

theorem contextual_iff (w : List Ch) : w ∈ contextual ↔ (true, w) ∈ keywords := by
  have h1 : ∀ w ∈ contextual, (true, w) ∈ keywords := by decide +kernel
  have h2 : ∀ k ∈ keywords, k.1 = true → k.2 ∈ contextual := by decide +kernel
  exact ⟨h1 w, fun h => h2 _ h rfl⟩

/-- C21.  The run of word characters at the cursor is one token, of the length of the run: a keyword if it is one of the reserved
words, a keyword that may serve as a name if it is one of the contextual ones, and a name otherwise. -/
theorem keyword_whole_word {w rest : List Ch} (h : Word w) (hr : WordEnds rest) {ws : List Ch} (hw : Blank ws) (op : Bool) :
    ∃ k, next ⟨ws ++ (w ++ rest), none, op⟩ = .tok ⟨k, w.length, .none⟩ ⟨rest, none, k == .name⟩ ∧
      (k = .keyword w ↔ w ∈ reserved) ∧ (k = .contextual w ↔ w ∈ contextual) ∧
      (k = .name ↔ w ∉ reserved ∧ w ∉ contextual) ∧ (k = .keyword w ∨ k = .contextual w ∨ k = .name) := by
  obtain ⟨c, w, rfl, hc, hw'⟩ := h
  have hnw : ¬ CStr.isWhitespace c = true := by
    have := (namePrefix_iff c).mp hc
    rw [CStr.isWhitespace_iff]; omega
  rw [List.cons_append, next_at hw hnw, lexAt_word op hc]
  have hk := lexKeyword_word (isWord_namePrefix hc) hw' hr
  have hdist : (false, c :: w) ∈ keywords → (true, c :: w) ∈ keywords → False := by
    have : ∀ x ∈ contextual, x ∉ reserved := by decide +kernel
    intro h1 h2
    exact this _ ((contextual_iff _).mpr h2) ((reserved_iff _).mpr h1)
  rw [reserved_iff, contextual_iff]
  cases hf : lexKeyword c (w ++ rest) with
  | none =>
    have hno : ∀ b, (b, c :: w) ∉ keywords := by
      intro b hb
      have := (hk b (c :: w)).mpr ⟨hb, rfl⟩
      rw [hf] at this; cases this
    refine ⟨.name, ?_, ?_⟩
    · dsimp only
      rw [readName_word hw' hr]
      simp [Kind.operand]
      omega
    · simp [hno]
  | some x =>
    obtain ⟨b, k⟩ := x
    obtain ⟨hm, rfl⟩ := (hk b k).mp hf
    cases b with
    | false =>
      refine ⟨.keyword (c :: w), ?_, ?_⟩
      · simp [Kind.operand]
      · have : (true, c :: w) ∉ keywords := hdist hm
        simp [hm, this]
    | true =>
      refine ⟨.contextual (c :: w), ?_, ?_⟩
      · simp [Kind.operand]
      · have : (false, c :: w) ∉ keywords := fun h => hdist h hm
        simp [hm, this]

-- `format` begins with `for` and is one name
example : next { src := [102#32, 111#32, 114#32, 109#32, 97#32, 116#32, 59#32] } = .tok ⟨.name, 6, .none⟩ ⟨[59#32], none, true⟩ := by
  decide +kernel

theorem lexAt_keyword {op : Bool} {c : Ch} {s : List Ch} {w : List Ch} {n : Nat} {e : TokErr} {q : Option Tok} {rest : List Ch}
    (h : lexAt op c s = .tok ⟨.keyword w, n, e⟩ q rest) :
    lexKeyword c s = some (false, w) ∧ n = w.length ∧ e = .none ∧ rest = s.drop (w.length - 1) := by
  unfold lexAt lexNumber at h
  dsimp only at h
  iterate 6 (split at h; · cases h)
  split at h
  · split at h <;> cases h
  split at h
  · cases h
  split at h
  · rename_i ctx k hk
    cases ctx
    · cases h; exact ⟨hk, rfl, rfl, rfl⟩
    · cases h
  · split at h
    · cases h
    · split at h <;> cases h

theorem skipWs_blank_spec (s : List Ch) : ∃ ws, s = ws ++ skipWs s ∧ Blank ws := by
  obtain ⟨ws, e, h⟩ := skipWs_spec s
  refine ⟨ws, e, fun c hc => ?_⟩
  obtain ⟨h1, h2⟩ := h c hc
  rw [white_iff] at h1
  simp_all

/-- C21.  Conversely a keyword token stands for a reserved word at which the run of word characters ends. -/
theorem keyword_sound {st st' : LexSt} {w : List Ch} {n : Nat} {e : TokErr} (hq : st.queued = none)
    (h : next st = .tok ⟨.keyword w, n, e⟩ st') : w ∈ reserved ∧ n = w.length ∧ e = .none ∧
      ∃ ws, st.src = ws ++ (w ++ st'.src) ∧ Blank ws ∧ WordEnds st'.src := by
  obtain ⟨src, q, op⟩ := st
  simp only at hq; subst hq
  obtain ⟨ws, e1, e2⟩ := skipWs_blank_spec src
  simp only [next] at h
  cases hs : skipWs src with
  | nil => rw [hs] at h; cases h
  | cons c s =>
    rw [hs] at h
    dsimp only at h
    split at h
    · cases h
    · cases hl : lexAt op c s with
      | hang => rw [hl] at h; cases h
      | tok t q rest =>
        rw [hl] at h
        cases h
        obtain ⟨h1, h2, h3, h4⟩ := lexAt_keyword hl
        obtain ⟨hm, k', rfl, ⟨u, rfl⟩, he⟩ := lexKeyword_mem h1
        simp at h4 he
        subst h4
        refine ⟨(reserved_iff _).mpr hm, h2, h3, ws, ?_, e2, ?_⟩
        · rw [hs] at e1; exact e1
        · rintro d r rfl; exact he

/-! ### C64 Tokens tile the source -/

/-- C64.  One call: white space, then the text of the token, which is not empty and as long as the token says, then what is
left.  `_partial`: the token of an unclosed block comment says one more (`block_unclosed_refuted`). -/
theorem next_tiles_partial {st st' : LexSt} {t : Tok} (hq : st.queued = none) (h : next st = .tok t st') :
    ∃ ws text, st.src = ws ++ (text ++ st'.src) ∧ Blank ws ∧ text ≠ [] ∧
      (t.len = text.length ∨ (Tok.unclosed t ∧ st'.src = [] ∧ t.len = text.length + 1)) := by
  obtain ⟨src, q, op⟩ := st
  simp only at hq; subst hq
  obtain ⟨ws, e1, e2⟩ := skipWs_blank_spec src
  simp only [next] at h
  cases hs : skipWs src with
  | nil => rw [hs] at h; cases h
  | cons c s =>
    rw [hs] at h
    dsimp only at h
    split at h
    · cases h
    · cases hl : lexAt op c s with
      | hang => rw [hl] at h; cases h
      | tok t q rest =>
        rw [hl] at h
        cases h
        obtain ⟨text, h1, h2, h3⟩ := lexAt_tiles op c s _ _ _ hl
        refine ⟨ws, text, ?_, e2, h2, h3⟩
        rw [hs, h1] at e1; exact e1

/-- C64.  The end of the source is reported exactly when only white space is left, up to the end or a NUL. -/
theorem next_eof_iff (st : LexSt) (hq : st.queued = none) :
    next st = .eof ↔ ∃ ws rest, st.src = ws ++ rest ∧ Blank ws ∧ AtEnd rest := by
  obtain ⟨src, q, op⟩ := st
  simp only at hq; subst hq
  constructor
  · intro h
    obtain ⟨ws, e1, e2⟩ := skipWs_blank_spec src
    refine ⟨ws, _, e1, e2, ?_⟩
    simp only [next] at h
    cases hs : skipWs src with
    | nil => exact .inl rfl
    | cons c s =>
      rw [hs] at h
      dsimp only at h
      split at h
      · rename_i h0; subst h0; exact .inr ⟨s, rfl⟩
      · cases hl : lexAt op c s <;> rw [hl] at h <;> cases h
  · rintro ⟨ws, rest, rfl, hw, rfl | ⟨r, rfl⟩⟩
    · simp only [next, skipWs_blank hw, skipWs]
    · simp [next, skipWs_blank hw, skipWs]

theorem lexAt_queued {op : Bool} {c : Ch} {s : List Ch} {t q : Tok} {rest : List Ch} (h : lexAt op c s = .tok t (some q) rest) :
    t = ⟨.sym [.rightShift, .rightAngle], 2, .none⟩ ∧ q = ⟨.sym [.empty, .rightAngle], 2, .none⟩ ∧ c :: s = 62#32 :: 62#32 :: rest := by
  unfold lexAt lexNumber at h
  dsimp only at h
  iterate 6 (split at h; · cases h)
  split at h
  · split at h <;> cases h
  split at h
  · rename_i vs k hk
    by_cases hv : vs = [.rightShift, .rightAngle]
    · subst hv
      obtain ⟨sp, e1, h1, ⟨u, e2⟩, _⟩ := lexSym_longest hk
      have hsp : ∀ x ∈ operators, x.2 = [.rightShift, .rightAngle] → x.1 = [62#32, 62#32] := by decide +kernel
      have := hsp _ h1 rfl
      simp only at this
      subst this
      have hk1 : k = 1 := by simpa using e1.symm
      subst hk1
      simp only [List.cons_append, List.nil_append, List.cons.injEq] at e2
      obtain ⟨rfl, rfl⟩ := e2
      simp at h
      obtain ⟨rfl, rfl, rfl⟩ := h
      exact ⟨rfl, rfl, rfl⟩
    · rw [if_neg hv] at h; cases h
  · split at h
    · cases h
    · split at h
      · cases h
      · split at h <;> cases h

/-- C64.  If reading reaches the end of the source, the tokens read tile it: nothing of the source is lost, read twice or read in
another order. -/
theorem tokens_tile (n : Nat) (src : List Ch) (op : Bool) (ts : List Tok) (h : readAll n ⟨src, none, op⟩ = (ts, some true)) :
    Tiled src ts := by
  induction n using Nat.strongRecOn generalizing src op ts with
  | _ n ih =>
  cases n with
  | zero => cases h
  | succ n =>
    rw [readAll] at h
    cases hn : next ⟨src, none, op⟩ with
    | hang => rw [hn] at h; cases h
    | eof =>
      rw [hn] at h; cases h
      obtain ⟨ws, rest, rfl, h1, h2⟩ := (next_eof_iff _ rfl).mp hn
      exact .done h1 h2
    | tok t st' =>
      rw [hn] at h
      dsimp only at h
      obtain ⟨ws, text, e1, hw, hne, hl⟩ := next_tiles_partial rfl hn
      dsimp only at e1
      obtain ⟨src', q', op'⟩ := st'
      dsimp only at e1 hl
      simp only [Prod.mk.injEq] at h
      obtain ⟨rfl, hend⟩ := h
      cases q' with
      | none =>
        rcases hl with hl | ⟨hu, rfl, hl⟩
        · rw [e1, ← List.append_assoc]
          exact .tok hw hne hl (ih n (by omega) src' op' _ (Prod.ext rfl hend))
        · have : (readAll n ⟨[], none, op'⟩).1 = [] := by
            cases n with
            | zero => rfl
            | succ n => rfl
          rw [this, e1, List.append_nil]
          exact .unclosed hw hne hu hl
      | some q =>
        cases n with
        | zero => cases hend
        | succ n =>
          -- the queued token comes next
          have hstep : readAll (n + 1) ⟨src', some q, op'⟩ = (q :: (readAll n ⟨src', none, op'⟩).1, (readAll n ⟨src', none, op'⟩).2) := rfl
          rw [hstep] at hend ⊢
          have hrec := ih n (by omega) src' op' _ (Prod.ext rfl hend)
          -- and is that of a shift
          obtain ⟨ws', e1', hw'⟩ := skipWs_blank_spec src
          simp only [next] at hn
          cases hs : skipWs src with
          | nil => rw [hs] at hn; cases hn
          | cons c s =>
            rw [hs] at hn e1'
            dsimp only at hn
            split at hn
            · cases hn
            · cases hx : lexAt op c s with
              | hang => rw [hx] at hn; cases hn
              | tok t0 q0 r0 =>
                rw [hx] at hn
                cases hn
                obtain ⟨rfl, rfl, e3⟩ := lexAt_queued hx
                have : src = ws' ++ [62#32, 62#32] ++ src' := by rw [e1', e3]; simp
                rw [this]
                exact .shift hw' hrec

/-- C64.  Reading ends: after at most two calls for each character of the source, and two more, the reader has reached the end of
the source or hangs in a character literal. -/
theorem reading_ends (st : LexSt) : ∃ r, (readAll (2 * st.src.length + 2) st).2 = some r := by
  have key : ∀ m (st : LexSt) n, 2 * st.src.length + (if st.queued = none then 1 else 2) ≤ n → st.src.length ≤ m →
      ∃ r, (readAll n st).2 = some r := by
    intro m
    induction m with
    | zero =>
      intro st n hn hm
      obtain ⟨src, q, op⟩ := st
      have : src = [] := List.length_eq_zero_iff.mp (Nat.le_zero.mp hm)
      subst this
      cases q with
      | none =>
        obtain ⟨n, rfl⟩ : ∃ k, n = k + 1 := ⟨n - 1, by simp at hn; omega⟩
        exact ⟨true, rfl⟩
      | some t =>
        obtain ⟨n, rfl⟩ : ∃ k, n = k + 2 := ⟨n - 2, by simp at hn; omega⟩
        exact ⟨true, rfl⟩
    | succ m ih =>
      have base : ∀ (st : LexSt) n, st.queued = none → 2 * st.src.length + 1 ≤ n → st.src.length ≤ m + 1 →
          ∃ r, (readAll n st).2 = some r := by
        intro st n hq hn hm
        obtain ⟨n, rfl⟩ : ∃ k, n = k + 1 := ⟨n - 1, by omega⟩
        rw [readAll]
        cases hx : next st with
        | hang => exact ⟨_, rfl⟩
        | eof => exact ⟨_, rfl⟩
        | tok t st' =>
          obtain ⟨ws, text, e1, _, hne, _⟩ := next_tiles_partial hq hx
          have hlen := congrArg List.length e1
          simp only [List.length_append] at hlen
          have : 0 < text.length := List.length_pos_iff.mpr hne
          dsimp only
          exact ih st' n (by split <;> omega) (by omega)
      intro st n hn hm
      cases hq : st.queued with
      | none => rw [if_pos hq] at hn; exact base st n hq hn hm
      | some t =>
        rw [if_neg (by rw [hq]; simp)] at hn
        obtain ⟨n, rfl⟩ : ∃ k, n = k + 1 := ⟨n - 1, by omega⟩
        have : next st = .tok t { st with queued := none } := by simp only [next, hq]
        rw [readAll, this]
        exact base _ n rfl (by dsimp only; omega) hm
  exact key _ st _ (by split <;> omega) (Nat.le_refl _)

-- `a>>b`
example : (readAll 10 { src := [97#32, 62#32, 62#32, 98#32] }).2 = some true ∧
    (readAll 10 { src := [97#32, 62#32, 62#32, 98#32] }).1.length = 4 := by decide +kernel

/-- C64.  If the source has no character literal, reading reaches the end of the source. -/
theorem reading_completes {src : List Ch} (h : 39#32 ∉ src) (op : Bool) :
    ∃ ts, readAll (2 * src.length + 2) ⟨src, none, op⟩ = (ts, some true) ∧ Tiled src ts := by
  have nohang : ∀ n (st : LexSt), 39#32 ∉ st.src → (readAll n st).2 ≠ some false := by
    intro n
    induction n with
    | zero => intro st _ h; cases h
    | succ n ih =>
      intro st hst
      rw [readAll]
      cases hx : next st with
      | eof => intro h; cases h
      | hang =>
        exfalso
        unfold next at hx
        split at hx
        · cases hx
        · obtain ⟨ws, e1, _⟩ := skipWs_blank_spec st.src
          split at hx
          · cases hx
          · rename_i c s hs
            split at hx
            · cases hx
            · split at hx
              · cases hx
              · rename_i hl
                have := hang_only_char hl
                subst this
                rw [hs] at e1
                exact hst (by rw [e1]; simp)
      | tok t st' =>
        dsimp only
        apply ih
        cases hq : st.queued with
        | none =>
          obtain ⟨ws, text, e1, _⟩ := next_tiles_partial hq hx
          intro hm; exact hst (by rw [e1]; simp [hm])
        | some q =>
          unfold next at hx
          rw [hq] at hx
          cases hx
          exact hst
  obtain ⟨r, hr⟩ := reading_ends ⟨src, none, op⟩
  have hne := nohang (2 * src.length + 2) ⟨src, none, op⟩ h
  cases r with
  | false => exact absurd hr hne
  | true => exact ⟨_, Prod.ext rfl hr, tokens_tile _ _ _ _ (Prod.ext rfl hr)⟩

/-! ### C65 Operators: longest match -/

/-- C65.  At an operator the longest one is taken, with all the values its spelling may have, and just its characters are
consumed.  Excluded are what begins a comment, and a sign directly before a number where no operand precedes (C66). -/
theorem operator_longest {c : Ch} {s sp : List Ch} {vs : List Sym} (h : Longest (c :: s) sp vs) {op : Bool}
    (hc : ¬ (c = 47#32 ∧ (at0 s = 47#32 ∨ at0 s = 42#32)))
    (hn : (sp = [43#32] ∨ sp = [45#32]) → isNumPrefix (at0 s) = true → op = true) {ws : List Ch} (hw : Blank ws) :
    ∃ q, next ⟨ws ++ c :: s, none, op⟩ = .tok ⟨.sym vs, sp.length, .none⟩ ⟨(c :: s).drop sp.length, q, false⟩ ∧
      (q = none ∨ sp = [62#32, 62#32]) := by
  obtain ⟨h1, ⟨u, h2⟩, h3⟩ := h
  have hhead : ∀ x ∈ operators, x.1.headD 0#32 ≠ 34#32 ∧ x.1.headD 0#32 ≠ 64#32 ∧ x.1.headD 0#32 ≠ 39#32 ∧
      x.1.headD 0#32 ≠ 32#32 ∧ x.1.headD 0#32 ≠ 9#32 ∧ x.1.headD 0#32 ≠ 13#32 ∧ x.1.headD 0#32 ≠ 10#32 ∧ x.1.headD 0#32 ≠ 0#32 := by
    decide +kernel
  have hh : sp.headD 0#32 = c := by
    cases sp with
    | nil => exact absurd rfl (operators_nonempty _ h1)
    | cons d r => simp at h2; simp [h2.1]
  have hd := hhead _ h1
  rw [show (sp, vs).1 = sp from rfl, hh] at hd
  obtain ⟨d1, d2, d3, d4, d5, d6, d7, d8⟩ := hd
  rw [next_at hw (by rw [white_iff]; simp [d4, d5, d6, d7, d8])]
  -- the longest operator
  have huniq : ∀ {sp' vs'}, Longest (c :: s) sp' vs' → sp' = sp ∧ vs' = vs := by
    rintro sp' vs' ⟨g1, g2, g3⟩
    have hle1 := g3 _ _ h1 ⟨u, h2⟩
    have hle2 := h3 _ _ g1 g2
    have e : sp' = sp := by
      have := List.prefix_of_prefix_length_le g2 ⟨u, h2⟩ hle2
      exact this.eq_of_length (by omega)
    subst e
    have hd : ∀ x ∈ operators, ∀ y ∈ operators, x.1 = y.1 → x.2 = y.2 := by decide +kernel
    exact ⟨rfl, hd _ g1 _ h1 rfl⟩
  have hsign : ¬ ((c = 43#32 ∨ c = 45#32) ∧ at0 s ≠ c ∧ at0 s ≠ 61#32 ∧ isNumPrefix (at0 s) = true ∧ (!op) = true) := by
    rintro ⟨g1, g2, g3, g4, g5⟩
    have hsp : sp = [c] := by
      have hL : Longest (c :: s) sp vs := ⟨h1, ⟨u, h2⟩, h3⟩
      have : Longest (c :: s) [c] (if c = 43#32 then [.add, .positive] else [.sub, .minus]) := by
        have : ∃ vs k, lexSym c s = some (vs, k) ∧ k = 0 ∧ vs = (if c = 43#32 then [.add, .positive] else [.sub, .minus]) := by
          rcases g1 with rfl | rfl
          · refine ⟨_, _, ?_, rfl, rfl⟩
            unfold lexSym; dsimp only; simp [g2, g3]
          · refine ⟨_, _, ?_, rfl, rfl⟩
            unfold lexSym; dsimp only; simp [g2, g3]
        obtain ⟨vs', k, e, rfl, rfl⟩ := this
        obtain ⟨sp', e1, e2⟩ := lexSym_longest e
        have : sp' = [c] := by
          obtain ⟨_, ⟨w, hw⟩, _⟩ := e2
          cases sp' with
          | nil => simp at e1
          | cons d r => simp at e1; subst e1; simp at hw; rw [hw.1]
        rw [← this]; exact e2
      exact (huniq this).1.symm
    have := hn (by rcases g1 with rfl | rfl <;> simp [hsp]) g4
    rw [this] at g5; cases g5
  cases hl : lexSym c s with
  | none => exact absurd ⟨u, h2⟩ (lexSym_none hl sp vs h1)
  | some x =>
    obtain ⟨vs', k⟩ := x
    obtain ⟨sp', e1, e2⟩ := lexSym_longest hl
    obtain ⟨rfl, rfl⟩ := huniq e2
    have hlex : lexAt op c s = .tok ⟨.sym vs', k + 1, .none⟩
        (if vs' = [.rightShift, .rightAngle] then some ⟨.sym [.empty, .rightAngle], k + 1, .none⟩ else none) (s.drop k) := by
      unfold lexAt
      dsimp only
      rw [if_neg hsign, if_neg (fun h => hc ⟨h.1, .inl h.2⟩), if_neg (fun h => hc ⟨h.1, .inr h.2⟩), if_neg d1,
        if_neg (fun h => d2 h.1), if_neg (fun h => d2 h.1), if_neg d3, hl]
    rw [hlex]
    refine ⟨(if vs' = [.rightShift, .rightAngle] then some ⟨.sym [.empty, .rightAngle], k + 1, .none⟩ else none), ?_, ?_⟩
    · rw [e1]; rfl
    · split
      · rename_i hv
        right
        have hsp : ∀ x ∈ operators, x.2 = [.rightShift, .rightAngle] → x.1 = [62#32, 62#32] := by decide +kernel
        exact hsp _ h1 hv
      · exact .inl rfl

-- `>>=1` is one operator
example : Longest [62#32, 62#32, 61#32, 49#32] [62#32, 62#32, 61#32] [.rightShiftAssign] := by
  refine ⟨by decide, by decide, ?_⟩
  have : ∀ x ∈ operators, x.1 <+: [62#32, 62#32, 61#32, 49#32] → x.1.length ≤ 3 := by decide +kernel
  exact fun sp vs h => this _ h

/-! ### C66 Signs -/

/-- C66.  A sign directly before a digit, or before a point, begins a number if the token before is neither a name nor a
constant. -/
theorem sign_number {c : Ch} {s : List Ch} (hc : c = 43#32 ∨ c = 45#32) (hn : isNumPrefix (at0 s) = true) {ws : List Ch}
    (hw : Blank ws) :
    ∃ n, next ⟨ws ++ c :: s, none, false⟩ = .tok ⟨.num (parseNumeric 0#32 (c :: s)).1, n, numberError (parseNumeric 0#32 (c :: s)).1⟩
      ⟨(parseNumeric 0#32 (c :: s)).2, none, true⟩ := by
  have hnw : ¬ CStr.isWhitespace c = true := by rw [white_iff]; rcases hc with rfl | rfl <;> decide
  have h1 : at0 s ≠ c := by
    rintro rfl; rw [numPrefix_iff] at hn; rcases hc with e | e <;> rw [e] at hn <;> revert hn <;> decide
  have h2 : at0 s ≠ 61#32 := by intro e; rw [e, numPrefix_iff] at hn; revert hn; decide
  have : lexAt false c s = lexNumber (c :: s) := by
    unfold lexAt
    dsimp only
    rw [if_pos ⟨hc, h1, h2, hn, rfl⟩]
  rw [next_at hw hnw, this]
  exact ⟨_, rfl⟩

/-- C66.  A sign after a name or a constant is an operator, whatever follows.  `_partial`: after a closing bracket, or a
contextual keyword used as a name, it is not (`sign_after_bracket_refuted`). -/
theorem sign_operator_partial {c : Ch} {s : List Ch} (hc : c = 43#32 ∨ c = 45#32) {ws : List Ch} (hw : Blank ws) :
    ∃ vs n st, next ⟨ws ++ c :: s, none, true⟩ = .tok ⟨.sym vs, n, .none⟩ st := by
  have hl : ∃ vs k, lexSym c s = some (vs, k) := by
    cases hx : lexSym c s with
    | some x => exact ⟨x.1, x.2, rfl⟩
    | none =>
      rcases hc with rfl | rfl
      · exact absurd (by simp) (lexSym_none hx [43#32] [.add, .positive] (by decide))
      · exact absurd (by simp) (lexSym_none hx [45#32] [.sub, .minus] (by decide))
  obtain ⟨vs, k, hl⟩ := hl
  obtain ⟨sp, _, hL⟩ := lexSym_longest hl
  obtain ⟨q, h, _⟩ := operator_longest hL (op := true) (by rintro ⟨rfl, _⟩; revert hc; decide) (fun _ _ => rfl) hw
  exact ⟨_, _, _, h⟩

/-- C66.  In particular the token after a name is an operator if it begins with a sign. -/
theorem sign_after_name {w : List Ch} (h : Word w) (hk : w ∉ reserved ∧ w ∉ contextual) {c : Ch} {s : List Ch}
    (hc : c = 43#32 ∨ c = 45#32) {ws ws' : List Ch} (hw : Blank ws) (hw' : Blank ws') (op : Bool) :
    ∃ vs n st st', next ⟨ws ++ (w ++ (ws' ++ c :: s)), none, op⟩ = .tok ⟨.name, w.length, .none⟩ st ∧
      next st = .tok ⟨.sym vs, n, .none⟩ st' := by
  have hr : WordEnds (ws' ++ c :: s) := by
    intro d r e
    rw [Bool.eq_false_iff, Ne, CStr.isWord_iff]
    have : d = 32#32 ∨ d = 9#32 ∨ d = 13#32 ∨ d = 10#32 ∨ d = 43#32 ∨ d = 45#32 := by
      cases ws' with
      | nil => simp at e; rw [← e.1]; simp [hc]
      | cons x ws' =>
        have := hw' x List.mem_cons_self
        simp at e; rw [← e.1]; rcases this with h | h | h | h <;> simp [h]
    rcases this with rfl | rfl | rfl | rfl | rfl | rfl <;> decide
  obtain ⟨k, e, _, _, hn, _⟩ := keyword_whole_word h hr hw op
  have := hn.mpr hk
  subst this
  obtain ⟨vs, n, st', e'⟩ := sign_operator_partial (s := s) hc hw'
  exact ⟨vs, n, _, st', e, e'⟩

-- `x -1`
example : Word [120#32] ∧ ([120#32] ∉ reserved ∧ [120#32] ∉ contextual) ∧ Blank [32#32] :=
  ⟨⟨120#32, [], rfl, by decide, by simp⟩, by decide +kernel, by simp [Blank]⟩

/-- C66 fails after closing brackets: `(a)-1`, `a[0]-1` and `get-1` have no operator in them; the last token is the number -1. -/
theorem sign_after_bracket_refuted :
    (readAll 9 { src := [40#32, 97#32, 41#32, 45#32, 49#32] }).1.map (·.kind) =
      [.sym [.leftBracket], .name, .sym [.rightBracket], .num (.val (.int32 (-1)))] ∧
    (readAll 9 { src := [97#32, 91#32, 48#32, 93#32, 45#32, 49#32] }).1.map (·.kind) =
      [.name, .sym [.leftSquare], .num (.val (.int32 0)), .sym [.rightSquare], .num (.val (.int32 (-1)))] ∧
    (readAll 9 { src := [103#32, 101#32, 116#32, 45#32, 49#32] }).1.map (·.kind) =
      [.contextual [103#32, 101#32, 116#32], .num (.val (.int32 (-1)))] := by decide +kernel

/-- The parser of numbers is given the character before the cursor; at the first character of a number it makes no
difference. -/
theorem number_prev (p q : Ch) (c : Ch) (s : List Ch) (h : isNumPrefix c = true ∨ c = 43#32 ∨ c = 45#32) :
    parseNumeric p (c :: s) = parseNumeric q (c :: s) := parseNumeric_prev p q c s h

/-- C22, C66.  At a digit a number is read: the token has the value and error of the literal, and the rest is what the parser
of numbers leaves. -/
theorem digit_number {c : Ch} {s : List Ch} (hc : 48 ≤ c.toNat ∧ c.toNat ≤ 57) {ws : List Ch} (hw : Blank ws) (op : Bool) :
    ∃ n, next ⟨ws ++ c :: s, none, op⟩ = .tok ⟨.num (parseNumeric 0#32 (c :: s)).1, n, numberError (parseNumeric 0#32 (c :: s)).1⟩
      ⟨(parseNumeric 0#32 (c :: s)).2, none, true⟩ := by
  have hne : ∀ k : Nat, k < 48 ∨ (57 < k ∧ k < 128) → c ≠ BitVec.ofNat 32 k := by
    intro k hk
    rw [Ne, Numeric.ofNat_eq_iff (by omega)]
    omega
  have hnw : ¬ CStr.isWhitespace c = true := by rw [CStr.isWhitespace_iff]; omega
  have hsym : lexSym c s = none := by
    cases hx : lexSym c s with
    | none => rfl
    | some x =>
      obtain ⟨sp, _, h1, ⟨u, h2⟩, _⟩ := lexSym_longest hx
      have hhead : operators.all (fun x => !(Nat.ble 48 (x.1.headD 0#32).toNat && Nat.ble (x.1.headD 0#32).toNat 57)) = true := by
        decide +kernel
      have := List.all_eq_true.mp hhead _ h1
      have hh : sp.headD 0#32 = c := by
        cases sp with
        | nil => exact absurd rfl (operators_nonempty _ h1)
        | cons d r => simp at h2; simp [h2.1]
      rw [show (sp, x.1).1 = sp from rfl, hh] at this
      have h48 : Nat.ble 48 c.toNat = true := Nat.ble_eq.mpr hc.1
      have h57 : Nat.ble c.toNat 57 = true := Nat.ble_eq.mpr hc.2
      rw [h48, h57] at this
      cases this
  have hkw : lexKeyword c s = none := by
    cases hx : lexKeyword c s with
    | none => rfl
    | some x =>
      obtain ⟨hm, k', e, _⟩ := lexKeyword_mem (b := x.1) (k := x.2) hx
      have := keywords_lower _ hm c (by rw [e]; simp)
      omega
  have : lexAt op c s = lexNumber (c :: s) := by
    unfold lexAt
    dsimp only
    rw [if_neg (by rintro ⟨h | h, _⟩; exact hne 43 (by decide) h; exact hne 45 (by decide) h),
      if_neg (fun h => hne 47 (by decide) h.1), if_neg (fun h => hne 47 (by decide) h.1), if_neg (hne 34 (by decide)),
      if_neg (fun h => hne 64 (by decide) h.1), if_neg (fun h => hne 64 (by decide) h.1), if_neg (hne 39 (by decide)), hsym, hkw]
    dsimp only
    rw [if_pos ((numPrefix_iff c).mpr (.inl hc))]
  rw [next_at hw hnw, this]
  exact ⟨_, rfl⟩

/-! ### C67 White space and comments -/

/-- C67.  White space before a token makes no difference. -/
theorem blank_ignored {ws : List Ch} (hw : Blank ws) (src : List Ch) (op : Bool) :
    next ⟨ws ++ src, none, op⟩ = next ⟨src, none, op⟩ := by
  simp only [next, skipWs_blank hw]

/-- C67.  What the last token was makes a difference only at a sign directly before a digit or a point: anywhere else a comment
in front of a token makes no difference either. -/
theorem operand_irrelevant_partial {c : Ch} {s : List Ch} (h : ¬ ((c = 43#32 ∨ c = 45#32) ∧ isNumPrefix (at0 s) = true)) (op op' : Bool) :
    next ⟨c :: s, none, op⟩ = next ⟨c :: s, none, op'⟩ ∨ CStr.isWhitespace c = true := by
  by_cases hw : CStr.isWhitespace c = true
  · exact .inr hw
  left
  have hb : Blank [] := by intro c hc; cases hc
  have e : lexAt op c s = lexAt op' c s := by
    unfold lexAt
    dsimp only
    rw [if_neg (fun g => h ⟨g.1, g.2.2.2.1⟩), if_neg (c := (c = 43#32 ∨ c = 45#32) ∧ _) (fun g => h ⟨g.1, g.2.2.2.1⟩)]
  have := next_at (ws := []) (c := c) (s := s) (op := op) hb hw
  have := next_at (ws := []) (c := c) (s := s) (op := op') hb hw
  simp_all

/-- C67 fails: a comment between a name and a sign turns the operator into the sign of a number.  `a -1` is a name, an operator
and a number; with an empty block comment in place of the blank it is a name, a comment and the number -1. -/
theorem comment_not_blank_refuted :
    (readAll 9 { src := [97#32, 32#32, 45#32, 49#32] }).1.map (·.kind) = [.name, .sym [.sub, .minus], .num (.val (.int32 1))] ∧
    (readAll 9 { src := [97#32, 47#32, 42#32, 42#32, 47#32, 45#32, 49#32] }).1.map (·.kind) =
      [.name, .comment, .num (.val (.int32 (-1)))] := by decide +kernel

end Verif.Lex.Props
