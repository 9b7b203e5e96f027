import Verif.Model.Lex

/-!
What tokens are, independently of how they are read.
-/

namespace Verif.Lex.Spec

open Verif.CStr (Ch)
open Verif.Lex

/-- The escape sequences of the language: the character after the backslash and the character it stands for. -/
def escapes : List (Ch × Ch) := [
  (110#32, 10#32),  -- n
  (114#32, 13#32),  -- r
  (116#32, 9#32),   -- t
  (98#32, 8#32),    -- b
  (97#32, 7#32),    -- a
  (48#32, 0#32),    -- 0
  (92#32, 92#32),   -- backslash
  (34#32, 34#32),   -- "
  (39#32, 39#32),   -- '
  (118#32, 11#32),  -- v
  (63#32, 63#32),   -- ?
  (102#32, 12#32)]  -- f

/-- `Encodes esc text value`: `text` stands for `value` between the quotes of a string literal, with the escape sequences
`esc`. -/
inductive Encodes (esc : Ch → Ch → Prop) : List Ch → List Ch → Prop where
  | nil : Encodes esc [] []
  | plain {c : Ch} {text value} : c ≠ 34#32 → c ≠ 92#32 → c ≠ 0#32 → Encodes esc text value →
      Encodes esc (c :: text) (c :: value)
  | escaped {c v : Ch} {text value} : esc c v → Encodes esc text value → Encodes esc (92#32 :: c :: text) (v :: value)

/-- The reserved words. -/
def reserved : List (List Ch) := [
  [97#32, 98#32, 115#32, 116#32, 114#32, 97#32, 99#32, 116#32],
  [97#32, 115#32],
  [98#32, 97#32, 115#32, 101#32],
  [98#32, 111#32, 111#32, 108#32],
  [98#32, 114#32, 101#32, 97#32, 107#32],
  [98#32, 121#32, 116#32, 101#32],
  [99#32, 97#32, 115#32, 101#32],
  [99#32, 97#32, 116#32, 99#32, 104#32],
  [99#32, 104#32, 97#32, 114#32],
  [99#32, 104#32, 101#32, 99#32, 107#32, 101#32, 100#32],
  [99#32, 108#32, 97#32, 115#32, 115#32],
  [99#32, 111#32, 110#32, 115#32, 116#32],
  [99#32, 111#32, 110#32, 116#32, 105#32, 110#32, 117#32, 101#32],
  [100#32, 101#32, 99#32, 105#32, 109#32, 97#32, 108#32],
  [100#32, 101#32, 102#32, 97#32, 117#32, 108#32, 116#32],
  [100#32, 101#32, 108#32, 101#32, 103#32, 97#32, 116#32, 101#32],
  [100#32, 111#32],
  [100#32, 111#32, 117#32, 98#32, 108#32, 101#32],
  [101#32, 108#32, 115#32, 101#32],
  [101#32, 110#32, 117#32, 109#32],
  [101#32, 118#32, 101#32, 110#32, 116#32],
  [101#32, 120#32, 112#32, 108#32, 105#32, 99#32, 105#32, 116#32],
  [101#32, 120#32, 116#32, 101#32, 114#32, 110#32],
  [102#32, 97#32, 108#32, 115#32, 101#32],
  [102#32, 105#32, 110#32, 97#32, 108#32, 108#32, 121#32],
  [102#32, 105#32, 120#32, 101#32, 100#32],
  [102#32, 108#32, 111#32, 97#32, 116#32],
  [102#32, 111#32, 114#32],
  [102#32, 111#32, 114#32, 101#32, 97#32, 99#32, 104#32],
  [102#32, 114#32, 111#32, 109#32],
  [103#32, 111#32, 116#32, 111#32],
  [105#32, 102#32],
  [105#32, 109#32, 112#32, 108#32, 105#32, 99#32, 105#32, 116#32],
  [105#32, 109#32, 112#32, 111#32, 114#32, 116#32],
  [105#32, 110#32],
  [105#32, 110#32, 116#32],
  [105#32, 110#32, 116#32, 101#32, 114#32, 102#32, 97#32, 99#32, 101#32],
  [105#32, 110#32, 116#32, 101#32, 114#32, 110#32, 97#32, 108#32],
  [105#32, 115#32],
  [108#32, 111#32, 99#32, 107#32],
  [108#32, 111#32, 110#32, 103#32],
  [110#32, 97#32, 109#32, 101#32, 115#32, 112#32, 97#32, 99#32, 101#32],
  [110#32, 101#32, 119#32],
  [110#32, 117#32, 108#32, 108#32],
  [111#32, 98#32, 106#32, 101#32, 99#32, 116#32],
  [111#32, 112#32, 101#32, 114#32, 97#32, 116#32, 111#32, 114#32],
  [111#32, 117#32, 116#32],
  [111#32, 118#32, 101#32, 114#32, 114#32, 105#32, 100#32, 101#32],
  [112#32, 97#32, 114#32, 97#32, 109#32, 115#32],
  [112#32, 114#32, 105#32, 118#32, 97#32, 116#32, 101#32],
  [112#32, 114#32, 111#32, 116#32, 101#32, 99#32, 116#32, 101#32, 100#32],
  [112#32, 117#32, 98#32, 108#32, 105#32, 99#32],
  [114#32, 101#32, 97#32, 100#32, 111#32, 110#32, 108#32, 121#32],
  [114#32, 101#32, 102#32],
  [114#32, 101#32, 116#32, 117#32, 114#32, 110#32],
  [115#32, 98#32, 121#32, 116#32, 101#32],
  [115#32, 101#32, 97#32, 108#32, 101#32, 100#32],
  [115#32, 104#32, 111#32, 114#32, 116#32],
  [115#32, 105#32, 122#32, 101#32, 111#32, 102#32],
  [115#32, 116#32, 97#32, 99#32, 107#32, 97#32, 108#32, 108#32, 111#32, 99#32],
  [115#32, 116#32, 97#32, 116#32, 105#32, 99#32],
  [115#32, 116#32, 114#32, 105#32, 110#32, 103#32],
  [115#32, 116#32, 114#32, 117#32, 99#32, 116#32],
  [115#32, 119#32, 105#32, 116#32, 99#32, 104#32],
  [116#32, 104#32, 105#32, 115#32],
  [116#32, 104#32, 114#32, 111#32, 119#32],
  [116#32, 114#32, 117#32, 101#32],
  [116#32, 114#32, 121#32],
  [116#32, 121#32, 112#32, 101#32, 100#32, 101#32, 102#32],
  [116#32, 121#32, 112#32, 101#32, 111#32, 102#32],
  [117#32, 105#32, 110#32, 116#32],
  [117#32, 108#32, 111#32, 110#32, 103#32],
  [117#32, 110#32, 99#32, 104#32, 101#32, 99#32, 107#32, 101#32, 100#32],
  [117#32, 110#32, 115#32, 97#32, 102#32, 101#32],
  [117#32, 115#32, 104#32, 111#32, 114#32, 116#32],
  [117#32, 115#32, 105#32, 110#32, 103#32],
  [118#32, 97#32, 114#32],
  [118#32, 105#32, 114#32, 116#32, 117#32, 97#32, 108#32],
  [118#32, 111#32, 105#32, 100#32],
  [118#32, 111#32, 108#32, 97#32, 116#32, 105#32, 108#32, 101#32],
  [119#32, 104#32, 105#32, 108#32, 101#32]]

/-- The words that are keywords in some places only. -/
def contextual : List (List Ch) := [
  [97#32, 100#32, 100#32],
  [103#32, 101#32, 116#32],
  [103#32, 108#32, 111#32, 98#32, 97#32, 108#32],
  [114#32, 101#32, 109#32, 111#32, 118#32, 101#32],
  [115#32, 101#32, 116#32],
  [119#32, 104#32, 101#32, 114#32, 101#32]]

/-- An identifier or keyword: a letter or underscore, then letters, digits and underscores. -/
def Word (w : List Ch) : Prop := ∃ c w', w = c :: w' ∧ isNamePrefix c ∧ ∀ d ∈ w', CStr.isWord d = true

/-- The text does not go on with a word character. -/
def WordEnds (rest : List Ch) : Prop := ∀ c s, rest = c :: s → CStr.isWord c = false

/-- The spellings of the operators and other punctuation, with the values their tokens may take. -/
def operators : List (List Ch × List Sym) := [
  ([40#32], [.leftBracket]),
  ([41#32], [.rightBracket]),
  ([91#32], [.leftSquare]),
  ([93#32], [.rightSquare]),
  ([123#32], [.leftBrace]),
  ([125#32], [.rightBrace]),
  ([46#32, 46#32, 46#32], [.threeDots]),
  ([46#32], [.memberPoint]),
  ([59#32], [.semicolon]),
  ([44#32], [.comma]),
  ([63#32, 63#32, 61#32], [.nullCoalescingAssign]),
  ([63#32, 63#32], [.nullCoalescing]),
  ([63#32], [.questionMark]),
  ([58#32, 58#32], [.doubleColon]),
  ([58#32], [.questionColon, .baseMark]),
  ([36#32], [.dollar]),
  ([60#32, 60#32, 61#32], [.leftShiftAssign]),
  ([60#32, 60#32], [.leftShift]),
  ([60#32, 61#32], [.lessEqual]),
  ([60#32], [.less, .leftAngle]),
  ([62#32, 62#32, 61#32], [.rightShiftAssign]),
  ([62#32, 62#32], [.rightShift, .rightAngle]),
  ([62#32, 61#32], [.greaterEqual]),
  ([62#32], [.greater, .rightAngle]),
  ([43#32, 43#32], [.leftIncrement, .rightIncrement]),
  ([43#32, 61#32], [.addAssign]),
  ([43#32], [.add, .positive]),
  ([45#32, 45#32], [.leftDecrement, .rightDecrement]),
  ([45#32, 61#32], [.subAssign]),
  ([45#32], [.sub, .minus]),
  ([42#32, 61#32], [.mulAssign]),
  ([42#32], [.mul]),
  ([47#32, 61#32], [.divAssign]),
  ([47#32], [.div]),
  ([37#32, 61#32], [.modAssign]),
  ([37#32], [.mod]),
  ([38#32, 38#32], [.logicAnd]),
  ([38#32, 61#32], [.bitAndAssign]),
  ([38#32], [.bitAnd]),
  ([124#32, 124#32], [.logicOr]),
  ([124#32, 61#32], [.bitOrAssign]),
  ([124#32], [.bitOr]),
  ([126#32], [.bitNot]),
  ([94#32, 61#32], [.bitXorAssign]),
  ([94#32], [.bitXor]),
  ([33#32, 61#32], [.notEqual]),
  ([33#32], [.logicNot]),
  ([61#32, 61#32], [.equal]),
  ([61#32], [.assign])]

/-- `sp` is the longest operator at the beginning of the text. -/
def Longest (text : List Ch) (sp : List Ch) (vs : List Sym) : Prop :=
  (sp, vs) ∈ operators ∧ sp <+: text ∧ ∀ sp' vs', (sp', vs') ∈ operators → sp' <+: text → sp'.length ≤ sp.length

/-- White space. -/
def Blank (ws : List Ch) : Prop := ∀ c ∈ ws, c = 32#32 ∨ c = 9#32 ∨ c = 13#32 ∨ c = 10#32

/-- A character that ends a line. -/
def Newline (c : Ch) : Prop := c = 13#32 ∨ c = 10#32

/-- What may stand in a character literal: characters other than a quote, a backslash, the ends of lines and NUL, and backslashes
with the character after them. -/
inductive CharItems : List Ch → Prop where
  | nil : CharItems []
  | plain {c : Ch} {s} : c ≠ 39#32 → c ≠ 92#32 → ¬ Newline c → c ≠ 0#32 → CharItems s → CharItems (c :: s)
  | escaped {c : Ch} {s} : c ≠ 0#32 → CharItems s → CharItems (92#32 :: c :: s)

/-- The end of the source: there is nothing more, or a NUL. -/
def AtEnd (s : List Ch) : Prop := s = [] ∨ ∃ r, s = 0#32 :: r

/-- The token is the one an unclosed block comment gives. -/
def Tok.unclosed (t : Tok) : Prop := t.kind = .comment ∧ t.err = .comment

/-- `Tiled src ts`: the tokens `ts` and white space between them make up the source, and each token has the length of its text.
For `>>` two tokens are made, the second one for the case that it closes two lists of type arguments. -/
inductive Tiled : List Ch → List Tok → Prop where
  | done {ws rest} : Blank ws → AtEnd rest → Tiled (ws ++ rest) []
  | tok {ws text rest} {t : Tok} {ts} : Blank ws → text ≠ [] → t.len = text.length → Tiled rest ts →
      Tiled (ws ++ text ++ rest) (t :: ts)
  | shift {ws rest} {ts} : Blank ws → Tiled rest ts →
      Tiled (ws ++ [62#32, 62#32] ++ rest)
        (⟨.sym [.rightShift, .rightAngle], 2, .none⟩ :: ⟨.sym [.empty, .rightAngle], 2, .none⟩ :: ts)
  | unclosed {ws text} {t : Tok} : Blank ws → text ≠ [] → Tok.unclosed t → t.len = text.length + 1 → Tiled (ws ++ text) [t]

/-- The tokens read by calling `next` at most `n` times, and whether the end of the source was reached. -/
def readAll : Nat → LexSt → List Tok × Option Bool
  | 0, _ => ([], none)
  | n + 1, st =>
    match next st with
    | .tok t st' => let (ts, r) := readAll n st'; (t :: ts, r)
    | .eof => ([], some true)
    | .hang => ([], some false)

end Verif.Lex.Spec
