import Verif.Proof.Sections

/-!
# C114: sources in several languages
-/

namespace Verif.Sections

open Verif.CStr (Ch isWhitespace)
open Verif.Sections.Spec

variable {langId : List Ch → Option Nat} {T : Type} {toks : Nat → List Ch → List T}

/-- C114: a file that is accepted is a properly nested source, and its sections are exactly the texts of that source, in their
order, each with the language and the depth it has there. -/
theorem split_sound {lang : Nat} {text : List Ch} {secs : List Sec} (h : split langId lang text = .ok secs) :
    ∃ d : Doc, d.WF langId [] ∧ d.render = text ∧ secs = d.sections langId [0#32] lang 0 := by
  obtain ⟨d, ds, h1, h2, h3, _, h5⟩ := full_sound (text.length + 1) text [] lang [] secs (by omega) h
  cases ds with
  | nil =>
    refine ⟨d, h3, by rw [h2]; simp [renderAll], ?_⟩
    rw [h5, pre_nil]
    simp [sectionsAll]
  | cons x ds => simp at h1

/-- C114: every properly written source is accepted and divided into its texts. -/
theorem split_complete (lang : Nat) (d : Doc) (h : d.WF langId []) :
    split langId lang d.render = .ok (d.sections langId [0#32] lang 0) := by
  have := full_outer d [] lang h
  rw [pre_nil] at this
  exact this

/-- C114: two ways to write the same file mean the same texts in the same languages. -/
theorem split_same (lang : Nat) (d d' : Doc) (h : d.WF langId []) (h' : d'.WF langId []) (he : d.render = d'.render) :
    d.sections langId [0#32] lang 0 = d'.sections langId [0#32] lang 0 := by
  have := split_complete lang d h
  rw [he, split_complete lang d' h'] at this
  injection this with this
  exact this.symm

/-- The lexical analysis of a section ends at a zero. -/
def StopsAtZero (toks : Nat → List Ch → List T) : Prop := ∀ l p, toks l (p ++ [0#32]) = toks l p

/-- The elements of the sections of a source. -/
theorem read_sections (hz : StopsAtZero toks) (lang : Nat) (d : Doc) :
    read toks (d.sections langId [0#32] lang 0) = .ok (d.given toks langId lang) := by
  obtain ⟨s, r, h1, h2, h3⟩ := sections_first (langId := langId) [0#32] lang 0 d
  have hl := loop_sections (toks := toks) (langId := langId) d ((d.sections langId [0#32] lang 0).length + 1) lang 0 [0#32] []
    (by intro x hx; cases hx) (by simp)
  rw [List.append_nil] at hl
  have hr : read toks (d.sections langId [0#32] lang 0) =
      (loop toks ((d.sections langId [0#32] lang 0).length + 1) s.depth s.lang (d.sections langId [0#32] lang 0)).bind
        fun r => .ok ((toks s.lang s.text).map .tok ++ r.1) := by
    rw [h1]; rfl
  rw [hr, h2, h3, hl]
  simp only [Out.bind]
  cases d with
  | done p =>
    simp only [Doc.sections, List.cons.injEq] at h1
    rw [← h1.1]
    simp [Doc.given, Doc.givenRest, hz lang p]
  | emb p name sep inner rest =>
    simp only [Doc.sections, List.cons_append, List.cons.injEq] at h1
    rw [← h1.1]
    simp [Doc.given, Doc.givenRest]

/-- C114: of every file that is accepted the parser is given the tokens before the first embedded source and the trees of the
embedded sources, in their order; the same holds inside each of these. -/
theorem elements_given (hz : StopsAtZero toks) {lang : Nat} {text : List Ch} {es : List (Elem T)}
    (h : elements toks langId lang text = .ok es) :
    ∃ d : Doc, d.WF langId [] ∧ d.render = text ∧ es = d.given toks langId lang := by
  obtain ⟨secs, h1, h2⟩ := bind_ok h
  obtain ⟨d, hw, hr, rfl⟩ := split_sound h1
  rw [read_sections hz] at h2
  cases h2
  exact ⟨d, hw, hr, rfl⟩

/-- C114, when no token follows an embedded source: the parser is given every token of every text and the tree of every embedded
source, in their order.  Missing: sources in which text goes on behind an embedded source (`rest_refuted`). -/
theorem elements_partial (hz : StopsAtZero toks) (lang : Nat) (d : Doc) (h : d.WF langId []) (he : d.Ends toks langId lang) :
    elements toks langId lang d.render = .ok (d.elems toks langId lang) := by
  rw [elements, split_complete lang d h]
  show read toks _ = _
  rw [read_sections hz, given_ends d lang he]

/-- C114, for a file that ends with white space, such as a line end: nothing behind the text or behind the array of the sections
is read.  Missing: files which end otherwise (`inside_refuted`). -/
theorem inside_partial (hz : StopsAtZero toks) (lang : Nat) (text : List Ch)
    (h : ∀ c, text.getLast? = some c → isWhitespace c = true) : elements toks langId lang text ≠ .beyond := by
  intro hb
  have hi := full_inside (langId := langId) (text.length + 1) text [] lang [] (by omega) h
  cases hs : split langId lang text with
  | beyond => exact hi hs
  | error e => rw [elements, hs] at hb; cases hb
  | ok secs =>
    obtain ⟨d, _, _, rfl⟩ := split_sound hs
    rw [elements, hs] at hb
    change read toks _ = _ at hb
    rw [read_sections hz] at hb
    cases hb

/-- C114: a file without beginnings and endings is one section in the language of the file, all of whose tokens are read. -/
theorem plain (hz : StopsAtZero toks) (lang : Nat) (text : List Ch) (h : Free text []) :
    split langId lang text = .ok [⟨text ++ [0#32], lang, 0⟩] ∧ elements toks langId lang text = .ok ((toks lang text).map .tok) :=
  ⟨split_complete lang (.done text) h, elements_partial hz lang (.done text) h trivial⟩

/-! ## Cases -/

/-- Characters. -/
def chars (s : String) : List Ch := s.toList.map fun c => BitVec.ofNat 32 c.toNat

/-- Two languages. -/
def langs (name : List Ch) : Option Nat := if name = chars "lq" then some 7 else if name = chars "c" then some 3 else none

/-- Tokens: here the characters up to a zero that are no white space. -/
def letters (_ : Nat) : List Ch → List Ch
  | [] => []
  | c :: s => if c = 0#32 then [] else if isWhitespace c then letters 0 s else c :: letters 0 s

theorem letters_stops : StopsAtZero letters := by
  intro l p
  induction p with
  | nil => rfl
  | cons c p ih =>
    have : ∀ (l' : Nat) (q : List Ch), letters l' q = letters l q := by
      intro l' q; cases q <;> rfl
    rw [List.cons_append, letters, letters, this 0, this 0, ih]

/-- The file ``a <`lq x <`c y`> `> `` and a line end, a source in a source in a source. -/
def nested : Doc :=
  .emb (chars "a ") (chars "lq") 32#32 (.emb (chars "x ") (chars "c") 32#32 (.done (chars "y")) (.done (chars " "))) (.done (chars "\n"))

instance (c : Ch) (s : List Ch) : Decidable (TagAt c s) := inferInstanceAs (Decidable (_ ∨ _))

/-- Whether no tag is in a text. -/
def freeB : List Ch → List Ch → Bool
  | [], _ => true
  | c :: p, after => !decide (TagAt c (p ++ after)) && freeB p after

theorem freeB_spec : ∀ (p after : List Ch), freeB p after = true → Free p after
  | [], _, _ => by intro a c b he; simp at he
  | c :: p, after, h => by
    simp only [freeB, Bool.and_eq_true, Bool.not_eq_true', decide_eq_false_iff_not] at h
    exact free_cons h.1 (freeB_spec p after h.2)

theorem name_lq : IsName (chars "lq") := by
  refine ⟨108#32, [113#32], by decide +kernel, by decide +kernel, by
    intro x hx
    obtain rfl : x = 113#32 := by simpa using hx
    decide +kernel, ?_⟩
  intro a b he
  have := congrArg List.length he
  simp at this
  omega

theorem name_c : IsName (chars "c") := by
  refine ⟨99#32, [], by decide +kernel, by decide +kernel, by simp, ?_⟩
  intro a b he
  simp at he

theorem nested_wf : nested.WF langs [] :=
  ⟨freeB_spec _ _ (by decide +kernel), name_lq, Or.inl (by decide +kernel), by decide +kernel,
    ⟨freeB_spec _ _ (by decide +kernel), name_c, Or.inl (by decide +kernel), by decide +kernel,
      freeB_spec _ _ (by decide +kernel), freeB_spec _ _ (by decide +kernel)⟩,
    freeB_spec _ _ (by decide +kernel)⟩

theorem nested_ends : nested.Ends letters langs 3 :=
  ⟨⟨trivial, by decide +kernel, trivial⟩, by decide +kernel, trivial⟩

example : nested.render = chars "a <`lq x <`c y`> `>\n" := by decide +kernel

example : split langs 3 (chars "a <`lq x <`c y`> `>\n") =
    .ok [⟨chars "a ", 3, 0⟩, ⟨chars "x ", 7, 1⟩, ⟨chars "y", 3, 2⟩, ⟨chars " ", 7, 1⟩, ⟨chars "\n" ++ [0#32], 3, 0⟩] := by
  decide +kernel

example : elements letters langs 3 nested.render =
    .ok [.tok 97#32, .node 7 [.tok 120#32, .node 3 [.tok 121#32]]] := by
  have l1 : (langs (chars "lq")).getD 0 = 7 := by decide +kernel
  have l2 : (langs (chars "c")).getD 0 = 3 := by decide +kernel
  have t1 : letters 3 (chars "a ") = [97#32] := by decide +kernel
  have t2 : letters 7 (chars "x ") = [120#32] := by decide +kernel
  have t3 : letters 3 (chars "y") = [121#32] := by decide +kernel
  have t4 : letters 7 (chars " ") = [] := by decide +kernel
  have t5 : letters 3 (chars "\n") = [] := by decide +kernel
  rw [elements_partial letters_stops 3 nested nested_wf nested_ends]
  simp only [nested, Doc.elems, l1, l2, t1, t2, t3, t4, t5, List.map_cons, List.map_nil, List.nil_append, List.cons_append]

example : split langs 3 (chars "a `> b") = .error .unexpectedEnd := by decide +kernel
example : split langs 3 (chars "a <`lq b") = .error .missingEnd := by decide +kernel
example : split langs 3 (chars "a <` lq b `>") = .error .noName := by decide +kernel
example : split langs 3 (chars "a <`basic b `>") = .error .unknownLang := by decide +kernel

example : elements letters langs 3 (chars "a <`lq x\n") ≠ .beyond :=
  inside_partial letters_stops 3 _ (by
    intro c hc
    have : (chars "a <`lq x\n").getLast? = some 10#32 := by decide +kernel
    rw [this] at hc
    cases hc
    decide +kernel)

example : elements letters langs 3 (chars "a < b") = .ok [.tok 97#32, .tok 60#32, .tok 98#32] := by
  have t1 : letters 3 (chars "a < b") = [97#32, 60#32, 98#32] := by decide +kernel
  rw [(plain letters_stops 3 (chars "a < b") (freeB_spec _ _ (by decide +kernel))).2, t1]
  simp only [List.map_cons, List.map_nil]

/-! ## What does not hold -/

/-- The file ``a <`lq x`> b``. -/
def around : Doc := .emb (chars "a ") (chars "lq") 32#32 (.done (chars "x")) (.done (chars " b"))

theorem around_wf : around.WF langs [] :=
  ⟨freeB_spec _ _ (by decide +kernel), name_lq, Or.inl (by decide +kernel), by decide +kernel,
    freeB_spec _ _ (by decide +kernel), freeB_spec _ _ (by decide +kernel)⟩

/-- C114 does not hold in general: in ``a <`lq x`> b`` the text behind the embedded source is never read, and nothing is reported.
The reader of the embedded source has moved the shared pointer to the section of the text behind it; the outer reader moves it
once more before it looks (`modules/compile/analyze_tree.cpp:4005`). -/
theorem rest_refuted : around.WF langs [] ∧
    elements letters langs 3 around.render = .ok [.tok 97#32, .node 7 [.tok 120#32]] ∧
    around.elems letters langs 3 = [.tok 97#32, .node 7 [.tok 120#32], .tok 98#32] := by
  have l1 : (langs (chars "lq")).getD 0 = 7 := by decide +kernel
  have t1 : letters 3 (chars "a ") = [97#32] := by decide +kernel
  have t2 : letters 7 (chars "x") = [120#32] := by decide +kernel
  have t3 : letters 3 (chars " b") = [98#32] := by decide +kernel
  refine ⟨around_wf, ?_, ?_⟩
  · rw [elements, split_complete 3 around around_wf, Out.bind, read_sections letters_stops]
    simp only [around, Doc.given, Doc.givenRest, l1, t1, t2, List.map_cons, List.map_nil, List.nil_append, List.cons_append]
  · simp only [around, Doc.elems, l1, t1, t2, t3, List.map_cons, List.map_nil, List.nil_append, List.cons_append]

/-- C114 does not hold in general: whatever languages there are, a file which ends within the name of a language is read beyond
its end (`modules/compile/utils.cpp:123-129` stops at white space and at `?>` only). -/
theorem inside_refuted (langId : List Ch → Option Nat) (toks : Nat → List Ch → List T) (lang : Nat) :
    elements toks langId lang (chars "a <`lq") = .beyond := by
  have h1 : readLang (chars "lq") = .beyond := by decide +kernel
  have h2 : chars "a <`lq" = chars "a " ++ lt :: tick :: chars "lq" := by decide +kernel
  have h3 : split langId lang (chars "a <`lq") = .beyond := by
    show full langId _ _ _ _ = _
    rw [h2, full_text_open _ (freeB_spec _ _ (by decide +kernel)), full_open, h1]
    rfl
  rw [elements, h3]
  rfl

/-- C114 does not hold in general: the name of a language is not ended by the end of the embedded source, so that ``<`lq`>`` is
refused, because it names the language ``lq`>``. -/
theorem empty_refuted : split langs 3 (chars "a <`lq`> b") = .error .unknownLang := by decide +kernel

end Verif.Sections
