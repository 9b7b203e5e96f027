import Verif.Model.CStr

/-!
# Sources in several languages

Models the division of a source file into sections (`modules/compile/utils.cpp:25-130`, `modules/compile/utils.h:31-54`,
`code_t::sections`, `modules/compile/compile.cpp:235-243`) and the reading of the sections for the parser (the constructor of
`analyzer_element_reader_t` and its `__read_next_element`, `modules/compile/analyze_tree.cpp:3899-3907, 3999-4025`;
`__analyze_ast`, `modules/compile/analyze_tree.cpp:4573-4615`).

Simplifications.  A source is the list of its characters before the terminating zero, which is the end of the list.  The table
of the languages (`simple_lang_factory_t::get_lang_id`, `modules/compile/compile.cpp:1014-1018`) and the lexical analysis of a
section (C64 to C67) are parameters.  The syntax tree made of a section in another language (C92 to C95) is represented by the
language and the elements it was made of; the several nodes into which `expand_ast_node` may divide it are one element here.  A
parser reads its elements up to the first end (`__analyze`, `modules/compile/analyze_tree.cpp:4258-4269`).
-/

namespace Verif.Sections

open Verif.CStr (Ch isWhitespace)

/-- `<`. -/
def lt : Ch := 60#32
/-- The back quote. -/
def tick : Ch := 96#32
/-- `>`. -/
def gt : Ch := 62#32
/-- `?`. -/
def quest : Ch := 63#32

/-- What is thrown: an end flag without a beginning (`utils.cpp:67-68`), an end flag missing (`utils.cpp:86-87`), white space
instead of the name of a language (`utils.cpp:119-120`), a name of no language (`compile.cpp:448-453`). -/
inductive Err where
  | unexpectedEnd | missingEnd | noName | unknownLang
deriving DecidableEq, Repr

/-- Outcomes.  `beyond` is undefined behaviour: memory behind the text, or behind the array of sections, is read. -/
inductive Out (α : Type) where
  | ok (a : α)
  | error (e : Err)
  | beyond
deriving DecidableEq, Repr

/-- Continuing with a result. -/
def Out.bind {α β : Type} (o : Out α) (f : α → Out β) : Out β :=
  match o with
  | .ok a => f a
  | .error e => .error e
  | .beyond => .beyond

/-- `code_section_t` — `include/modules/compile.h:207-229`. -/
structure Sec where
  text : List Ch
  lang : Nat
  depth : Nat
deriving DecidableEq, Repr

/-- The loop of `__read_lang` — `modules/compile/utils.cpp:122-129`.  The end of the list is the terminating zero, which is no
white space: the loop goes on behind it. -/
def nameLoop (name : List Ch) : List Ch → Out (List Ch × List Ch)
  | [] => .beyond
  | c :: s =>
    if (c = quest ∧ s.head? = some gt) ∨ isWhitespace c = true then .ok (name, s) else nameLoop (name ++ [c]) s

/-- `__read_lang` — `modules/compile/utils.cpp:116-130`: the name and what follows the character behind it. -/
def readLang : List Ch → Out (List Ch × List Ch)
  | [] => .beyond
  | c :: s => if isWhitespace c = true then .error .noName else nameLoop [c] s

/-- `code_section_builder_t::__build` — `modules/compile/utils.cpp:38-92`.  `cur` is the text from `start`, `stack` is
`__lang_stack`.  The recursion is bounded by its first argument, which `split` makes large enough.  The last section includes the
terminating zero (`utils.cpp:88`: `__p` is behind it). -/
def build (langId : List Ch → Option Nat) : Nat → List Ch → List Ch → Nat → List Nat → Out (List Sec)
  | 0, _, _, _, _ => .beyond
  | _ + 1, [], cur, lang, stack =>
    if stack.length > 0 then .error .missingEnd else .ok [⟨cur ++ [0#32], lang, 0⟩]
  | n + 1, c :: s, cur, lang, stack =>
    if c = lt ∧ s.head? = some tick then
      (readLang s.tail).bind fun r =>
        match langId r.1 with
        | none => .error .unknownLang
        | some l => (build langId n r.2 [] l (lang :: stack)).bind fun secs => .ok (⟨cur, lang, stack.length⟩ :: secs)
    else if c = tick ∧ s.head? = some gt then
      match stack with
      | [] => .error .unexpectedEnd
      | l :: st => (build langId n s.tail [] l st).bind fun secs => .ok (⟨cur, lang, (l :: st).length⟩ :: secs)
    else build langId n s (cur ++ [c]) lang stack

/-- `code_t::sections` — `modules/compile/compile.cpp:235-243`. -/
def split (langId : List Ch → Option Nat) (lang : Nat) (text : List Ch) : Out (List Sec) :=
  build langId (text.length + 1) text [] lang []

/-- An element the parser reads: a token, or the syntax tree of a section in another language. -/
inductive Elem (T : Type) where
  | tok (t : T)
  | node (lang : Nat) (elems : List (Elem T))

variable {T : Type}

/-- `__read_next_element` until it returns false, after the tokens of the current section —
`modules/compile/analyze_tree.cpp:3999-4025`.  The list of sections is the array from `__p_section` on, its end is the null
pointer behind the last section.  `depth` and `lang` are those of the section the reader was made for: `__depth` and the language
of `__reader`.  For a deeper section `__analyze_ast` makes a reader which moves the same `__p_section`. -/
def loop (toks : Nat → List Ch → List T) : Nat → Nat → Nat → List Sec → Out (List (Elem T) × List Sec)
  | 0, _, _, _ => .beyond
  | _ + 1, _, _, [] => .beyond
  | _ + 1, _, _, [_] => .ok ([], [])
  | n + 1, depth, lang, _ :: s :: rest =>
    if s.depth > depth then
      (loop toks n s.depth s.lang (s :: rest)).bind fun r =>
        (loop toks n depth lang r.2).bind fun q =>
          .ok (.node s.lang ((toks s.lang s.text).map .tok ++ r.1) :: q.1, q.2)
    else if s.depth = depth then
      (loop toks n depth lang (s :: rest)).bind fun q => .ok ((toks lang s.text).map .tok ++ q.1, q.2)
    else .ok ([], s :: rest)

/-- `__analyze_ast` — `modules/compile/analyze_tree.cpp:4573-4615`: the elements the parser is given. -/
def read (toks : Nat → List Ch → List T) (secs : List Sec) : Out (List (Elem T)) :=
  match secs with
  | [] => .beyond
  | s :: _ =>
    (loop toks (secs.length + 1) s.depth s.lang secs).bind fun r => .ok ((toks s.lang s.text).map .tok ++ r.1)

/-- `analyze_ast` — `modules/compile/analyze_tree.cpp:4603-4615`. -/
def elements (toks : Nat → List Ch → List T) (langId : List Ch → Option Nat) (lang : Nat) (text : List Ch) :
    Out (List (Elem T)) :=
  (split langId lang text).bind (read toks)

end Verif.Sections
