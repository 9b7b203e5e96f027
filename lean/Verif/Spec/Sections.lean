import Verif.Model.Sections

/-!
# What a source in several languages is

A source is text in one language, in which sources in other languages are embedded: `<` and a back quote begin one, then come the
name of its language and a white space; a back quote and `>` end it.
-/

namespace Verif.Sections.Spec

open Verif.CStr (Ch isWhitespace)
open Verif.Sections

/-- A source: some text, then possibly an embedded source (its language's name, the character behind the name, what is in it) and
the rest. -/
inductive Doc where
  | done (text : List Ch)
  | emb (text : List Ch) (name : List Ch) (sep : Ch) (inner rest : Doc)
deriving DecidableEq, Repr

/-- How it is written. -/
def Doc.render : Doc → List Ch
  | .done p => p
  | .emb p name sep inner rest => p ++ lt :: tick :: name ++ sep :: inner.render ++ tick :: gt :: rest.render

/-- A beginning or an ending is written here. -/
def TagAt (c : Ch) (s : List Ch) : Prop := (c = lt ∧ s.head? = some tick) ∨ (c = tick ∧ s.head? = some gt)

/-- No beginning and no ending is written in the text `p`, which is followed by `after`. -/
def Free (p after : List Ch) : Prop := ∀ a c b, p = a ++ c :: b → ¬ TagAt c (b ++ after)

/-- The name of a language: characters without white space and without `?>` behind the first. -/
def IsName (name : List Ch) : Prop :=
  ∃ c cs, name = c :: cs ∧ isWhitespace c = false ∧ (∀ x ∈ cs, isWhitespace x = false) ∧
    ∀ a b, cs ≠ a ++ quest :: gt :: b

/-- The character behind the name: white space, or the first of `?>`. -/
def IsSep (sep : Ch) (s : List Ch) : Prop := isWhitespace sep = true ∨ (sep = quest ∧ s.head? = some gt)

/-- A source which can be written unambiguously and whose languages exist. -/
def Doc.WF (langId : List Ch → Option Nat) (after : List Ch) : Doc → Prop
  | .done p => Free p after
  | .emb p name sep inner rest =>
    Free p [lt, tick] ∧ IsName name ∧ IsSep sep (inner.render ++ [tick, gt]) ∧ (langId name).isSome ∧
      inner.WF langId [tick, gt] ∧ rest.WF langId after

/-- The texts of a source in their order, each with its language and its depth.  `last` is behind the last text. -/
def Doc.sections (langId : List Ch → Option Nat) (last : List Ch) (lang depth : Nat) : Doc → List Sec
  | .done p => [⟨p ++ last, lang, depth⟩]
  | .emb p name _ inner rest =>
    ⟨p, lang, depth⟩ :: inner.sections langId [] ((langId name).getD 0) (depth + 1) ++ rest.sections langId last lang depth

variable {T : Type} (toks : Nat → List Ch → List T) (langId : List Ch → Option Nat)

/-- What the parser has to be given: the tokens of every text of its language, and the tree of every embedded source, in their
order. -/
def Doc.elems (lang : Nat) : Doc → List (Elem T)
  | .done p => (toks lang p).map .tok
  | .emb p name _ inner rest =>
    (toks lang p).map .tok ++ .node ((langId name).getD 0) (inner.elems ((langId name).getD 0)) :: rest.elems lang

mutual
/-- What the parser is given. -/
def Doc.given (lang : Nat) : Doc → List (Elem T)
  | .done p => (toks lang p).map .tok
  | .emb p name _ inner rest =>
    (toks lang p).map .tok ++ .node ((langId name).getD 0) (inner.given ((langId name).getD 0)) :: rest.givenRest lang
/-- The same of a rest behind an embedded source: its first text is left out. -/
def Doc.givenRest (lang : Nat) : Doc → List (Elem T)
  | .done _ => []
  | .emb _ name _ inner rest => .node ((langId name).getD 0) (inner.given ((langId name).getD 0)) :: rest.givenRest lang
end

/-- The text up to the first embedded source. -/
def Doc.head : Doc → List Ch
  | .done p => p
  | .emb p _ _ _ _ => p

/-- Behind every embedded source there is no token before the next one, or the end. -/
def Doc.Ends (lang : Nat) : Doc → Prop
  | .done _ => True
  | .emb _ name _ inner rest =>
    inner.Ends ((langId name).getD 0) ∧ toks lang rest.head = [] ∧ rest.Ends lang

end Verif.Sections.Spec
