import Verif.Model.Codepos
/-!
# Lines and columns

Lines end with `'\n'`, lines and columns are counted from 1.
-/

namespace Verif.Codepos

/-- The place before which there are `p` characters is at a line and a column: the code before it is whole
lines and the part of the line before the place. -/
def At (code : List Char) (p : Nat) (pos : Pos) : Prop :=
  ∃ before cur after, code = before ++ cur ++ after ∧ before.length + cur.length = p ∧
    '\n' ∉ cur ∧ (before = [] ∨ before.getLast? = some '\n') ∧
    pos.line = before.count '\n' + 1 ∧ pos.col = cur.length + 1

/-- Text within a line. -/
def Inline (l : List Char) : Prop := ∀ c ∈ l, c ≠ '\n' ∧ c ≠ '\r' ∧ c ≠ '\x00'

/-- An end of a line. -/
def Ends (c : Char) : Prop := c = '\n' ∨ c = '\r'

/-- As wide as a text when it is printed: tabs stay tabs, other characters are spaces. -/
def Blank (l b : List Char) : Prop :=
  b.length = l.length ∧ ∀ (k : Nat) (c : Char), l[k]? = some c → b[k]? = some (if c = '\t' then '\t' else ' ')

/-- The marks of a piece of code that comes after `x` in its line. -/
def Marks (x u marks : List Char) : Prop :=
  ∃ b, Blank x b ∧ marks = b ++ (if u = [] then ['^'] else u.map fun _ => '~')

end Verif.Codepos
