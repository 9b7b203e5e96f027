/-
  The grammar of the language with the flags of its references: modules/lang_cs/text.src,
  `__pattern`.  A reference with the flag `n` is the number of the rule and `100 * n`.  This file
  was made of modules/lang_cs/text.src by a program; without the flags it is Model/GramCs.lean.
-/
import Verif.Model.GramCs

namespace Verif.Nodes.Cs

open Verif.Gram

private def seq : List Item → Seq
  | [] => .nil
  | i :: s => .cons i (seq s)

private def alts : List (List Item) → Alts
  | [] => .nil
  | s :: a => .cons (seq s) (alts a)

private def t (n : Nat) (rep : Rep := .once) : Item := .tok n rep
private def r (n : Nat) (rep : Rep := .once) : Item := .ref n rep
private def f (flag n : Nat) (rep : Rep := .once) : Item := .ref (100 * flag + n) rep
private def g (a : List (List Item)) (rep : Rep := .once) : Item := .group (alts a) rep

/-- modules/lang_cs/text.src:8-379, the flags. -/
def flags : List (List Char) := [
  [],
  ['f', 'r', 'o', 'm'],
  ['i', 'm', 'p', 'o', 'r', 't'],
  ['b', 'a', 's', 'e'],
  ['u', 'n', 'd', 'e', 'r', 'l', 'y', 'i', 'n', 'g'],
  ['r', 'e', 't'],
  ['o', 'w', 'n', 'e', 'r'],
  ['o', 'v', 'e', 'r', 'l', 'o', 'a', 'd'],
  ['i', 'n', 'i', 't', 'i', 'a', 'l', 'i', 'z', 'e'],
  ['c', 'o', 'n', 'd', 'i', 't', 'i', 'o', 'n'],
  ['i', 'n', 'c', 'r', 'e', 'a', 's', 'e'],
  ['i', 'f', '_', 'b', 'o', 'd', 'y'],
  ['e', 'l', 's', 'e', '_', 'b', 'o', 'd', 'y'],
  ['t', 'r', 'y'],
  ['f', 'i', 'n', 'a', 'l', 'l', 'y']]

/-- modules/lang_cs/text.src:8-379, the rules, with the numbers of Model/GramCs.lean. -/
def rules : List (List (List Item)) := [
  [[g [[t 0, f 1 21]] .question, t 1, f 2 21, g [[t 2, t 3]] .question, t 4]],
  [[t 5], [t 6], [t 7], [t 8]],
  [[r 15, t 9, r 45 .question, t 10]],
  [[g [[t 3, r 41 .question], [t 11], [t 12], [r 2], [r 4], [r 5], [r 13]]]],
  [[r 3, t 13, r 45 .question, t 14]],
  [[t 15, r 31, g [[t 13, r 45 .question, t 14], [g [[t 13, r 45 .question, t 14]] .question, t
    16, r 47 .question, t 17]]]],
  [[r 7], [r 17]],
  [[t 16, r 6, g [[t 18, r 6]] .star, t 18 .question, t 17]],
  [[r 17 .question, g [[t 18, r 17 .question]] .star]],
  [[t 15, r 31, t 9, r 8 .question, t 10, r 7 .question]],
  [[t 19, t 13, r 31, t 14]],
  [[t 20, t 13, r 31, t 14]],
  [[r 31]],
  [[t 13, r 31, t 14, r 15]],
  [[t 3], [r 1], [t 11], [t 12], [r 2], [r 4], [r 5], [r 9], [r 10], [r 13], [r 11], [r 27], [t
    13, r 16, g [[t 18, r 16]] .star, t 14]],
  [[r 14, g [[t 21, r 14]] .star]],
  [[r 15, g [[g [[t 22], [t 23], [t 24], [t 25], [t 26], [t 27], [t 28], [t 29], [t 30], [t 31],
    [t 32], [t 33], [t 34], [t 35], [t 36], [t 37], [t 38], [t 39], [t 40], [t 41], [t 42], [t
    43], [t 44], [t 45], [t 46], [t 47], [t 48], [t 49], [t 50], [t 51], [t 52]], r 16], [g [[t
    2], [t 53]], r 12], [t 54, r 16, t 55, r 16], [g [[t 56], [t 57]]]] .star], [g [[t 58], [t
    59], [t 60], [t 61], [t 62], [t 63]], r 16]],
  [[r 16]],
  [[r 17, g [[t 18, r 17]] .star]],
  [[t 64, r 21, t 16, r 20 .star, g [[r 19], [r 26], [r 34]] .star, t 17]],
  [[t 65, g [[t 3, t 32]] .question, r 21, t 4]],
  [[t 3, g [[t 21, t 3]] .star]],
  [[t 66, t 67], [t 67, t 66], [t 68, t 66], [t 66, t 68]],
  [[g [[r 22], [t 69], [t 68], [t 66], [t 67], [t 70], [t 71], [t 72], [t 73], [t 74], [t 15],
    [t 72], [t 75], [t 76], [t 77]] .star]],
  [[r 52, t 3, g [[t 32, r 17]] .question]],
  [[g [[r 24, g [[t 18, r 24]] .star, t 18 .question]] .question]],
  [[r 52, r 23, g [[g [[t 78], [t 79], [t 80]], t 3, r 36 .question, g [[t 81, f 3 31, g [[t 18,
    f 3 31]] .star]] .question, r 39, t 16, g [[r 55], [r 84], [r 59], [r 60], [r 26], [r 57],
    [r 34]] .star, t 17], [t 82, t 3, g [[t 81, f 4 31]] .question, t 16, r 25, t 17]], t 4
    .question]],
  [[t 3, r 41 .question]],
  [[g [[t 83 .question, t 84]] .question, r 27, g [[t 21, r 27]] .star], [t 85], [t 86], [t 87],
    [t 88], [t 89], [t 90], [t 91], [t 92], [t 93], [t 94], [t 95], [t 96], [t 97], [t 98], [t
    99], [t 100]],
  [[r 31, t 9, t 18 .star, t 10]],
  [[t 101]],
  [[r 28], [r 29], [r 30]],
  [[t 3, t 102 .question]],
  [[t 103, r 32, g [[t 18, r 32]] .star, t 104]],
  [[r 52, r 23, t 65, t 3, r 33 .question, t 32, r 31, t 4]],
  [[r 52, g [[t 105], [t 106]] .question, t 3, t 102 .question]],
  [[t 103, r 35, g [[t 18, r 35]] .star, t 104]],
  [[r 31], [t 78], [t 79], [t 15, t 13, t 14]],
  [[t 107, t 3, t 81, r 37, g [[t 18, r 37 .star]] .star]],
  [[r 38 .star]],
  [[g [[t 106], [t 108], [t 109]] .question, r 31, t 3 .question]],
  [[t 103, r 40 .question, g [[t 18, r 40 .question]] .star, t 102 .question, t 104]],
  [[r 52, g [[t 106], [t 108], [t 109]] .question, r 31, t 102 .question, t 3, g [[t 32, r 17]]
    .question]],
  [[r 42, g [[t 18, r 42]] .star]],
  [[r 52, g [[t 106], [t 108]] .question, g [[t 3, t 81]] .question, r 17]],
  [[r 44, g [[t 18, r 44]] .star]],
  [[g [[t 3, t 32]] .question, r 17], [t 16, g [[r 46, g [[t 18, r 46]] .star, t 18 .question]]
    .question, t 17]],
  [[r 46, g [[t 18, r 46]] .star, t 18 .question]],
  [[r 28]],
  [[t 3, t 32, r 17]],
  [[r 48, g [[t 13, g [[g [[r 45], [r 49]], g [[t 18, r 49]] .star]] .question, t 14]]
    .question]],
  [[t 9, r 50, g [[t 18, r 50]] .star, t 10]],
  [[g [[r 85], [r 51]] .star]],
  [[t 16, r 82 .star, t 17]],
  [[t 22], [t 23], [t 24], [t 25], [t 26], [t 27], [t 28], [t 29], [t 30], [t 31], [t 32], [t
    33], [t 34], [t 35], [t 36], [t 37], [t 38], [t 39], [t 40], [t 41], [t 42], [t 43], [t 44],
    [t 45], [t 46], [t 47], [t 48], [t 49], [t 50], [t 56], [t 57], [t 62], [t 63]],
  [[r 52, r 23, f 5 31 .question, t 63 .question, g [[f 6 31, t 21]] .question, g [[t 3], [t
    110, g [[r 54], [f 7 31]]]], r 36 .question, t 13, r 43 .question, t 14, g [[t 81, t 11, t
    13, r 45 .question, t 14]] .question, r 39, g [[r 53], [t 4]]]],
  [[r 52, t 3, g [[t 32, r 17]] .question]],
  [[r 52, r 23, r 31, r 56, g [[t 18, r 56]] .star, t 4]],
  [[r 52, r 23, g [[t 111], [t 112], [t 113], [t 114]], g [[r 53], [t 4]]]],
  [[r 52, r 23, f 5 31, g [[g [[f 6 31, t 21]] .question, t 3], [t 12, t 9, r 43, t 10]], t 16,
    r 58 .star, t 17]],
  [[r 52, r 23, t 115, f 5 31, g [[f 6 31, t 21]] .question, t 3, g [[t 16, r 58 .star, t 17],
    [t 4]]]],
  [[t 116, t 13, r 18, t 14, r 82]],
  [[t 117, r 82, t 116, t 13, r 18, t 14, t 4]],
  [[t 118, t 13, g [[r 72], [f 8 18, t 4], [t 4]] .question, f 9 18 .question, t 4, f 10 18
    .question, t 14, r 82]],
  [[t 119, t 13, r 31, t 3, t 105, r 17, t 14, r 82]],
  [[t 120, t 13, r 18, t 14, f 11 82, g [[t 121, f 12 82]] .question]],
  [[r 82 .star]],
  [[g [[g [[t 122, r 17], [t 20]], t 81]] .plus, r 66]],
  [[t 123, t 13, r 18, t 14, t 16, r 67 .star, t 17]],
  [[t 124, g [[t 13, r 31, t 3 .question, t 14]] .question, r 82]],
  [[t 125, f 13 82, r 69 .star, g [[t 126, f 14 82]] .question]],
  [[t 3, g [[t 32, r 17]] .question]],
  [[t 74 .question, r 31, r 71, g [[t 18, r 71]] .star, t 4]],
  [[r 17, t 4]],
  [[r 34]],
  [[t 127, t 4]],
  [[t 128, t 4]],
  [[t 129, r 17 .question, t 4]],
  [[t 130, r 17 .question, t 4]],
  [[t 131, t 3, t 4]],
  [[t 4]],
  [[t 16, r 82 .star, t 17]],
  [[r 62], [r 61], [r 63], [r 64], [r 65], [r 68], [r 70], [r 80], [r 75], [r 76], [r 77], [r
    78], [r 79], [r 73], [r 72], [r 74], [r 81]],
  [[r 0 .star, r 20 .star, g [[r 19], [r 26], [r 34]] .star]]]

/-- modules/lang_cs/text.src:8-379: the grammar with its flags. -/
def grammar : Grammar := fun n => (rules[n]?).map alts

end Verif.Nodes.Cs
