/-
  How nodes are made of what was reported (modules/compile/ast_factory.cpp,
  modules/compile/analyze_tree.cpp:3905-4056, modules/compile/__analyze_tree.h:2027-2225).

  What is here:
  * the elements of the reader and the nodes that were appended to them,
  * reading the elements between two places, where what belongs to a node is skipped,
  * making a node of every instance that was reported, in the order of the reports, and at last the
    node of the whole.

  Simplifications:
  * What the builder of a rule does with the elements it gets (lang_cs/ast_builder.cpp) is any
    function of them, of the rule and of a state, which it may change; the flag of the reference
    (`ast_builder_apply_ast_args_t`) and the places in the source are not modelled.
  * An element that was read, a token or a node of a part in another language, is its number.
  * A rule without a value is not reported (modules/compile/analyze_tree.cpp:2686-2692); here its
    builder makes nothing.
-/
import Verif.Model.Anl

namespace Verif.Elems

open Verif.Anl

/-- What a builder gets: modules/compile/__analyze_tree.h, `analyze_element_t`. -/
inductive Piece (ν : Type) where
  | raw (i : Nat)
  | node (x : ν)
deriving DecidableEq, Repr

/-- modules/compile/__analyze_tree.h:2030-2048, `__ast_flag_t`. -/
structure Flag (ν : Type) where
  node : ν
  stop : Nat

/-- modules/compile/__analyze_tree.h:2053-2065 and 2077: the nodes at every element, the last one
    first (`flag` and `next`); there is an element for every token and one for the end. -/
structure Items (ν : Type) where
  size : Nat
  flags : Nat → List (Flag ν)

variable {ν σ : Type}

/-- What goes wrong: an access outside of the elements, or an endless loop. -/
inductive Err where
  | bounds
  | endless
deriving DecidableEq, Repr

/-- modules/compile/analyze_tree.cpp:3921-3929, `element_at` in the normal mode. -/
def Items.at (H : Items ν) (i : Nat) : Piece ν :=
  match H.flags i with
  | [] => .raw i
  | f :: _ => .node f.node

/-- modules/compile/analyze_tree.cpp:3964-3973, `next_tag` in the normal mode. -/
def Items.after (H : Items ν) (i : Nat) : Nat :=
  match H.flags i with
  | [] => i + 1
  | f :: _ => f.stop

/-- modules/compile/__analyze_tree.h:2187-2193 and ast_factory.cpp:108-131: all elements from `i`
    to `j`.  The end of the loop is that the place is `j`. -/
def Items.walk (H : Items ν) : Nat → Nat → Nat → Except Err (List (Piece ν))
  | 0, _, _ => .error .endless
  | n + 1, i, j =>
    if i = j then .ok []
    else if H.size ≤ i ∨ H.size ≤ H.after i then .error .bounds
    else
      match H.walk n (H.after i) j with
      | .error e => .error e
      | .ok ps => .ok (H.at i :: ps)

/-- modules/compile/analyze_tree.cpp:4028-4044, `append_ast`; it looks at the element before the
    end. -/
def Items.append (H : Items ν) (i j : Nat) (x : ν) : Except Err (Items ν) :=
  if H.size ≤ i ∨ j = 0 ∨ H.size ≤ j - 1 then .error .bounds
  else .ok { H with flags := fun k => if k = i then ⟨x, j⟩ :: H.flags i else H.flags k }

/-- The builders: of a rule, and of the whole (modules/compile/ast_factory.cpp:30-51), which always
    makes a node. -/
structure Builder (σ ν : Type) where
  make : Nat → List (Piece ν) → σ → σ × Option ν
  root : List (Piece ν) → σ → σ × ν

/-- modules/compile/ast_factory.cpp:58-68, one round of the loop. -/
def one (B : Builder σ ν) (r i j : Nat) (H : Items ν) (s : σ) : Except Err (Items ν × σ) :=
  match H.walk (H.size + 1) i j with
  | .error e => .error e
  | .ok ps =>
    match B.make r ps s with
    | (s, none) => .ok (H, s)
    | (s, some x) =>
      match H.append i j x with
      | .error e => .error e
      | .ok H => .ok (H, s)

/-- modules/compile/ast_factory.cpp:56-69, `match`. -/
def all (B : Builder σ ν) : List Action → Items ν → σ → Except Err (Items ν × σ)
  | [], H, s => .ok (H, s)
  | .chose _ _ :: as, H, s => all B as H s
  | .matched r i j :: as, H, s =>
    match one B r i j H s with
    | .error e => .error e
    | .ok (H, s) => all B as H s

/-- modules/compile/analyze_tree.cpp:2914-2915 and 3738-3746: at last there is the whole, from the
    first element to the last one.  modules/compile/analyze_tree.cpp:4047-4056, `get_root_ast`. -/
def build (B : Builder σ ν) (as : List Action) (tokens : Nat) (s : σ) :
    Except Err (σ × Option ν) :=
  match all B as ⟨tokens + 1, fun _ => []⟩ s with
  | .error e => .error e
  | .ok (H, s) =>
    match H.walk (H.size + 1) 0 (H.size - 1) with
    | .error e => .error e
    | .ok ps =>
      match B.root ps s with
      | (s, x) =>
        match H.append 0 (H.size - 1) x with
        | .error e => .error e
        | .ok H => .ok (s, (H.flags 0).head?.map (·.node))

end Verif.Elems
