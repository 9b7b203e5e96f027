/-
  What the builders of the nodes do with the parts that they get: modules/lang_cs/ast_builder.cpp.

  A builder gets tokens and nodes in the order of the source (modules/compile/ast_factory.cpp:98-131)
  and puts them at places of the node it makes.

  Simplifications:
  * The places of a node (`__xxx__` of the classes in modules/compile/__ast.h) are numbers, which
    are explained at each builder.  A name is a part at a place, too; an expression has one place
    with all of its tokens and nodes in a row (modules/compile/__ast.h, `append_name`,
    `append_token`, `append_expression`, `append_cvalue`, `append_name_unit`).
  * What tokens other than names do to a node (`set_ttype`, `set_static`, the kind of an argument)
    is not modelled, nor is `on_completed`, apart from that of `array_lengths`.
  * The value of a node is the number of the rule (Model/GramCs.lean) which has that name.
-/
import Verif.Model.NodesCs

namespace Verif.Nodes

open Verif.Gram

/-- What a builder asks of a part: the value of a token, or the value of a node and the flag of the
    reference (`ast_builder_apply_ast_args_t`), which is a number of `Cs.flags`. -/
inductive Sym where
  | tok (t : Nat)
  | node (value flag : Nat)
deriving DecidableEq, Repr

/-- What a builder does with a part.
    * `drop`: nothing,
    * `put`: `set_child`, or `set_name` and the like, which replace what is there
      (modules/compile/__ast.h:1262-1266 and 1086-1115),
    * `add`: `append_child` (modules/compile/__ast.h:1297-1301),
    * `keep`: `__assign` with a check, which reports a second part (modules/compile/__ast.h:1104),
    * `accessor`: `set_child_with_check` at the place of its keyword (modules/compile/__ast.h:1268);
      an assertion fails if there is none for it,
    * `hold`: the part waits for the next `flush`, which appends what waits, or nothing. -/
inductive Act where
  | drop
  | put (place : Nat)
  | add (place : Nat)
  | keep (place : Nat)
  | accessor (places : List (Nat × Nat))
  | hold
  | flush (place : Nat)
deriving DecidableEq, Repr

/-! ## The builders -/

/-- modules/lang_cs/ast.h and modules/compile/__ast.h:192-415: the value of the node that is made
    for a rule: 15 `_single_expression` and 3 `_function_name_expression` make an `expression`, 58
    `_fake_method` a `method`, 50 `_attribute_group.__item` an `attribute`, 25 `_enum_fields` makes
    `_fields`, 56 `_fields.__item` and 24 `_enum_fields.__item` make a `field`, 48
    `_attribute_type_name` a `type_name`. -/
def valueOf (r : Nat) : Nat :=
  if r = 15 ∨ r = 3 then 17
  else if r = 58 then 55
  else if r = 50 then 85
  else if r = 25 then 57
  else if r = 56 ∨ r = 24 then 84
  else if r = 48 then 31
  else r

/-- modules/lang_cs/services.cpp:137-233, `build_ast`: the rules without a builder; their parts are
    given to the builder around.  6 `array_initializer.__item`, 14 `_single_expression.__item`, 16
    `_expression`, 37 `generic_constraint.__item`, 46 `_init_arg`, 47 `_init_args`, 51
    `_attribute_group`: there is a builder for the last one, but its name is written with a space
    (modules/lang_cs/cs_analyze_tree.cpp), so that the rule has another value. -/
def bare (r : Nat) : Bool :=
  [6, 14, 16, 37, 46, 47, 51].contains r

/-- The token `name`. -/
def nameTok : Nat := 3

/-- modules/compile/__ast.h: the classes that are an `expression_ast_t`. -/
def isExpression (v : Nat) : Bool := [2, 4, 5, 9, 10, 11, 12, 13, 17, 18].contains v

/-- modules/compile/__ast.h: the classes that are a `type_name_ast_t`. -/
def isTypeName (v : Nat) : Bool := [28, 29, 30, 31].contains v

/-- modules/compile/__ast.h: the classes that are a `statement_ast_t`. -/
def isStatement (v : Nat) : Bool :=
  [61, 62, 63, 64, 65, 68, 70, 72, 73, 74, 75, 76, 77, 78, 79, 80, 81, 82].contains v

/-- A `case` of a `switch`, or a condition. -/
inductive Key where
  | tok (t : Nat)
  | anyTok
  | val (v : Nat)
  | flagged (v : Nat) (pre : List Char)
  | expression
  | typeName
  | statement
  | anyNode

/-- `al::starts_with(args.flag, pre)`. -/
def starts (pre : List Char) (flag : Nat) : Bool := pre.isPrefixOf (Cs.flags.getD flag [])

def Key.fits : Key → Sym → Bool
  | .tok t, .tok u => t == u
  | .anyTok, .tok _ => true
  | .val v, .node w _ => v == w
  | .flagged v pre, .node w f => v == w && starts pre f
  | .expression, .node w _ => isExpression w
  | .typeName, .node w _ => isTypeName w
  | .statement, .node w _ => isStatement w
  | .anyNode, .node _ _ => true
  | _, _ => false

/-- modules/lang_cs/ast_builder.cpp, `apply_token` and `apply_ast` of the builders, by the number of
    their rule; the first case that fits counts. -/
def table : Nat → List (Key × Act)
  -- import, 2146-2167: 0 alias, 1 package, 2 assembly
  | 0 => [(.tok nameTok, .put 0), (.flagged 21 ['f'], .put 1), (.flagged 21 ['i'], .put 2)]
  -- cvalue, 614-644
  | 1 => []
  -- index, 1054-1068: 0 namex, 1 arguments
  | 2 => [(.val 17, .put 0), (.val 45, .put 1)]
  -- _function_name_expression, 954-985: 0 the elements, 1 generic_args_node
  | 3 => [(.anyTok, .add 0), (.val 1, .add 0), (.val 41, .put 1), (.expression, .add 0)]
  -- function, 1030-1047: 0 namex, 1 arguments; the generic arguments are those of the first
  | 4 => [(.val 17, .put 0), (.val 45, .put 1)]
  -- new, 1075-1089: 0 type_name, 1 arguments
  | 5 => [(.val 31, .put 0), (.val 45, .put 1)]
  -- array_initializer, 1129-1140: 0 elements
  | 7 => [(.val 7, .add 0), (.val 17, .add 0)]
  -- array_lengths, 1147-1171: 0 lengths
  | 8 => [(.tok 18, .flush 0), (.val 17, .hold)]
  -- new_array, 1096-1114: 0 type_name, 1 lengths, 2 initializer
  | 9 => [(.val 31, .put 0), (.val 8, .put 1), (.val 7, .put 2)]
  -- type_of, 375-385: 0 type_name
  | 10 => [(.val 31, .put 0)]
  -- default_value, 1176-1186: 0 type_name
  | 11 => [(.val 31, .put 0)]
  -- type_name_exp, 992-1002: 0 type_name
  | 12 => [(.val 31, .put 0)]
  -- type_cast_exp, 1009-1023: 0 type_name, 1 expression
  | 13 => [(.val 31, .put 0), (.val 17, .put 1)]
  -- _single_expression, 916-947: 0 the elements
  | 15 => [(.anyTok, .add 0), (.val 1, .add 0), (.val 27, .add 0), (.expression, .add 0)]
  -- expression, 45-76: 0 the elements
  | 17 => [(.anyTok, .add 0), (.val 1, .add 0), (.val 27, .add 0), (.expression, .add 0)]
  -- expressions, 99-107: 0 expressions
  | 18 => [(.expression, .add 0)]
  -- namespace, 2174-2196: 0 name, 1 types, 2 namespaces, 3 type_defs
  | 19 => [(.val 21, .put 0), (.val 26, .add 1), (.val 19, .add 2), (.val 34, .add 3)]
  -- using, 2203-2221: 0 alias, 1 ns
  | 20 => [(.tok nameTok, .put 0), (.val 21, .put 1)]
  -- mname, 83-93: 0 the parts
  | 21 => [(.tok nameTok, .add 0)]
  -- _decorate_complex, 747-761
  | 22 => []
  -- decorate, 2065-2139: 0 access
  | 23 => [(.val 22, .keep 0)]
  -- _enum_fields_item, 1885-1907: 0 name, 1 attributes, 2 init_value
  | 24 => [(.tok nameTok, .put 0), (.val 52, .put 1), (.val 17, .put 2)]
  -- _enum_fields, 1868-1878: 0 items
  | 25 => [(.val 84, .add 0)]
  -- type, 1914-1992: 0 name, 1 generic_params, 2 super_type_names, 3 decorate, 4 attributes,
  -- 5 fields, 6 properties, 7 methods, 8 events, 9 nest_types, 10 type_defs,
  -- 11 generic_constraints
  | 26 => [(.tok nameTok, .put 0), (.val 36, .put 1), (.val 31, .add 2), (.val 23, .put 3),
      (.val 52, .put 4), (.val 84, .add 5), (.val 57, .add 5), (.val 59, .add 6), (.val 55, .add 7),
      (.val 60, .add 8), (.val 26, .add 9), (.val 34, .add 10), (.val 39, .put 11)]
  -- name_unit, 129-147: 0 name, 1 generic_args
  | 27 => [(.tok nameTok, .put 0), (.val 41, .put 1)]
  -- general_type_name, 154-248: 0 units
  | 28 => [(.val 27, .add 0)]
  -- array_type_name, 259-283: 0 dimensions, 1 element_type_name
  | 29 => [(.tok 18, .flush 0), (.tok 10, .flush 0), (.val 31, .put 1), (.val 17, .hold)]
  -- uncertain_type_name, 290-294
  | 30 => []
  -- type_name, 114-122: 0 underlying
  | 31 => [(.typeName, .put 0)]
  -- type_def_param, 299-313: 0 name
  | 32 => [(.tok nameTok, .put 0)]
  -- type_def_params, 320-330: 0 params
  | 33 => [(.val 32, .add 0)]
  -- type_def, 338-368: 0 name, 1 type_name, 2 attributes, 3 decorate, 4 params
  | 34 => [(.tok nameTok, .put 0), (.val 31, .put 1), (.val 52, .put 2), (.val 23, .put 3),
      (.val 33, .put 4)]
  -- generic_param, 392-422: 0 name, 1 attributes
  | 35 => [(.tok nameTok, .put 0), (.val 52, .put 1)]
  -- generic_params, 429-439: 0 params
  | 36 => [(.val 35, .add 0)]
  -- generic_constraint, 446-476: 0 name, 1 type_names
  | 38 => [(.tok nameTok, .put 0), (.val 31, .add 1)]
  -- generic_constraints, 483-493: 0 constraints
  | 39 => [(.val 38, .add 0)]
  -- generic_arg, 500-526: 0 type_name
  | 40 => [(.val 31, .put 0)]
  -- generic_args, 533-553: 0 generic_args
  | 41 => [(.tok 18, .flush 0), (.tok 104, .flush 0), (.val 40, .hold)]
  -- param, 1999-2041: 0 name, 1 type_name, 2 attributes, 3 default_value
  | 42 => [(.tok nameTok, .put 0), (.val 31, .put 1), (.val 52, .put 2), (.val 17, .put 3)]
  -- params, 2048-2058: 0 params
  | 43 => [(.val 42, .add 0)]
  -- argument, 560-590: 0 name, 1 expression, 2 attributes
  | 44 => [(.tok nameTok, .put 0), (.val 17, .put 1), (.val 52, .put 2)]
  -- arguments, 597-607: 0 arguments
  | 45 => [(.val 44, .add 0)]
  -- _attribute_type_name, 714-722: 0 underlying
  | 48 => [(.typeName, .put 0)]
  -- _attribute_group_assign, 689-707: 0 name, 1 expression
  | 49 => [(.tok nameTok, .put 0), (.val 17, .put 1)]
  -- _attribute_group_item, 667-682: 0 type_name, 1 arguments
  | 50 => [(.val 31, .put 0), (.val 45, .put 1), (.val 49, .put 1)]
  -- attributes, 729-740: 0 attributes
  | 52 => [(.val 85, .add 0), (.val 51, .add 0)]
  -- method_body, 783-793: 0 statements
  | 53 => [(.val 82, .add 0)]
  -- _operator, 1851-1861
  | 54 => []
  -- method, 1744-1803: 0 name, 1 decorate, 2 type_name, 3 owner_type_name,
  -- 4 conversion_type_name, 5 the operator, 6 attributes, 7 generic_params, 8 params,
  -- 9 base_ctor_args, 10 body, 11 generic_constraints
  | 55 => [(.tok nameTok, .put 0), (.val 23, .put 1), (.flagged 31 ['r'], .put 2),
      (.flagged 31 ['o'], .put 3), (.flagged 31 ['c'], .put 4), (.val 54, .put 5), (.val 52, .put 6),
      (.val 36, .put 7), (.val 43, .put 8), (.val 45, .put 9), (.val 53, .put 10),
      (.val 39, .put 11)]
  -- _fields_item, 1666-1688: 0 name, 1 attributes, 2 init_value
  | 56 => [(.tok nameTok, .put 0), (.val 52, .put 1), (.val 17, .put 2)]
  -- _fields, 1637-1659: 0 attributes, 1 decorate, 2 type_name, 3 items
  | 57 => [(.val 52, .put 0), (.val 23, .put 1), (.val 31, .put 2), (.val 84, .add 3)]
  -- _fake_method, 1695-1737: 0 attributes, 1 decorate, 2 body
  | 58 => [(.val 52, .put 0), (.val 23, .put 1), (.val 53, .put 2)]
  -- property, 800-853: 0 name, 1 attributes, 2 decorate, 3 type_name, 4 owner_type_name,
  -- 5 params, 6 get_method, 7 set_method
  | 59 => [(.tok nameTok, .put 0), (.val 52, .put 1), (.val 23, .put 2),
      (.flagged 31 ['r'], .put 3), (.flagged 31 ['o'], .put 4), (.val 43, .put 5),
      (.val 55, .accessor [(0, 6), (1, 7)])]
  -- event, 860-909: 0 name, 1 attributes, 2 decorate, 3 type_name, 4 owner_type_name,
  -- 5 add_method, 6 remove_method
  | 60 => [(.tok nameTok, .put 0), (.val 52, .put 1), (.val 23, .put 2),
      (.flagged 31 ['r'], .put 3), (.flagged 31 ['o'], .put 4),
      (.val 55, .accessor [(2, 5), (3, 6)])]
  -- while_st, 1386-1401: 0 condition, 1 body
  | 61 => [(.val 17, .put 0), (.val 18, .put 0), (.val 82, .put 1)]
  -- do_while_st, 1364-1379: 0 condition, 1 body
  | 62 => [(.val 17, .put 0), (.val 18, .put 0), (.val 82, .put 1)]
  -- for_st, 1408-1438: 0 initialize, 1 condition, 2 increase, 3 body
  | 63 => [(.val 72, .put 0),
      (.flagged 17 ['i', 'n', 'i'], .put 0), (.flagged 18 ['i', 'n', 'i'], .put 0),
      (.flagged 17 ['c'], .put 1), (.flagged 18 ['c'], .put 1),
      (.flagged 17 ['i', 'n', 'c'], .put 2), (.flagged 18 ['i', 'n', 'c'], .put 2),
      (.val 82, .put 3)]
  -- for_each_st, 1445-1471: 0 variable, 1 iterator, 2 type_name, 3 body
  | 64 => [(.tok nameTok, .put 0), (.val 17, .put 1), (.val 31, .put 2), (.val 82, .put 3)]
  -- if_st, 1478-1497: 0 condition, 1 if_body, 2 else_body
  | 65 => [(.val 17, .put 0), (.val 18, .put 0), (.flagged 82 ['i', 'f'], .put 1),
      (.flagged 82 ['e', 'l', 's', 'e'], .put 2)]
  -- statements, 1193-1203: 0 statements
  | 66 => [(.val 82, .add 0)]
  -- case, 1526-1548: 0 constants, 1 statements
  | 67 => [(.val 17, .add 0), (.val 66, .put 1)]
  -- switch_st, 1504-1519: 0 expression, 1 cases
  | 68 => [(.val 17, .put 0), (.val 18, .put 0), (.val 67, .add 1)]
  -- catch, 1584-1606: 0 variable, 1 type_name, 2 body
  | 69 => [(.tok nameTok, .put 0), (.val 31, .put 1), (.val 82, .put 2)]
  -- try_st, 1555-1577: 0 try, 1 finally, 2 catches
  | 70 => [(.flagged 82 ['t'], .put 0), (.flagged 82 ['f'], .put 1), (.val 69, .add 2)]
  -- _defination_st_item, 1274-1293: 0 name, 1 expression
  | 71 => [(.tok nameTok, .put 0), (.expression, .put 1)]
  -- defination_st, 1244-1267: 0 type_name, 1 items
  | 72 => [(.val 31, .put 0), (.val 71, .add 1)]
  -- expression_st, 1210-1220: 0 expression
  | 73 => [(.val 17, .put 0)]
  -- type_def_st, 1227-1237: 0 type_def
  | 74 => [(.val 34, .put 0)]
  -- break_st and continue_st, 1300-1309
  | 75 => []
  | 76 => []
  -- throw_st, 1314-1324: 0 expression
  | 77 => [(.val 17, .put 0)]
  -- return_st, 1347-1357: 0 expression
  | 78 => [(.val 17, .put 0)]
  -- goto_st, 1331-1342: 0 label
  | 79 => [(.tok nameTok, .put 0)]
  -- empty_st, 1613-1615
  | 80 => []
  -- statement_group_st, 1620-1630: 0 statements
  | 81 => [(.val 82, .add 0)]
  -- statement, 768-776: 0 underlying
  | 82 => [(.statement, .put 0)]
  -- modules/compile/ast_factory.cpp:30-51, the whole: 0 all nodes
  | 83 => [(.anyNode, .add 0)]
  | _ => []

/-- What the builder of a rule does with a part. -/
def act (r : Nat) (s : Sym) : Act :=
  match (table r).find? fun e => e.1.fits s with
  | some e => e.2
  | none => .drop

/-! ## Building a node -/

/-! ## The flags of the nodes of a graph -/

/-- modules/compile/analyze_tree.cpp:996-1026, `__read_branch`: a node for a reference has the flag
    that is written in the rule. -/
def flagAt (e : Env) (a : Alts) (n : Nat) : Nat :=
  match (nodeAt (layRule e (revise a)) n).label with
  | .ref x => x / 100
  | _ => 0

/-- modules/compile/analyze_tree.cpp:1721-1757, `__merge`, in the rounds of Model/Gram.lean: a node
    that is made of several nodes has no flag. -/
def flagsOf : Nat → Graph → (Nat → Nat) → Nat → Nat
  | 0, _, f => f
  | n + 1, g, f =>
    match g.round with
    | none => f
    | some g' => flagsOf n g' fun u => if (g.peers u).length ≤ 1 then f u else 0

variable {ν : Type}

/-- A part as a builder gets it: what it asks of it, and the token or node itself. -/
structure Given (ν : Type) where
  sym : Sym
  it : ν
deriving DecidableEq

/-- A node that is being made: what is at its places, what waits, the number of errors that were
    reported, and whether an assertion failed. -/
structure Made (ν : Type) where
  at_ : Nat → List (Option ν)
  last : Option ν
  errors : Nat
  failed : Bool

def Made.new : Made ν := ⟨fun _ => [], none, 0, false⟩

def Made.set (m : Made ν) (p : Nat) (xs : List (Option ν)) : Made ν :=
  { m with at_ := fun q => if q = p then xs else m.at_ q }

/-- `set_child_with_check`, `__assign` with a check. -/
def Made.check (m : Made ν) (p : Nat) (x : ν) : Made ν :=
  if m.at_ p = [] then m.set p [some x] else { m with errors := m.errors + 1 }

/-- A part is applied; `kind` is the keyword of an accessor: 0 `get`, 1 `set`, 2 `add`, 3
    `remove`. -/
def step (kind : ν → Nat) (r : Nat) (m : Made ν) (g : Given ν) : Made ν :=
  match act r g.sym with
  | .drop => m
  | .put p => m.set p [some g.it]
  | .add p => m.set p (m.at_ p ++ [some g.it])
  | .keep p => m.check p g.it
  | .accessor ps =>
    match ps.lookup (kind g.it) with
    | some p => m.check p g.it
    | none => { m with failed := true }
  | .hold => { m with last := some g.it }
  | .flush p => { m.set p (m.at_ p ++ [m.last]) with last := none }

/-- modules/compile/ast_factory.cpp:108-131: all parts in a row. -/
def apply (kind : ν → Nat) (r : Nat) (w : List (Given ν)) (m : Made ν) : Made ν :=
  w.foldl (step kind r) m

/-- modules/lang_cs/ast_builder.cpp:1168-1171, `on_completed` of `array_lengths`. -/
def complete (r : Nat) (m : Made ν) : Made ν :=
  if r = 8 then m.set 0 (m.at_ 0 ++ [m.last]) else m

/-- modules/compile/ast_factory.cpp:98-136, `build`. -/
def make (kind : ν → Nat) (r : Nat) (w : List (Given ν)) : Made ν :=
  complete r (apply kind r w Made.new)

end Verif.Nodes
