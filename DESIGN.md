# Formal model of xuyouchun/april — design

April is a C#-like language: a compiler (`modules/compile`, `modules/lang_cs`), an intermediate
language and assembly format (`modules/core`), and a virtual machine (`modules/exec`,
`modules/rt`, `modules/rtlib`, `modules/mm`) on top of a utility library (`algorithm`, `common`,
`include`).  The code is read as text only; nothing in `/repo` is built or run.

## Trusted base

* Lean 4.33.0's kernel.  No `sorry`, `admit`, `native_decide`, `bv_decide`, own `axiom`s, or
  `implemented_by`/`unsafe`.
* Axioms the property theorems depend on: at most `propext`, `Classical.choice`, `Quot.sound`.  `AXIOMS.md` lists
  them theorem by theorem.
* The faithfulness of the model to the C++ text: every model definition cites the file and lines it
  models and states each simplification.
* C++ facts used by the model: two's complement integers, `int` = 32 bits, `size_t`/pointers = 64
  bits, little-endian layout with bit fields allocated from the least significant bit (the layout of
  gcc/clang on x86-64, which the code itself assumes by casting structures to bytes), `char_t` is a
  code unit represented as `Nat`/`Char` in the text models.  Undefined behaviour reached by the code
  (reads past an end, signed overflow, division by zero) is a distinct outcome in the model or is
  excluded by a stated hypothesis.

## Layout of the Lean project

`Verif/Model/*.lean` — the model (functions mirroring the C++ functions, each citing its source);
`Verif/Spec/*.lean` — small independent specifications where a property needs one;
`Verif/Proof/*.lean` — helper lemmas;
`Verif/Props/*.lean` — the property theorems, each with an `example` showing a concrete non-trivial
case meets its hypotheses.

Where the code violates the English property the `Props` file contains the proved *negation* with a
concrete witness (suffix `_refuted`) and a theorem with suffix `_partial` for the part that holds;
`MANIFEST.json` then lists the property as `partial`.

## Properties

For each property: what is modelled, and how it is proved.

| id | model | proof |
|----|-------|-------|
| C01 | `to_varint`/`from_varint` over `BitVec w` bytes | induction on the value; the decoder's guard `offset+7 > bits` rejects the last group, so partial + refutation |
| C02 | same | induction: continuation bits, prefix-freeness |
| C03 | `_align`, `_alignf`, `_alignd`, `__is_aligned` on `BitVec 64`/`Nat` | bit-level lemma `x &&& (2^k-1) = x % 2^k` |
| C04 | jump instruction as 4 bytes; `set_step`/`step`/`set_distance`/`set_model` | case split near/far/overflow, bit-vector extract/append lemmas |
| C05 | `ref_t` as a 32-bit word with fields 20/3/9 | arithmetic mod 2^k |
| C06 | byte-level encoder of every instruction, `__size_of`, reader loop | `decode (encode i ++ rest) = (i, rest)`, then induction on the sequence |
| C07 | `identity` field encodings of push/pop/pick | case analysis; pop/pick by address truncates from 15 on: refutation + partial |
| C08 | reader loop | zero-size commands: refutation + partial for buffers of known commands |
| C09 | `to_xil_type`, `to_vtype` as finite tables | whole-table case analysis |
| C10, C11 | heap buffer with capacity and used size, string map | invariant over append sequences |
| C12–C15 | folding over typed machine integers with the C++ usual arithmetic conversions | per-type-pair lemmas, refutations for mixed signedness |
| C16 | result type tables | whole-table case analysis |
| C17–C21 | lexer functions on character lists with a position | induction on the text |
| C22, C23 | integer literal parser state machine | invariant: accumulated value = positional value of the digits read |
| C24, C25 | the two-stack operator parser with its operator table | induction on expression trees / token lists |
| C26 | statement trees, `exit_type`, and an independent big-step semantics of exits | induction on runs; loops with non-constant conditions: refutation + partial |
| C27 | instruction list with labels, `commit` | induction on the list |
| C28 | switch table build, sort, commit, VM lookup | sortedness + search lemma |
| C29 | `svector_t` with inline part and heap part | refinement to `List` |
| C30, C31 | row heaps | invariants over operation sequences |
| C32 | `bit_array_t` words | refinement to a set of positions, refutations for growth |
| C33 | `respool_t` | invariant over acquire/release histories |
| C34 | left-child right-sibling tree store/restore | induction on trees; one-byte child count |
| C35 | `fixed_map_t`, `small_map_t` | sort + `equal_range` |
| C36 | `multikey_t` comparison | induction on components |
| C37 | C string functions on NUL-terminated code unit lists | induction |
| C38 | byte memory as a function, copy loops | loop invariants; small overlapping copies: refutation + partial |
| C39 | `select`, `select_min`, `select_max` | the two are exchanged in the code: refutation; what they do compute is proved |
| C40 | tagging on `BitVec 64` | bitwise extensionality; `set_incorp_v`: refutation |
| C41 | flag helpers on `BitVec` | bitwise extensionality; integer `bit_and`: refutation |
| C42 | access decision functions over type descriptions (nesting, bases, assemblies) | equivalence with the rule table; refuted cases |
| C43 | decision function | equivalence with the rule table |
| C44 | writer and reader of method body sections | round trip; counts in bit fields |
| C45 | array creation, length table, element place, checks | arithmetic; allocation size refuted for several dimensions |
| C46 | transition system of `semaphore_t`: every thread, both mutexes, the condition variable | invariant over all schedules; spurious wake-up, lost notification, timeout and deadlock refuted with reachable states |
| C47 | transition system of `object_lock_manager_t` with its clean-up | invariant over all schedules |
| C48 | `std::set` as a search tree with the search of libstdc++ | order invariant over histories |
| C49 | GUID parser/printer | digits |
| C50 | `try` statements compiled to a block table, its search | induction on the statement tree |
| C51, C52 | splitting, variadic minimum and maximum | induction on lists |
| C53, C54 | character classes on all 32-bit characters, comparison without case | bit-vector case analysis; wide characters refuted |
| C55, C57 | the byte stream of an assembly: header, heap, every table and column | round trip; truncation at every byte refused |
| C56 | constant rows | round trip; 64-bit constants refuted |
| C58, C59 | typed numbers of the compiler | case analysis over types, integer arithmetic |
| C60 | hexadecimal print of buffers | injectivity |
| C61 | compiler folding and machine instructions side by side | equality over all operand types |
| C62, C63 | further numeric literals | as C22 |
| C64–C67 | the whole token reader | tiling invariant; longest match over the whole spelling table |
| C68 | the parser on conditional expressions | induction on trees |
| C69 | statements to commands, with jumps and switch tables, and a machine that runs them | forward simulation in both directions, with non-termination |
| C70 | work-list closure of super types | reachability |
| C71, C72 | virtual tables and interface tables as built by the runtime | induction on the class chain |
| C73 | cast and type tests with their caches | invariant over histories of tests |
| C74 | exception search, `leave`, `leave.ret`, the two queues of the executor | execution of the finally clauses in order; refuted cases |
| C75 | `locals_layout_t`: groups, reset indices, partials, the recursive arrangement with in-place sorting, gap filling | loop invariant over cuts that sorting never crosses; refuted cases |
| C76 | regions with lazily cached indices, declarations, lookups, temporaries | refinement to blocks, then C75 |
| C77 | expressions, calls, constant folding and neutral operands of the compiler; commands, frames, calling stubs and bytes of the stack of the virtual machine | induction over expressions (evaluation leaves the frame and the stack below alone), over bodies, over the depth of calls; refuted cases |
| C78 | implicit conversions, comparison of a call with a method, inference of type arguments, choice in one class, search through base classes and interfaces, constructors, operators | the conversions by cases; the choice as a relation, shown to be the outcome by induction over the methods and the base classes; the walk over interfaces by an invariant of the walked set; inference by induction over types; refuted cases |
| C79 | layout of the fields of classes and structures with its sort, sizes and 16-bit offsets; allocation and zeroing; reading and writing fields through structures; tuples | placement loop without overflow as a relation, induction over the depth of types and over paths, refinement of the memory of an object to a record; refuted cases |
| C80 | walk over the super types with the set of walked types | invariant of a depth-first search: the set is closed under super types and does not contain the type; equivalence with the transitive closure |
| C81 | walk over the dependencies of type parameters | the same invariant for completeness; for soundness a ghost set of paths; the diamond is refuted |
| C82 | search for a member that is already declared, comparison of signatures | soundness and completeness against a relation of conflict; refuted cases |
| C83 | check of modifiers with the search in base classes | equivalence of the decision with a list of rules; the nearest base member by induction over the chain; refuted case |
| C84 | filling in the values of enumerators with the folding of references, comparison of typed numbers | invariant of the loop with the list of values so far, in both directions; refuted cases |
| C85 | the path-based search for circles; rounds over the enumeration | equivalence with a cycle in the relation of needs, by the pigeonhole principle; the number of open fields decreases in every round that leaves one waiting |
| C86 | writer of assemblies (tables, queue, references with index, count and kind), reader of assemblies | invariant of the queue and the tables: every row is filled or waits, every cell denotes its declaration; ghost map from rows to declarations; the reader by cases over the columns; refuted cases |
| C87 | the same model of the writer and the reader, with fuel for the queue | termination: a potential (declarations still without row, weighted by depth) that falls in every round; success: invariant over the queue that every free type parameter of what waits has its row or belongs to a class, and every class that waits stands before everything that could look its type parameters up |
| C88 | resolver of type names (type parameters, classes around, namespaces, imports, usings, typedefs), tables of types | every function of the resolver is exact for a relation between names and types, composed along the list of places; no error by the same induction; refuted cases |
| C89 | binary search for the class of a member, map of nested classes, class by name, over the tables the modelled writer makes | invariant of the writer's queue: classes are filled in the order of their rows and their lists of members follow one another; binary search over consecutive ranges; refuted cases |
| C90 | the pool of type objects, `get_type`, `__to_generic`, `__fetch_type`, the values of type parameters and their collection from instances and generic methods, over the tables of the assembly model | invariant of the pool (no two equal contents, objects refer to earlier ones), meaning of references as an inductive relation, mutual induction over it, independence of fuel; refuted cases |
| C91 | `__get_method` for references to other assemblies, `compare_to`, the loop over the methods of a class, over the pool of C90 | equality of objects is equality of types (C90), signatures as lists of types, induction over parameters and methods; refuted cases |
| C92 | rules of a grammar (tokens, references, groups, repetition), `revise_repeat`, `is_illusory`, `exchange` (what can follow what), merging of nodes; the rules of `text.src` as data | meaning of rules by derivations; invariant of the exchange (the sets hold exactly what can come first in what follows, up to elements that match nothing), paths against derivations, merging as a simulation; the actual grammar by kernel computation of the side conditions; refuted cases |
| C93 | the analyzer: ways into rules (`__append_subnodes`), left cycles, stacks, `go`, `__stack_push`, `__check_end_node`, `__stack_grow`, pruning, `__merge_leaves` and the end with `__do_stack_pop`; any choice among readings | every stack stands for a partial reading of what came so far (invariant over the tokens, induction over the depth of ended rules), reports are its instances in order; with C92 for the actual grammar; refuted cases |
| C94 | the elements of the reader with the nodes that lie on them, `element_at`, `next_tag`, `append_ast`, `lang_ast_build_elements_t::next`, `ast_factory_t::match`, `get_root_ast`; builders are any functions with state | after the reports of a part, what lies on its elements is what the specification makes of its tree (induction over the reading; frame for all other elements), also after only some of the reports; refuted for a program without tokens |
| C95 | the builders of the language as a table (what each does with which part), the rules with the flags of their references as data, places of a node with `set_child`, `append_child` and the checked ones, waiting parts; the flags when nodes of a graph are merged | a static check of a rule (which parts occur, how often at most) proved sound for all sequences derivable from it by induction over derivations, and evaluated by the kernel for all rules; lists with gaps directly; refuted cases |
| C96 | the scan of `make_absolute` with its moves (`back`, `jmp`, `copy`), `absolute_path`, `path_combine`, the paths of assemblies when writing and when loading | the scan over characters is shown equal to a scan over names, then induction over the parts of the path; refuted cases |
| C97 | the build of a solution: stack of projects being compiled, imports, the pool of finished assemblies, errors, writing | invariant of the depth-first build (what is done, what is being done), equivalence of no error with a sound graph without circles by the pigeonhole principle; refuted cases |
| C98 | filter to regular expression, the part of regular expressions that it uses, splitting of the path, files of a directory | the parsed expression is computed for every filter; matching against an inductive relation by induction over filter and name; refuted cases |
| C99 | the parser of options (`parse`, `set_option`, `check`), the commands and options of the tool, reading of numbers, the end of the process | the ways to write a command line as an inductive relation, equivalence by induction in both directions (errors only grow); refuted cases |
| C100 | sessions (`begin_project`, `add_file`, `commit_project`, `compile`), the type of what is compiled, the choice of what is run, where assemblies are found when compiling and when running | accepted sequences of calls against scripts by induction; contents of a project as an invariant; choice by cases over the origins; refuted cases |
| C101 | statements whose actions are expressions: what the statements append is expanded to instructions, placed, turned into commands and run by the machine of C77 | simulation: the machine follows the run of the statements of C69 step by step (labels fall on corresponding places, the values of conditions are on the stack), induction over the depth of calls; refuted cases |
| C102 | the queue of delayed visits (`enque`, `deque`) and the loop of `ast_walk`, with arbitrary visits | the visits of each step equal the requests for it in order, by induction over the run; sortedness; permutation by counting; refuted case |
| C103 | layers and regions, definitions in them with the check for duplicates, the first visit of statements, members and types, the later lookup of names | simulation: each part of the walk adds exactly its declarations to its own region, touches no other, and what it delays means the names as seen through the final regions; induction over statements, members and programs; refuted cases |
| C104 | the compiler of reads and assignments (simple, compound, `++`) of variables, fields, elements, properties, indexers and static fields, of calls and `new`, with the dropping of results, and the commands that run the code; methods are arbitrary functions | the code pushes the value the source has, by induction over expressions, places and arguments; the parts of a place that are evaluated twice or late are shown not to depend on it; refuted cases, most of them for all operands |
| C105 | programs: classes with their method tables, methods whose statements (C69) hold the expressions of C104, the machine running the commands of a method, calls through the virtual table, `new`, base calls | the translation of statements is lifted to instructions and joined with C69, C104 and C71; the machine and the source are equal functions by induction over the depth of calls; monotonicity in what calls give, by induction over expressions and statements |
| C106 | lookup of a member in a class, its bases or the interfaces above, the walk that binds names behind dots and calls, the check of static members when the code is made; overloads (C78), access (C42) and plain names (C103) are arbitrary functions | the lookup against the meaning of a name in a tower of types (induction over ranks; for interfaces an invariant of the set of those that were visited); expressions against rules of meaning, in both directions, by induction; refuted cases |
| C107 | statements with `try`, `throw`, `break`, `continue`, conditions and loops, compiled to commands and a table of blocks (C50), executed with the queue of clauses (C74); expressions are opaque actions that may raise | forward simulation by induction over the rules of meaning, with an invariant that ties the blocks in charge of each command to the `try` statements around it and the queue to what waits; refuted cases |
| C108 | array initialisers: the check of the braces with its table of dimensions, the lengths that are left out, the code of a creation and the commands that fill the array; header and memory are those of C45; elements are constants or opaque actions | the check against an inductive definition of rectangles in both directions (invariant of the table); the run of the code by induction over the elements; the order of the elements against rows and columns by induction over the nesting; what goes outside is refuted for all inputs |
| C109 | expressions over references: `??`, `??=`, `is`, `as`, casts, string constants, boxing and unboxing, calls, at every optimisation level, and the commands they become; methods and the cast test are arbitrary | what source means as an evaluator that knows nothing of levels or commands; induction over expressions and statements; constants by an extra induction over what the compiler computes; refuted cases, most for all operands |
| C110 | the overloads of `Max`, `Min`, `Abs` and `Sign` for integers in `core_lib/System/Math.cs` as methods of the model of C77 | they are supported at every level in every program; what their source means is worked out type by type; `method_call_correct_partial` carries it to the machine |
| C111 | the command of an internal call with its cache of sizes, the table of the runtime library, the console functions, `Console.cs`, `Internal.cs`, `Array.Rank/Length/GetLength` | numerals specified by digits; one lemma for a call with arguments on the stack, with the invariant that cached sizes are those of `Internal`; induction over the calls |
| C112 | the stack of units with its calling stubs, parameter offsets, commands cached by key, methods parsed at their first call, `call`, `call virtual`, `return`, `ref` arguments, the constructor and `Invoke` of delegates | against a machine whose calls each have their own variables; a simulation relates every unit to the variable it holds, every address to the place it names; induction over the instructions |
| C113 | code for struct variables, fields, arguments, assignment, `return`, `new`, method calls and temporaries; the commands for addresses, fields, `stack_alloc`, `copy`, calls and `ret` on one memory of units | against a specification without addresses, where a struct is the list of its fields and a method gives back what its struct has become; mutual induction over expressions with an invariant that leaves out the region under construction, induction over the depth of calls |
| C114 | `code_section_builder_t` on any text, the reading of the sections through a shared pointer by nested readers | against a tree of texts and embedded sources and its written form: soundness by induction over the text with the list of the sources still open, completeness by induction over the tree, reading by induction over the tree with what follows it |
| C115 | classes with base, fields, constructors; the added constructor, the search for a constructor, the statements put in front of bodies, their run at `new` | against an inductive relation of construction from the root down, by induction over the class chain; uniqueness by induction over the relation |
| C116 | `execute` of literals, names, operators and casts with all kinds of constants, the text of a constant, the replacement by a constant from level 1 on | against a run of expressions over variables with anything else left open, by induction over the expression; the refutations hold for all strings, by length |
| C117 | the passes over the constant fields of a class with the test for circles, the walk that decides whether to wait, and `execute` of fields | the pass keeps that every field is as declared or has its value (induction over the places; the walk for circles bounds the depth of `execute`); the first constant on a circle is untouched when it is reached; the waiting constant is the invariant of the endless loop |
| C118 | all operations on names with dots over a heap of names and the cache | invariant over histories: the cache knows each name by its text, with any property of names that the operations keep (nothing, or that parts are pieces); laws of splitting and joining by induction over the text |
| C119 | `params_layout_t` with 16-bit numbers, the parameters of a method, the stack of a call as bytes, the two kinds of addresses | invariant of the layout by induction over parameters (offsets are sums of the units in front); the stack is divided at the place; composed with C79 for tuples |
| C120 | the commit of the registered attributes with the four implementations the compiler knows, the start of a program | what one attribute adds to reports, entry point, inline methods and bound types; induction over the attributes; decision logic of the checks |
| C121 | types as terms; the transformation of member types, the search for the argument of a name through the enclosing types, the revision of types in generic methods | against simultaneous replacement, by induction on types; non-termination of the search for all depths of calls |
| C122 | the checks of the clauses of type parameters, at the declaration and at each use, with the place of the use | against what a clause means; soundness for every instantiation of the place, by cases on the clauses; decision logic of the declaration check |
| C123 | `get_size`, `pre_new` of the three kinds of types, the building of tables, creation, boxing, and what virtual calls and casts read | invariants of all histories by induction over the operations; progress by induction over the order of the types; a state that is never left, for the defects |
| C124 | the method made of a place of a virtual table, where its code is read and what its type parameters stand for | against the arguments that substitution through the base classes gives; decision logic by cases |
| C125 | the choice of the method for a name that is not called, the commands that make the delegate, and what they do to the stack and the variables | against a table of the object that is meant; exact condition by cases; the choice through the theorems of C78 |
| C126 | the memory of the nodes with their links, every call that changes, searches or walks them | refinement to lists of children for all sequences of calls, invariant that they form trees, induction over the tree for the walks |
| C127 | the buffer of the list with its size and count, the cache with its creator, the pool with its queue | refinement to a list, induction over the calls for the cache, invariant of objects in use and in the queue |
| C128 | the main assembly, the map of names, the vector and the index of each assembly; what a provider may answer | invariant over all sequences of calls with files that change between them |
| C129 | the analyzer of indexers, the search through base classes and interfaces, the walk of an index expression | induction over the properties and the hierarchy, refinement to a relation that says what is chosen |
| C130 | tables of virtual methods, prototypes with and without a manager of type parameters, the search of the place | the table is refined to one with prototypes compared as they are; induction over the hierarchy and the methods |
| C131 | the search of implementing and overriding methods with the manager of the interface | induction over methods and hierarchy, refinement to the nearest method with the replaced prototype |
| C132 | members of tuple types, the methods made for them, their bytes, search and execution | names with numbers are injective, round trip of the bytes of commands by induction, composed with the layout of tuples of C79 |
| C133 | pools and the default memory manager, with undefined behaviour as an outcome | invariant over all sequences of calls, induction over the loop of the destructor, counts of events |
| C134 | the chain of iterators of a zip and the loop over it | induction over the number of common positions; the rows are unique |
| C135 | line starts, their binary search, the loops to both ends of a line and the marks | invariant of the search, induction over lines, uniqueness of positions |
| C136 | stores of words in memory, the rounds of the loop, the header | induction over words and rounds; what each byte of memory is afterwards |
| C137 | the loops that write names and the dictionary by names | names are split again at the first separators, by induction over parts; induction over declarations |
| C138 | the functions that write names, over types of any depth | mutual induction over types and lists of arguments: a name can be read back in one way |

## What is modelled, and what is not

| model | code |
|-------|------|
| `Varint`, `Bits`, `Algo`, `CStr`, `Copy`, `Numeric`, `Guid` | `algorithm/__algorithm.h`, `include/algorithm.h`, `algorithm/__string.h`, `algorithm/string.cpp`, `common/guid` and the number parser of `modules/compile` |
| `SVector`, `RowHeap`, `XHeap`, `BitArray`, `Respool`, `LrTree`, `Table` (maps), `Intern`, `Sync` | the containers, the pools and the locks of `algorithm/` |
| `Heap`, `Table`, `Body` | the metadata heap, the tables and the method bodies of an assembly (`modules/core`, `include/modules/core.h`) |
| `Value`, `Fold` | typed values and constant folding (`modules/core`, `modules/compile`), the arithmetic commands of `modules/exec/commands.cpp` |
| `Lex`, `Parse` | the token reader and the expression parser (`modules/lang_cs`, `modules/compile`) |
| `Stmt`, `Codegen`, `Block` | exit analysis, statements to commands, protected blocks, exceptions |
| `Xil` | the encoding of the intermediate language |
| `Access`, `Dispatch` | access checks, super types, virtual and interface calls, type tests |
| `Arr` | arrays of the virtual machine |
| `Layout`, `Regions` | memory of local variables (`modules/rt/layout.cpp`), scopes (`modules/core/core.cpp`) |
| `Expr` | expressions and calls, from the compiler to the virtual machine |
| `Flow` | whole methods: statements of `Codegen` with expressions of `Expr`, from the compiler to the virtual machine |
| `Overload` | implicit conversions, overload resolution, inference of type arguments, search in base classes and interfaces |
| `Fields` | layout of objects and structures (`modules/rt/__layout.h`, `modules/rt/rt.cpp`), allocation, field commands, tuples |
| `Decl` | checks of declarations (`modules/compile/ast.cpp`): super types, constraints, duplicate members, modifiers |
| `Enums` | values of enumerators (`modules/compile/ast.cpp`) |
| `Names` | meaning of the names of types (`modules/compile/ast_utils.cpp` `__type_resolver_t`, `modules/core/assembly.cpp` `types_t`) |
| `Host` | class of a member and class by name at run time (`modules/rt/assembly_loader.cpp`) |
| `Rt` | objects for types, values of type parameters, types of fields at run time (`modules/rt/rt.cpp`, `modules/rt/layout.cpp`) |
| `Mref` | methods of other assemblies (`modules/rt/rt.cpp`) |
| `Gram`, `GramCs` | the graphs of a grammar (`modules/compile/analyze_tree.cpp`, first half), the rules of `modules/lang_cs/text.src` |
| `Anl` | the analyzer, which reads a program along these graphs (`modules/compile/analyze_tree.cpp`, second half); not: comments, weights and other criteria of choice (arbitrary), repair of wrong programs, elements of other languages |
| `Elems` | making nodes of what was reported (`modules/compile/ast_factory.cpp`, the element reader of `analyze_tree.cpp`); not: the builders of the language (arbitrary functions) |
| `Nodes`, `NodesCs` | the builders of the nodes (`modules/lang_cs/ast_builder.cpp`), the rules of the language with flags; not: what keywords do to a node, `on_completed` of most builders |
| `Paths`, `Wild`, `Build` | paths, files named with wildcards, the build of a solution (`lib/file.cpp`, `include/lib.h`, `modules/april/util.h`, `modules/compile/compile.cpp`); not: the operating system, `std::basic_regex` beyond the constructs used |
| `Cmd`, `Session` | the command line tool (`external/cmdline/cmdline.h`, `modules/april`); not: reading of the XML project files, the text of messages |
| `Place` | fields, properties, elements, indexers, calls and `new` in expressions (`modules/compile/expression.cpp`, `modules/exec/commands.cpp`) |
| `Classes` | whole programs of classes: `Place`, `Codegen` and `Dispatch` together; not: `try`, interfaces, static members, several assemblies |
| `Member` | members and calls behind a dot, use of static members (`modules/core/core.cpp`, `modules/compile/ast_utils.cpp`, `expression.cpp`); not: type arguments behind a name, indexers, methods as values |
| `Try` | methods with `try`, from the compiler to the virtual machine: `Stmt` and `Block` together; not: `return`, `switch`, the other loops, calls (actions that may raise) |
| `Init` | `new T[...] { ... }` from the check of the initialiser to the commands; not: conversion of elements, arrays inside of elements (actions), structures |
| `Refs` | `??`, `??=`, `is`, `as`, casts, boxing, strings (`modules/compile/expression.cpp`, `modules/core/expression_executor.cpp`, `modules/exec/commands.cpp`); not: locals, custom structs, generic parameters, string concatenation at run time |
| `MathLib` | `Max`, `Min`, `Abs`, `Sign` for integers in `core_lib/System/Math.cs`; not: `Single`, `Double` and the functions of `modules/rtlib/math.cpp` |
| `Console` | the internal call (`modules/exec/commands.cpp:3916-4022`), `modules/rtlib/{rtlib,system,array}.cpp`, `core_lib/System/{Console,Internal}.cs`; not: `Single`, `Double`, tuples, reflection; `std::wcout` is the characters that left it, its `badbit` and a parameter for what it can encode |
| `Calls` | `include/modules/exec.h:140-300,924-1030`, `modules/rt/layout.cpp:742-808`, `modules/exec/parser.cpp:160-230`, `modules/exec/exec.cpp:106-117`, calls, arguments, `return` and delegates in `modules/exec/commands.cpp`; every value is one unit of the stack; the stack has no end; objects have no fields; an operand of a wrong kind is a failure |
| `Structs` | structs in `modules/compile/expression.cpp`, `return` in `modules/compile/xilx.cpp:476-497`, struct commands, calls and `ret` in `modules/exec/commands.cpp`; every field is one unit; `if` is structured; not: `ref` parameters of struct type, structs in objects and arrays, boxing, operators |
| `Sections` | `modules/compile/utils.cpp:25-130`, `code_t::sections`, `analyzer_element_reader_t::__read_next_element`, `__analyze_ast`; the table of languages and the lexical analysis are parameters; a tree is its elements |
| `Ctors` | `__method_utils_t`, `__append_default_constructor`, `find_constructor` with `__type_get_member_t`, `new_ast_node_t`; parameters have one type, bodies are arbitrary functions; structs, static constructors and access are left out |
| `ConstExec` | `execute` of `modules/core/expression_executor.cpp:195-253, 541-660`, `cvalue_t::to_string`, `change_type`, `escape_string`, `__try_compile_constant_expression`; operators on numbers, the text of a number and the constants of names are parameters; `default`, `typeof` and conditional expressions are left out |
| `Consts` | `__fields_init_stub_t` and `__general_fields_init_stub_t` of `modules/compile/ast.cpp:2745-2921, 3022-3069` with their callers, `field_variable_t::execute`; operators are any functions, constants of other classes are literals |
| `DotNames` | `mname_t` and `mname_operate_context_t` (`include/modules/core.h:1304-1464`, `modules/core/core.cpp:858-1073`), `al::split`, `__to_namespace` of the assembly reader; the list of namespaces of the reader and the tables that remember results in `ast_walk_context_t` are left out |
| `Pack` | `params_layout_t` (`modules/rt/layout.cpp:743-816`), the parameters of a method (`modules/exec/parser.cpp:172-192`), the addresses of arguments and of packed arguments (`modules/exec/commands.cpp:812-863, 1492-1512`); the types that a generic parameter stands for are given by their sizes |
| `Attrs` | the implementations of attributes (`modules/core/system_type.cpp:805-1088`), `attribute_t::commit`, `module_t::commit` (`modules/core/core.cpp:573-598, 6306-6320`), the start of `executor_t::execute`; the resolution of the type of an attribute, its constructor and arguments are left out |
| `Subst` | replacement of type parameters (`modules/core/core.cpp:1911-1979, 2113-2181, 3235-3251, 4086-4144, 4281-4340, 4361-4460`); properties, events, tuples and the sharing of equal types are left out |
| `Where` | constraints of type parameters (`modules/compile/ast.cpp:1278-1575, 3070-3219`); what a type is, its conversions and constructors are a parameter |
| `Ready` | when sizes and virtual tables are made (`modules/rt/rt.cpp:326-344, 470-553, 1068-1162, 1271-1291, 1792-1803`, `modules/exec/commands.cpp:1582-1625, 3856-3884, 4312-4345, 5352-5370`); what is in a table is in `Dispatch`, the numbers are in `Fields` |
| `Vcall` | what a method runs with when called through a virtual table (`modules/exec/commands.cpp:4312-4345`, `modules/exec/parser.cpp:33-73, 100-118`, `modules/rt/layout.cpp:265-294`); no nested classes, no parameters for several types |
| `Mval` | names of methods that are used as values (`modules/compile/ast_utils.cpp:60-89, 1000-1043, 1283-1448`, `modules/compile/expression.cpp:885-898, 1293-1349, 1870-1915`, `modules/exec/commands.cpp:4486-4640`); no `ref` parameters in delegate types, no boxing |
| `Links` | trees of linked nodes (`algorithm/__collections.h:965-1283`): all changes, searches and walks; no output to streams, no freeing |
| `Stash` | `walk_list_t`, `auto_cache_t`, `respool_wrapper_t` (`algorithm/__collections.h:1470-1597, 1848-1932`); no sorting, no predicate or creator that uses its own list or cache |
| `Loaded` | the assemblies of a running program (`modules/rt/rt.cpp:2326-2376`) and the provider they come from (`modules/april/compiler.cpp:146-206`, `modules/rt/assembly_loader.cpp:736-757`); what is in an assembly is not modelled |
| `Indexers` | the choice of the indexer for an index expression (`modules/compile/ast_utils.cpp:1062-1102`, `modules/core/core.cpp:3547-3674`, `4958-5062`); the comparison of arguments is that of `Overload` |
| `Gvirt` | tables of virtual methods and the places of methods in them when classes are generic (`modules/rt/rt.cpp:346-386`, `621-640`, `707-737`, `838-897`, `1068-1077`, `1546-1551`, `1950-1998`, `2624-2705`, `3138-3228`); one assembly |
| `Giface` | the methods that implement those of generic interfaces (`modules/rt/rt.cpp:896-1050`); explicit implementations are left out |
| `Tuples` | members of tuples at compile time (`modules/core/core.cpp:4175-4279`) and run time (`modules/rt/rt.cpp:1181-1215, 1324-1407`), code of the methods made for items (`modules/rt/rt_commands.cpp`, `modules/exec/parser.cpp:15-27, 343-363`, `modules/exec/commands.cpp:7084-7160`); `Get` of tuples is left out |
| `Pools` | memory managers that own objects (`include/common.h:1801-1929, 2186-2226`, `common/common.cpp:366-449`); the bytes of objects, and constructors that use the pool, are left out |
| `Zips` | `al::zip` and `al::tie` (`algorithm/__collections.h:1937-2250`); all sequences have items of one type |
| `Codepos` | positions of code and the lines shown with errors (`modules/compile/analyze_utils.cpp:11-63`, `modules/core/core.cpp:730-768`, `modules/compile/compile.cpp:1127-1170`); colours and the texts of messages are left out |
| `Zeros` | the bytes of new objects and arrays (`modules/mm/mm.cpp:25-195`, `include/modules/mm.h:68-71`) and `zero_object` (`include/algorithm.h:321-381`); the heap that gives the block is `XHeap` |
| `Identity` | the full names of types and arrays and the dictionary of core types (`modules/core/core.cpp:4655-4734`, `5210-5216`, `5284-5303`, `5977-6015`); the names of instances of generic types are left out |
| `TypeNames` | names of types at run time (`modules/rt/rt.cpp:562-597`, `1410-1448`, `1763-1789`); null templates, elements and arguments are left out |
| `Queue`, `Scope` | the passes of the compiler (`ast_walk`) and the binding of plain names (`modules/core/core.cpp`, `modules/compile/ast.cpp`, `ast_utils.cpp`) |
| `Asm` | writing and reading of the declarations of an assembly (`modules/core/assembly_writer.cpp`, `assembly_reader.cpp`) |

Not modelled: the code for static fields; attributes; what the commit of
syntax nodes does; the analysis tree of declarations; loading of assemblies from disk and the
search path; tuples, reflection and mathematics of `modules/rtlib`;
floating-point values; the garbage collector (there is none);
the operating system layer.

Each model file states its own simplifications next to the definitions.

## Where the code and the properties disagree

Every item is a theorem with the suffix `_refuted` (or an example beside the theorems of the property), with a
concrete input.

* C01: the varint decoder rejects the last group of a full-width value.  C07: pop/pick operands from 15 on are
  truncated.  C08: a zero-size command stops the reader.
* C12–C16, C58, C59: mixed signedness and unsigned negation of typed numbers.
* C22, C62, C63: exponents; hexadecimal literals with `F` or a leading zero and the suffix `H`.
* C24, C25, C68: `a b` and `a !b` are accepted and an operand is lost; `x + a . -b` is `(x.a)+(-b)`; `-a++` is
  `(-a)++`; `a ? b = c : d` fails; `a ? b + c` is accepted as `a ? b : c`; `a = b, c` is `a = (b, c)`.
* C26: exit analysis of loops whose conditions are not constant, of `switch` and of `try`.
* C27, C28, C69: `continue` in a loop that tests last jumps to the body; `goto` compiles to nothing; a switch with
  one constant turned into an `if` falls into its default; switch tables of 65536 rows and more are truncated; a
  `leave` with step 0 is decoded as `leave.ret`.
* C29: pushing an element of the vector itself when it grows.  C30, C31: deletion in the row heap loses or
  duplicates objects; a request of size 0.  C32: growth reads past the old buffer.  C34: 256 children.
* C38: overlapping copies of small sizes.  C39: minimum and maximum exchanged.  C40, C41: `set_incorp_v`,
  `bit_and` on integers.
* C42: nested types, generic bases, assembly-level code.  C44: 65536 variables, 32768 rows.
* C45: several dimensions, structures larger than 8 bytes, negative indices, zero lengths, 10 or 18 dimensions.
* C46: spurious wake-up, lost notification, timeout, deadlock.
* C49: bytes below 16 are printed with one digit; short text is read past its end.
* C50, C74: a throw that no clause guards reads past the block table; a handler may receive an exception raised
  inside a finally clause; a replaced exception leaves a handler waiting; `return expr` in protected code loses
  the value.
* C53, C54: wide characters.  C56: 64-bit constants; equal constants of different types share a row.  C57:
  `type_defs` is not written.  C61: operators the compiler folds and the machine lacks.
* C64, C66, C67: unclosed comments, signs after closing brackets or comments.
* C71, C72, C73: overrides declared before virtual methods, hidden methods, other assemblies; interface calls on
  classes further down; interface tests on classes without interfaces.
* C75: structs with references in nested regions overlap and leave the frame; a skipped index reads past the vector of
  items; offsets are not aligned; 16-bit offsets wrap.  C76: a temporary variable may be put over a variable in scope.
* C77: `&&` and `||` evaluate both operands; `long f(int a, int b) { return a < b ? a : b; }` reads bytes nothing wrote; at
  level 2 `a + 0L` keeps the type of `a`, `0 - a` has the type of `0`, and a local written once with a value that is no
  constant can not be read.
* C78: `null` is accepted for an `int`; enums and type parameters are accepted for one another; inside a generic class any
  argument is accepted for its type parameter; `f<T>(D<int, T>)` accepts a `D<string, long>`; type arguments are found only in
  the argument type and its direct super types, and never in `T[]`; a generic method that does not fit ends the search before
  the base class; of two generic methods the last one declared is taken; a call without arguments takes a generic method with
  no type argument; `byte` does not convert to `short`; constructors of a base class are taken for a derived class; a class
  with any single constructor has a default constructor; an overloaded operator is found and then rejected.
* C79: nothing checks that the fields of an object fit into 16 bits: offsets wrap and fields overlap; the size of a structure
  that contains itself is computed without end.
* C81: constraints that form a diamond are reported as circular.  C82: two explicit implementations of one interface method and
  `f<T>(List<T>)` beside `f<U>(List<U>)` are not reported; `f<T>(T)` after `f<T>(int)` reads `int` as a type parameter; `f<U>(T)`
  and `f<U>(U)` in a class with the parameter `T`, and a constructor without parameters beside a static constructor, are reported as
  the same.  C83: a method may override a property.
* C84: a reference to a later enumerator without a written value is 0; `-1` is accepted for `ulong`; `5ul` is rejected as
  too small for `long`.
* C86: a list of 512 members is read back empty; `owner`, `mtype` and the attributes of methods are not written; the
  constructor of a foreign attribute is read back as an own method; an attribute with two arguments is refused because
  `__size` returns a `bool`; a typedef in a class is written twice; calling a foreign `f<T>(T[])` makes the file unreadable.
* C88: in a typedef with the parameter `T` the last part of `App.T` is taken for the parameter; so is `::T` in a class with the
  parameter `T`; with `typedef Outer.Inner I;` the name `I.Other` finds `Outer.Other`; classes in a foreign class are not found
  through a typedef for it; `A.Id<A.B>` with `typedef T Id<T>;` in `A` fails an assertion; a typedef cannot be used before its
  definition; a class `System.Int32` of the program changes `int`.
* C89: `Inner` around the entry point is taken for a class that is not nested, because the entry point is read before the table of
  nested classes; no method of a class with 512 methods has a class; of two nested classes `A.Node` and `B.Node` of another
  assembly the first is always taken.
* C90: an instance of `Outer<T>.Inner<T>` fails an assertion when a method of it is prepared; the type of a field of `Box<T>` that
  a generic method or class names is the one of the first instance it was found for; a generic method with `params` keeps one type
  argument per parameter; an instance whose outer class the other assembly no longer has is made without outer class.
* C91: a call of a generic method `id<X>(X)` of another assembly always stops the virtual machine; `Outer<Str>.Inner<Int>.f(V)` of
  another assembly runs `f(U)` when there is one.
* C92: `(X A*)? A b` accepts `A A b`; an alternative with nothing in it is ignored; for `A* | B*` an assertion fails and for
  `(A? B?)*` the compiler does not come to an end; the answer whether a rule matches nothing depends on the order of questions.
- C93: a program that ends too early is taken without an error (`truncated_refuted`; `using A` and the end, in the actual grammar).
- C93: of a token that can belong to an inner and an outer instance of the same rule only the inner one is looked at, so that with `r: b (r? x)?` the sentence `b b x ;` is rejected (`shared_way_refuted`).
- C93: with `b: a | c`, `a: b y?` the sentence `c` of `a` is rejected, as the `b` of `a` is taken for the last of an endless cycle (`dead_cycle_refuted`).
- C93: with `a: (b x | b y)+`, `b: a z | w` the compiler enters `a` and `b` from one another without end (`left_cycle_refuted`).
- C93, not modelled: for a comment the analyzer stores the addresses of two variables of an inner block, which are used after it (`modules/compile/analyze_tree.cpp:3152-3163`).
- C94: for a program without tokens, `append_ast` asks for the element before the first one (`modules/compile/analyze_tree.cpp:4038`; `no_token_refuted`). The reference is not used afterwards, so that a compiler may leave the access out.
- C95: object initializers `new T { A = 1 }` are read but thrown away (`new_initializer_refuted`, `modules/lang_cs/ast_builder.cpp:1077-1089`).
- C95: `using` inside a namespace is read but thrown away (`namespace_using_refuted`, 2176-2196).
- C95: of `[X(a = 1, b = 2)]` only the last value is kept, and values replace the arguments (`attribute_values_refuted`, 677-679).
- C95: the type of a conversion operator has the flag `overload` in the grammar, but the builder asks for a flag beginning with `c`; with `o` it is taken for the type that owns the method (`conversion_role_refuted`, 1767-1772).
- C95: `add` or `remove` in a property fails an assertion instead of being reported (`accessor_refuted`, 846-848).
- C96: `/a/b/c/../d/../../e` becomes `/a/b/c/e` (`nested_dots_refuted`, `lib/file.cpp:238-310`); `/a/b/../c/..` stays `/a/b/..`; `/a/..` becomes the empty path and `/../a` becomes `a`; for `/..` the character before the text is read.
- C97: of two projects with the same name the second is skipped and its missing assembly is used when it is written (`same_name_refuted`); when a project has errors, the others are still written (`failed_build_writes_refuted`).
- C98: `+`, `^`, `$` and `|` of a filter are not escaped (`plus_refuted`, `bar_refuted`, `include/lib.h:260-264`); a directory names no files, because an unset variable is listed instead of it (`directory_refuted`, `modules/april/util.h:38-71`); `*.cs` without a directory is refused (`bare_filter_refuted`).
- C99: `april compile` ends with 0 when the program has errors (`failed_compile_refuted`, `modules/april/april.cpp:424-434`); `april help run` fails an assertion (`help_refuted`); the command `build` of the help text and the level 4 of the description do not exist.
- C100: `add_file` returns at the first file that is no source (`mixed_files_refuted`, `modules/april/compiler.cpp:53-55`); the default name of a project is not made different (`same_directory_refuted`, 127-132); the name in a project file is ignored (`project_name_refuted`, 377); of two solutions with a project of the same name the last is loaded for both (`two_solutions_refuted`).
- C101: `continue` in a `do` loop skips the test also in whole programs (`do_continue_refuted`); `for (...) { int q = i * i; s += q + 1; }` is refused from level 2 on (`squares_refuted`, `modules/compile/xilx.cpp:447-462`).
- C102: a visit that asks for a visit in an earlier step is never made (`backward_refuted`, `include/modules/core.h:5823-5894`); a second `ast_walk` with the same context visits nothing, because its index is at the end.
- C103: a local counts in its whole block, also before its declaration (`hoisted_refuted`, `itself_refuted`); a duplicate local is reported and then its null variable is used (`duplicate_local_refuted`, `modules/compile/ast.cpp:3990-3993`); a field of the base class is not found by its plain name (`inherited_refuted`); a method of a nested class finds the instance fields of the class around it (`nested_outer_refuted`).
- C104: the right side of an assignment is evaluated before the object and the index on the left (`order_refuted`, `modules/compile/expression.cpp:1150-1345`); compound assignments and `++` evaluate them again (`twice_refuted`, `receiver_twice_refuted`); `o.P++` fails an assertion (`property_inc_refuted`); `o.P += v` calls the setter on the wrong values (`property_compound_refuted`); `o[i] = v` never pushes `v` (`indexer_assign_refuted`); the values of `a[i] = v` and `o.P = v` cannot be used (`element_value_refuted`, `property_value_refuted`); `x.f().m();` and `x.P.m();` pop the receiver before the call (`chain_refuted`, `property_chain_refuted`, 1799-1829); `T.f` of a static field takes an object from the stack (`static_refuted`); the setter of a virtual indexer is called without dispatch (`indexer_virtual_refuted`, `modules/compile/expression.cpp:1283`).
- C106: `P.x`, where `P` is a property by its plain name, makes the compiler call itself for ever: the left side of the parent is `P` itself (`left_property_refuted`, `modules/compile/expression.cpp:1958-1972`); for the same reason a static field by its plain name is rejected in front of a dot and a field of no object is accepted there in a static method (`plain_static_refuted`, `left_static_refuted`, 1929-1932); a static field by its plain name is rejected in a method that is not static, and the message reads an unset variable; calls are not checked: `T.method()` without an object is accepted (`static_call_refuted`, 2706-2730); a local variable takes over the call `o.f()` (`shadowed_refuted`, `modules/compile/ast_utils.cpp:1541-1546`); a nested type behind a dot reads a null pointer and a name of two methods ends in an exception nobody catches (`crash_refuted`, 1405-1406, `modules/core/core.cpp:3376-3377`); a private member hides an accessible one (`hidden_refuted`); a name of two interfaces is taken from the first (`ambiguous_refuted`, `modules/core/core.cpp:5021-5036`); `Dog.Alias.count` is rejected and `Dog.Alias.name` accepted (`alias_refuted`).
- C107: an exception outside of the `try` statements of a method that has one, and `break` or `continue` out of a `try` without `finally`, read past the table of blocks (`unguarded_refuted`, `break_refuted`); `throw;` does nothing (`rethrow_refuted`, `modules/exec/commands.cpp:5975-5995`); how `catch` clauses end does not count when the end of a `try` is searched for, so that no jump is made behind it and the next clause runs without an exception (`fall_refuted`, `modules/compile/statements.cpp:1663-1681`); the same behind `while (true)` with a `break` in it (`endless_refuted`, 862-868); an exception in a `finally` clause takes the place of the one that waits, or leaves its clause waiting (`swapped_refuted`, `stale_refuted`), and so does `break` out of a `finally` clause (`break_finally_refuted`).
- C108: lengths that are given and the number of dimensions are not compared with the initialiser: `new int[2] { 1, 2, 3 }` and `new int[] { { 1, 2 }, { 3, 4 } }` write behind the array (`given_refuted`, `depth_refuted`, `modules/compile/ast.cpp:4782-4812`); arrays of several dimensions are filled behind their memory (`several_refuted`, with C45); elements are not converted, so that `new long[] { 1 }` has an upper half from the stack (`narrow_refuted`, `modules/compile/expression.cpp:3302`); the statement `new int[] { 7 };` leaves two units on the stack without optimisation (`statement_refuted`, 614-626, 2588); 33 levels of braces are looked up behind the table, the error for them is never reported (`levels_refuted`, `overflow_refuted`, `modules/core/core.cpp:7830`).
- C109: from level 1 on an operand that is a string constant makes a constant text of any binary expression, so that `s ?? "x"` is `nan"x"` and `s = "abc";` stores nothing (`fold_refuted`, `coal_string_constant`, `assign_string_refuted`, `modules/core/expression_executor.cpp:547-549`); `x ??= e` has no value if `x` is not `null` (`coalAssign_value_refuted`, `coalAssign_null_refuted`, `modules/compile/expression.cpp:1514-1545`); enums are not boxed (`enum_refuted`); the result of a call is converted instead of boxed, which the machine refuses (`call_box_refuted`, `call_string_refuted`); `f(1)` for an `object` parameter and `object o = 1 + 2` have no code from level 1 on (`constant_object_refuted`); `(string) i` is a box without a test (`cast_box_refuted`); `i is T` reads the number as an address (`is_value_refuted`).
- C110: `Math.Abs` of the smallest `Int8` or `Int16` is the negative argument (`abs_smallest_refuted`, `core_lib/System/Math.cs:117-125`); for the smallest `Int32` or `Int64` the negation is undefined behaviour of the interpreter (`abs_undefined_refuted`, 127-135).
- C111: `WriteLine(UInt64)` writes no line end (`uint64_line_refuted`, `modules/rtlib/system.cpp:139-142`); `WriteLine(null)` writes nothing (`null_line_refuted`, 43-52); `WriteLine(Boolean)` ends with "\r\n" (`boolean_line`, `core_lib/System/Console.cs:143-147`); a string ends at its first character 0 (`nul_refuted`).
- C111: nothing sets a locale, so that a character outside of the locale "C" sets `badbit` of `std::wcout` and all later output is lost (`lost_refuted`).
- C111: `GetLength` of a dimension that the array does not have reads outside of its header (`dimension_refuted`, `include/modules/mm.h:105-120`); 65536 is taken for 0 (`dimension_wraps_refuted`); the command of an internal function keeps the sizes of the first method that called it (`redeclared_refuted`, `modules/exec/commands.cpp:4003-4022`).
- C111, not modelled: `Type.Name` gives a new `rt_string_t` with "AAAA" where strings are `const char_t *` (`modules/rtlib/reflection.cpp:52-55`); `Tuple.Get` gives null.
- C112: the commands for `pop argument` and `pop argument addr` are made under the same key (`modules/exec/commands.cpp:3234-3240`): an assignment to a `ref` parameter after one to an ordinary parameter of the same type and offset changes only the callee's copy of the address (`ref_refuted`), and the other way round an integer is taken for an address (`ref_fault_refuted`). `ref_out_arguments.cs` of the repository does not show it: the variable is 100 before it is set to 100.
- C112: a delegate of a static method leaves the unit of its instance on the stack (`static_delegate_refuted`, `include/modules/exec.h:998-1008`); a delegate of a virtual method runs the method of the base class (`virtual_delegate_refuted`, the call type is not looked at in `modules/exec/commands.cpp:4656-4665`); there is no command for the value of an assignment to a `ref` parameter (`ref_value_refuted`).
- C113: `new S()` only removes the address of its target, clearing is commented out (`new_default_refuted`, `modules/compile/expression.cpp:3176-3205`); `this` as a value pushes an address that nothing copies or removes (`this_refuted`, `3413-3447`); `__need_object_copy` (`2363-2393`) goes up beyond the argument list, so that in `F(s).x` the argument is not copied (`argument_refuted`). Not modelled, read only: `a = b = c` for structs does not assign `a`; an element of an array of structs is copied with the size of the array type (`3024-3032`); `new S(1);` as a statement calls the constructor without a `this`.
- C114: after an embedded source the shared section pointer stands on the text behind it and is moved once more before it is looked at, so that this text is never read (`rest_refuted`, `modules/compile/analyze_tree.cpp:4005`); the name of a language is ended by white space and `?>` only, not by the end of the file or of the embedded source (`inside_refuted`, `empty_refuted`, `modules/compile/utils.cpp:116-130`). Read only: the beginning and the end of an embedded source are also recognised in string literals and comments, the code that skips them is commented out (`utils.cpp:77-82`).
- C115: `find_constructor` searches the base classes too (`modules/compile/ast_utils.cpp:1737`), so that `new D(1)` runs a constructor of a base class on an object of class `D` whose own part is not constructed (`inherited_refuted`), and the same for `: base(...)`; initial values must be constant expressions, otherwise an exception ends the compilation (`value_refuted`, `ast.cpp:2583-2585`); initial values equal to the default are not assigned (`zero_refuted`, `ast.cpp:2587-2588`). Read only: `__init_fields` does not leave out static and constant fields, which are assigned in every new object as if they were fields of it; the order (base constructor, then initial values) is that of Java, not of C#.
- C116: `binary_expression_t::execute` returns a string as soon as one operand is a constant string, before it looks at the operator or at whether the other operand is a constant (`modules/core/expression_executor.cpp:548-552`); from `-O1` on that replaces `s = "abc"`, `s == "abc"` and `"a" + x` by constants (`assign_refuted`, `variable_refuted`). The text comes from `to_string`, which adds quotation marks and escapes (`join_refuted`, `core.cpp:1166`). The case for `A.N` stands behind the test that both operands are numbers and is never reached (`qualified_number`, `qualified_refuted`).
- C117: when a constant needs a field that is no constant and has no initial value, `__is_all_fields_initialized` says that the field is still to come and `continue_` asks to be called again, for ever (`modules/compile/ast.cpp:2801-2817, 3046-3055`): `class A { int n; const int C = n; }` (`endless`). The value of a constant is kept as it was computed, whatever the declared type is (`modules/compile/ast.cpp:3056-3059`): `const byte B = 300;` is 300 (`range_refuted`).
- C118: `__to_namespace` of the assembly reader passes the full name of a namespace to `mname_t::to_mname`, which makes a name with one part (`modules/core/assembly_reader.cpp:296-297`, `modules/core/core.cpp:1050-1055`). When the text was not known before, the namespace has no parent and `System.Text` is one part for everyone from then on (`dotted_refuted`).
- C119: `__extends_params_offset` is an unsigned 16-bit number that begins with -1, so it is never below 0, and the parser appends packed parameters by the overload that does not set it (`modules/rt/layout.cpp:743-752, 810-816`, `modules/rt/__layout.h:470`). The pointer to packed arguments is always the second unit of the arguments: right for `Tuple`, wrong for static methods and after other parameters (`static_refuted`, `second_refuted`).
- C120: `__validate_entry_point` tests `bit_has_flag(decorate.access, access_value_t::public_)`, but access modifiers are numbers, not flags: `private` (3) and `protected internal` (5) contain the bit of `public` (1) (`modules/core/system_type.cpp:1021`, `include/modules/core.h:1503-1509`), so a private entry point is accepted (`private_refuted`).
- C121: `__find_type` calls itself with the parameters of each enclosing type with arguments, but walks the enclosing types of `this` each time, so it never ends for a class in a class with arguments (`modules/core/core.cpp:4281-4307`, `enclosed_refuted`).
- C121: in a generic class `transform_type` gives no type for a parameter that is not the class's own, and only the outermost type falls back to what is written: `U[]` becomes an array of the null type and `List<U>` a list of no type (`own_array_refuted`). The enclosing type of a generic type is dropped (`host_refuted`).
- C121: `generic_method_t::__revise_type` has no case for arrays, and `has_generic_params` does not look into them (`modules/core/core.cpp:2145-2181, 3235-3251`): `T[]` stays as it is (`method_array_refuted`).
- C122: `__is_value_type` is `!__is_ref_type`, and a type parameter without a clause is no reference type, so it passes for `struct` (`modules/compile/ast.cpp:1498-1501`, `value_refuted`).
- C122: `__search_constraint` uses the current method without a test; in the type of a field there is none (`modules/compile/ast.cpp:1522-1523`, `field_refuted`). A clause for a name that is no parameter is accepted, and then each use of the generic uses a null pointer (`unknown_refuted`).
- C122: a type parameter is not taken to convert to itself (`self_refuted`); with `where T : U` structs are refused (`struct_constraint_refuted`); a constraint that is a parameter of the enclosing class is not checked inside of it (`enclosing_refuted`); the arguments of enclosing types overwrite those of the generic itself (`shadow_refuted`); the messages for `class` and `struct` are exchanged (`messages_refuted`).
- C123: `rt_generic_type_t::pre_new` returns when the size is known, though the table may not be built (`modules/rt/rt.cpp:1273-1274`; the other `pre_new` tests both, `535-537`). A method that reads a field of an object of a generic class that it creates makes the size known first; virtual calls and casts then follow a null pointer (`generic_refuted`, `generic_lost`). Boxing always asks for the size first (`modules/exec/commands.cpp:2229`, `box_refuted`).
- C123: `rt_array_type_t::pre_new` builds no table (`modules/rt/rt.cpp:1792-1803`, `array_refuted`), and makes the element type ready as if one of it was created, which throws for an interface (`interface_array_refuted`).
- C123: the room for the elements of an array of objects is found from the size of the objects, not of references (`modules/mm/mm.cpp:143`, `reference_room_refuted`).
- C123: `simple_vtbl` is only set when it is set (`modules/rt/rt.cpp:1160-1161`), so it never is; nothing depends on it (`table_own`).
- C124: for an object of a generic type the method gets that type as its host, though it may be of a base class: the code is read from the assembly of the object's class (`modules/exec/parser.cpp:65`, `103`, `116`, `assembly_refuted`), and names of type parameters are looked up among those of the object's class (`wrong_type_refuted`).
- C124: for an object of another type the method of a generic base class is taken as it is, without type arguments (`modules/exec/commands.cpp:4341`); the assertion that it can run does not hold (`modules/exec/parser.cpp:42`, `generic_base_refuted`).
- C124: a place of a virtual table has no room for type arguments of a method (`generic_method_refuted`).
- C125: `__compile_method_variable` pushes no object for a plain name (`modules/compile/expression.cpp:1870-1915`): `v = f;` for a method of the same object takes the address of the variable for the object (`plain_refuted`).
- C125: the check for static members is not made for methods used as values (it is in `__do_delegate_assign`, which nobody calls): `v = e.s;` writes the delegate into the object (`static_of_object_refuted`), `v = T.f;` is accepted (`method_of_type_refuted`).
- C125: several methods behind a dot throw `method_compare_error_t`, but `logic_error_t` is caught (`modules/compile/ast_utils.cpp:1420`, `dot_overload_refuted`).
- C125: in `x = g(f)` the type of `x` decides which `f` is passed (`modules/compile/ast_utils.cpp:60-89`, `argument_refuted`); `var v = f;` with several `f` is not noticed (`var_refuted`).
- C126: `pick_leaves` starts below the root (`algorithm/__collections.h:1246-1270`): a tree of one node has no leaf (`leaf_alone_refuted`).
- C126: `remove_child` leaves `parent` and `next_sibling` in the removed node (`removed_refuted`); `append_child` does not take a node out of where it is (`twice_refuted`).
- C127: `walk_list_t::walk` sets the count to where the walked part ends (`algorithm/__collections.h:1519`): everything behind it is dropped (`part_refuted`), or elements are added (`behind_refuted`).
- C127: `respool_wrapper_t::release` does not notice an object that was released before (`twice_refuted`).
- C128: `load_main_assembly` does not enter the main assembly into the map of names (`modules/rt/rt.cpp:2329-2338`): a library that refers back to it loads it again (`main_twice_refuted`).
- C128: `load_assembly` follows the pointer of the provider before testing it (`modules/rt/rt.cpp:2350-2352`, `null_refuted`).
- C129: `__property_index_analyzer_t::__analyzer` does not know the outcome `auto_determined` (`modules/core/core.cpp:3615-3630`): inside a generic class an indexer with the class's type parameter makes the compiler throw (`own_parameter_refuted`, `other_parameter_refuted`).
- C129: `__walk_index` does not compare the indices with the dimensions of the array (`modules/compile/ast_utils.cpp:1073-1078`, `rank_refuted`).
- C130: `__build_vfunctions` compares the methods of the table without the manager of type parameters, and takes the prototypes of all base classes with the manager of the object's class, or none (`modules/rt/rt.cpp:841-871`): overriding a method with a type parameter in its prototype uses the null pointer (`type_parameter_refuted`, `type_parameter_generic_refuted`, `below_generic_refuted`, `generic_method_refuted`).
- C130: `rt_generic_type_t::search_method` finds nothing (`modules/rt/rt.cpp:1546-1551`): a call that names the override of a method of a generic class is an exception (`generic_base_refuted`).
- C130: `get_virtual_method_offset` makes the type of the base class without a manager (`modules/rt/rt.cpp:3164`): with `class K<T> : G<T>`, calling a virtual method of `K` uses the null pointer (`open_base_refuted`).
- C131: `__build_interfaces` compares the methods of the class with the manager of the interface's type parameters, whose parent is that of the object's class (`modules/rt/rt.cpp:1012`, `916`): a type parameter of the class is taken for the interface's of the same name (`captured_refuted`, `nested_refuted`), and one of a base class is not known (`below_generic_refuted`).
- C132: the method that the virtual machine makes for an item is `push argument 0`, `push field`, `ret` also when the item is a structure (`modules/rt/rt.cpp:1359-1364`); `ret` of a structure drops the address of the place for it (`modules/exec/commands.cpp:5553-5600`), nothing is copied (`structure_item_refuted`).
- C133: `pool_t::free` ends with `::operator delete(*it)`, where `it` was erased or is the end (`common/common.cpp:420-427`): `free_refuted`. Bytes that are no object are not recorded (`common/common.cpp:410-411`) and never given back: `bytes_refuted`. An object is recorded before its constructor runs (`include/common.h:1829-1830`): `throwing_refuted`. `default_memory_t::realloc` frees before it allocates and copies nothing (`common/common.cpp:388-389`): `realloc_refuted`.
- C134: the iterators of a zip share the positions in the container (`algorithm/__collections.h:2216-2224`), so that a second loop sees the first row only: `again_refuted`.
- C135: `pos_of` of the end of the code gives 0:0 (`modules/compile/analyze_utils.cpp:17-18`): `end_refuted`. The loop to the start of a line ends one before the code when there is no line end before (`modules/core/core.cpp:747-754`): `first_line_refuted`. At the end of the code `end` stays at the zero, which `format_code_line` includes (`modules/core/core.cpp:757-764`, `modules/compile/compile.cpp:1162`): `last_line_refuted`.
- C136: `new_array` computes the bytes from the first length alone and from elements of at most 8 bytes (`modules/mm/mm.cpp:142-144`), so the rest of the array is neither allocated nor cleared: `several_refuted`, `large_refuted`.
- C137: namespaces and hosts are separated by the same dot (`modules/core/core.cpp:4671-4690`), so a type of the namespace `A.B` and one nested in the type `A.B` have the same identity: `nested_refuted`.
- C138: `rt_general_type_t::get_name` writes the name of a nested type only if it is generic (`modules/rt/rt.cpp:574-594`): `nested_refuted`. Type parameters and arguments are written alike: `template_refuted`.
