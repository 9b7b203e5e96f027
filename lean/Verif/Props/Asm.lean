import Verif.Proof.Asm

/-
  C86: the declarations of an assembly come back from its file as they were written.
-/

namespace Verif.Props

open Verif.Asm Verif.Asm.Spec

namespace AsmExample

/-- A program given by finite tables. -/
def world (texts : List ((Id × String) × String)) (nums : List ((Id × String) × Nat))
    (ones : List ((Id × String) × Id)) (manys : List ((Id × String) × List Id))
    (gtypes : List (Id × GType)) (foreign : List Id) (types typeDefs : List Id) (self : Id)
    (loads : List Load) : World where
  text e f := (texts.lookup (e, f)).getD ""
  num e f := (nums.lookup (e, f)).getD 0
  one e f := ones.lookup (e, f)
  many e f := (manys.lookup (e, f)).getD []
  gtype e := (gtypes.lookup e).getD .null
  own e := !foreign.contains e
  types := types
  typeDefs := typeDefs
  self := self
  loads := loads

theorem lookup_mem {α β : Type} [BEq α] [LawfulBEq α] (l : List (α × β)) (a : α) (b : β)
    (h : l.lookup a = some b) : (a, b) ∈ l := by
  induction l with
  | nil => cases h
  | cons p l ih =>
    obtain ⟨x, y⟩ := p
    simp only [List.lookup] at h
    split at h
    · rename_i hb
      rw [beq_iff_eq] at hb
      cases h; subst hb
      exact List.mem_cons_self ..
    · exact List.mem_cons_of_mem _ (ih h)

theorem world_short {texts nums ones manys gtypes foreign types typeDefs self loads}
    (h : manys.all (fun p => p.2.length < 512) = true) :
    ShortLists (world texts nums ones manys gtypes foreign types typeDefs self loads) := by
  intro e f
  show ((manys.lookup (e, f)).getD []).length < 512
  cases hl : manys.lookup (e, f) with
  | none => simp
  | some l =>
    have := List.all_eq_true.mp h _ (lookup_mem _ _ _ hl)
    simpa using this

theorem world_params {texts nums ones manys gtypes foreign types typeDefs self loads}
    (h : gtypes.all (fun p => match p.2 with
      | .genericParam j => j < 2 ^ 20
      | _ => true) = true) :
    SmallParams (world texts nums ones manys gtypes foreign types typeDefs self loads) := by
  intro t j hg
  have hg : (gtypes.lookup t).getD .null = .genericParam j := hg
  cases hl : gtypes.lookup t with
  | none => rw [hl] at hg; cases hg
  | some g =>
    rw [hl] at hg
    have hg : g = .genericParam j := hg
    subst hg
    have := List.all_eq_true.mp h _ (lookup_mem _ _ _ hl)
    simpa using this

theorem world_own {texts nums ones manys gtypes foreign types typeDefs self loads}
    (h : ones.all (fun p => !methodColumns.contains p.1.2 || !foreign.contains p.2) = true) :
    OwnMethods (world texts nums ones manys gtypes foreign types typeDefs self loads) := by
  intro e f m hf ho
  have := List.all_eq_true.mp h _ (lookup_mem _ _ _ (show ones.lookup (e, f) = some m from ho))
  have hc : methodColumns.contains f = true := by simpa using hf
  simp only [hc, Bool.not_true, Bool.false_or] at this
  exact this

/-- The objects that are read back, when writing and reading succeed. -/
def readBack (W : World) (fuel : Nat) : Option (List (Node × List (String × Val))) :=
  match write W fuel with
  | .error _ => none
  | .ok (t, _) =>
    match read t with
    | .error _ => none
    | .ok g => some g

/-- How writing or reading fails. -/
def failure (W : World) (fuel : Nat) : Option Err :=
  match write W fuel with
  | .error x => some x
  | .ok (t, _) =>
    match read t with
    | .error x => some x
    | .ok _ => none

/-- One attribute of an object that was read back. -/
def attr (W : World) (fuel : Nat) (n : Node) (f : String) : Option Val :=
  ((readBack W fuel).bind (·.lookup n)).bind (·.lookup f)

/--
  ```
  class List<T> { T[] items; T get(int index) {…} }
  [Mark(7)] class App : Base, List<App> { static void main() {…} List<App> all { get {…} } }
  ```
  in the assembly 1; `Base` and `int` come from another assembly.
  10 `List`, 11 its `T`, 12 `T[]`, 13 `items`, 14 `get`, 15 `index`, 20 `App`, 21 `main`,
  22 `all`, 23 the get method, 24 `List<App>`, 30 `Base`, 31 `int`, 32 the other assembly,
  40 the attribute, 41 the class `Mark`, 42 its constructor, 43 the parameter, 44 the
  argument, 45 the constant 7, 46 `void`.
-/
def app : World := world
  [((1, "name"), "app"), ((10, "name"), "List"), ((11, "name"), "T"), ((13, "name"), "items"),
   ((14, "name"), "get"), ((15, "name"), "index"), ((20, "name"), "App"),
   ((21, "name"), "main"), ((22, "name"), "all"), ((23, "name"), "get_all"),
   ((30, "name"), "Base"), ((31, "name"), "int"), ((32, "name"), "system"),
   ((41, "name"), "Mark"), ((42, "name"), "Mark"), ((43, "name"), "n"), ((46, "name"), "void")]
  [((20, "vtype"), 18), ((21, "decorate"), 3), ((12, "dimension"), 1), ((45, "value"), 7)]
  [((1, "entry_point"), 21), ((13, "type"), 12), ((12, "element_type"), 11),
   ((14, "type"), 11), ((15, "type"), 31), ((21, "type"), 46), ((22, "type"), 24),
   ((23, "type"), 24), ((22, "get_method"), 23), ((24, "template"), 10),
   ((30, "assembly"), 32), ((31, "assembly"), 32), ((46, "assembly"), 32),
   ((40, "type"), 41), ((40, "constructor"), 42), ((43, "type"), 31), ((44, "value"), 45)]
  [((10, "generic_params"), [11]), ((10, "methods"), [14]), ((10, "fields"), [13]),
   ((14, "params"), [15]), ((20, "methods"), [21, 23]), ((20, "properties"), [22]),
   ((20, "super_types"), [30, 24]), ((24, "args"), [20]), ((20, "attributes"), [40]),
   ((41, "methods"), [42]), ((42, "params"), [43]), ((40, "arguments"), [44])]
  [(10, .general true), (11, .genericParam 0), (12, .array), (20, .general true),
   (24, .generic), (30, .general false), (31, .general false), (41, .general true),
   (46, .general false)]
  [] [10, 20, 41] [] 1 [.type 24, .method 23, .field 13]

/-- `class A { m1, …, m512 }` -/
def wide : World := world [((10, "name"), "A")] [] []
  [((10, "methods"), List.range 512)] [(10, .general true)] [] [10] [] 1 []

/-- A method (11) that implements a method of the interface 20 or of the interface 21. -/
def owned (i : Id) : World := world
  [((10, "name"), "A"), ((11, "name"), "m"), ((20, "name"), "I"), ((21, "name"), "J")] []
  [((11, "owner"), i)] [((10, "methods"), [11])]
  [(10, .general true), (20, .general true), (21, .general true)] [] [10, 20, 21] [] 1 []

/-- `class A { m() }` with an attribute (12) whose class (30) and constructor (31) belong to
    another assembly (32). -/
def marked : World := world
  [((10, "name"), "A"), ((11, "name"), "m"), ((30, "name"), "Obsolete"),
   ((31, "name"), "Obsolete"), ((32, "name"), "system")] []
  [((30, "assembly"), 32), ((12, "type"), 30), ((12, "constructor"), 31), ((31, "host"), 30)]
  [((10, "methods"), [11]), ((10, "attributes"), [12])]
  [(10, .general true), (30, .general false)] [31] [10] [] 1 []

/-- An attribute with two arguments, for a constructor with two parameters. -/
def twoArguments : World := world
  [((10, "name"), "A"), ((20, "name"), "Mark"), ((21, "name"), "Mark"), ((22, "name"), "x"),
   ((23, "name"), "y")] []
  [((12, "type"), 20), ((12, "constructor"), 21), ((22, "type"), 10), ((23, "type"), 10)]
  [((10, "attributes"), [12]), ((12, "arguments"), [13, 14]), ((20, "methods"), [21]),
   ((21, "params"), [22, 23])]
  [(10, .general true), (20, .general true)] [] [10, 20] [] 1 []

/-- `class A { typedef A B; }` -/
def nested : World := world [((10, "name"), "A"), ((11, "name"), "B")] []
  [((11, "host"), 10), ((11, "type"), 10)] [((10, "type_defs"), [11])]
  [(10, .general true)] [] [10] [11] 1 []

/-- A program that calls the method (31) of another assembly (32) whose type parameter (33)
    stands in its parameter (34) as in `void sort<T>(T[] items)`; 35 is `T[]`. -/
def caller : World := world
  [((10, "name"), "A"), ((30, "name"), "Algorithm"), ((31, "name"), "sort"),
   ((32, "name"), "system"), ((34, "name"), "items")] []
  [((30, "assembly"), 32), ((31, "host"), 30), ((34, "type"), 35), ((35, "element_type"), 33)]
  [((31, "params"), [34])]
  [(10, .general true), (30, .general false), (33, .genericParam 0), (35, .array)]
  [31] [10] [] 1 [.method 31]

end AsmExample

open AsmExample

/--
  C86.  For every program whose lists have fewer than 512 elements and whose tables have
  at most 2^20 rows, and whose declarations name only methods of the assembly itself: when
  writing it and reading it back succeed, every object of the reader stands for a
  declaration of the program (`back`), every object has the attributes listed for its kind
  (`restored`), and each of these is the attribute of the declaration it stands for (`Kept`).
  Every type and typedef of the program and the assembly itself have an object, and no two
  objects stand for the same class, generic type, array type or imported type or method.
  Missing, and shown below: longer lists, attributes of other assemblies, and the
  attributes that are not in the list (`owner`, `mtype`, the attributes of methods).
-/
theorem declarations_roundtrip_partial (W : World) (fuel : Nat) (t : Tables)
    (rs : List Ref) (g : List (Node × List (String × Val)))
    (hw : write W fuel = .ok (t, rs)) (hr : read t = .ok g)
    (short : ShortLists W) (small : SmallTables t)
    (params : ∀ x j, W.gtype x = .genericParam j → j < 2 ^ 20) (own : OwnMethods W) :
    ∃ back : Node → Id,
      (∀ k i, i < (t k).length → k ≠ .genericArgument → k ≠ .nestType → k ≠ .superType →
        ∃ fs, ((k, i), fs) ∈ g) ∧
      (∀ n fs, (n, fs) ∈ g → fs.map Prod.fst = restored n.1 ∧
        ∀ f v, (f, v) ∈ fs → Kept W back (back n) f v) ∧
      (∀ x ∈ W.types, ∃ i, i < (t .type).length ∧ back (.type, i) = x) ∧
      (∀ x ∈ W.typeDefs, ∃ i, i < (t .typeDef).length ∧ back (.typeDef, i) = x) ∧
      (∃ i, i < (t .assembly).length ∧ back (.assembly, i) = W.self) ∧
      (∀ k ∈ [Kind.type, .typeRef, .genericType, .arrayType, .methodRef, .assemblyRef,
          .constant], ∀ i j, i < (t k).length → j < (t k).length →
        back (k, i) = back (k, j) → i = j) := by
  obtain ⟨ent, hf, _⟩ := write_good short hw
  have found : ∀ {k : Kind} {x : Id}, (∃ i : Nat, (ent k)[i]? = some x) →
      ∃ i, i < (t k).length ∧ backOf ent (k, i) = x := by
    rintro k x ⟨i, hi⟩
    refine ⟨i, ?_, backOf_eq hi⟩
    rw [hf.len]; exact (List.getElem?_eq_some_iff.mp hi).1
  refine ⟨backOf ent, ?_, ?_, fun x m => found (hf.types x m),
    fun x m => found (hf.typeDefs x m), found hf.self, ?_⟩
  · intro k i hi h1 h2 h3
    refine read_total hr ?_ hi
    cases k <;> first | decide | exact absurd rfl h1 | exact absurd rfl h2 | exact absurd rfl h3
  · intro n fs hn
    exact read_kept short params own hf small hr hn
  · intro k hk i j hi hj hb
    have hs : single k = true := by
      simp only [List.mem_cons, List.not_mem_nil, or_false] at hk
      rcases hk with rfl | rfl | rfl | rfl | rfl | rfl | rfl <;> rfl
    rw [hf.len] at hi hj
    have ei := List.getElem?_eq_getElem hi
    have ej := List.getElem?_eq_getElem hj
    rw [backOf_eq ei, backOf_eq ej] at hb
    exact hf.uniq k i j _ hs ei (hb ▸ ej)

/-- A program that meets the hypotheses is written and read back. -/
example : ∃ t rs g, write app 100 = .ok (t, rs) ∧ read t = .ok g ∧
    ShortLists app ∧ SmallParams app ∧ OwnMethods app ∧
    (t .type).length = 3 ∧ (t .method).length = 4 ∧ (t .typeRef).length = 3 ∧
    (g.lookup (.type, 1)).bind (·.lookup "super_types") =
      some (.types [some (.typeRef, 1), some (.genericType, 0)]) ∧
    (g.lookup (.arrayType, 0)).bind (·.lookup "element_type") =
      some (.type (some (.genericParam, 0))) := by
  refine ⟨_, _, _, rfl, rfl, world_short (by decide), world_params (by decide),
    world_own (by decide), ?_⟩
  decide +kernel

/--
  C86, for the references in method bodies: the reference put into a method body for a
  type, a method or a field leads to the row of that type, method or field, in the same
  correspondence.
-/
theorem loaded_references (W : World) (fuel : Nat) (t : Tables) (rs : List Ref)
    (hw : write W fuel = .ok (t, rs)) (short : ShortLists W) (small : SmallTables t)
    (params : ∀ x j, W.gtype x = .genericParam j → j < 2 ^ 20) :
    ∃ back : Node → Id, rs.length = W.loads.length ∧
      ∀ (i : Nat) l r, W.loads[i]? = some l → rs[i]? = some r → Loaded W back t l r := by
  obtain ⟨ent, hf, hlen, hl⟩ := write_good short hw
  refine ⟨backOf ent, hlen, ?_⟩
  intro i l r hi hj
  have h := hl i l r hi hj
  cases l with
  | type x =>
    have h : TypeOk W ent (some x) r := h
    by_cases he : r.extra = paramIndex
    · obtain ⟨y, hy, hg⟩ := typeOk_param hf small params h he
      cases hy
      refine .inr (.inr ⟨r.index, hg, he, ?_⟩)
      exact (Nat.mod_eq_of_lt (params x _ hg)).symm
    · cases hq : getType t r with
      | ok n =>
        have := typeOk_get hf small h hq
        cases n with
        | none =>
          refine .inl ⟨hq, ?_⟩
          simp only [Option.map_none, Option.bind_some, present] at this
          split at this
          · assumption
          · cases this
        | some n =>
          refine .inr (.inl ⟨n, hq, ?_⟩)
          simp only [Option.map_some, Option.bind_some, present] at this
          split at this
          · cases this
          · exact Option.some.inj this
      | error e =>
        exfalso
        have key : ∀ k, Denotes ent k r x → (∃ n, getType t r = .ok n) → False := by
          rintro k _ ⟨n, hn⟩; rw [hn] at hq; cases hq
        have nn : ∀ k, Denotes ent k r x → r.isNull = false := fun k hd =>
          (denotes_get hf small hd).choose_spec.2.2.1
        have go : ∀ k, Denotes ent k r x → getType t r = getOne t k r → False := by
          intro k hd hk
          obtain ⟨i, h1, _⟩ := denotes_get hf small hd
          rw [hk, h1] at hq; cases hq
        have ex : ∀ k, Denotes ent k r x → r.extra = extra k := fun k hd =>
          (denotes_get hf small hd).choose_spec.2.2.2.1
        simp only [TypeOk] at h
        cases hx : W.gtype x with
        | general b =>
          rw [hx] at h
          cases b
          · exact go .typeRef h (by simp [getType, nn _ h, ex _ h, extra])
          · exact go .type h (by simp [getType, nn _ h, ex _ h, extra])
        | generic =>
          rw [hx] at h
          exact go .genericType h (by simp [getType, nn _ h, ex _ h, extra])
        | array =>
          rw [hx] at h
          exact go .arrayType h (by simp [getType, nn _ h, ex _ h, extra])
        | genericParam j =>
          rw [hx] at h
          rcases h with h | h
          · exact go .genericParam h (by simp [getType, nn _ h, ex _ h, extra])
          · rw [h] at he; exact he rfl
        | typeDefParam =>
          rw [hx] at h
          exact go .typeDefParam h (by simp [getType, nn _ h, ex _ h, extra])
        | null =>
          rw [hx] at h
          have h : r = Ref.null := h
          subst h
          cases hq
  | method m =>
    have h : MethodOk W ent (some m) r := h
    simp only [MethodOk] at h
    simp only [Loaded]
    refine ⟨r.index, rfl, ?_⟩
    split at h
    · rename_i hm
      obtain ⟨i, _, h2, _, h4, h5, h6, h7⟩ := denotes_get hf small h
      rw [if_pos hm, h5]
      exact ⟨h6, h4, h7, h2⟩
    · rename_i hm
      obtain ⟨i, _, h2, _, h4, h5, h6, h7⟩ := denotes_get hf small h
      rw [if_neg hm, h5]
      exact ⟨h6, h4, h7, h2⟩
  | field f =>
    have h : Denotes ent .field r f := h
    obtain ⟨i, _, h2, _, h4, h5, h6, h7⟩ := denotes_get hf small h
    exact ⟨i, h5, h6, h7, h2⟩

/-- The references of the three requests of the example. -/
example : ∃ t rs, write app 100 = .ok (t, rs) ∧
    rs = [Ref.of 0 1 2, Ref.of 2 1 0, Ref.of 0 1 0] ∧ ShortLists app ∧ SmallParams app :=
  ⟨_, _, rfl, by decide +kernel, world_short (by decide), world_params (by decide)⟩

/-- C86 fails for long lists: a class with 512 methods is read back with none. -/
theorem wide_class_refuted : (wide.many 10 "methods").length = 512 ∧
    attr wide 10 (.type, 0) "methods" = some (.many []) := by
  decide +kernel

/-- C86 fails for explicit implementations: two programs that differ in the interface a
    method is an implementation for are read back as the same. -/
theorem owner_refuted : (owned 20).one 11 "owner" ≠ (owned 21).one 11 "owner" ∧
    (readBack (owned 20) 20).isSome ∧ readBack (owned 20) 20 = readBack (owned 21) 20 := by
  decide +kernel

/-- C86 fails for attributes of other assemblies: the constructor that is read back is the
    first method of the assembly itself, here the method `m`. -/
theorem foreign_attribute_refuted :
    marked.one 12 "constructor" = some 31 ∧ marked.many 10 "methods" = [11] ∧
    attr marked 20 (.attribute, 0) "constructor" = some (.one (some (.method, 0))) ∧
    attr marked 20 (.type, 0) "methods" = some (.many [(.method, 0)]) := by
  decide +kernel

/-- An attribute with two arguments for a constructor with two parameters is refused. -/
theorem two_arguments_refuted :
    (twoArguments.many 12 "arguments").length = (twoArguments.many 21 "params").length ∧
    failure twoArguments 20 = some .argumentCount := by
  decide +kernel

/-- A typedef inside a class is written twice: it is read back both as a typedef of the
    class and as another one, without class. -/
theorem nested_typedef_refuted :
    ∃ t rs, write nested 20 = .ok (t, rs) ∧ (t .typeDef).length = 2 ∧
      attr nested 20 (.type, 0) "type_defs" = some (.many [(.typeDef, 1)]) := by
  refine ⟨_, _, rfl, ?_⟩
  decide +kernel

/-- A program that calls a method `sort<T>(T[] items)` of another assembly is written, and
    cannot be read. -/
theorem foreign_generic_refuted :
    (∃ t rs, write caller 20 = .ok (t, rs)) ∧ failure caller 20 = some .unexpected := by
  refine ⟨⟨_, _, rfl⟩, ?_⟩
  decide +kernel

end Verif.Props
