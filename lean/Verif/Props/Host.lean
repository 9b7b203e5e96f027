import Verif.Proof.Host
import Verif.Props.Asm

/-
  C89: at run time every method, field and nested class of an assembly belongs to the class
  it was declared in, and a class is found by its name.
-/

namespace Verif.Props

open Verif.Asm Verif.Asm.Spec Verif.Host Verif.Host.Spec

namespace HostExample

open AsmExample

/--
  ```
  class Empty { }
  class Outer { class Inner { void g() {…} class Deep { } } void f() {…} int x; int y; }
  class Last { }
  class Program { static void Main() {…} int z; }
  ```
  10 `Empty`, 20 `Outer`, 21 `Inner`, 22 `g`, 23 `Deep`, 24 `f`, 25 `x`, 26 `y`, 30 `Last`,
  40 `Program`, 41 `Main`, 42 `z`, 50 `void`, 51 `int` of another assembly 52.
-/
def program : World := world
  [((1, "name"), "app"), ((10, "name"), "Empty"), ((20, "name"), "Outer"),
   ((21, "name"), "Inner"), ((22, "name"), "g"), ((23, "name"), "Deep"), ((24, "name"), "f"),
   ((25, "name"), "x"), ((26, "name"), "y"), ((30, "name"), "Last"), ((40, "name"), "Program"),
   ((41, "name"), "Main"), ((42, "name"), "z"), ((50, "name"), "void"), ((51, "name"), "int"),
   ((52, "name"), "system")]
  []
  [((1, "entry_point"), 41), ((22, "type"), 50), ((24, "type"), 50), ((25, "type"), 51),
   ((26, "type"), 51), ((41, "type"), 50), ((42, "type"), 51), ((21, "host"), 20),
   ((23, "host"), 21), ((22, "host"), 21), ((24, "host"), 20), ((25, "host"), 20),
   ((26, "host"), 20), ((41, "host"), 40), ((42, "host"), 40), ((50, "assembly"), 52),
   ((51, "assembly"), 52)]
  [((20, "methods"), [24]), ((20, "fields"), [25, 26]), ((20, "nest_types"), [21]),
   ((21, "methods"), [22]), ((21, "nest_types"), [23]), ((40, "methods"), [41]),
   ((40, "fields"), [42])]
  [(10, .general true), (20, .general true), (21, .general true), (23, .general true),
   (30, .general true), (40, .general true), (50, .general false), (51, .general false)]
  [] [10, 20, 21, 23, 30, 40] [] 1 [.method 22, .field 42, .field 26]

/-- The program with `Main` in the nested class `Inner`. -/
def nestedMain : World := { program with
  one := fun e f => if (e, f) = (1, "entry_point") then some 22 else program.one e f }

/--
  ```
  class A { class Node { } }
  class B { class Node { } }
  ```
  10 `A`, 11 `A.Node`, 20 `B`, 21 `B.Node`.
-/
def twins : World := world
  [((1, "name"), "lib"), ((10, "name"), "A"), ((11, "name"), "Node"), ((20, "name"), "B"),
   ((21, "name"), "Node")] []
  [((11, "host"), 10), ((21, "host"), 20)]
  [((10, "nest_types"), [11]), ((20, "nest_types"), [21])]
  [(10, .general true), (11, .general true), (20, .general true), (21, .general true)]
  [] [10, 11, 20, 21] [] 1 []

/-- A program whose only class has a method that names `B.Node` of the assembly above:
    20 `B`, 21 `B.Node`, 30 the class, 32 the other assembly. -/
def client : World := world
  [((1, "name"), "app"), ((20, "name"), "B"), ((21, "name"), "Node"), ((30, "name"), "C"),
   ((32, "name"), "lib")] []
  [((21, "host"), 20), ((20, "assembly"), 32), ((21, "assembly"), 32)] []
  [(20, .general false), (21, .general false), (30, .general true)]
  [] [30] [] 1 [.type 21]

/-- The tables of a program, and the references in the method bodies. -/
def tables (W : World) : Tables :=
  match write W 100 with
  | .ok (t, _) => t
  | .error _ => fun _ => []

def refs (W : World) : List Ref :=
  match write W 100 with
  | .ok (_, r) => r
  | .error _ => []

end HostExample

open HostExample AsmExample

/--
  C89.  For every program whose lists have fewer than 512 elements and every table of members
  with fewer than 2^20 rows: the search for the class of a member finds, for every row of the
  table, the one class whose list of members, as it is read back, has that row.
-/
theorem member_host_partial (W : World) (fuel : Nat) (t : Tables) (rs : List Ref)
    (hw : write W fuel = .ok (t, rs)) (short : ShortLists W)
    (f : String) (k : Kind) (hf : (f, k) ∈ memberLists) (small : (t k).length < 2 ^ 20)
    (j : Nat) (hj : j < (t k).length) :
    ∃ i, searchHost t f j = some i ∧ Listed t i f k j ∧ ∀ i', Listed t i' f k j → i' = i := by
  obtain ⟨base, z, top, mono, cells⟩ := write_ranges short hf hw small
  obtain ⟨i, hi, h1, h2⟩ := range_of base j (t .type).length (by omega) (by omega)
  refine ⟨i, search_eq mono cells hi h1 h2, (listed_iff top mono cells).mpr ⟨hi, h1, h2⟩, ?_⟩
  intro i' hl
  obtain ⟨_, h3, h4⟩ := (listed_iff top mono cells).mp hl
  rcases Nat.lt_trichotomy i' i with c | c | c
  · have := mono (i' + 1) i (by omega); omega
  · exact c
  · have := mono (i + 1) i' (by omega); omega

/-- All members of the example find their classes; the classes 0 and 4 are empty. -/
example : ∃ t rs, write program 100 = .ok (t, rs) ∧ ShortLists program ∧
    (t .method).length = 3 ∧ (t .field).length = 3 ∧ (t .nestType).length = 2 ∧
    (List.range 3).map (searchHost t "methods") = [some 1, some 2, some 5] ∧
    (List.range 3).map (searchHost t "fields") = [some 1, some 1, some 5] ∧
    (List.range 2).map (searchHost t "nest_types") = [some 1, some 2] :=
  ⟨_, _, rfl, world_short (by decide), by decide +kernel⟩

/--
  C89, for the methods and fields that method bodies name: there is a correspondence `back`
  between the classes of the tables and those of the program, one class to one row, such that
  the class found for a method or field of the program is the class it was declared in.
-/
theorem used_member_class_partial (W : World) (fuel : Nat) (t : Tables) (rs : List Ref)
    (hw : write W fuel = .ok (t, rs)) (short : ShortLists W)
    (small : ∀ k, (t k).length < 2 ^ 20) :
    ∃ back : Nat → Id,
      (∀ x ∈ W.types, ∃ i, i < (t .type).length ∧ back i = x) ∧
      (∀ i j, i < (t .type).length → j < (t .type).length → back i = back j → i = j) ∧
      (∀ (n : Nat) m r, W.loads[n]? = some (.method m) → W.own m = true → rs[n]? = some r →
        ∃ i, hostOfMethod t r = some i ∧ i < (t .type).length ∧ m ∈ W.many (back i) "methods") ∧
      (∀ (n : Nat) x r, W.loads[n]? = some (.field x) → rs[n]? = some r →
        ∃ i, hostOfField t r = some i ∧ i < (t .type).length ∧ x ∈ W.many (back i) "fields") := by
  obtain ⟨ent, hf, hlen, hl⟩ := write_good short hw
  have stab : SmallTables t := fun k => Nat.le_of_lt (small k)
  have main : ∀ f k, (f, k) ∈ memberLists → ∀ r e, Denotes ent k r e →
      ∃ i, searchHost t f r.index = some i ∧ i < (t .type).length ∧
        e ∈ W.many (backOf ent (.type, i)) f := by
    intro f k hfk r e hd
    obtain ⟨base, z, top, mono, cells⟩ := write_ranges short hfk hw (small k)
    obtain ⟨j, hj, hr⟩ := hd
    have hjl := (List.getElem?_eq_some_iff.mp hj).1
    rw [← hf.len] at hjl
    have hidx : r.index = j := by
      rw [hr, ref_index]; exact Nat.mod_eq_of_lt (by have := small k; omega)
    rw [hidx]
    obtain ⟨i, hi, h1, h2⟩ := range_of base j (t .type).length (by omega) (by omega)
    refine ⟨i, search_eq mono cells hi h1 h2, hi, ?_⟩
    obtain ⟨c, e', hc, he, hm⟩ := member_at short hfk hf (small k) hi (cells i hi).1
      (cells i hi).2 h1 h2
    rw [hj] at he
    cases he
    rw [backOf_eq hc]
    exact List.mem_of_getElem? hm
  refine ⟨fun i => backOf ent (.type, i), ?_, ?_, ?_, ?_⟩
  · intro x hx
    obtain ⟨i, hi⟩ := hf.types x hx
    refine ⟨i, ?_, backOf_eq hi⟩
    rw [hf.len]; exact (List.getElem?_eq_some_iff.mp hi).1
  · intro i j hi hj hb
    rw [hf.len] at hi hj
    have ei := List.getElem?_eq_getElem hi
    have ej := List.getElem?_eq_getElem hj
    simp only [backOf_eq ei, backOf_eq ej] at hb
    exact hf.uniq .type i j _ rfl ei (hb ▸ ej)
  · intro n m r h1 ho h2
    have h : MethodOk W ent (some m) r := hl n _ r h1 h2
    simp only [MethodOk, ho, if_true] at h
    exact main "methods" .method (by decide) r m h
  · intro n x r h1 h2
    have h : Denotes ent .field r x := hl n _ r h1 h2
    exact main "fields" .field (by decide) r x h

/-- The three members that method bodies of the example name: `g`, `z` and `y`, of `Inner`,
    `Program` and `Outer`. -/
example : ∃ t r1 r2 r3, write program 100 = .ok (t, [r1, r2, r3]) ∧
    (∀ k ∈ order, (t k).length < 2 ^ 20) ∧
    hostOfMethod t r1 = some 2 ∧ hostOfField t r2 = some 5 ∧ hostOfField t r3 = some 1 ∧
    textAt (rowOf t (.type, 2)) "name" = "Inner" :=
  ⟨_, _, _, _, rfl, by decide +kernel⟩

/--
  C89, for nested classes: when no class is listed twice as a nested class, the class found
  around a class is the one whose list of nested classes, as it is read back, has it.  Missing:
  the class of the entry point, see `entry_class_refuted`.
-/
theorem nested_host_partial (W : World) (fuel : Nat) (t : Tables) (rs : List Ref)
    (hw : write W fuel = .ok (t, rs)) (short : ShortLists W)
    (smallN : (t .nestType).length < 2 ^ 20) (smallT : (t .type).length ≤ 2 ^ 20)
    (once : ∀ a b x, x ∈ W.many a "nest_types" → x ∈ W.many b "nest_types" → a = b)
    (nodup : ∀ a, (W.many a "nest_types").Nodup)
    (i c : Nat) (hc : entryClass t ≠ some c) (hr : c < (t .type).length) :
    hostOfClass t c = some i ↔ Nested t i c := by
  obtain ⟨ent, hf, _⟩ := write_good short hw
  have hfk : ("nest_types", Kind.nestType) ∈ memberLists := by decide
  obtain ⟨base, z, top, mono, cells⟩ := write_ranges short hfk hw smallN
  -- the rows of one class in the table of nested classes are the same row
  have same : ∀ (j j' : Nat) (e : Id), (ent .nestType)[j]? = some e →
      (ent .nestType)[j']? = some e → j = j' := by
    intro j j' e h1 h2
    have l1 := (List.getElem?_eq_some_iff.mp h1).1
    have l2 := (List.getElem?_eq_some_iff.mp h2).1
    rw [← hf.len] at l1 l2
    obtain ⟨a, ha, a1, a2⟩ := range_of base j (t .type).length (by omega) (by omega)
    obtain ⟨b, hb, b1, b2⟩ := range_of base j' (t .type).length (by omega) (by omega)
    obtain ⟨ca, ea, pa, qa, ma⟩ := member_at short hfk hf smallN ha (cells a ha).1 (cells a ha).2
      a1 a2
    obtain ⟨cb, eb, pb, qb, mb⟩ := member_at short hfk hf smallN hb (cells b hb).1 (cells b hb).2
      b1 b2
    rw [h1] at qa; cases qa
    rw [h2] at qb; cases qb
    have hcc := once ca cb e (List.mem_of_getElem? ma) (List.mem_of_getElem? mb)
    subst hcc
    have hab := hf.uniq .type a b _ rfl pa pb
    subst hab
    have l3 := (List.getElem?_eq_some_iff.mp ma).1
    have := (List.getElem?_inj l3 (nodup ca)).mp (ma.trans mb.symm)
    omega
  have hcm : c % 2 ^ 20 = c := Nat.mod_eq_of_lt (by omega)
  -- a row of the table of nested classes that holds the class with row `c`
  have holds : ∀ (j : Nat) row, (t .nestType)[j]? = some row → refAt row "type" = Ref.of c 1 0 →
      ∃ e, (ent .nestType)[j]? = some e ∧ (ent .type)[c]? = some e := by
    intro j row h1 h2
    have l1 := (List.getElem?_eq_some_iff.mp h1).1
    rw [hf.len] at l1
    have he := List.getElem?_eq_getElem l1
    obtain ⟨row', r, g1, g2, g3⟩ := nest_row hf he
    rw [h1] at g1; cases g1
    have hrr : r = Ref.of c 1 0 := by rw [← g2, h2]
    obtain ⟨c', k1, k2, k3, k4⟩ := type_ref hf smallT g3 (by rw [hrr]; rfl) (by rw [hrr]; rfl)
    have : c' = c := by
      rw [← k3, hrr, ref_index]; exact hcm
    subst this
    exact ⟨_, he, k1⟩
  have hget : getType t (Ref.of c 1 0) = .ok (some (.type, c)) := by
    have h1 : (Ref.of c 1 0).isNull = false := rfl
    have h2 : (Ref.of c 1 0).extra = 0 := rfl
    have h3 : (Ref.of c 1 0).index = c := hcm
    have h4 : (Ref.of c 1 0).count = 1 := rfl
    simp only [getType, getOne, h1, h2, h3, h4, Bool.false_eq_true, if_false, if_true]
    rw [if_neg (by omega)]
  simp only [hostOfClass, if_neg hc, hostOfNested]
  constructor
  · intro h
    cases hx : nestIndex t (Ref.of c 1 0) with
    | none => simp only [hx] at h; cases h
    | some j =>
      simp only [hx] at h
      obtain ⟨hj, hp, _⟩ := List.findIdx?_eq_some_iff_getElem.mp hx
      obtain ⟨i', g1, g2, _⟩ := member_host_partial W fuel t rs hw short _ _ hfk smallN j hj
      rw [h] at g1
      cases g1
      refine ⟨j, g2, ?_⟩
      rw [rowOf_eq (List.getElem?_eq_getElem hj), beq_iff_eq.mp hp]
      exact hget
  · rintro ⟨j, hl, hg⟩
    have hjl : j < (t .nestType).length := by
      obtain ⟨hi, h1, h2⟩ := (listed_iff top mono cells).mp hl
      have := mono (i + 1) _ hi
      omega
    have hrow := List.getElem?_eq_getElem hjl
    have hjl' := hjl
    rw [hf.len] at hjl'
    obtain ⟨row, r, g1, g2, g3⟩ := nest_row hf (List.getElem?_eq_getElem hjl')
    rw [rowOf_eq g1, g2] at hg
    have hn : r.isNull = false := by
      cases h : r.isNull with
      | false => rfl
      | true => simp [getType, h] at hg
    have hx : r.extra = 0 ∧ r.index = c := by
      simp only [getType, getOne, hn, Bool.false_eq_true, if_false] at hg
      repeat' split at hg
      all_goals first | (cases hg; done) | skip
      all_goals simp only [Except.ok.injEq, Option.some.injEq, Prod.mk.injEq] at hg
      all_goals first | exact ⟨by assumption, hg.2⟩ | (cases hg.1)
    obtain ⟨c', k1, k2, k3, _⟩ := type_ref hf smallT g3 hx.1 hn
    have hcc : c' = c := by rw [← k3, hx.2]
    subst hcc
    obtain ⟨j', row', q1, q2, q3⟩ := findIdx?_some_of (fun row => refAt row "type" == Ref.of c' 1 0)
      (t .nestType) j row g1 (by simp only [g2, k2, beq_self_eq_true])
    obtain ⟨e1, a1, a2⟩ := holds j' row' q2 (beq_iff_eq.mp q3)
    obtain ⟨e2, b1, b2⟩ := holds j row g1 (g2.trans k2)
    rw [a2] at b2; cases b2
    have := same j' j e1 a1 b1
    subst this
    have q1 : nestIndex t (Ref.of c' 1 0) = some j' := q1
    simp only [q1]
    obtain ⟨i', m1, m2, m3⟩ := member_host_partial W fuel t rs hw short _ _ hfk smallN j' hjl
    rw [m1, m3 i hl]

/-- The classes around the classes of the example. -/
example : ∃ t rs, write program 100 = .ok (t, rs) ∧ entryClass t = some 5 ∧
    (List.range 6).map (hostOfClass t) = [none, none, some 1, some 2, none, none] :=
  ⟨_, _, rfl, by decide +kernel⟩

/-- The hypotheses about the nested classes hold for the example. -/
example : (∀ a b x, x ∈ program.many a "nest_types" → x ∈ program.many b "nest_types" → a = b) ∧
    ∀ a, (program.many a "nest_types").Nodup := by
  have h : ∀ a, program.many a "nest_types" = if a = 20 then [21] else if a = 21 then [23]
      else [] := by
    intro a
    by_cases h1 : a = 20
    · subst h1; rfl
    · by_cases h2 : a = 21
      · subst h2; rfl
      · simp [program, world, List.lookup, h1, h2, beq_eq_false_iff_ne.mpr]
  constructor
  · intro a b x ha hb
    rw [h] at ha hb
    repeat' split at ha
    all_goals (repeat' split at hb)
    all_goals simp_all
  · intro a
    rw [h]
    repeat' split
    all_goals simp

/--
  C89 fails for the class of the entry point: when `Main` is in the nested class `Inner`, the
  virtual machine takes `Inner` for a class that is not nested.
-/
theorem entry_class_refuted : ∃ t rs, write nestedMain 100 = .ok (t, rs) ∧
    Nested t 1 2 ∧ textAt (rowOf t (.type, 2)) "name" = "Inner" ∧ hostOfClass t 2 = none := by
  refine ⟨_, _, rfl, ⟨0, ⟨by decide +kernel, _, rfl, by decide +kernel⟩, rfl⟩, by decide +kernel⟩

/-- C89 fails for long lists: no method of a class with 512 methods has a class. -/
theorem wide_host_refuted : failure wide 100 = none ∧ (tables wide .method).length = 512 ∧
    ∀ j, j < 512 → searchHost (tables wide) "methods" j = none := by
  refine ⟨by decide +kernel, by decide +kernel, ?_⟩
  have h : ∀ t : Tables, ((List.range 512).all fun j =>
      (searchHost t "methods" j).isNone) = true → ∀ j, j < 512 →
      searchHost t "methods" j = none := fun t h j hj =>
    Option.isNone_iff_eq_none.mp (List.all_eq_true.mp h j (List.mem_range.mpr hj))
  apply h
  decide +kernel

/-! ## Classes by name -/

/--
  C89, for classes of other assemblies.  Let one program be written as the tables `t` and
  another one, `V`, as `u`.  When a method body of the first program names a class `x` of
  the other assembly, the class found there is the class `y` of `V` with the same namespace, name
  and number of type parameters, provided no other class of `V` has the same three.  Missing:
  nested classes with the same name, see `nested_name_refuted`.
-/
theorem class_by_name_partial (W V : World) (fuel fuel' : Nat) (t u : Tables) (rs rs' : List Ref)
    (hw : write W fuel = .ok (t, rs)) (hv : write V fuel' = .ok (u, rs'))
    (shortW : ShortLists W) (shortV : ShortLists V) (small : SmallTables t)
    (n : Nat) (x y : Id) (r : Ref) (hx : W.loads[n]? = some (.type x))
    (foreign : W.gtype x = .general false) (hr : rs[n]? = some r) (hy : y ∈ V.types)
    (name : W.text x "name" = V.text y "name")
    (ns : W.text x "namespace" = V.text y "namespace")
    (count : W.num x "generic_param_count" = (V.many y "generic_params").length)
    (unique : ∀ z, z ∈ V.types ∨ V.gtype z = .general true → V.text z "name" = V.text y "name" →
      V.text z "namespace" = V.text y "namespace" →
      (V.many z "generic_params").length = (V.many y "generic_params").length → z = y) :
    ∃ back : Nat → Id,
      (∀ i j, i < (u .type).length → j < (u .type).length → back i = back j → i = j) ∧
      (∀ i, i < (u .type).length → textAt (rowOf u (.type, i)) "name" = V.text (back i) "name") ∧
      ∃ i, foreignClass t u r = some i ∧ i < (u .type).length ∧ back i = y := by
  obtain ⟨entW, fW, lenW, lW⟩ := write_good shortW hw
  obtain ⟨entV, fV, _⟩ := write_good shortV hv
  -- the row of the reference
  have hd : TypeOk W entW (some x) r := lW n _ r hx hr
  simp only [TypeOk, foreign] at hd
  obtain ⟨p, _, hb, _, _, hidx, _, hpl⟩ := denotes_get fW small (show Denotes entW .typeRef r x from hd)
  have hpl' := hpl
  rw [fW.len] at hpl'
  have hpx : (entW .typeRef)[p]? = some x := by
    rw [List.getElem?_eq_getElem hpl', ← hb, backOf_eq (List.getElem?_eq_getElem hpl')]
  have dW := fW.done .typeRef p x _ hpx (List.getElem?_eq_getElem hpl)
  have textW : ∀ f, (f, Act.text false) ∈ steps .typeRef →
      textAt (rowOf t (.typeRef, p)) f = W.text x f := by
    intro f hf
    obtain ⟨c, e1, e2⟩ := dW f _ hf
    rw [rowOf_eq (List.getElem?_eq_getElem hpl), textAt, e1, show c = _ from e2]
  have numW : numAt (rowOf t (.typeRef, p)) "generic_param_count" =
      W.num x "generic_param_count" := by
    obtain ⟨c, e1, e2⟩ := dW "generic_param_count" .num (by show _ ∈ steps .typeRef; simp [steps])
    rw [rowOf_eq (List.getElem?_eq_getElem hpl), numAt, e1, show c = _ from e2]
  -- the keys of the classes
  have keyV : ∀ i, i < (u .type).length → ∃ z, (entV .type)[i]? = some z ∧
      key u i = (V.text z "namespace", V.text z "name", (V.many z "generic_params").length) := by
    intro i hi
    have hi' := hi
    rw [fV.len] at hi'
    refine ⟨_, List.getElem?_eq_getElem hi', ?_⟩
    have dV := fV.done .type i _ _ (List.getElem?_eq_getElem hi') (List.getElem?_eq_getElem hi)
    have hrow := rowOf_eq (List.getElem?_eq_getElem hi)
    have textV : ∀ f, (f, Act.text false) ∈ steps .type →
        textAt (rowOf u (.type, i)) f = V.text (entV .type)[i] f := by
      intro f hf
      obtain ⟨c, e1, e2⟩ := dV f _ hf
      rw [hrow, textAt, e1, show c = _ from e2]
    have cnt : (refAt (rowOf u (.type, i)) "generic_params").count =
        (V.many (entV .type)[i] "generic_params").length := by
      obtain ⟨c, e1, q, rfl, e2⟩ := dV "generic_params" (.many .genericParam)
        (by show _ ∈ steps .type; simp [steps])
      rw [hrow, refAt_eq e1]
      rcases e2 with ⟨g1, g2⟩ | ⟨_, b, g1, _⟩
      · rw [g1]; exact beq_iff_eq.mp g2
      · rw [g1, ref_count]; exact Nat.mod_eq_of_lt (shortV _ _)
    rw [key, textV "namespace" (by simp [steps]), textV "name" (by simp [steps]), cnt]
  obtain ⟨iy, hiy⟩ := fV.types y hy
  have hiyl := (List.getElem?_eq_some_iff.mp hiy).1
  rw [← fV.len] at hiyl
  refine ⟨fun i => backOf entV (.type, i), ?_, ?_, iy, ?_, hiyl, backOf_eq hiy⟩
  · intro i j hi hj hb
    rw [fV.len] at hi hj
    have ei := List.getElem?_eq_getElem hi
    have ej := List.getElem?_eq_getElem hj
    simp only [backOf_eq ei, backOf_eq ej] at hb
    exact fV.uniq .type i j _ rfl ei (hb ▸ ej)
  · intro i hi
    obtain ⟨z, hz, hk⟩ := keyV i hi
    show _ = V.text (backOf entV (.type, i)) "name"
    rw [backOf_eq hz]
    have := congrArg (fun p => p.2.1) hk
    exact this
  · simp only [foreignClass, hidx, textW "namespace" (by simp [steps]),
      textW "name" (by simp [steps]), numW, typeByName]
    rw [List.find?_eq_some_iff_append]
    obtain ⟨z, hz, hk⟩ := keyV iy hiyl
    rw [hiy] at hz; cases hz
    refine ⟨by rw [hk, name, ns, count]; simp, List.range iy,
      List.range' (iy + 1) ((u .type).length - (iy + 1)), ?_, ?_⟩
    · have e1 : (u .type).length = iy + (((u .type).length - (iy + 1)) + 1) := by omega
      conv => lhs; rw [e1]
      rw [List.range_eq_range', List.range_eq_range', ← List.range'_append_1, List.range'_succ]
      simp
    · intro j hj
      rw [List.mem_range] at hj
      obtain ⟨z, hz', hk'⟩ := keyV j (by omega)
      rw [hk', name, ns, count]
      simp only [Bool.not_eq_true', beq_eq_false_iff_ne]
      intro heq
      obtain ⟨q1, q2⟩ := Prod.mk.inj heq
      obtain ⟨q2, q3⟩ := Prod.mk.inj q2
      have := unique z (fV.own j z hz') q2 q1 q3
      subst this
      have := fV.uniq .type j iy _ rfl hz' hiy
      omega

/-- The class `B` of the other assembly is found: its reference, row 0 of the table of
    references when a program names `B` only, leads to row 2. -/
example : ∃ t u rs rs', write { client with loads := [.type 20] } 100 = .ok (t, rs) ∧
    write twins 100 = .ok (u, rs') ∧ rs = [Ref.of 0 1 1] ∧
    foreignClass t u (Ref.of 0 1 1) = some 2 ∧ textAt (rowOf u (.type, 2)) "name" = "B" ∧
    ∀ z ∈ twins.types, twins.text z "name" = twins.text 20 "name" → z = 20 :=
  ⟨_, _, _, _, rfl, rfl, by decide +kernel⟩

/--
  C89 fails for nested classes with the same name: a program names `B.Node` of another
  assembly, and the virtual machine takes `A.Node`.  The reference does say that the class is
  nested in `B`.
-/
theorem nested_name_refuted : ∃ t u r rs', write client 100 = .ok (t, [r]) ∧
    write twins 100 = .ok (u, rs') ∧
    getType t (refAt (rowOf t (.typeRef, r.index)) "host") = .ok (some (.typeRef, 1)) ∧
    textAt (rowOf t (.typeRef, 1)) "name" = "B" ∧
    foreignClass t u r = some 1 ∧ hostOfClass u 1 = some 0 ∧
    textAt (rowOf u (.type, 0)) "name" = "A" ∧
    textAt (rowOf u (.type, 3)) "name" = "Node" ∧ hostOfClass u 3 = some 2 ∧
    textAt (rowOf u (.type, 2)) "name" = "B" := by
  refine ⟨_, _, _, _, rfl, rfl, rfl, ?_⟩
  decide +kernel

end Verif.Props
