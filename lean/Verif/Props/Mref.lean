import Verif.Proof.Mref
import Verif.Props.Rt

/-
  C91: a call of a method of another assembly.
-/

namespace Verif.Props.Mref

open Verif.Asm Verif.Rt Verif.Rt.Spec Verif.Mref Verif.Mref.Spec

/--
  C91: a reference to a method of a class of another assembly that is not nested, or of an
  instance of such a class, finds the first method of the class with the signature that the
  reference asks for, when the type parameters of the class have their values.
-/
theorem call_found_partial (S : System) (P : Pool) (ms : List Mgr) (h : Reached S P ms)
    (a : Nat) (m : Mgr) (hm : m ∈ ms) (bind : Nat → List Ty → Prop)
    (agree : Agrees P m (S.tables a) bind) (r : Ref)
    (hr : r.index < (S.tables a .methodRef).length) (n : Node) (u : Ty)
    (hn : Asm.getType (S.tables a) (refAt (rowOf (S.tables a) (.methodRef, r.index)) "host") =
      .ok (some n)) (hu : Means S a bind n u) (b i : Nat) (gs : List Nat) (vs : List Ty)
    (top : Top S b i gs u vs) (other : b ≠ a) (s : Sig) (hs : RefSig S a vs r.index s) (k : Nat)
    (hk : First S b (At gs vs) s
      (rows (refAt (rowOf (S.tables b) (.type, i)) "methods")) k) :
    ∃ N, ∀ fuel, N ≤ fuel → ∃ P', getMethod S a m fuel r P = .ok ((b, k), P') := by
  obtain ⟨g, v⟩ := reached_good h
  obtain ⟨N, f⟩ := getMethod_proto g (v m hm) agree hr hn hu top other hs (some k) (by
    intro P0 m p v ag hp
    obtain ⟨N, f⟩ := findMethod_first v ag hp hk
    exact ⟨N, fun n hn P g e => let ⟨P', h, _⟩ := f n hn P g e; ⟨P', h⟩⟩)
  refine ⟨N, ?_⟩
  intro fuel hf
  rcases f fuel hf with ⟨k', P', h1, h2⟩ | ⟨h1, _⟩
  · cases h1; exact ⟨P', h2⟩
  · cases h1

/--
  C91, no other method: when no method of the class has the signature, the call is stopped; no
  method is run in its place.
-/
theorem call_missing_partial (S : System) (P : Pool) (ms : List Mgr) (h : Reached S P ms)
    (a : Nat) (m : Mgr) (hm : m ∈ ms) (bind : Nat → List Ty → Prop)
    (agree : Agrees P m (S.tables a) bind) (r : Ref)
    (hr : r.index < (S.tables a .methodRef).length) (n : Node) (u : Ty)
    (hn : Asm.getType (S.tables a) (refAt (rowOf (S.tables a) (.methodRef, r.index)) "host") =
      .ok (some n)) (hu : Means S a bind n u) (b i : Nat) (gs : List Nat) (vs : List Ty)
    (top : Top S b i gs u vs) (other : b ≠ a) (s : Sig) (hs : RefSig S a vs r.index s)
    (hk : ∀ k ∈ rows (refAt (rowOf (S.tables b) (.type, i)) "methods"),
      ∃ s', DeclSig S b (At gs vs) k s' ∧ s' ≠ s) :
    ∃ N, ∀ fuel, N ≤ fuel → getMethod S a m fuel r P = .error .assertion := by
  obtain ⟨g, v⟩ := reached_good h
  obtain ⟨N, f⟩ := getMethod_proto g (v m hm) agree hr hn hu top other hs none (by
    intro P0 m p v ag hp
    exact findMethod_none v ag hp _ hk)
  refine ⟨N, ?_⟩
  intro fuel hf
  rcases f fuel hf with ⟨k', P', h1, _⟩ | ⟨_, h2⟩
  · cases h1
  · exact h2

/-! ## Examples

  The library has `Int`, `Box<T>` with `put(Int)`, `put(T)`, `put(T)` returning `T`, `Plain` with
  `id<X>(X)`, and `Outer<U>.Inner<V>` with `f(U)`, `f(V)`. -/

open Verif.Props.Rt (one cls)

def method (name : String) (type : Ref) (params : Ref) (gp : Ref := Ref.of 0 0 0) : Row :=
  [("name", .text name), ("type", .ref type), ("params", .ref params),
    ("generic_params", .ref gp)]

def none_ : Ref := Ref.of 0 0 0

def lib : Tables
  | .type => [cls "Int" none,
      cls "Box" (some 0) [("methods", .ref (Ref.of 0 3 0)), ("nest_types", .ref (Ref.of 0 0 0))],
      cls "Plain" none [("methods", .ref (Ref.of 3 1 0)), ("nest_types", .ref (Ref.of 0 0 0))],
      cls "Outer" (some 1) [("nest_types", one 0 0)],
      cls "Inner" (some 2) [("methods", .ref (Ref.of 4 2 0)),
        ("nest_types", .ref (Ref.of 1 0 0))]]
  | .nestType => [[("type", one 4 0)]]
  | .genericParam => [[("name", .text "T"), ("param_type", .num 0)],
      [("name", .text "U"), ("param_type", .num 0)],
      [("name", .text "V"), ("param_type", .num 0)],
      [("name", .text "X"), ("param_type", .num 0)]]
  | .method => [method "put" none_ (Ref.of 0 1 0), method "put" none_ (Ref.of 1 1 0),
      method "put" (Ref.of 0 1 4) (Ref.of 2 1 0),
      method "id" none_ (Ref.of 3 1 0) (Ref.of 3 1 0),
      method "f" none_ (Ref.of 4 1 0), method "f" none_ (Ref.of 5 1 0)]
  | .param => [[("type", one 0 0), ("param_type", .num 0)],
      [("type", one 0 4), ("param_type", .num 0)], [("type", one 0 4), ("param_type", .num 0)],
      [("type", one 3 4), ("param_type", .num 0)],
      [("type", one 1 4), ("param_type", .num 0)], [("type", one 2 4), ("param_type", .num 0)]]
  | _ => []

/-- A class without type parameters in the other assembly. -/
def typeRef (name : String) (count : Nat) : Row :=
  [("assembly", one 0 0), ("namespace", .text ""), ("name", .text name),
    ("generic_param_count", .num count)]

def methodRef (name : String) (host : Ref) (type : Ref) (params : Ref) (count : Nat := 0) : Row :=
  [("name", .text name), ("host", .ref host), ("type", .ref type), ("params", .ref params),
    ("generic_param_count", .num count)]

/-- The program: its class `Str`, and references to methods: 0 `Box<Str>.put(T)` returning `T`,
    1 `Box.put(T)`, 2 `Box<Str>.take(T)`, 3 `Plain.id<X>(X)`, 4 `Outer<Str>.Inner<Int>.f(V)`. -/
def app : Tables
  | .type => [cls "Str" none]
  | .assemblyRef => [[("package", .text ""), ("name", .text "lib")]]
  | .typeRef => [typeRef "Int" 0, typeRef "Box" 1, typeRef "Plain" 0, typeRef "Outer" 1,
      typeRef "Inner" 1]
  | .genericType => [[("template", one 1 1), ("args", one 0 0)],
      [("template", one 3 1), ("args", one 0 0)],
      [("template", one 4 1), ("args", one 1 0), ("host", one 1 2)]]
  | .genericArgument => [[("type", one 0 0)], [("type", one 0 1)]]
  | .methodRef => [methodRef "put" (Ref.of 0 1 2) (Ref.of 0 1 5) (Ref.of 0 1 0),
      methodRef "put" (Ref.of 1 1 1) none_ (Ref.of 0 1 0),
      methodRef "take" (Ref.of 0 1 2) none_ (Ref.of 0 1 0),
      methodRef "id" (Ref.of 2 1 1) none_ (Ref.of 0 1 0) 1,
      methodRef "f" (Ref.of 2 1 2) none_ (Ref.of 0 1 0)]
  | .methodRefParam => [[("type", one 0 5), ("ptype", .num 0)]]
  | _ => []

def both : System :=
  { tables := fun a => if a = 0 then app else lib
    find := fun _ name => if name = "lib" then some 1 else none }

theorem params_of {i g : Nat} (h : getMany lib .genericParam
    (refAt (rowOf lib (.type, i)) "generic_params") = .ok [(.genericParam, g)]) :
    Params (both.tables 1) i [g] := h

def boxStr : Ty := .inst 1 1 none [.cls 0 0]

theorem box_top : Top both 1 1 [0] boxStr [.cls 0 0] := by
  refine .inst (params_of (by rfl)) ?_ (by decide) rfl
  intro g hg
  rw [List.mem_singleton] at hg
  subst hg
  decide

theorem box_class_top : Top both 1 1 [0] (.cls 1 1) [.hole 0] := by
  refine .cls (gs := [0]) (params_of (by rfl)) (by decide +kernel) ?_ (by decide)
  intro g hg
  rw [List.mem_singleton] at hg
  subst hg
  decide

/-- The class with row `c` of the library, when the reference `i` of the program names it. -/
theorem ref_means (bind : Nat → List Ty → Prop) (i c : Nat)
    (ha : getOne app .assemblyRef (refAt (rowOf app (.typeRef, i)) "assembly") =
      .ok (some (.assemblyRef, 0)))
    (h : Host.typeByName lib (textAt (rowOf app (.typeRef, i)) "namespace")
      (textAt (rowOf app (.typeRef, i)) "name")
      (numAt (rowOf app (.typeRef, i)) "generic_param_count") = some c) :
    Means both 0 bind (.typeRef, i) (.cls 1 c) :=
  .foreign (j := 0) ha rfl (find_first.mp h)

theorem box_means (bind : Nat → List Ty → Prop) : Means both 0 bind (.genericType, 0) boxStr := by
  refine .generic (n := (.typeRef, 1)) (h := none) (gs := [0]) (ns := [some (.type, 0)])
    (by rfl) (ref_means _ 1 1 (by rfl) (by decide +kernel)) (by rfl) .none
    (params_of (by rfl)) (by rfl) ?_ ?_
  · refine Or.inr ⟨?_, rfl⟩
    intro g hg
    cases hg
    decide
  · exact .type (by intro p hp; cases hp) .own .nil

/-- The signature `put(T)` returning `T` of a box for `u`. -/
def putSig (u : Ty) : Sig := ⟨"put", 0, some u, [(0, u)]⟩

/-- The hypotheses of `call_found_partial` hold for `Box<Str>.put(T)` returning `T`. -/
theorem box_ref : RefSig both 0 [.cls 0 0] 0 (putSig (.cls 0 0)) := by
  refine ⟨rfl, rfl, Or.inl ⟨rfl, rfl, rfl⟩, ?_⟩
  exact .cons ⟨by decide, rfl, Or.inl ⟨rfl, rfl, rfl⟩⟩ .nil

theorem decl_param {vs : List Ty} {r : Ref} {u : Ty}
    (h : Asm.getType lib r = .ok (some (.genericParam, 0))) (hu : vs[0]? = some u) :
    DeclType both 1 (At [0] vs) r u :=
  ⟨(.genericParam, 0), h, (by intro p hp; cases hp; decide),
    .param (by decide) ⟨0, u, rfl, hu, rfl⟩⟩

theorem decl_int {vs : List Ty} {r : Ref} (h : Asm.getType lib r = .ok (some (.type, 0))) :
    DeclType both 1 (At [0] vs) r (.cls 1 0) :=
  ⟨(.type, 0), h, (by intro p hp; cases hp), .own⟩

theorem puts {vs : List Ty} {u : Ty} (hu : vs[0]? = some u) :
    DeclSig both 1 (At [0] vs) 0 ⟨"put", 0, none, [(0, .cls 1 0)]⟩ ∧
    DeclSig both 1 (At [0] vs) 1 ⟨"put", 0, none, [(0, u)]⟩ ∧
    DeclSig both 1 (At [0] vs) 2 (putSig u) :=
  ⟨⟨by decide, rfl, rfl, rfl, .cons ⟨by decide, rfl, decl_int (by rfl)⟩ .nil⟩,
    ⟨by decide, rfl, rfl, rfl, .cons ⟨by decide, rfl, decl_param (by rfl) hu⟩ .nil⟩,
    ⟨by decide, rfl, rfl, decl_param (by rfl) hu,
      .cons ⟨by decide, rfl, decl_param (by rfl) hu⟩ .nil⟩⟩

theorem box_first : First both 1 (At [0] [.cls 0 0]) (putSig (.cls 0 0))
    (rows (refAt (rowOf lib (.type, 1)) "methods")) 2 := by
  obtain ⟨h0, h1, h2⟩ := puts (vs := [Ty.cls 0 0]) rfl
  exact .later h0 (by intro h; cases h) (.later h1 (by intro h; cases h) (.here h2))

/-- So that the virtual machine runs the method with row 2. -/
example : ∃ N, ∀ fuel, N ≤ fuel →
    ∃ P', getMethod both 0 {} fuel (Ref.of 0 1 0) [] = .ok ((1, 2), P') :=
  call_found_partial both [] [{}] .start 0 {} (List.mem_cons_self ..) (fun _ _ => False)
    (fun _ _ h => h.elim) (Ref.of 0 1 0) (by decide) (.genericType, 0) boxStr (by rfl)
    (box_means _) 1 1 [0] [.cls 0 0] box_top (by decide) _ box_ref 2 box_first

/-- And the method with row 1 for `put(T)` of the class itself. -/
example : ∃ N, ∀ fuel, N ≤ fuel →
    ∃ P', getMethod both 0 {} fuel (Ref.of 1 1 0) [] = .ok ((1, 1), P') := by
  refine call_found_partial both [] [{}] .start 0 {} (List.mem_cons_self ..) (fun _ _ => False)
    (fun _ _ h => h.elim) (Ref.of 1 1 0) (by decide) (.typeRef, 1) (.cls 1 1) (by rfl)
    (ref_means _ 1 1 (by rfl) (by decide +kernel)) 1 1 [0] [.hole 0] box_class_top (by decide)
    ⟨"put", 0, none, [(0, .hole 0)]⟩ ?_ 1 ?_
  · refine ⟨rfl, rfl, rfl, ?_⟩
    exact .cons ⟨by decide, rfl, Or.inl ⟨rfl, rfl, rfl⟩⟩ .nil
  · obtain ⟨h0, h1, _⟩ := puts (vs := [Ty.hole 0]) rfl
    exact .later h0 (by intro h; cases h) (.here h1)

/-- The hypotheses of `call_missing_partial` hold for `Box<Str>.take(T)`. -/
example : ∃ N, ∀ fuel, N ≤ fuel →
    getMethod both 0 {} fuel (Ref.of 2 1 0) [] = .error .assertion := by
  refine call_missing_partial both [] [{}] .start 0 {} (List.mem_cons_self ..) (fun _ _ => False)
    (fun _ _ h => h.elim) (Ref.of 2 1 0) (by decide) (.genericType, 0) boxStr (by rfl)
    (box_means _) 1 1 [0] [.cls 0 0] box_top (by decide) ⟨"take", 0, none, [(0, .cls 0 0)]⟩ ?_ ?_
  · refine ⟨rfl, rfl, rfl, ?_⟩
    exact .cons ⟨by decide, rfl, Or.inl ⟨rfl, rfl, rfl⟩⟩ .nil
  · obtain ⟨h0, h1, h2⟩ := puts (vs := [Ty.cls 0 0]) rfl
    intro k hk
    have hk' : k ∈ [0, 1, 2] := hk
    simp only [List.mem_cons, List.not_mem_nil, or_false] at hk'
    rcases hk' with rfl | rfl | rfl
    · exact ⟨_, h0, by intro h; injection h with h; revert h; decide⟩
    · exact ⟨_, h1, by intro h; injection h with h; revert h; decide⟩
    · exact ⟨_, h2, by intro h; injection h with h; revert h; decide⟩

/-! ## Where the property fails -/

/--
  C91 fails for a generic method of a class without type parameters, when a parameter has the
  type of the type parameter: a call of `id<X>(X)` of another assembly always stops the virtual
  machine, which looks for the type parameter among those of the class.
-/
theorem generic_method_refuted : ∀ fuel, 10 ≤ fuel →
    getMethod both 0 {} fuel (Ref.of 3 1 0) [] = .error .index := by
  intro fuel h
  obtain ⟨n, rfl⟩ := Nat.exists_eq_add_of_le' h
  rfl

/--
  C91 fails for a nested class in a generic class: `Outer<Str>.Inner<Int>.f(V)` runs `f(U)`,
  because the position of `V` among the type parameters of its class is taken for one among all
  type parameters.
-/
theorem nested_method_refuted : ∀ fuel, 10 ≤ fuel →
    (∃ P, getMethod both 0 {} fuel (Ref.of 4 1 0) [] = .ok ((1, 4), P)) ∧
    Asm.getType lib (refAt (rowOf lib (.param, 4)) "type") = .ok (some (.genericParam, 1)) ∧
    Asm.getType lib (refAt (rowOf lib (.param, 5)) "type") = .ok (some (.genericParam, 2)) := by
  intro fuel h
  obtain ⟨n, rfl⟩ := Nat.exists_eq_add_of_le' h
  exact ⟨⟨_, rfl⟩, rfl, rfl⟩

end Verif.Props.Mref
