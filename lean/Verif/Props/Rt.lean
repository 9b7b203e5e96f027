import Verif.Proof.Rt

/-
  C90: the objects the virtual machine has for types.
-/

namespace Verif.Props.Rt

open Verif.Asm Verif.Rt Verif.Rt.Spec

/-! ## Identity -/

/--
  C90, identity: at every time, every object stands for exactly one type, and two objects stand
  for the same type only when they are the same object.
-/
theorem object_identity (S : System) (P : Pool) (ms : List Mgr) (h : Reached S P ms) :
    (∀ o, o < P.length → ∃ u, Is P o u ∧ ∀ v, Is P o v → v = u) ∧
    ∀ o o' u v, Is P o u → Is P o' v → (o = o' ↔ u = v) := by
  obtain ⟨g, _⟩ := reached_good h
  refine ⟨?_, ?_⟩
  · intro o ho
    obtain ⟨u, hu⟩ := Spec.Is.total g.ground o ho
    exact ⟨u, hu, fun v hv => hv.fun hu⟩
  · intro o o' u v hu hv
    constructor
    · intro e; subst e; exact hu.fun hv
    · intro e; subst e; exact hu.inj g.nodup hv

/--
  C90, identity over time: an object stands for the same type at every later time.
-/
theorem object_stays (S : System) (P P' : Pool) (ms : List Mgr) (h : Reached S P ms) (m : Mgr)
    (hm : m ∈ ms) (a n : Nat) (r : Ref) (q : Option Obj)
    (hq : getType S a m n r P = .ok (q, P')) (o : Obj) (u : Ty) (ho : Is P o u) : Is P' o u := by
  obtain ⟨g, v⟩ := reached_good h
  exact ho.mono (getType_good n r P q P' g (v m hm) hq).2.1

/-! ## Types -/

/--
  C90, lookup: when the values of the type parameters are what `bind` says and a reference names
  a type that means `u`, the virtual machine finds an object that stands for `u`; and whatever
  it finds, with any fuel, stands for `u`.
-/
theorem type_found (S : System) (a : Nat) (bind : Nat → List Ty → Prop) (P : Pool) (m : Mgr)
    (agree : Agrees P m (S.tables a) bind) (r : Ref) (n : Node) (u : Ty)
    (hr : Asm.getType (S.tables a) r = .ok (some n)) (hn : Means S a bind n u) :
    (∃ N, ∀ fuel, N ≤ fuel → ∃ o P', getType S a m fuel r P = .ok (some o, P')) ∧
    ∀ fuel o P', getType S a m fuel r P = .ok (o, P') → ∃ o', o = some o' ∧ Is P' o' u := by
  obtain ⟨N, h⟩ := means_get agree hn r hr
  refine ⟨⟨N, ?_⟩, ?_⟩
  · intro f hf
    obtain ⟨o, P', h1, _⟩ := h f hf P (Ext.refl _)
    exact ⟨o, P', h1⟩
  · intro f o P' hq
    obtain ⟨o', P'', h1, h2, _⟩ := h (N + f) (Nat.le_add_right _ _) P (Ext.refl _)
    rw [getType_mono (Nat.le_add_left f N) hq] at h1
    cases h1
    exact ⟨o', rfl, h2⟩

/--
  C90, values: the values the virtual machine collects from an instance of a generic class are
  the type arguments of the instance and of the instances around it.
-/
theorem values_of_instance (S : System) (P : Pool) (ms : List Mgr) (h : Reached S P ms)
    (o : Obj) (x : Shape) (u : Ty) (ho : P[o]? = some x) (hu : Is P o u) (a n : Nat) (m : Mgr)
    (P' : Pool) (hq : importType S a n x P = .ok (m, P')) :
    Agrees P' m (S.tables a) (Gives S a u) :=
  importType_agrees n o x P m P' u (reached_good h).1 ho hu hq

/--
  C90, values: when the type parameters of an instance and of the instances around it have
  different names, the values can be collected, and nothing else changes.
-/
theorem values_collected (S : System) (P : Pool) (o : Obj) (x : Shape) (u : Ty)
    (ho : P[o]? = some x) (hu : Is P o u) (a : Nat) (names : List String)
    (hd : Distinct S a u names) :
    ∃ N, ∀ fuel, N ≤ fuel → ∃ m, importType S a fuel x P = .ok (m, P) := by
  obtain ⟨N, h⟩ := importType_total hd
  refine ⟨N, ?_⟩
  intro f hf
  obtain ⟨m, h1, _⟩ := h f hf P o x ho hu
  exact ⟨m, h1⟩

/--
  C90, fields: the type of a field of an instance is what its declaration means with the type
  arguments of the instance.
-/
theorem field_type_partial (S : System) (P : Pool) (ms : List Mgr) (h : Reached S P ms)
    (o : Obj) (x : Shape) (u : Ty) (ho : P[o]? = some x) (hu : Is P o u) (a n : Nat) (m : Mgr)
    (P' : Pool) (hq : importType S a n x P = .ok (m, P')) (r : Ref) (d : Node) (v : Ty)
    (hr : Asm.getType (S.tables a) r = .ok (some d)) (hd : Means S a (Gives S a u) d v) :
    ∃ N, ∀ fuel, N ≤ fuel → ∃ o' P'', fetchType S a m fuel x r P' = .ok (some o', P'') ∧
      Is P'' o' v := by
  obtain ⟨g, _⟩ := reached_good h
  have ag := importType_agrees n o x P m P' u g ho hu hq
  obtain ⟨_, e, _⟩ := importType_good n x P m P' g (mem_shapeOk g (List.mem_of_getElem? ho)) hq
  by_cases he : r.extra = extra .genericParam
  · obtain ⟨k, i⟩ := d
    obtain ⟨h1, rfl, h3, h4⟩ := readType_some hr
    have he' : r.extra = 4 := he
    have hk : k = .genericParam := by
      rcases h4 with ⟨h, _⟩ | ⟨h, _⟩ | ⟨h, _⟩ | ⟨h, _⟩ | ⟨_, h⟩ | ⟨h, _⟩ <;>
        first | exact h | (rw [he'] at h; cases h)
    subst hk
    cases hd with
    | param hp hb =>
      obtain ⟨N, hN⟩ := findByName_gives hb hp
      refine ⟨N, ?_⟩
      intro f hf
      obtain ⟨o', w, e1, e2, e3⟩ := hN f hf P' o x (e _ _ ho) (hu.mono e)
      cases e1
      simp only [nameOf] at e2
      exact ⟨o', P', by simp only [fetchType, if_pos he, rowAt_eq h3, e2], e3⟩
  · obtain ⟨N, hN⟩ := means_get ag hd r hr
    refine ⟨N, ?_⟩
    intro f hf
    obtain ⟨o', P'', e1, e2, _⟩ := hN f hf P' (Ext.refl _)
    exact ⟨o', P'', by simp only [fetchType, if_neg he]; exact e1, e2⟩

/--
  C90, the class of a method: where the values of the type parameters are what `bind` says, the
  virtual machine takes a class of the assembly for the class with its type parameters, and
  those of the classes around it, replaced by their values.
-/
theorem self_type (S : System) (b : Nat) (bind : Nat → List Ty → Prop) (P : Pool) (m : Mgr)
    (agree : Agrees P m (S.tables b) bind) (i : Nat) (u : Ty) (hs : Self S b bind i u) :
    (∃ N, ∀ fuel, N ≤ fuel → ∃ o P', toGeneric S b m b fuel i P = .ok (o, P')) ∧
    ∀ fuel o P', toGeneric S b m b fuel i P = .ok (o, P') → Is P' o u := by
  obtain ⟨N, h⟩ := toGeneric_self agree hs
  refine ⟨⟨N, ?_⟩, ?_⟩
  · intro f hf
    obtain ⟨o, P', h1, _⟩ := h f hf P (Ext.refl _)
    exact ⟨o, P', h1⟩
  · intro f o P' hq
    obtain ⟨o', P'', h1, h2, _⟩ := h (N + f) (Nat.le_add_right _ _) P (Ext.refl _)
    rw [toGeneric_mono (Nat.le_add_left f N) hq] at h1
    cases h1
    exact h2

/-! ## Examples

  An assembly with the classes `Int`, `Str`, `Box<T>`, `Outer<U>`, `Outer<U>.Inner<V>`,
  `Tuple<params Ps>` and `Bad<T>.Nest<T>`. -/

def one (i x : Nat) : Cell := .ref (Ref.of i 1 x)

def cls (name : String) (gp : Option Nat) (more : Row := []) : Row :=
  [("name", .text name), ("namespace", .text ""),
    ("generic_params", match gp with | none => .ref (Ref.of 0 0 0) | some g => one g 0)] ++ more

/-- The tables of the example.  Generic types: 0 `Box<Int>`, 1 `Outer<Str>`,
    2 `Outer<Str>.Inner<Int>`, 3 `Box<U>`, 4 `Tuple<V, U>`, 5 `Bad<Int>`, 6 `Bad<Int>.Nest<Str>`,
    7 `Box<T>`, 8 `Box<Str>`, 9 `Tuple<Int, Str>`, 10 `Tuple<Ps>`.  Array types: 0 `Box<U>[2]`. -/
def tables : Tables
  | .type => [cls "Int" none, cls "Str" none, cls "Box" (some 0),
      cls "Outer" (some 1) [("nest_types", one 0 0)], cls "Inner" (some 2) [("nest_types", .ref (Ref.of 1 0 0))],
      cls "Tuple" (some 3) [("nest_types", .ref (Ref.of 1 0 0))],
      cls "Bad" (some 4) [("nest_types", one 1 0)],
      cls "Nest" (some 5) [("nest_types", .ref (Ref.of 2 0 0))]]
  | .nestType => [[("type", one 4 0)], [("type", one 7 0)]]
  | .genericParam => [[("name", .text "T"), ("param_type", .num 0)],
      [("name", .text "U"), ("param_type", .num 0)],
      [("name", .text "V"), ("param_type", .num 0)],
      [("name", .text "Ps"), ("param_type", .num 3)],
      [("name", .text "T"), ("param_type", .num 0)],
      [("name", .text "T"), ("param_type", .num 0)]]
  | .genericType => [
      [("template", one 2 0), ("args", one 0 0)],
      [("template", one 3 0), ("args", one 1 0)],
      [("template", one 4 0), ("args", one 0 0), ("host", one 1 2)],
      [("template", one 2 0), ("args", one 3 0)],
      [("template", one 5 0), ("args", .ref (Ref.of 2 2 0))],
      [("template", one 6 0), ("args", one 0 0)],
      [("template", one 7 0), ("args", one 1 0), ("host", one 5 2)],
      [("template", one 2 0), ("args", one 4 0)],
      [("template", one 2 0), ("args", one 1 0)],
      [("template", one 5 0), ("args", .ref (Ref.of 0 2 0))],
      [("template", one 5 0), ("args", one 5 0)]]
  | .genericArgument => [[("type", one 0 0)], [("type", one 1 0)], [("type", one 2 4)],
      [("type", one 1 4)], [("type", one 0 4)], [("type", one 3 4)]]
  | .arrayType => [[("element_type", one 3 2), ("dimension", .num 2)]]
  | _ => []

def system : System := { tables := fun _ => tables, find := fun _ _ => none }

/-- The pool after `Outer<Str>.Inner<Int>` was looked up, and its object. -/
def lookup (r : Ref) : Except Verif.Rt.Err (Option Obj × Pool) := getType system 0 {} 20 r []

def inner : Ty := .inst 0 4 (some (.inst 0 3 none [.cls 0 1])) [.cls 0 0]

def innerPool : Pool :=
  [.general 0 4, .general 0 3, .general 0 1, .generic 1 none [2], .general 0 0,
    .generic 0 (some 3) [4]]

/-- The pool is reached, and the last object is `Outer<Str>.Inner<Int>`. -/
theorem inner_reached : Reached system innerPool [{}] ∧ Is innerPool 5 inner := by
  constructor
  · exact .type (o := some 5) (a := 0) (n := 20) (r := Ref.of 2 1 2) .start
      (List.mem_cons_self ..) (by rfl)
  · refine .inst (os := [4]) (h := some 3) rfl rfl rfl ?_ rfl ?_
    · intro oh u h1 h2
      cases h1; cases h2
      refine .inst (os := [2]) (h := none) rfl rfl rfl (by intro oh u h; cases h) rfl ?_
      intro k oa u h1 h2
      cases k with
      | zero => cases h1; cases h2; exact .cls rfl
      | succ k => simp at h1
    · intro k oa u h1 h2
      cases k with
      | zero => cases h1; cases h2; exact .cls rfl
      | succ k => simp at h1

/-- The compiler can read the tables of the example. -/
example : Readable tables := ⟨_, by rfl⟩

/-- The hypotheses of `values_of_instance` and `field_type_partial` hold for the instance: the
    values of its type parameters can be collected. -/
example : ∃ m, importType system 0 20 (.generic 0 (some 3) [4]) innerPool = .ok (m, innerPool) ∧
    m.typeAt "U" = some 2 ∧ m.typeAt "V" = some 4 := ⟨_, rfl, rfl, rfl⟩

theorem params_of {i g : Nat} (h : getMany tables .genericParam
    (refAt (rowOf tables (.type, i)) "generic_params") = .ok [(.genericParam, g)]) :
    Params (system.tables 0) i [g] := h

/-- `V` is `Int` in the instance, and `U`, of the class around it, is `Str`. -/
theorem inner_gives : Gives system 0 inner 2 [.cls 0 0] ∧ Gives system 0 inner 1 [.cls 0 1] := by
  have np : ∀ q, q < 3 → ¬ Pack tables q := by
    intro q hq
    rcases q with _ | _ | _ | q
    · decide
    · decide
    · decide
    · omega
  have own : ∀ {h args v} (i g : Nat), Params (system.tables 0) i [g] → g < 3 →
      args[0]? = some v → Gives system 0 (.inst 0 i h args) g [v] := by
    intro h args v i g hp hg hv
    refine .own (k := 0) hp rfl ?_ ?_ hv
    · intro j q hj hq
      cases Nat.le_zero.mp hj
      cases hq
      exact np g hg
    · intro j q hq _
      cases j with
      | zero => rfl
      | succ j => simp at hq
  refine ⟨own 4 2 (params_of (by rfl)) (by decide) rfl, ?_⟩
  refine .outer (gs := [2]) (params_of (by rfl)) ?_ (own 3 1 (params_of (by rfl)) (by decide) rfl)
  intro q hq
  rw [List.mem_singleton] at hq
  subst hq
  decide

/-- The field type `Tuple<V, U>` means `Tuple<Int, Str>` in the instance. -/
theorem tuple_means : Means system 0 (Gives system 0 inner) (.genericType, 4)
    (.inst 0 5 none [.cls 0 0, .cls 0 1]) := by
  have np : ∀ q, q < 3 → ¬ Pack tables q := by
    intro q hq
    rcases q with _ | _ | _ | q
    · decide
    · decide
    · decide
    · omega
  refine .generic (n := (.type, 5)) (h := none) (gs := [3])
    (ns := [some (.genericParam, 2), some (.genericParam, 1)])
    (by rfl) .own (by rfl) .none (params_of (by rfl)) (by rfl) ?_ ?_
  · exact Or.inl ⟨3, rfl, by decide, by decide⟩
  · refine .type ?_ (.param (np 2 (by decide)) inner_gives.1)
      (.type ?_ (.param (np 1 (by decide)) inner_gives.2) .nil)
    · intro p hp; cases hp; exact np 2 (by decide)
    · intro p hp; cases hp; exact np 1 (by decide)

/-- So the virtual machine takes `Tuple<Int, Str>` for a field of that type, and `Str` for a
    field of type `U`. -/
example : (match importType system 0 20 (.generic 0 (some 3) [4]) innerPool with
    | .ok (m, P) =>
      (match fetchType system 0 m 20 (.generic 0 (some 3) [4]) (Ref.of 4 1 2) P with
        | .ok (some o, P) => P[o]? == some (.generic 6 none [4, 2])
        | _ => false) &&
      (match fetchType system 0 m 20 (.generic 0 (some 3) [4]) (Ref.of 1 1 4) P with
        | .ok (some o, _) => o == 2
        | _ => false)
    | _ => false) = true := by decide +kernel

/-- The parameters `U` and `V` have different names: the hypothesis of `values_collected`. -/
example : Distinct system 0 inner ["U", "V"] :=
  .nested (gs := [2]) (names := ["U"])
    (.top (gs := [1]) (params_of (by rfl)) (by decide) (by decide) (by decide))
    (params_of (by rfl)) (by decide) (by decide) (by decide)

/-- The class `Inner` stands for the instance itself, in its methods: the hypothesis of
    `self_type`. -/
example : Self system 0 (Gives system 0 inner) 4 inner := by
  refine .instIn (gs := [2]) (j := 3) (by decide +kernel) (params_of (by rfl))
    (.inst (gs := [1]) (by decide +kernel) (params_of (by rfl)) (by simp) ?_)
    (Or.inl (by simp)) ?_
  · exact .cons inner_gives.2 .nil
  · exact .cons inner_gives.1 .nil

/-! ## Where the property fails -/

/--
  C90 fails when a class has a type parameter with the name of one of the class around it: the
  values of `Bad<Int>.Nest<Str>`, whose parameters are both called `T`, cannot be collected, so
  no method of the class can be run.  The compiler accepts the program.
-/
theorem same_name_refuted : ∃ o P x, lookup (Ref.of 6 1 2) = .ok (some o, P) ∧
    P[o]? = some x ∧
    Is P o (.inst 0 7 (some (.inst 0 6 none [.cls 0 0])) [.cls 0 1]) ∧
    ∀ n, 2 ≤ n → importType system 0 n x P = .error .assertion := by
  refine ⟨5, [.general 0 7, .general 0 6, .general 0 0, .generic 1 none [2], .general 0 1,
    .generic 0 (some 3) [4]], .generic 0 (some 3) [4], rfl, rfl, ?_, ?_⟩
  · refine .inst (os := [4]) (h := some 3) rfl rfl rfl ?_ rfl ?_
    · intro oh u h1 h2
      cases h1; cases h2
      refine .inst (os := [2]) (h := none) rfl rfl rfl (by intro oh u h; cases h) rfl ?_
      intro k oa u h1 h2
      cases k with
      | zero => cases h1; cases h2; exact .cls rfl
      | succ k => simp at h1
    · intro k oa u h1 h2
      cases k with
      | zero => cases h1; cases h2; exact .cls rfl
      | succ k => simp at h1
  · intro n hn
    obtain ⟨n, rfl⟩ := Nat.exists_eq_add_of_le' hn
    rfl

/--
  C90 fails for a field of `Box<T>` that a method of a generic class `Box<T>` takes: what was
  found for the first instance is kept for the reference.  With `T` as `Int` and then as `Str`
  the field has the type `Int` both times, although it means `Str` the second time.
-/
theorem field_cache_refuted : ∃ oi os m1 m2 P1 P2 P3 r,
    lookup (Ref.of 0 1 0) = .ok (some oi, P1) ∧
    getType system 0 {} 20 (Ref.of 1 1 0) P1 = .ok (some os, P2) ∧
    Mgr.append {} "T" oi = .ok m1 ∧ Mgr.append {} "T" os = .ok m2 ∧
    genericField system 0 0 m1 20 (Ref.of 7 1 2) (Ref.of 0 1 4) none P2 = .ok (r, P3) ∧
    genericField system 0 0 m2 20 (Ref.of 7 1 2) (Ref.of 0 1 4) (some r) P3 = .ok (r, P3) ∧
    (match genericField system 0 0 m2 20 (Ref.of 7 1 2) (Ref.of 0 1 4) none P3 with
      | .ok (r', _) => r'.1
      | _ => none) = some os ∧ r.1 = some oi ∧ oi ≠ os := by
  refine ⟨_, _, _, _, _, _, _, _, rfl, rfl, rfl, rfl, rfl, rfl, by decide +kernel, rfl,
    by decide⟩

/--
  C90 fails for a generic method with `params`: of the type arguments `Int, Str` for `Ps` only
  the first is kept, so that `Tuple<Ps>` is `Tuple<Int>` in the method and not
  `Tuple<Int, Str>`.
-/
theorem method_params_refuted : ∃ oi os m P1 P2 P3,
    lookup (Ref.of 0 1 0) = .ok (some oi, P1) ∧
    getType system 0 {} 20 (Ref.of 1 1 0) P1 = .ok (some os, P2) ∧
    importMethod system 20 0 [3] (.general 0 0) [oi, os] P2 = .ok (m, P3) ∧
    m.pick "Ps" = [oi] ∧
    (match getType system 0 m 20 (Ref.of 10 1 2) P3 with
      | .ok (some o, P) => P[o]?
      | _ => none) = some (.generic 2 none [oi]) ∧
    (match getType system 0 {} 20 (Ref.of 9 1 2) P3 with
      | .ok (some o, P) => P[o]?
      | _ => none) = some (.generic 2 none [oi, os]) := by
  refine ⟨_, _, _, _, _, _, rfl, rfl, rfl, rfl, by decide +kernel, by decide +kernel⟩

/-- An assembly with `Lib.Outer` (reference 0, which the other assembly does not have) and
    `Outer.Inner<Int>` (generic type 0, its template is reference 1). -/
def client : Tables
  | .type => [cls "Int" none]
  | .assemblyRef => [[("package", .text ""), ("name", .text "lib")]]
  | .typeRef => [[("assembly", one 0 0), ("namespace", .text ""), ("name", .text "Gone"),
        ("generic_param_count", .num 0)],
      [("assembly", one 0 0), ("namespace", .text ""), ("name", .text "Box"),
        ("generic_param_count", .num 1)]]
  | .genericType => [[("template", one 1 1), ("args", one 0 0), ("host", one 0 1)]]
  | .genericArgument => [[("type", one 0 0)]]
  | _ => []

def linked : System :=
  { tables := fun a => if a = 0 then client else tables
    find := fun _ name => if name = "lib" then some 1 else none }

/--
  The virtual machine takes a type that has no meaning: the class around the instance is not in
  the other assembly any more, and the instance is made without it.
-/
theorem missing_host_refuted : (∃ o P, getType linked 0 {} 20 (Ref.of 0 1 2) [] =
      .ok (some o, P) ∧ P[o]? = some (.generic 0 none [1])) ∧
    ∀ bind u, ¬ Means linked 0 bind (.genericType, 0) u := by
  refine ⟨⟨_, _, rfl, rfl⟩, ?_⟩
  intro bind u h
  cases h with
  | @generic _ n b c h hu gs ns us ht hmt hh hmh _ _ _ _ =>
    have hh' : Asm.getType client (Ref.of 0 1 1) = .ok h := hh
    have he : Asm.getType client (Ref.of 0 1 1) = .ok (some (.typeRef, 0)) := by rfl
    rw [he] at hh'
    cases hh'
    cases hmh with
    | some hm =>
      cases hm with
      | @foreign _ j b c ha hb hc =>
        have ha' : getOne client .assemblyRef (Ref.of 0 1 0) = .ok (some (.assemblyRef, j)) := ha
        have ha'' : getOne client .assemblyRef (Ref.of 0 1 0) =
            .ok (some (.assemblyRef, 0)) := by rfl
        rw [ha''] at ha'
        cases ha'
        have hb' : some 1 = some b := hb
        cases hb'
        have hx := find_first.mpr hc
        have hy : Host.typeByName tables "" "Gone" 0 = none := by decide +kernel
        have hx' : Host.typeByName tables "" "Gone" 0 = some c := hx
        rw [hy] at hx'
        cases hx'

end Verif.Props.Rt
