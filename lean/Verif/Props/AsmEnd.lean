import Verif.Props.Asm
import Verif.Proof.AsmRun

/-
  C87: writing an assembly comes to an end, and a program without errors is written and
  can be read back.
-/

namespace Verif.Props

open Verif.Asm Verif.Asm.Spec

namespace AsmExample

/-! ### Deciding the conditions for the examples -/

theorem world_finite {texts nums ones manys gtypes foreign types typeDefs self loads}
    (U : List Id) (h1 : ∀ t ∈ types, t ∈ U) (h2 : ∀ t ∈ typeDefs, t ∈ U) (h3 : self ∈ U)
    (h4 : ∀ l ∈ loads, asked l ∈ U) (h5 : ∀ p ∈ ones, p.2 ∈ U)
    (h6 : ∀ p ∈ manys, ∀ x ∈ p.2, x ∈ U) :
    FiniteProgram (world texts nums ones manys gtypes foreign types typeDefs self loads) U := by
  refine ⟨h1, h2, h3, h4, ?_, ?_⟩
  · intro e _ f x h
    exact h5 _ (lookup_mem _ _ _ (show ones.lookup (e, f) = some x from h))
  · intro e _ f x h
    have h : x ∈ (manys.lookup (e, f)).getD [] := h
    cases hl : manys.lookup (e, f) with
    | none => rw [hl] at h; cases h
    | some l => rw [hl] at h; exact h6 _ (lookup_mem _ _ _ hl) x h

/-- The types named in a declaration, as a list. -/
def namesOf (W : World) (k : Kind) (e : Id) : List (String × Id) :=
  (typeColumns k).filterMap (fun f => (W.one e f).map (f, ·)) ++
  (if k = .genericArgument ∨ k = .nestType ∨ k = .superType then [("", e)] else []) ++
  (constantColumns k).filterMap
    (fun f => ((W.one e f).bind (W.one · "type")).map (f, ·))

theorem names_mem {W : World} {k e f t} (h : Names W k e f t) : (f, t) ∈ namesOf W k e := by
  cases h with
  | column h1 h2 =>
    refine List.mem_append_left _ (List.mem_append_left _ (List.mem_filterMap.mpr ⟨_, h1, ?_⟩))
    rw [h2]; rfl
  | element h1 =>
    refine List.mem_append_left _ (List.mem_append_right _ ?_)
    rw [if_pos h1]; exact List.mem_singleton.mpr rfl
  | constant h1 h2 h3 =>
    refine List.mem_append_right _ (List.mem_filterMap.mpr ⟨_, h1, ?_⟩)
    rw [h2]; simp [h3]

/-- `foreign`, decided. -/
def foreignB (W : World) (k : Kind) (f : String) (p : Id) : Bool :=
  (k == .methodRef || k == .methodRefParam) && f == "type" &&
    match W.gtype p with
    | .genericParam _ => true
    | _ => false

theorem foreignB_eq {W : World} {k f p} (h : ¬ foreign W k f p) : foreignB W k f p = false := by
  rw [← Bool.not_eq_true]
  intro h'
  apply h
  unfold foreignB at h'
  simp only [Bool.and_eq_true, Bool.or_eq_true, beq_iff_eq] at h'
  refine ⟨h'.1.1, h'.1.2, ?_⟩
  cases hg : W.gtype p with
  | genericParam j => exact ⟨j, rfl⟩
  | _ => rw [hg] at h'; exact absurd h'.2 (by simp)

/-- `F` contains the free type parameters of all declarations in `D`. -/
def freeOk (W : World) (D : List (Kind × Id)) (F : List (Kind × Id × Id)) : Bool :=
  D.all fun q =>
    (namesOf W q.1 q.2).all (fun n =>
      (!isParam (W.gtype n.2) || (declared W q.1 q.2).contains n.2 || foreignB W q.1 n.1 n.2
        || F.contains (q.1, q.2, n.2)) &&
      match tableOf (W.gtype n.2) with
      | none => true
      | some k' => D.contains (k', n.2) && (k' == .type || F.all fun z =>
          !(z.1 == k' && z.2.1 == n.2) || (declared W q.1 q.2).contains z.2.2 ||
            F.contains (q.1, q.2, z.2.2))) &&
    (lists q.1).all fun c => (W.many q.2 c.1).all fun x => D.contains (c.2, x) &&
      F.all fun z => !(z.1 == c.2 && z.2.1 == x) || (declared W q.1 q.2).contains z.2.2 ||
        F.contains (q.1, q.2, z.2.2)

theorem free_sound {W : World} {D F} (h : freeOk W D F = true) {k e p} (hm : Mentions W k e p) :
    (k, e) ∈ D → (k, e, p) ∈ F := by
  have split3 : ∀ (q : Kind × Id) (k' : Kind) (t p : Id), F.all (fun z =>
      !(z.1 == k' && z.2.1 == t) || (declared W q.1 q.2).contains z.2.2 ||
        F.contains (q.1, q.2, z.2.2)) = true → (k', t, p) ∈ F → p ∉ declared W q.1 q.2 →
      (q.1, q.2, p) ∈ F := by
    intro q k' t p ha hp hd
    have := List.all_eq_true.mp ha _ hp
    simp only [beq_self_eq_true, Bool.and_self, Bool.not_true, Bool.false_or, Bool.or_eq_true,
      List.contains_iff_mem] at this
    exact this.resolve_left hd
  induction hm with
  | @param k e f p hn hp hd hf =>
    intro hq
    have h1 := List.all_eq_true.mp h _ hq
    rw [Bool.and_eq_true] at h1
    have h2 := List.all_eq_true.mp h1.1 _ (names_mem hn)
    rw [Bool.and_eq_true] at h2
    have h3 := h2.1
    simp only [hp, foreignB_eq hf, Bool.not_true, Bool.false_or, Bool.or_false,
      Bool.or_eq_true, List.contains_iff_mem] at h3
    exact h3.resolve_left hd
  | @type k e f t k' p hn ht hne _ hd ih =>
    intro hq
    have h1 := List.all_eq_true.mp h _ hq
    rw [Bool.and_eq_true] at h1
    have h2 := List.all_eq_true.mp h1.1 _ (names_mem hn)
    rw [Bool.and_eq_true] at h2
    have h3 := h2.2
    simp only [ht, Bool.and_eq_true, Bool.or_eq_true, beq_iff_eq, hne, false_or] at h3
    exact split3 (k, e) k' t p h3.2 (ih (List.contains_iff_mem.mp h3.1)) hd
  | @part k e f k' x p hl hx _ hd ih =>
    intro hq
    have h1 := List.all_eq_true.mp h _ hq
    rw [Bool.and_eq_true] at h1
    have h2 := List.all_eq_true.mp (List.all_eq_true.mp h1.2 _ hl) x hx
    rw [Bool.and_eq_true] at h2
    exact split3 (k, e) k' x p h2.2 (ih (List.contains_iff_mem.mp h2.1)) hd

/-- The type parameters of the classes and of their methods. -/
def classParams (W : World) : List Id := W.types.flatMap (W.many · "generic_params")
def methodParams (W : World) : List Id :=
  W.types.flatMap fun t => (W.many t "methods").flatMap (W.many · "generic_params")

/-- The conditions of `Legal`, decided. -/
def legalOk (W : World) (D : List (Kind × Id)) (F : List (Kind × Id × Id)) : Bool :=
  freeOk W D F &&
  (W.types.all fun t => D.contains (.type, t) && W.gtype t == .general true) &&
  (W.typeDefs.all fun d => D.contains (.typeDef, d)) &&
  D.contains (.assembly, W.self) &&
  (D.all fun q => !(q.1 == .type) || W.types.contains q.2) &&
  (D.all fun q => !(q.1 == .type || q.1 == .typeDef) || (W.one q.2 "host").all fun h =>
    D.contains (.type, h) && W.gtype h == .general true) &&
  (D.all fun q => !(q.1 == .typeRef) ||
    ((W.one q.2 "host").all (fun h => W.gtype h == .general false) &&
     (W.one q.2 "assembly").any fun a => D.contains (.assemblyRef, a))) &&
  (D.all fun q => methodColumns.all fun f => (W.one q.2 f).all fun m =>
    W.own m && W.types.any fun t => (W.many t "methods").contains m) &&
  (D.all fun q => !(q.1 == .nestType) || W.gtype q.2 == .general true) &&
  (D.all fun q => (requiredNames q.1).all fun f => W.text q.2 f != "") &&
  (D.all fun q => (requiredTypes q.1).all fun f => (W.one q.2 f).isSome) &&
  (D.all fun q => !(q.1 == .attribute) ||
    ((W.one q.2 "type").all (fun t => (W.gtype t == .general true || W.gtype t == .general false)
      && (W.many t "generic_params").isEmpty) &&
     (W.one q.2 "constructor").any fun c =>
      (W.many c "params").length == (W.many q.2 "arguments").length &&
      (W.many q.2 "arguments").length ≤ 1)) &&
  (F.all fun z => !(z.1 == .type && W.types.contains z.2.1 ||
      z.1 == .typeDef && W.typeDefs.contains z.2.1) || (classParams W).contains z.2.2) &&
  (F.all fun z => !(z.1 == .methodRef)) &&
  (D.all fun q => (declared W q.1 q.2).all fun p =>
    if q.1 = .typeDef then W.gtype p == .typeDefParam else
      match W.gtype p with
      | .genericParam _ => true
      | _ => false) &&
  (W.loads.all fun l => match l with
    | .type t => (match tableOf (W.gtype t) with
        | none => true
        | some k' => D.contains (k', t) && F.all fun z => !(z.1 == k' && z.2.1 == t) ||
            (classParams W).contains z.2.2 || (methodParams W).contains z.2.2) &&
        (!isParam (W.gtype t) || (classParams W).contains t || (methodParams W).contains t)
    | .method m => if W.own m then W.types.any fun t => (W.many t "methods").contains m
        else D.contains (.methodRef, m)
    | .field f => W.types.any fun t => (W.many t "fields").contains f)

theorem class_mem {W : World} {p} (h : p ∈ classParams W) : ofClass W p := by
  obtain ⟨t, h1, h2⟩ := List.mem_flatMap.mp h
  exact ⟨t, h1, h2⟩

theorem method_mem {W : World} {p} (h : p ∈ methodParams W) : ofMethod W p := by
  obtain ⟨t, h1, h2⟩ := List.mem_flatMap.mp h
  obtain ⟨m, h3, h4⟩ := List.mem_flatMap.mp h2
  exact ⟨t, h1, m, h3, h4⟩

theorem legal_of {W : World} {D : List (Kind × Id)} {F : List (Kind × Id × Id)}
    (h : legalOk W D F = true) : Legal W fun k e => (k, e) ∈ D := by
  unfold legalOk at h
  simp only [Bool.and_eq_true, List.contains_iff_mem] at h
  obtain ⟨⟨⟨⟨⟨⟨⟨⟨⟨⟨⟨⟨⟨⟨⟨hF, h1⟩, h2⟩, h3⟩, h4⟩, h5⟩, h6⟩, h7⟩, h8⟩, h9⟩, h10⟩, h11⟩, h12⟩, h13⟩,
    h14⟩, h15⟩ := h
  have all := fun {α : Type} {l : List α} {p : α → Bool} (h : l.all p = true) =>
    List.all_eq_true.mp h
  refine ⟨?_, ?_, h3, ?_, ?_, ?_, ?_, ?_, ?_, ?_, ?_, ?_, ?_, ?_, ?_, ?_, ?_, ?_, ?_⟩
  · intro t ht
    simpa using all h1 t ht
  · intro d hd
    simpa using all h2 d hd
  · intro t ht
    simpa using all h4 _ ht
  · intro k e f k' x hD hl hx
    have h := all hF _ hD
    rw [Bool.and_eq_true] at h
    have := all (all h.2 _ hl) x hx
    rw [Bool.and_eq_true] at this
    exact List.contains_iff_mem.mp this.1
  · intro k e f t k' hD hn ht
    have h := all hF _ hD
    rw [Bool.and_eq_true] at h
    have := all h.1 _ (names_mem hn)
    rw [Bool.and_eq_true] at this
    have := this.2
    simp only [ht, Bool.and_eq_true] at this
    exact List.contains_iff_mem.mp this.1
  · intro e x hD ho
    rcases hD with hD | hD
    · have := all h5 _ hD
      simpa [ho] using this
    · have := all h5 _ hD
      simpa [ho] using this
  · intro e x hD ho
    have := all h6 _ hD
    simp only [ho, beq_self_eq_true, Bool.not_true, Bool.false_or, Option.all_some,
      Bool.and_eq_true, beq_iff_eq] at this
    exact this.1
  · intro e hD
    have := all h6 _ hD
    cases ha : W.one e "assembly" with
    | none => rw [ha] at this; simp at this
    | some a => rw [ha] at this; exact ⟨a, rfl, (by simpa using this : _ ∧ _).2⟩
  · intro k e f m hD hf ho
    have := all (all h7 _ hD) f hf
    simpa [ho] using this
  · intro x hD
    simpa using all h8 _ hD
  · intro k e f hD hf
    simpa using all (all h9 _ hD) f hf
  · intro k e f hD hf
    have := all (all h10 _ hD) f hf
    cases ho : W.one e f with
    | none => simp [ho] at this
    | some t => exact ⟨t, rfl⟩
  · intro e hD
    have := all h11 _ hD
    simp only [beq_self_eq_true, Bool.not_true, Bool.false_or, Bool.and_eq_true] at this
    refine ⟨fun t ht => ?_, ?_⟩
    · have h := this.1
      rw [ht] at h
      simp only [Option.all_some, Bool.and_eq_true, Bool.or_eq_true, beq_iff_eq,
        List.isEmpty_iff] at h
      exact ⟨h.1.elim (⟨_, ·⟩) (⟨_, ·⟩), h.2⟩
    · have h := this.2
      cases hc : W.one e "constructor" with
      | none => rw [hc] at h; simp at h
      | some c =>
        rw [hc] at h
        simp only [Option.any_some, Bool.and_eq_true, beq_iff_eq, decide_eq_true_eq] at h
        exact ⟨c, rfl, h⟩
  · intro t ht p hm
    have hD : (Kind.type, t) ∈ D := by
      have := all h1 t ht
      rw [Bool.and_eq_true] at this
      exact List.contains_iff_mem.mp this.1
    have := all h12 _ (free_sound hF hm hD)
    have hc : W.types.contains t = true := List.contains_iff_mem.mpr ht
    simp only [hc, beq_self_eq_true, Bool.and_self, Bool.true_or, Bool.not_true,
      Bool.false_or, List.contains_iff_mem] at this
    exact class_mem this
  · intro t ht p hm
    have hD : (Kind.typeDef, t) ∈ D := by simpa using all h2 t ht
    have := all h12 _ (free_sound hF hm hD)
    have hc : W.typeDefs.contains t = true := List.contains_iff_mem.mpr ht
    simp only [hc, beq_self_eq_true, Bool.and_self, Bool.or_true, Bool.not_true,
      Bool.false_or, List.contains_iff_mem] at this
    exact class_mem this
  · intro m p hD hm
    have := all h13 _ (free_sound hF hm hD)
    simp at this
  · intro k e p hD hp
    have := all (all h14 _ hD) p hp
    by_cases hk : k = .typeDef
    · rw [if_pos hk] at this ⊢
      simpa using this
    · rw [if_neg hk] at this ⊢
      cases hg : W.gtype p with
      | genericParam j => exact ⟨j, rfl⟩
      | _ => simp [hg] at this
  · intro l hl
    have := all h15 l hl
    cases l with
    | type t =>
      simp only [Bool.and_eq_true] at this
      obtain ⟨ha, hb⟩ := this
      refine ⟨?_, ?_, ?_⟩
      · intro k' hk
        simp only [hk, Bool.and_eq_true] at ha
        exact List.contains_iff_mem.mp ha.1
      · intro hp
        simp only [hp, Bool.not_true, Bool.false_or, Bool.or_eq_true,
          List.contains_iff_mem] at hb
        exact hb.imp class_mem method_mem
      · intro k' p hk _ hm
        simp only [hk, Bool.and_eq_true] at ha
        have := all ha.2 _ (free_sound hF hm (List.contains_iff_mem.mp ha.1))
        simp only [beq_self_eq_true, Bool.and_self, Bool.not_true, Bool.false_or,
          Bool.or_eq_true, List.contains_iff_mem] at this
        exact this.imp class_mem method_mem
    | method m =>
      simp only at this ⊢
      split at this
      · rename_i hm
        rw [if_pos hm]
        simpa using this
      · rename_i hm
        rw [if_neg hm]
        exact List.contains_iff_mem.mp this
    | field f => simpa using this

/-- The declarations of the program `app`, with their kinds. -/
def appDecls : List (Kind × Id) :=
  [(.assembly, 1), (.type, 10), (.type, 20), (.type, 41), (.genericParam, 11), (.arrayType, 12),
   (.field, 13), (.method, 14), (.param, 15), (.method, 21), (.property, 22), (.method, 23),
   (.genericType, 24), (.superType, 24), (.superType, 30), (.genericArgument, 20),
   (.typeRef, 30), (.typeRef, 31), (.typeRef, 46), (.assemblyRef, 32), (.attribute, 40),
   (.method, 42), (.param, 43), (.attributeArgument, 44)]

/-- Its free type parameters: only `T`, inside `List`. -/
def appFree : List (Kind × Id × Id) :=
  [(.arrayType, 12, 11), (.field, 13, 11), (.method, 14, 11)]

/--
  ```
  typedef Pair<A> Map<A, A>;
  class Map<K, V> { U pick<U>(U[] all) {…} }
  ```
  with a method body that names `U[]`.  10 `Map`, 11 `K`, 12 `V`, 13 `pick`, 14 `U`, 15 `U[]`,
  16 `all`, 20 `Pair`, 21 `A`, 22 `Map<A, A>`.
-/
def generics : World := world
  [((10, "name"), "Map"), ((11, "name"), "K"), ((12, "name"), "V"), ((13, "name"), "pick"),
   ((14, "name"), "U"), ((16, "name"), "all"), ((20, "name"), "Pair"), ((21, "name"), "A")] []
  [((13, "type"), 14), ((16, "type"), 15), ((15, "element_type"), 14), ((20, "type"), 22),
   ((22, "template"), 10)]
  [((10, "generic_params"), [11, 12]), ((10, "methods"), [13]), ((13, "generic_params"), [14]),
   ((13, "params"), [16]), ((20, "params"), [21]), ((22, "args"), [21, 21])]
  [(10, .general true), (11, .genericParam 0), (12, .genericParam 1), (14, .genericParam 0),
   (15, .array), (21, .typeDefParam), (22, .generic)]
  [] [10] [20] 1 [.type 15, .method 13]

def genericsDecls : List (Kind × Id) :=
  [(.assembly, 1), (.type, 10), (.genericParam, 11), (.genericParam, 12), (.method, 13),
   (.genericParam, 14), (.arrayType, 15), (.param, 16), (.typeDef, 20), (.typeDefParam, 21),
   (.genericType, 22), (.genericArgument, 21)]

def genericsFree : List (Kind × Id × Id) :=
  [(.arrayType, 15, 14), (.param, 16, 14), (.genericType, 22, 21), (.genericArgument, 21, 21)]

/-- `class A<T> { B<A<T>> b; }  class B<T> { A<B<T>> a; }`: the classes name each other in
    ever deeper types when they are expanded. -/
def circular : World := world
  [((10, "name"), "A"), ((11, "name"), "T"), ((12, "name"), "b"), ((20, "name"), "B"),
   ((21, "name"), "T"), ((22, "name"), "a")] []
  [((12, "type"), 14), ((13, "template"), 10), ((14, "template"), 20), ((22, "type"), 24),
   ((23, "template"), 20), ((24, "template"), 10)]
  [((10, "generic_params"), [11]), ((10, "fields"), [12]), ((13, "args"), [11]),
   ((14, "args"), [13]), ((20, "generic_params"), [21]), ((20, "fields"), [22]),
   ((23, "args"), [21]), ((24, "args"), [23]), ((10, "super_types"), [24])]
  [(10, .general true), (20, .general true), (11, .genericParam 0), (21, .genericParam 0),
   (13, .generic), (14, .generic), (23, .generic), (24, .generic)]
  [] [10, 20] [] 1 []

end AsmExample

open AsmExample

/--
  C87, the end: for every finite program, however its declarations name each other, and
  with errors or without, writing comes to an end: from some number of rounds on the result
  is the same and it is not "out of rounds".
-/
theorem writing_ends (W : World) (U : List Id) (finite : FiniteProgram W U) :
    ∃ n, ∀ m, n ≤ m → write W m ≠ .error .fuel ∧ write W m = write W n :=
  write_ends finite

/-- Classes that name each other, and themselves as a base type. -/
example : FiniteProgram circular [1, 10, 11, 12, 13, 14, 20, 21, 22, 23, 24] ∧
    (readBack circular 50).isSome :=
  ⟨world_finite _ (by decide) (by decide) (by decide) (by decide) (by decide) (by decide),
    by decide +kernel⟩

/-- A program with an error: the attribute with two arguments. -/
example : FiniteProgram twoArguments [1, 10, 12, 13, 14, 20, 21, 22, 23] :=
  world_finite _ (by decide) (by decide) (by decide) (by decide) (by decide) (by decide)

/--
  C87, success: a finite program without errors (`Legal`), whose lists have fewer than 512
  elements, is written, and what is written can be read back when its tables have at most
  2^20 rows.  The type parameters of a method and a typedef are written before the types
  that name them, whatever the order of the declarations; those of classes before any type
  that names them.
  Missing: programs with attributes of two arguments or with generic methods of other
  assemblies, where it is false (`two_arguments_refuted`, `foreign_generic_refuted`).
-/
theorem legal_written_and_read_partial (W : World) (U : List Id) (D : Kind → Id → Prop)
    (finite : FiniteProgram W U) (legal : Legal W D) (short : ShortLists W)
    (own : OwnMethods W) :
    ∃ n t rs, (∀ m, n ≤ m → write W m = .ok (t, rs)) ∧
      (SmallTables t → ∃ g, read t = .ok g) := by
  obtain ⟨n, hn⟩ := write_ends finite
  rcases write_ok legal short n with h | ⟨t, rs, h, hro⟩
  · exact absurd h (hn n (Nat.le_refl n)).1
  · refine ⟨n, t, rs, fun m hm => (hn m hm).2.trans h, fun small => ?_⟩
    obtain ⟨ent, hf, _⟩ := write_good short h
    exact read_ok short own hf small hro

/-- A program with a generic class, a property, an attribute, foreign base types. -/
example : FiniteProgram app [1, 10, 11, 12, 13, 14, 15, 20, 21, 22, 23, 24, 30, 31, 32, 40, 41,
      42, 43, 44, 45, 46] ∧ Legal app (fun k e => (k, e) ∈ appDecls) ∧ ShortLists app ∧
    OwnMethods app :=
  ⟨world_finite _ (by decide) (by decide) (by decide) (by decide) (by decide) (by decide),
    legal_of (F := appFree) (by decide +kernel), world_short (by decide), world_own (by decide)⟩

/-- A program with a generic method and a generic typedef. -/
example : FiniteProgram generics [1, 10, 11, 12, 13, 14, 15, 16, 20, 21, 22] ∧
    Legal generics (fun k e => (k, e) ∈ genericsDecls) ∧ ShortLists generics ∧
    OwnMethods generics ∧ attr generics 50 (.method, 0) "type" =
      some (.type (some (.genericParam, 2))) :=
  ⟨world_finite _ (by decide) (by decide) (by decide) (by decide) (by decide) (by decide),
    legal_of (F := genericsFree) (by decide +kernel), world_short (by decide),
    world_own (by decide), by decide +kernel⟩

end Verif.Props
