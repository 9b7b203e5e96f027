import Verif.Proof.NamesOk

/-
  C88: what the name of a type means.
-/

namespace Verif.Names

open Verif.Names.Spec

/-! ## Programs to show that the conditions can be met -/

/-- A declared class. -/
structure Decl where
  id : Id
  assembly : Nat := 0
  ns : Ns := []
  name : Name
  hosts : List Id := []
  params : List (Name × Id) := []
deriving DecidableEq

def declOf (ds : List Decl) (t : Id) : Option Decl := ds.find? fun d => d.id == t

/-- The world of some classes and typedefs. -/
def ofDecls (ds : List Decl) (defs : List (Nat × DKey × Option Ty)) : World where
  tables := fun A =>
    { types := (ds.filter fun d => d.assembly == A).map fun d =>
        (⟨d.ns, d.name, some d.params.length, d.hosts.head?⟩, d.id)
      typeDefs := (defs.filter fun e => e.1 == A).map (·.2) }
  assembly := fun t => ((declOf ds t).map (·.assembly)).getD 0
  ns := fun t => ((declOf ds t).map (·.ns)).getD []
  hosts := fun t => ((declOf ds t).map (·.hosts)).getD []
  params := fun t => ((declOf ds t).map (·.params)).getD []
  paramName := fun p => ((ds.flatMap (·.params)).find? fun e => e.2 == p).map (·.1) |>.getD ""

/-- The classes are there once, and those in a class are in the assembly and the namespace
    of it. -/
def goodDecls (ds : List Decl) : Bool :=
  let W := ofDecls ds []
  ds.all fun d => (declOf ds d.id == some d) &&
    (match d.hosts with
      | [] => true
      | h :: tl => tl == W.hosts h && d.assembly == W.assembly h) &&
    d.ns == outerNs W d.id

theorem ofDecls_wf (ds : List Decl) (defs : List (Nat × DKey × Option Ty))
    (h : goodDecls ds = true) : WellFormed (ofDecls ds defs) ∧ Counted (ofDecls ds defs) := by
  unfold goodDecls at h
  simp only [List.all_eq_true, Bool.and_eq_true, beq_iff_eq] at h
  have hns : ∀ t, outerNs (ofDecls ds defs) t = outerNs (ofDecls ds []) t := fun _ => rfl
  refine ⟨⟨?_, ?_⟩, ?_⟩
  · intro t a tl ht
    cases hd : declOf ds t with
    | none => simp [ofDecls, hd] at ht
    | some d =>
      have hm := List.mem_of_find?_eq_some hd
      have hid : d.id = t := by simpa using List.find?_some hd
      have := (h d hm).1.2
      have hht : d.hosts = a :: tl := by simpa [ofDecls, hd] using ht
      rw [hht] at this
      simp only [Bool.and_eq_true, beq_iff_eq] at this
      refine ⟨this.1, ?_⟩
      have h2 := this.2
      simp only [ofDecls] at h2 ⊢
      rw [hd]; simpa using h2
  · intro A k x hx
    simp only [ofDecls, List.mem_map, List.mem_filter, beq_iff_eq, Prod.mk.injEq] at hx
    obtain ⟨d, ⟨hm, hA⟩, hk, rfl⟩ := hx
    have h1 := (h d hm).1.1
    refine ⟨?_, ?_, ?_⟩
    · simp [ofDecls, h1, hA]
    · rw [← hk]; simp [ofDecls, h1]
    · rw [← hk, hns]; exact (h d hm).2
  · intro A k x hx
    simp only [ofDecls, List.mem_map, List.mem_filter, beq_iff_eq, Prod.mk.injEq] at hx
    obtain ⟨d, ⟨hm, hA⟩, hk, rfl⟩ := hx
    have h1 := (h d hm).1.1
    rw [← hk]; simp [ofDecls, h1]

/-! ## What a name means -/

/-- C88.  If the compiler reports nothing for the name of a type, it takes the name for a
    type `t` exactly when `t` is the meaning of the name: a type parameter that can be seen;
    else what the classes around say, innermost first, then the namespaces around, innermost
    first, then the assembly, the imports and the usings in their order, where in a namespace
    as few parts as possible count as namespaces. And it finds none exactly when the name has
    no meaning.
    Missing: names in a typedef with parameters, and paths through a typedef
    (`typedef_param_refuted`, `alias_sibling_refuted`, `alias_foreign_refuted`). -/
theorem name_means_partial (W : World) (hW : WellFormed W) (C : Context) (hC : C.typeDef = [])
    (hP : Placed W C) (g : Global) (us : List NameUnit) (hus : us ≠ []) (hna : AliasLast W C us)
    (x : Option Ty) (hx : resolve W C g us = .ok x) :
    (∀ t, Meaning W C g us t ↔ x = some t) ∧ (x = none ↔ ∀ t, ¬ Meaning W C g us t) := by
  have he := exact_resolve W hW C hC hP g us hus hna x hx
  refine ⟨he, ?_⟩
  constructor
  · intro hn t hm
    have := (he t).1 hm
    rw [hn] at this; cases this
  · intro hn
    cases x with
    | none => rfl
    | some t => exact absurd ((he t).2 rfl) (hn t)

/-- C88.  When the typedefs have their types and stand outside of classes, and no class takes
    any number of type arguments, there is no error: every name with a meaning gets it, and
    it has only one. -/
theorem names_found_partial (W : World) (hW : WellFormed W) (hN : Counted W) (hS : Solved W)
    (hO : AliasesOutside W) (C : Context) (hC : C.typeDef = []) (hP : Placed W C) (g : Global)
    (us : List NameUnit) (hus : us ≠ []) (hna : AliasLast W C us) :
    (∀ t, Meaning W C g us t ↔ resolve W C g us = .ok (some t)) ∧
    ((∀ t, ¬ Meaning W C g us t) ↔ resolve W C g us = .ok none) := by
  obtain ⟨x, hx⟩ := fine_resolve W hW hS hN hO C hC hP g us hna
  obtain ⟨h1, h2⟩ := name_means_partial W hW C hC hP g us hus hna x hx
  rw [hx]
  constructor
  · intro t; rw [h1 t]
    exact ⟨fun h => by rw [h], fun h => by cases h; rfl⟩
  · rw [← h2]
    exact ⟨fun h => by rw [h], fun h => by cases h; rfl⟩

/-- A `using` added at the end never changes the meaning of a name that has one; here every
    program counts, without conditions. -/
theorem using_added (W : World) (C : Context) (vs : List Using) (g : Global)
    (us : List NameUnit) (t : Ty) (h : resolve W C g us = .ok (some t)) :
    resolve W { C with usings := C.usings ++ vs } g us = .ok (some t) := by
  have hgt : ∀ A ns u host, getType W { C with usings := C.usings ++ vs } A ns u host =
      getType W C A ns u host := fun _ _ _ _ => rfl
  have hno : ∀ A ns n u, nestOne W { C with usings := C.usings ++ vs } A ns n u =
      nestOne W C A ns n u := fun _ _ _ _ => rfl
  have hdn : ∀ A ns us t, down W { C with usings := C.usings ++ vs } A ns t us =
      down W C A ns t us := by
    intro A ns us
    induction us with
    | nil => intro t; rfl
    | cons u us ih => intro t; simp only [down, hno, ih]
  have how : ∀ A ns u us ts, outward W { C with usings := C.usings ++ vs } A ns u us ts =
      outward W C A ns u us ts := by
    intro A ns u us ts
    induction ts with
    | nil => rfl
    | cons t ts ih => simp only [outward, hno, hdn, ih]
  have hfn : ∀ A ns t us, findNest W { C with usings := C.usings ++ vs } A ns t us =
      findNest W C A ns t us := by
    intro A ns t us; cases us <;> simp only [findNest, how]
  have hft : ∀ A us ns, findType W { C with usings := C.usings ++ vs } A ns us =
      findType W C A ns us := by
    intro A us
    induction us with
    | nil => intro ns; rfl
    | cons u us ih => intro ns; simp only [findType, hgt, hfn, ih]
  have hst : ∀ A us ns, searchType W { C with usings := C.usings ++ vs } A ns us =
      searchType W C A ns us := by
    intro A us
    induction us with
    | nil => intro ns; rfl
    | cons u us ih => intro ns; simp only [searchType, hft, ih]
  have him : ∀ us i, inImport W { C with usings := C.usings ++ vs } us i = inImport W C us i := by
    intro us i; simp only [inImport, hst]
  have hsg : ∀ us, searchGlobal W { C with usings := C.usings ++ vs } us =
      searchGlobal W C us := by
    intro us
    have : inImport W { C with usings := C.usings ++ vs } us = inImport W C us :=
      funext (him us)
    simp only [searchGlobal, hst, this]
  have hus : inUsing W { C with usings := C.usings ++ vs } us = inUsing W C us := by
    funext v
    unfold inUsing
    cases v.alias_ with
    | none => exact hsg _
    | some a => simp only [hsg]
  have hup : ∀ n ns, upward W { C with usings := C.usings ++ vs } us n ns =
      upward W C us n ns := by
    intro n
    induction n with
    | zero => intro ns; simp only [upward, hft]
    | succ n ih => intro ns; simp only [upward, hft, ih]
  have hpa : ofParam W { C with usings := C.usings ++ vs } us = ofParam W C us := by
    cases us with
    | nil => rfl
    | cons u us => cases us <;> rfl
  have hfi : ∀ l, first (inUsing W C us) l = .ok (some t) →
      first (inUsing W C us) (l ++ vs) = .ok (some t) := by
    intro l
    induction l with
    | nil => intro h; cases h
    | cons v l ih =>
      intro h
      rw [List.cons_append]
      unfold first at h ⊢
      cases hz : inUsing W C us v with
      | error e => rw [hz] at h; cases h
      | ok o =>
        rw [hz] at h
        cases o with
        | some s => exact h
        | none => exact ih h
  unfold resolve at h ⊢
  rw [hpa]
  cases hz : ofParam W C us with
  | some p => rw [hz] at h; exact h
  | none =>
    rw [hz] at h
    cases g with
    | global => simp only [hsg] at h ⊢; exact h
    | root => simp only [hsg, hft] at h ⊢; exact h
    | default_ =>
      simp only [hsg, hft, hfn, hup, hus] at h ⊢
      have go : ∀ a b b' : Res, (b = .ok (some t) → b' = .ok (some t)) →
          alt a b = .ok (some t) → alt a b' = .ok (some t) := by
        intro a b b' hb hab
        cases a with
        | error e => cases hab
        | ok o =>
          cases o with
          | some s => exact hab
          | none => exact hb hab
      exact go _ _ _ (go _ _ _ (go _ _ _ (hfi _))) h

/-- The full name of a class of the assembly, after `::`, means the class from everywhere,
    unless a part of the namespace is also the name of a class or typedef, or it is the name
    of a type parameter. -/
theorem full_name (W : World) (hW : WellFormed W) (hN : Counted W) (hS : Solved W)
    (hO : AliasesOutside W) (C : Context) (hC : C.typeDef = []) (hP : Placed W C)
    (hu : ∀ v ∈ C.usings, ∀ n ∈ v.ns, NoAlias W n)
    (ns : Ns) (n : Name) (x : Id)
    (hx : (W.tables C.self).types.lookup ⟨ns, n, some 0, none⟩ = some x)
    (hna : ∀ m ∈ ns, NoAlias W m ∧ ∀ k y, (k, y) ∈ (W.tables C.self).types → k.name ≠ m)
    (hpar : asParam W C (ns.map plain ++ [plain n]) = none) :
    resolve W C .root (ns.map plain ++ [plain n]) = .ok (some (.gen x)) := by
  have hal : AliasLast W C (ns.map plain ++ [plain n]) := by
    refine ⟨?_, hu⟩
    intro u hu'
    rw [List.dropLast_concat] at hu'
    obtain ⟨m, hm, rfl⟩ := List.mem_map.1 hu'
    exact (hna m hm).1
  rw [← (names_found_partial W hW hN hS hO C hC hP .root _ (by simp) hal).1]
  unfold Meaning
  rw [hpar]
  refine ⟨[], .namespace_ C.self [] (ns.map plain ++ [plain n]),
    everywhere C (ns.map plain ++ [plain n]), rfl, ?_, by simp⟩
  refine ⟨ns.length, ⟨ns, plain n, [], .gen x, rfl, rfl, ?_, rfl⟩, ?_⟩
  · refine .inl ⟨x, .inl ?_, rfl⟩
    rw [List.nil_append]; exact hx
  · rintro j hj t' ⟨pre, u, post, t0, he, hl, ht, _⟩
    -- the part taken for a class is a namespace
    have hlen : j < (ns.map plain).length := by simpa using hj
    have hget : (ns.map plain ++ [plain n])[j]? = some u := by
      rw [he, List.getElem?_append_right (by simp [hl])]; simp [hl]
    rw [List.getElem?_append_left hlen, List.getElem?_map] at hget
    cases hg : ns[j]? with
    | none => rw [hg] at hget; cases hget
    | some m =>
      rw [hg] at hget
      have hu' : u = plain m := by simpa using hget.symm
      have hm : m ∈ ns := List.mem_of_getElem? hg
      obtain ⟨h1, h2⟩ := hna m hm
      rcases ht with ⟨y, hy, _⟩ | ⟨_, ty, ha, _⟩
      · rcases hy with hy | ⟨_, hy, _⟩
        · exact h2 _ _ (mem_of_lookup hy) (by rw [hu']; rfl)
        · exact h2 _ _ (mem_of_lookup hy) (by rw [hu']; rfl)
      · exact alias_not (by rw [hu']; exact h1) ha

/-- A class declared in the class a name stands in hides all of that name outside. -/
theorem inner_class_hides (W : World) (hW : WellFormed W) (C : Context) (hC : C.typeDef = [])
    (hP : Placed W C) (hu : ∀ v ∈ C.usings, ∀ n ∈ v.ns, NoAlias W n) (t x : Id) (n : Name)
    (ht : C.type = some t)
    (hx : (W.tables C.self).types.lookup ⟨C.ns, n, some 0, some t⟩ = some x)
    (hpar : asParam W C [plain n] = none) (r : Option Ty)
    (hr : resolve W C .default_ [plain n] = .ok r) : r = some (.gen x) := by
  refine ((name_means_partial W hW C hC hP .default_ [plain n] (by simp)
    ⟨by simp, hu⟩ r hr).1 (.gen x)).1 ?_
  unfold Meaning
  rw [hpar]
  refine ⟨[], .classes (t :: W.hosts t) [plain n], _, by simp only [places, ht]; rfl, ?_, by simp⟩
  refine ⟨[], t, W.hosts t, plain n, [], .gen x, rfl, rfl, by simp, ?_, rfl⟩
  refine ⟨t, rfl, .inl ⟨x, .inl ?_, rfl⟩⟩
  rw [(hP t ht).1, (hP t ht).2]; exact hx

/-! ## Typedefs -/

def Tys.map (f : Ty → Ty) : Tys → Tys
  | .nil => .nil
  | .cons t l => .cons (f t) (l.map f)

theorem get_map (f : Ty → Ty) (hf : f .null = .null) : ∀ (l : Tys) (i : Nat),
    (l.map f).get i = f (l.get i)
  | .nil, _ => hf.symm
  | .cons _ _, 0 => rfl
  | .cons _ l, i + 1 => get_map f hf l i

mutual
theorem expand_twice (W : World) (args args' : Tys) (ty : Ty) :
    expand W args' .null (expand W args .null ty) =
      expand W (args.map (expand W args' .null)) .null ty := by
  cases ty with
  | null => rfl
  | dparam i => exact (get_map _ rfl args i).symm
  | array e d => simp only [expand]; rw [expand_twice W args args' e]
  | gparam p => rfl
  | gen t => rfl
  | inst t l h => simp only [expand]; rw [expand_twice W args args' h, expandAll_twice W args args' l]
theorem expandAll_twice (W : World) (args args' : Tys) (l : Tys) :
    expandAll W args' .null (expandAll W args .null l) =
      expandAll W (args.map (expand W args' .null)) .null l := by
  cases l with
  | nil => rfl
  | cons t l => simp only [expandAll]; rw [expand_twice W args args' t, expandAll_twice W args args' l]
end

/-- A typedef that stands for another one with arguments means what one gets by writing the
    other out. -/
theorem typedef_of_typedef (W : World) (args args' : Tys) (ty : Ty) :
    expand W args' .null (expand W args .null ty) =
      expand W (args.map (expand W args' .null)) .null ty := expand_twice W args args' ty

mutual
/-- Only the first `n` parameters of a typedef are in the type. -/
def OnlyParams (n : Nat) : Ty → Prop
  | .null => True
  | .gen _ => True
  | .gparam _ => True
  | .dparam i => i < n
  | .array e _ => OnlyParams n e
  | .inst _ l h => AllOnlyParams n l ∧ OnlyParams n h
def AllOnlyParams (n : Nat) : Tys → Prop
  | .nil => True
  | .cons t l => OnlyParams n t ∧ AllOnlyParams n l
end

theorem allOnly_get (n : Nat) : ∀ (l : Tys) (i : Nat), AllOnlyParams n l → OnlyParams n (l.get i)
  | .nil, _, _ => trivial
  | .cons _ _, 0, h => h.1
  | .cons _ l, i + 1, h => allOnly_get n l i h.2

mutual
theorem expand_only (W : World) (args : Tys) (host : Ty) (n : Nat) (ha : AllOnlyParams n args)
    (hh : ∀ m t, hostArg W m host = some t → OnlyParams n t) (ty : Ty) :
    OnlyParams n (expand W args host ty) := by
  cases ty with
  | null => trivial
  | dparam i => exact allOnly_get n args i ha
  | array e d => exact expand_only W args host n ha hh e
  | gparam p =>
    simp only [expand]
    cases hz : hostArg W (W.paramName p) host with
    | none => trivial
    | some t => exact hh _ t hz
  | gen t => trivial
  | inst t l h => exact ⟨expandAll_only W args host n ha hh l, expand_only W args host n ha hh h⟩
theorem expandAll_only (W : World) (args : Tys) (host : Ty) (n : Nat) (ha : AllOnlyParams n args)
    (hh : ∀ m t, hostArg W m host = some t → OnlyParams n t) (l : Tys) :
    AllOnlyParams n (expandAll W args host l) := by
  cases l with
  | nil => trivial
  | cons t l => exact ⟨expand_only W args host n ha hh t, expandAll_only W args host n ha hh l⟩
end

/-- When a typedef gets types for its parameters, none of its parameters is left: only those
    that the given types have themselves. -/
theorem typedef_filled (W : World) (args : Tys) (ty : Ty) (n : Nat) (ha : AllOnlyParams n args) :
    OnlyParams n (expand W args .null ty) :=
  expand_only W args .null n ha (fun _ _ h => by cases h) ty

mutual
theorem expand_closed (W : World) (args : Tys) (ty : Ty) (h : OnlyParams 0 ty) :
    expand W args .null ty = ty := by
  cases ty with
  | null => rfl
  | dparam i => exact absurd h (Nat.not_lt_zero i)
  | array e d => simp only [expand]; rw [expand_closed W args e h]
  | gparam p => rfl
  | gen t => rfl
  | inst t l k => simp only [expand]; rw [expand_closed W args k h.2, expandAll_closed W args l h.1]
theorem expandAll_closed (W : World) (args : Tys) (l : Tys) (h : AllOnlyParams 0 l) :
    expandAll W args .null l = l := by
  cases l with
  | nil => rfl
  | cons t l => simp only [expandAll]; rw [expand_closed W args t h.1, expandAll_closed W args l h.2]
end

/-- A typedef without parameters, outside of classes, stands for its type as it is. -/
theorem typedef_plain (W : World) (ty : Ty) (h : OnlyParams 0 ty) :
    expand W .nil .null ty = ty := expand_closed W .nil ty h

/-- In a typedef of a generic class the type parameters of the class stand for the arguments
    of the instance the typedef is taken from, the innermost instance first. -/
theorem typedef_of_instance (W : World) (a args : Tys) (host : Ty) (t : Id) (p : Id) :
    (∀ j n, (W.params t)[j]? = some (n, p) → W.paramName p = n →
      (∀ i < j, ∀ q, (W.params t)[i]? = some q → q.1 ≠ n) →
      expand W a (.inst t args host) (.gparam p) = args.get j) ∧
    ((∀ q ∈ W.params t, q.1 ≠ W.paramName p) →
      expand W a (.inst t args host) (.gparam p) = expand W a host (.gparam p)) := by
  constructor
  · intro j n hj hn hi
    have hlt : j < (W.params t).length := (List.getElem?_eq_some_iff.1 hj).1
    have hg : (W.params t)[j] = (n, p) := (List.getElem?_eq_some_iff.1 hj).2
    have : paramIndex (W.params t) n = some j := by
      unfold paramIndex
      rw [List.findIdx?_eq_some_iff_getElem]
      refine ⟨hlt, by rw [hg]; simp, ?_⟩
      intro i hij
      have := hi i hij _ (List.getElem?_eq_getElem (by omega))
      simpa using this
    simp only [expand, hostArg, hn, this, Option.getD_some]
  · intro h
    have : paramIndex (W.params t) (W.paramName p) = none := by
      unfold paramIndex
      rw [List.findIdx?_eq_none_iff]
      intro q hq
      simpa using h q hq
    simp only [expand, hostArg, this]

/-- A typedef stands for an array, or a class with arguments, of what the parts stand for. -/
theorem typedef_parts (W : World) (a : Tys) (host e h : Ty) (d : Nat) (t : Id) (l : Tys) :
    expand W a host (.array e d) = .array (expand W a host e) d ∧
    ∃ l', expand W a host (.inst t l h) = .inst t l' (expand W a host h) ∧
      l'.length = l.length ∧ ∀ i < l.length, l'.get i = expand W a host (l.get i) := by
  refine ⟨rfl, _, rfl, ?_⟩
  exact ⟨length_all W a host l, fun i hi => get_all W a host l i hi⟩
where
  length_all (W : World) (a : Tys) (host : Ty) : ∀ l : Tys,
      (expandAll W a host l).length = l.length
    | .nil => rfl
    | .cons _ l => congrArg (· + 1) (length_all W a host l)
  get_all (W : World) (a : Tys) (host : Ty) : ∀ (l : Tys) (i : Nat), i < l.length →
      (expandAll W a host l).get i = expand W a host (l.get i)
    | .nil, _, h => absurd h (Nat.not_lt_zero _)
    | .cons _ _, 0, _ => rfl
    | .cons _ l, i + 1, h => get_all W a host l i (Nat.lt_of_succ_lt_succ h)

/-! ## A program -/

/-- `namespace App { class Box<T> { class Node { } } class Main { class Node { } } }`,
    `class Node { }`, `typedef App.Box<T> B<T>;` and the assembly `Lib` with `Lib.Node` and
    `Col.List<T>`. -/
def demoDecls : List Decl := [
  { id := 1, ns := ["App"], name := "Box", params := [("T", 100)] },
  { id := 2, ns := ["App"], name := "Node", hosts := [1] },
  { id := 3, ns := ["App"], name := "Main" },
  { id := 4, ns := ["App"], name := "Node", hosts := [3] },
  { id := 5, name := "Node" },
  { id := 6, assembly := 1, ns := ["Lib"], name := "Node" },
  { id := 7, assembly := 1, ns := ["Col"], name := "List", params := [("E", 101)] }]

def demo : World := ofDecls demoDecls
  [(0, ⟨[], "B", 1, none⟩, some (.inst 1 (.cons (.dparam 0) .nil) .null))]

/-- Inside `App.Main`, with `import L = Lib; using Col;`. -/
def inMain : Context :=
  { self := 0, ns := ["App"], type := some 3, imports := [⟨some "L", ["Lib"], some 1⟩,
      ⟨none, ["Col"], some 1⟩], usings := [⟨none, ["L", "Col"]⟩] }

theorem demo_wf : WellFormed demo ∧ Counted demo := ofDecls_wf _ _ (by decide +kernel)

theorem demo_solved : Solved demo ∧ AliasesOutside demo := by
  constructor <;> intro A e he
  all_goals
    simp only [demo, ofDecls, List.mem_map, List.mem_filter, List.mem_singleton] at he
    obtain ⟨d, ⟨rfl, _⟩, rfl⟩ := he
    rfl

theorem demo_noAlias (n : Name) (h : n ≠ "B") : NoAlias demo n := by
  intro A e he
  simp only [demo, ofDecls, List.mem_map, List.mem_filter, List.mem_singleton] at he
  obtain ⟨d, ⟨rfl, _⟩, rfl⟩ := he
  exact fun e => h e.symm

theorem demo_placed : Placed demo inMain := by
  intro t ht; cases ht; exact ⟨by decide +kernel, by decide +kernel⟩

theorem demo_last (us : List NameUnit) (h : ∀ u ∈ us.dropLast, u.name ≠ "B") :
    AliasLast demo inMain us := by
  refine ⟨fun u hu => demo_noAlias _ (h u hu), ?_⟩
  intro v hv n hn
  simp only [inMain, List.mem_singleton] at hv
  subst hv
  simp only [List.mem_cons, List.not_mem_nil, or_false] at hn
  rcases hn with rfl | rfl <;> exact demo_noAlias _ (by decide)

def one (t : Ty) : Tys := .cons t .nil

/-- `Node` is that of `Main`. -/
example : Meaning demo inMain .default_ [plain "Node"] (.gen 4) := by
  rw [(names_found_partial demo demo_wf.1 demo_wf.2 demo_solved.1 demo_solved.2 inMain rfl
    demo_placed .default_ [plain "Node"] (by simp) (demo_last _ (by simp))).1]
  rfl

/-- `::Node` is the one outside. -/
example : resolve demo inMain .root [plain "Node"] = .ok (some (.gen 5)) :=
  full_name demo demo_wf.1 demo_wf.2 demo_solved.1 demo_solved.2 inMain rfl demo_placed
    (demo_last [] (by simp)).2 [] "Node" 5 (by decide +kernel) (by simp) (by decide +kernel)

/-- `::App.Box<…>` and `::App.Main`. -/
example : resolve demo inMain .root [plain "App", plain "Main"] = .ok (some (.gen 3)) := by
  refine full_name demo demo_wf.1 demo_wf.2 demo_solved.1 demo_solved.2 inMain rfl demo_placed
    (demo_last [] (by simp)).2 ["App"] "Main" 3 (by decide +kernel) ?_ (by decide +kernel)
  intro m hm
  simp only [List.mem_singleton] at hm
  subst hm
  refine ⟨demo_noAlias _ (by decide), ?_⟩
  intro k y hk
  have : ∀ p ∈ (demo.tables 0).types, p.1.name ≠ "App" := by decide +kernel
  exact this _ hk

/-- `Box<Main>.Node` is a class of the instance. -/
example : Meaning demo inMain .default_ [⟨"Box", one (.gen 3)⟩, plain "Node"]
    (.inst 2 .nil (.inst 1 (one (.gen 3)) .null)) := by
  rw [(names_found_partial demo demo_wf.1 demo_wf.2 demo_solved.1 demo_solved.2 inMain rfl
    demo_placed .default_ _ (by simp) (demo_last _ (by simp))).1]
  rfl

/-- `B<Node>` is `App.Box<Node>`. -/
example : Meaning demo inMain .default_ [⟨"B", one (.gen 4)⟩] (.inst 1 (one (.gen 4)) .null) := by
  rw [(names_found_partial demo demo_wf.1 demo_wf.2 demo_solved.1 demo_solved.2 inMain rfl
    demo_placed .default_ _ (by simp) (demo_last _ (by simp))).1]
  rfl

/-- `List<Node>` by the `using` and the import. -/
example : Meaning demo inMain .default_ [⟨"List", one (.gen 4)⟩] (.inst 7 (one (.gen 4)) .null) := by
  rw [(names_found_partial demo demo_wf.1 demo_wf.2 demo_solved.1 demo_solved.2 inMain rfl
    demo_placed .default_ _ (by simp) (demo_last _ (by simp))).1]
  rfl

/-- `L.Lib.Node` by the import, and `Lib.Node` not. -/
example : resolve demo inMain .default_ [plain "L", plain "Lib", plain "Node"] =
      .ok (some (.gen 6)) ∧
    ∀ t, ¬ Meaning demo inMain .default_ [plain "Lib", plain "Node"] t := by
  refine ⟨rfl, ?_⟩
  rw [(names_found_partial demo demo_wf.1 demo_wf.2 demo_solved.1 demo_solved.2 inMain rfl
    demo_placed .default_ _ (by simp) (demo_last _ (by simp [plain]))).2]
  rfl

example (r : Option Ty) (h : resolve demo inMain .default_ [plain "Node"] = .ok r) :
    r = some (.gen 4) :=
  inner_class_hides demo demo_wf.1 inMain rfl demo_placed (demo_last [] (by simp)).2
    3 4 "Node" rfl (by decide +kernel) (by decide +kernel) r h

/-- `using_added` has cases: `List<Node>`, found by the first `using`. -/
example : resolve demo { inMain with usings := inMain.usings ++ [⟨none, ["L", "Lib"]⟩] } .default_
    [⟨"List", one (.gen 4)⟩] = .ok (some (.inst 7 (one (.gen 4)) .null)) :=
  using_added demo inMain _ _ _ _ rfl

/-- `typedef App.Box<T[]> X<T>;` and then `X<Node>`. -/
example : expand demo (one (.gen 4)) .null (.inst 1 (one (.array (.dparam 0) 1)) .null) =
      .inst 1 (one (.array (.gen 4) 1)) .null ∧
    OnlyParams 0 (expand demo (one (.gen 4)) .null (.inst 1 (one (.array (.dparam 0) 1)) .null)) :=
  ⟨rfl, typedef_filled demo _ _ 0 ⟨trivial, trivial⟩⟩

/-- In `Box<Node>` the parameter `T` of `Box` stands for `Node`, also for a typedef in
    `Box<Node>.Node`. -/
example : expand demo .nil (.inst 2 .nil (.inst 1 (one (.gen 4)) .null)) (.gparam 100) = .gen 4 := by
  rw [(typedef_of_instance demo .nil .nil _ 2 100).2 (by decide +kernel)]
  exact (typedef_of_instance demo .nil (one (.gen 4)) .null 1 100).1 0 "T" (by decide +kernel)
    (by decide +kernel) (by simp)

/-! ## Where the code does something else -/

/-- In the definition of a typedef with the parameter `T` also the last part of `App.T` is
    taken for the parameter, although `App.T` is a class. -/
theorem typedef_param_refuted : ∃ W C us x, WellFormed W ∧ Placed W C ∧ AliasLast W C us ∧
    us = [plain "App", plain "T"] ∧ Class W C.self ["App"] none (plain "T") x ∧
    Meaning W C .default_ us (.gen x) ∧ resolve W C .default_ us = .ok (some (.dparam 0)) := by
  refine ⟨ofDecls [{ id := 1, ns := ["App"], name := "T" }] [],
    { self := 0, typeDef := [("T", 0)] }, _, 1, (ofDecls_wf _ _ (by decide +kernel)).1,
    fun t ht => (by cases ht), ⟨fun u _ A e he => ?_, fun v hv => (by simp at hv)⟩, rfl,
    .inl (by decide +kernel), ?_, rfl⟩
  · simp [ofDecls] at he
  · have h := name_means_partial (ofDecls [{ id := 1, ns := ["App"], name := "T" }] [])
      (ofDecls_wf _ _ (by decide +kernel)).1 { self := 0 } rfl (fun t ht => (by cases ht)) .default_
      [plain "App", plain "T"] (by simp) ⟨fun u _ A e he => (by simp [ofDecls] at he),
        fun v hv => (by simp at hv)⟩ (some (.gen 1)) rfl
    exact (h.1 (.gen 1)).2 rfl

/-- In a class with the type parameter `T` also `::T` is taken for the parameter, although
    there is a class `T` outside. -/
theorem root_param_refuted : ∃ W C x p, WellFormed W ∧ Counted W ∧ Placed W C ∧
    Class W C.self [] none (plain "T") x ∧
    resolve W C .root [plain "T"] = .ok (some (.gparam p)) :=
  ⟨ofDecls [{ id := 1, name := "T" }, { id := 2, name := "Box", params := [("T", 100)] }] [],
    { self := 0, type := some 2 }, 1, 100, (ofDecls_wf _ _ (by decide +kernel)).1,
    (ofDecls_wf _ _ (by decide +kernel)).2,
    fun t ht => (by cases ht; exact ⟨by decide +kernel, by decide +kernel⟩),
    .inl (by decide +kernel), rfl⟩

/-- A path through a typedef for a class in a class also leads to the neighbours of that
    class: with `typedef Outer.Inner I;` the name `I.Other` is taken for `Outer.Other`. -/
theorem alias_sibling_refuted : ∃ W C, WellFormed W ∧ Counted W ∧ Solved W ∧ Placed W C ∧
    Alias W C.self [] none (plain "I") (.gen 2) ∧ (∀ t, ¬ Member W (.gen 2) (plain "Other") t) ∧
    resolve W C .default_ [plain "I", plain "Other"] = .ok (some (.gen 3)) := by
  let ds : List Decl := [{ id := 1, name := "Outer" }, { id := 2, name := "Inner", hosts := [1] },
    { id := 3, name := "Other", hosts := [1] }]
  let defs : List (Nat × DKey × Option Ty) := [(0, ⟨[], "I", 0, none⟩, some (.gen 2))]
  refine ⟨ofDecls ds defs, { self := 0 }, (ofDecls_wf _ _ (by decide +kernel)).1,
    (ofDecls_wf _ _ (by decide +kernel)).2, ?_, fun t ht => (by cases ht), ?_, ?_, rfl⟩
  · intro A e he
    simp only [ofDecls, defs, List.mem_map, List.mem_filter, List.mem_singleton] at he
    obtain ⟨d, ⟨rfl, _⟩, rfl⟩ := he
    rfl
  · show List.lookup _ _ = _
    decide +kernel
  · rintro t ⟨h, hh, ⟨x, hx, _⟩ | ⟨_, ty, hx, _⟩⟩
    · cases hh
      rcases hx with hx | ⟨_, hx, _⟩
      · have : ((ofDecls ds defs).tables 0).types.lookup ⟨[], "Other", some 0, some 2⟩ = none := by
          decide +kernel
        exact absurd (this.symm.trans hx) (by simp)
      · have : ((ofDecls ds defs).tables 0).types.lookup ⟨[], "Other", none, some 2⟩ = none := by
          decide +kernel
        exact absurd (this.symm.trans hx) (by simp)
    · cases hh
      have : ((ofDecls ds defs).tables 0).typeDefs.lookup ⟨[], "Other", 0, some 2⟩ = none := by
        decide +kernel
      exact absurd (this.symm.trans hx) (by simp)

/-- A path through a typedef for a class of another assembly does not lead to the classes in
    that class: with `typedef Lib.Outer O;` the name `O.Inner` is not found. -/
theorem alias_foreign_refuted : ∃ W C, WellFormed W ∧ Counted W ∧ Solved W ∧ Placed W C ∧
    Alias W C.self [] none (plain "O") (.gen 1) ∧ Member W (.gen 1) (plain "Inner") (.gen 2) ∧
    resolve W C .default_ [plain "O", plain "Inner"] = .ok none := by
  let ds : List Decl := [{ id := 1, assembly := 1, name := "Outer" },
    { id := 2, assembly := 1, name := "Inner", hosts := [1] }]
  let defs : List (Nat × DKey × Option Ty) := [(0, ⟨[], "O", 0, none⟩, some (.gen 1))]
  refine ⟨ofDecls ds defs, { self := 0 }, (ofDecls_wf _ _ (by decide +kernel)).1,
    (ofDecls_wf _ _ (by decide +kernel)).2, ?_, fun t ht => (by cases ht), ?_, ?_, rfl⟩
  · intro A e he
    simp only [ofDecls, defs, List.mem_map, List.mem_filter, List.mem_singleton] at he
    obtain ⟨d, ⟨rfl, _⟩, rfl⟩ := he
    rfl
  · show List.lookup _ _ = _
    decide +kernel
  · exact ⟨1, rfl, .inl ⟨2, .inl (by decide +kernel), rfl⟩⟩

/-- A typedef with a parameter in a class fails when the argument is a class of that class:
    with `class A { class B { } typedef T Id<T>; }` the name `A.Id<A.B>`. -/
theorem alias_argument_refuted : ∃ W C, WellFormed W ∧ Counted W ∧ Solved W ∧ Placed W C ∧
    Alias W C.self [] (some 1) ⟨"Id", one (.gen 2)⟩ (.dparam 0) ∧
    expand W (one (.gen 2)) (.gen 1) (.dparam 0) = .gen 2 ∧
    resolve W C .default_ [plain "A", ⟨"Id", one (.gen 2)⟩] = .error .undefined := by
  let ds : List Decl := [{ id := 1, name := "A" }, { id := 2, name := "B", hosts := [1] }]
  let defs : List (Nat × DKey × Option Ty) := [(0, ⟨[], "Id", 1, some 1⟩, some (.dparam 0))]
  refine ⟨ofDecls ds defs, { self := 0 }, (ofDecls_wf _ _ (by decide +kernel)).1,
    (ofDecls_wf _ _ (by decide +kernel)).2, ?_, fun t ht => (by cases ht), ?_, rfl, rfl⟩
  · intro A e he
    simp only [ofDecls, defs, List.mem_map, List.mem_filter, List.mem_singleton] at he
    obtain ⟨d, ⟨rfl, _⟩, rfl⟩ := he
    rfl
  · show List.lookup _ _ = _
    decide +kernel

/-- A keyword as `int` is the name `System.Int32`, which is looked for in the program itself
    first: a program with a class `System.Int32` of its own changes the meaning of `int`. -/
theorem keyword_refuted : ∃ W C, WellFormed W ∧ Counted W ∧ Placed W C ∧
    Class W 1 ["System"] none (plain "Int32") 1 ∧
    resolve W C .global [plain "System", plain "Int32"] = .ok (some (.gen 2)) :=
  ⟨ofDecls [{ id := 1, assembly := 1, ns := ["System"], name := "Int32" },
      { id := 2, ns := ["System"], name := "Int32" }] [],
    { self := 0, imports := [⟨none, ["System"], some 1⟩] },
    (ofDecls_wf _ _ (by decide +kernel)).1, (ofDecls_wf _ _ (by decide +kernel)).2,
    fun t ht => (by cases ht), .inl (by decide +kernel), rfl⟩

/-- A typedef can be used only after its definition, in the order of the program, although
    a class can be used before it. -/
theorem typedef_order_refuted : ∃ W use_ def_, WellFormed W ∧
    confirm W [def_, use_] = [.ok (some (.gen 1)), .ok (some (.gen 1))] ∧
    confirm W [use_, def_] = [.error .unsolved, .ok (some (.gen 1))] :=
  ⟨ofDecls [{ id := 1, name := "A" }] [(0, ⟨[], "B", 0, none⟩, none)],
    { ctx := { self := 0 }, units := [plain "B"] },
    { ctx := { self := 0 }, units := [plain "A"], defines := some ⟨[], "B", 0, none⟩ },
    (ofDecls_wf _ _ (by decide +kernel)).1, rfl, rfl⟩

end Verif.Names
