import Verif.Proof.Ready
import Verif.Model.Arr

/-!
# C123 — an object has the virtual table of its class

`run p {} ops` is the state of a program with the types `p` after the operations `ops`.  `virtualCall s k` is the type whose table a virtual
call on object `k` uses; it is `none` when a null pointer is followed.
-/

namespace Verif.Ready

/-- `Object`, `ValueType`, `int`, a class with a field, a generic class with a field, a generic struct, an array of objects of the class, an
interface, an array of that, an array of arrays, a class derived from the generic class. -/
def sample : Prog :=
  [.named { functions := 3 }, .named { base := some 0, functions := 3 },
   .named { form := .struct_, plain := true, base := some 1, functions := 3 },
   .named { base := some 0, fields := [2, 4], functions := 4, interfaces := [7] },
   .named { generic := true, base := some 0, fields := [2], functions := 3 },
   .named { generic := true, form := .struct_, base := some 1, fields := [2, 2], functions := 3 },
   .array 3, .named { form := .interface }, .array 7, .array 6,
   .named { base := some 4, functions := 5 }]

/-! ## Types that are not generic -/

/-- **C123 (partial).**  After every history, a virtual call on an object of a type that is not generic uses the table that was built for that type. -/
theorem general_partial (p : Prog) (ops : List Op) (k t : Nat) (i : Info) (ht : p[t]? = some (.named i)) (hg : i.generic = false)
    (hk : (run p {} ops).objects[k]? = some t) : virtualCall (run p {} ops) k = some t := by
  rw [virtualCall, hk]
  exact ((reach ops).2 t (List.mem_of_getElem? hk) i ht).2 hg

example : (run sample {} [.field 3, .hold 5, .new 3, .box 2, .new 10]).objects = [3, 2, 10] ∧
    virtualCall (run sample {} [.field 3, .hold 5, .new 3, .box 2, .new 10]) 0 = some 3 ∧
    virtualCall (run sample {} [.field 3, .hold 5, .new 3, .box 2, .new 10]) 1 = some 2 ∧
    virtualCall (run sample {} [.field 3, .hold 5, .new 3, .box 2, .new 10]) 2 = some 10 := by decide +kernel

/-- **C123 (partial).**  A cast of such an object to a class succeeds exactly when it is its class or one it is derived from. -/
theorem cast_partial (p : Prog) (hp : Ordered p) (ops : List Op) (k t u : Nat) (i : Info) (ht : p[t]? = some (.named i))
    (hg : i.generic = false) (hk : (run p {} ops).objects[k]? = some t) :
    ∃ r, castTest p (run p {} ops) t u false = some r ∧ (r = true ↔ t = u ∨ Inherits p t u) := by
  have h := ((reach ops).2 t (List.mem_of_getElem? hk) i ht).2 hg
  rw [castTest]
  by_cases e : t = u
  · exact ⟨true, by rw [if_pos ⟨rfl, e⟩], by simp [e]⟩
  · rw [if_neg (by simp [e]), h]
    refine ⟨_, rfl, ?_⟩
    unfold inTable
    dsimp only
    rw [ht]
    simp only [Bool.false_eq_true, if_false, e, false_or, List.contains_iff_mem]
    exact bases_iff hp u _ _ (List.getElem?_eq_some_iff.1 ht).1

/-- ... and to an interface exactly when the class or a base has it. -/
theorem cast_interface_partial (p : Prog) (ops : List Op) (k t u : Nat) (i : Info) (ht : p[t]? = some (.named i))
    (hg : i.generic = false) (hk : (run p {} ops).objects[k]? = some t) :
    castTest p (run p {} ops) t u true = some (i.interfaces.contains u) := by
  have h := ((reach ops).2 t (List.mem_of_getElem? hk) i ht).2 hg
  rw [castTest, if_neg (by simp), h]
  simp [inTable, ht]

example : castTest sample (run sample {} [.new 3]) 3 0 false = some true ∧ castTest sample (run sample {} [.new 3]) 3 1 false = some false ∧
    castTest sample (run sample {} [.new 3]) 3 7 true = some true := by decide +kernel

/-! ## Tables and sizes -/

/-- No two types have the same table.  (The code means to share one between types without functions; it never does.) -/
theorem table_own (p : Prog) (ops : List Op) (t o : Nat) (h : (run p {} ops).table t = some o) : o = t :=
  ((reach ops).1.own t o h).1

example : (run [.named {}, .named { base := some 0 }, .named { base := some 0 }] {} [.new 1, .new 2]).table 2 = some 2 ∧
    isSimple [.named {}, .named { base := some 0 }, .named { base := some 0 }] 2 { base := some 0 } = true := by decide +kernel

/-- The size of an object's type is known when the object is created, and stays known. -/
theorem size_known (p : Prog) (ops : List Op) (k t : Nat) (i : Info) (ht : p[t]? = some (.named i))
    (hk : (run p {} ops).objects[k]? = some t) : (run p {} ops).sized t = true :=
  ((reach ops).2 t (List.mem_of_getElem? hk) i ht).1

example : (run sample {} [.new 4]).objects[0]? = some 4 := by decide +kernel

/-- The size of the elements is known when an array is created, unless they are arrays. -/
theorem element_size_known (p : Prog) (ops : List Op) (t e : Nat) (i : Info) (ht : p[t]? = some (.array e)) (he : p[e]? = some (.named i))
    (h : (step p (run p {} ops) (.new t)).1 = true) : (step p (run p {} ops) (.new t)).2.sized e = true := by
  obtain ⟨h1, _, e1⟩ := andThen_ok h
  rw [show step p (run p {} ops) (.new t) = _ from e1]
  cases hl : p.length with
  | zero => rw [hl] at h1; cases h1
  | succ n =>
    rw [hl, preNew, ht] at h1
    rw [preNew, ht]
    exact (preNew_ok (reach ops).1 he h1).1

example : (step sample (run sample {} []) (.new 6)).1 = true := by decide +kernel

/-- In a program whose types are in order, objects and arrays of every type that is no interface can be created, at any time. -/
theorem creation (p : Prog) (hp : Ordered p) (ops : List Op) (t : Nat) (i : Info) (ht : Innermost p t i) (hf : i.form ≠ .interface) :
    (step p (run p {} ops) (.new t)).1 = true ∧
      (step p (run p {} ops) (.new t)).2.objects = (run p {} ops).objects ++ [t] := by
  have hlt : t < p.length := by
    cases ht with
    | named h => exact (List.getElem?_eq_some_iff.1 h).1
    | array h _ => exact (List.getElem?_eq_some_iff.1 h).1
  have h := preNew_progress hp p.length t _ i hlt (reach ops).1 ht hf
  have hs : step p (run p {} ops) (.new t) = (true, { (preNew p p.length t (run p {} ops)).2 with
      objects := (preNew p p.length t (run p {} ops)).2.objects ++ [t] }) := by
    show create p t (run p {} ops) = _
    rw [create, andThen, if_pos h]
  rw [hs]
  exact ⟨rfl, by simp [(keeps_preNew p.length t _ (reach ops).1).objects]⟩

/-- The types of the sample are in order. -/
theorem sample_ordered : Ordered sample := by
  have hall : ∀ t < sample.length, (match sample[t]? with
      | some (.named i) => (∀ b, i.base = some b → b < t ∧ (∃ j, sample[b]? = some (.named j) ∧ j.form = .class_)) ∧
          (∀ f ∈ i.fields, f < sample.length ∧ (IsValue sample f → f < t)) ∧ i.complete = true
      | some (.array e) => e < t
      | none => True) := by
    intro t ht
    have : t = 0 ∨ t = 1 ∨ t = 2 ∨ t = 3 ∨ t = 4 ∨ t = 5 ∨ t = 6 ∨ t = 7 ∨ t = 8 ∨ t = 9 ∨ t = 10 := by
      simp [sample] at ht; omega
    rcases this with rfl | rfl | rfl | rfl | rfl | rfl | rfl | rfl | rfl | rfl | rfl <;>
      simp [sample, IsValue]
  have lt : ∀ {t : Nat} {x : Ty}, sample[t]? = some x → t < sample.length := fun h => (List.getElem?_eq_some_iff.1 h).1
  refine ⟨fun t i b h hb => ?_, fun t i f h hf => ?_, fun t e h => ?_, fun t i h => ?_⟩ <;>
    have a := hall t (lt h) <;> rw [h] at a
  · exact a.1 b hb
  · exact a.2.1 f hf
  · exact a
  · exact a.2.2

/-! ## Generic types -/

/-- **C123 (partial).**  When the first thing that is done with a generic type is the creation of an object, virtual calls on its objects use its
table ever after. -/
theorem generic_partial (p : Prog) (a b : List Op) (k t : Nat) (i : Info) (ht : p[t]? = some (.named i))
    (hz : (run p {} a).sized t = false) (hok : (step p (run p {} a) (.new t)).1 = true)
    (hk : (run p {} (a ++ .new t :: b)).objects[k]? = some t) : virtualCall (run p {} (a ++ .new t :: b)) k = some t := by
  rw [virtualCall, hk]
  have hi := (reach (p := p) a).1
  obtain ⟨h1, _, e1⟩ := andThen_ok hok
  have := (preNew_ok hi ht h1).2 (.inr hz)
  show (run p {} (a ++ .new t :: b)).table t = some t
  rw [run_append]
  refine table_stays t b _ (step_inv (.new t) (reach a)).1 ?_
  rw [show step p (run p {} a) (.new t) = _ from e1]
  exact this

example : (run sample {} [.new 3]).sized 4 = false ∧ (step sample (run sample {} [.new 3]) (.new 4)).1 = true ∧
    (run sample {} ([.new 3] ++ .new 4 :: [.field 4, .new 4])).objects = [3, 4, 4] := by decide +kernel

/-- When the size of a generic type was found before, its objects never have a table: each virtual call on them follows a null
pointer, whatever is done between. -/
theorem generic_lost (p : Prog) (a b : List Op) (k t : Nat) (i : Info) (ht : p[t]? = some (.named i)) (hg : i.generic = true)
    (hz : (run p {} a).sized t = true) (hn : (run p {} a).table t = none)
    (hk : (run p {} (a ++ b)).objects[k]? = some t) : virtualCall (run p {} (a ++ b)) k = none := by
  rw [virtualCall, hk]
  show (run p {} (a ++ b)).table t = none
  rw [run_append]
  exact lost_stays ht hg b _ (reach a).1 hz hn

/-- The commands of a method are made before it runs.  So with a method that reads a field of a new object of a generic class, the object is created without a
table, and a virtual call on it follows a null pointer. -/
theorem generic_refuted : Ordered sample ∧ (step sample (run sample {} [.field 4]) (.new 4)).1 = true ∧
    (run sample {} [.field 4, .new 4]).objects[0]? = some 4 ∧ virtualCall (run sample {} [.field 4, .new 4]) 0 = none ∧
    castTest sample (run sample {} [.field 4, .new 4]) 4 0 false = none :=
  ⟨sample_ordered, by decide +kernel, by decide +kernel, by decide +kernel, by decide +kernel⟩

/-- A boxed generic struct never has a table, unless an array of it or an object of it was created first. -/
theorem box_refuted (p : Prog) (a b : List Op) (k t : Nat) (i : Info) (ht : p[t]? = some (.named i)) (hg : i.generic = true)
    (hn : (run p {} a).table t = none) (hok : (step p (run p {} a) (.box t)).1 = true)
    (hk : (run p {} (a ++ .box t :: b)).objects[k]? = some t) : virtualCall (run p {} (a ++ .box t :: b)) k = none := by
  rw [virtualCall, hk]
  show (run p {} (a ++ .box t :: b)).table t = none
  have hi := (reach (p := p) a).1
  obtain ⟨h1, h2, e1⟩ := andThen_ok hok
  obtain ⟨h3, _, e2⟩ := andThen_ok h2
  have hz := getSize_ok h1
  have hi1 := inv_getSize p.length t _ hi
  have htab : (getSize p p.length t (run p {} a)).2.table t = none :=
    getSize_st (I := fun x => x.table t = none) (fun x u hx _ => hx) p.length t _ hn
  have hpre : (preNew p p.length t (getSize p p.length t (run p {} a)).2).2.table t = none := by
    cases hl : p.length with
    | zero => rw [hl] at h1; cases h1
    | succ n =>
      rw [hl] at hz htab
      rw [preNew, ht]
      dsimp only
      rw [if_pos hg, if_pos hz]
      exact htab
  have hzp := (preNew_ok hi1 ht h3).1
  rw [run_append]
  refine lost_stays ht hg b _ (step_inv (.box t) (reach a)).1 ?_ ?_
  · rw [show step p (run p {} a) (.box t) = _ from e1, create, e2]
    exact hzp
  · rw [show step p (run p {} a) (.box t) = _ from e1, create, e2]
    exact hpre

example : (step sample (run sample {} [.new 3]) (.box 5)).1 = true ∧ (run sample {} [.new 3]).table 5 = none ∧
    (run sample {} ([.new 3] ++ .box 5 :: [.new 3])).objects = [3, 5, 3] ∧
    virtualCall (run sample {} ([.new 3] ++ .box 5 :: [.new 3])) 1 = none := by decide +kernel

/-! ## Arrays -/

/-- Arrays never have a table: a virtual call on an array, and a cast of it to another type, follow a null pointer. -/
theorem array_refuted (p : Prog) (ops : List Op) (k t e u : Nat) (interface : Bool) (ht : p[t]? = some (.array e))
    (hk : (run p {} ops).objects[k]? = some t) :
    virtualCall (run p {} ops) k = none ∧ (interface = true ∨ t ≠ u → castTest p (run p {} ops) t u interface = none) := by
  have h : (run p {} ops).table t = none := by
    cases h : (run p {} ops).table t with
    | none => rfl
    | some o =>
      obtain ⟨_, _, i, hi⟩ := (reach ops).1.own t o h
      rw [ht] at hi
      cases hi
  refine ⟨by rw [virtualCall, hk]; exact h, fun hu => ?_⟩
  rw [castTest, if_neg (by rintro ⟨h1, h2⟩; rcases hu with hu | hu <;> simp_all), h]
  rfl

example : (run sample {} [.new 6, .new 9]).objects = [6, 9] := by decide +kernel

/-- Arrays of interfaces can not be created. -/
theorem interface_array_refuted (p : Prog) (ops : List Op) (t : Nat) (i : Info) (ht : Innermost p t i) (hf : i.form = .interface)
    (hb : i.base = none) : (step p (run p {} ops) (.new t)).1 = false := by
  have h := preNew_interface p.length t _ i (reach ops).1 ht hf hb
  show (andThen _ _).1 = false
  rw [andThen, h]
  exact h

example : Innermost sample 8 { form := .interface } := .array (e := 7) rfl (.named rfl)

/-- The elements of an array of objects are references, of eight bytes; the room for each is found from the size of an object.  With objects
of four bytes or less there is not room for them. -/
theorem reference_room_refuted (size : Nat) (h : size ∈ [1, 2, 3, 4]) :
    ∃ a, Arr.newArray size [4] = some a ∧ Arr.checked a [3] = some (.element 3) ∧ a.bytes < 3 * 8 + 8 := by
  simp only [List.mem_cons, List.not_mem_nil, or_false] at h
  rcases h with rfl | rfl | rfl | rfl <;> exact ⟨_, rfl, by decide +kernel, by decide +kernel⟩

end Verif.Ready
