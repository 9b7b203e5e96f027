import Verif.Proof.Classes

/-!
# C105: programs of classes do what they say
-/

namespace Verif.Classes.Props

open Verif.Place

/-! ## An example

```
class Shape {                          class Square : Shape {
    int w;                                 override int area() { return base.area() * w; }
    Shape next;                        }
    virtual int area() { return w; }
    int total(int n) {
        int s = 0, i = 0;
        while (i < n) { if (i == 1) { i++; continue; } s += area(); i++; }
        return s;
    }
    void link() { next = new Square(); next.w = w; }
    Shape() { w = 7; }                     Square() { w = 3; }
}
```
-/

/-- `area`, `total`, `link` and the constructor of `Shape` are methods 0 to 3, `area` and the constructor of `Square` are
4 and 5; the prototypes are 10 (`area`), 11, 12, and 13, 14 for the constructors. -/
def P0 : Program where
  classes := [
    ⟨[], 0, [⟨10, true, false, none⟩, ⟨11, false, false, none⟩, ⟨12, false, false, none⟩, ⟨13, false, false, none⟩],
      [.int 0, .null]⟩,
    ⟨[0], 4, [⟨10, false, true, none⟩, ⟨14, false, false, none⟩], [.int 0, .null]⟩]
  methods := [
    ⟨true, 0, [], .cons (.ret (some [.value (.get (.field .this 0))])) .nil⟩,
    ⟨true, 1, [.null, .null],
      .cons (.decl [[.run (.assign (.var 1) (.const (.int 0)))], [.run (.assign (.var 2) (.const (.int 0)))]])
      (.cons (.while_ (some [.value (.bin .lt (.get (.var 2)) (.get (.var 0)))])
        (.block (.cons (.if_ (some [.value (.bin .eq (.get (.var 2)) (.const (.int 1)))])
            (.block (.cons (.expr [.run (.inc true .add (.var 2))]) (.cons .cont .nil))) .empty)
          (.cons (.expr [.run (.opAssign .add (.var 1) (.bare 0 .nil))])
          (.cons (.expr [.run (.inc true .add (.var 2))]) .nil)))))
      (.cons (.ret (some [.value (.get (.var 1))])) .nil))⟩,
    ⟨false, 0, [],
      .cons (.expr [.run (.assign (.field .this 1) (.new 1 5 .nil))])
      (.cons (.expr [.run (.assign (.field (.get (.field .this 1)) 0) (.get (.field .this 0)))]) .nil)⟩,
    ⟨false, 0, [], .cons (.expr [.run (.assign (.field .this 0) (.const (.int 7)))]) .nil⟩,
    ⟨true, 0, [], .cons (.ret (some [.value (.bin .mul (.baseCall 0 .nil) (.get (.field .this 0)))])) .nil⟩,
    ⟨false, 0, [], .cons (.expr [.run (.assign (.field .this 0) (.const (.int 3)))]) .nil⟩]

/-- The settings of the compiler. -/
def o0 : Verif.Stmt.Opts := ⟨true, true⟩

instance (P : Program) (o : Verif.Stmt.Opts) (M : Method) : Decidable (M.Fine o P) :=
  decidable_of_iff
    ((allSs (Task.ok P.sig) M.body = true) ∧
      (match lowers (Task.compile P.sig) M.body with
        | some body => Verif.Stmt.tidys folder body && Verif.Stmt.plains o folder body
        | none => true) = true ∧
      (match P.lowered M with
        | some body => decide ((Verif.Stmt.compileAll o folder false body 0).1.length < 2 ^ 31)
        | none => true) = true)
    (by
      constructor
      · rintro ⟨h1, h2, h3⟩
        refine ⟨h1, ?_, ?_, ?_⟩
        · intro body hb
          rw [hb] at h2
          simp only [Bool.and_eq_true] at h2
          exact h2.1
        · intro body hb
          rw [hb] at h2
          simp only [Bool.and_eq_true] at h2
          exact h2.2
        · intro body hb
          rw [hb] at h3
          simpa using h3
      · rintro ⟨h1, h2, h3, h4⟩
        refine ⟨h1, ?_, ?_⟩
        · cases hl : lowers (Task.compile P.sig) M.body with
          | none => rfl
          | some body => simp only [h2 body hl, h3 body hl, Bool.and_self]
        · cases hl : P.lowered M with
          | none => rfl
          | some body => simpa using h4 body hl)

theorem P0_fine : P0.Fine o0 where
  methods := by decide +kernel
  accepted := by decide +kernel
  lined := by decide +kernel
  ordered := by
    intro k x hx
    simp only [Program.chain, List.mem_filterMap] at hx
    obtain ⟨j, _, hj⟩ := hx
    match j, hj with
    | 0, hj =>
      cases hj
      exact ⟨[⟨10, true, false, none⟩], [], [⟨11, false, false, none⟩, ⟨12, false, false, none⟩,
        ⟨13, false, false, none⟩], rfl, by decide, by decide, by decide⟩
    | 1, hj =>
      cases hj
      exact ⟨[], [⟨10, false, true, none⟩], [⟨14, false, false, none⟩], rfl, by decide, by decide, by decide⟩
    | _ + 2, hj => cases hj
  tidy := by
    intro k
    match k with
    | 0 => simp [Program.chain, Program.lineage, Program.loaded, P0, Dispatch.Tidy]
    | 1 => simp [Program.chain, Program.lineage, Program.loaded, P0, Dispatch.Tidy]
    | _ + 2 => simp [Program.chain, Program.lineage, P0, Dispatch.Tidy]

/-! ## C105 -/

/-- **C105** (part: `Program.Fine`).  What the machine computes when it runs the compiled methods of the program — on any
object, with any arguments, in any heap, with calls nested up to any depth — is what the source says: the same result and
the same heap, and none where the source has none. -/
theorem program_partial (o : Verif.Stmt.Opts) (P : Program) (hP : P.Fine o) (depth m : Nat) (this : Val)
    (args : List Val) (h : Heap) : P.exec o depth m this args h = P.source depth m this args h := by
  rw [exec_eq_source hP]

/-- Both in one: an object of class `Square` with `w = 5`; `total(3)` adds `area()` of `Square` twice. -/
example : P0.exec o0 3 1 (.ref 0) [.int 3] [.object 1 [.int 5, .null]] =
    some (.int 50, [.object 1 [.int 5, .null]]) := by
  rw [program_partial o0 P0 P0_fine]
  exact trial_source P0_fine 10 3 1 _ _ _ _ (by decide +kernel)

/-- `link` of a `Shape`: a new `Square`, whose field is then set. -/
example : P0.exec o0 3 2 (.ref 0) [] [.object 0 [.int 5, .null]] =
    some (.null, [.object 0 [.int 5, .ref 1], .object 1 [.int 5, .null]]) := by
  rw [program_partial o0 P0 P0_fine]
  exact trial_source P0_fine 10 3 2 _ _ _ _ (by decide +kernel)

/-- What the source says is what its statements do.  A method with a result: its statements, started with the arguments
and then the local variables, end with `return`, the value of which is the result. -/
theorem source_says (o : Verif.Stmt.Opts) (P : Program) (hP : P.Fine o) (depth m : Nat) (M : Method)
    (hm : P.methods[m]? = some M) (hr : M.returns = true) (this : Val) (args : List Val)
    (ha : args.length = M.arity) (h : Heap) (v : Val) (h' : Heap) :
    P.source (depth + 1) m this args h = some (v, h') ↔
      ∃ n k s', M.body.run (meaning (P.world P.target (P.source depth)) this) n ([], ⟨args ++ M.locals, h, []⟩) =
        some (.ret, (v :: k, s')) ∧ s'.heap = h' := by
  rw [Program.source]
  dsimp only
  rw [hm]
  simp only [ha, if_true, Option.bind_eq_some_iff]
  constructor
  · rintro ⟨c, h1, h2⟩
    obtain ⟨n, he⟩ := theOne_spec h1
    simp only [hr, Bool.true_eq_false, false_and, or_false] at he
    simp only [result, hr, if_true, Option.map_eq_some_iff, Prod.mk.injEq] at h2
    obtain ⟨_, h3, rfl, rfl⟩ := h2
    obtain ⟨k, s⟩ := c
    cases k with
    | nil => cases h3
    | cons w k =>
      cases h3
      exact ⟨n, k, s, he, rfl⟩
  · rintro ⟨n, k, s', h1, h2⟩
    have he : Ends (P.world P.target (P.source depth)) this M (frame M args h) (v :: k, s') := ⟨n, Or.inl h1⟩
    refine ⟨_, theOne_eq he fun b hb => ends_unique hP (List.mem_of_getElem? hm) he hb, ?_⟩
    simp only [result, hr, if_true, List.head?_cons, Option.map_some, h2]

/-- A method without a result: its statements end with `return`, or pass. -/
theorem source_says_void (o : Verif.Stmt.Opts) (P : Program) (hP : P.Fine o) (depth m : Nat) (M : Method)
    (hm : P.methods[m]? = some M) (hr : M.returns = false) (this : Val) (args : List Val)
    (ha : args.length = M.arity) (h : Heap) (v : Val) (h' : Heap) :
    P.source (depth + 1) m this args h = some (v, h') ↔
      v = .null ∧ ∃ n out k s', M.body.run (meaning (P.world P.target (P.source depth)) this) n
        ([], ⟨args ++ M.locals, h, []⟩) = some (out, (k, s')) ∧ (out = .ret ∨ out = .pass) ∧ s'.heap = h' := by
  rw [Program.source]
  dsimp only
  rw [hm]
  simp only [ha, if_true, Option.bind_eq_some_iff]
  constructor
  · rintro ⟨⟨k, s⟩, h1, h2⟩
    obtain ⟨n, he⟩ := theOne_spec h1
    simp only [result, hr, Bool.false_eq_true, if_false, Option.some.injEq, Prod.mk.injEq] at h2
    obtain ⟨rfl, rfl⟩ := h2
    rcases he with he | ⟨_, he⟩
    · exact ⟨rfl, n, _, k, s, he, Or.inl rfl, rfl⟩
    · exact ⟨rfl, n, _, k, s, he, Or.inr rfl, rfl⟩
  · rintro ⟨rfl, n, out, k, s', h1, h2, rfl⟩
    have he : Ends (P.world P.target (P.source depth)) this M (frame M args h) (k, s') := by
      rcases h2 with rfl | rfl
      · exact ⟨n, Or.inl h1⟩
      · exact ⟨n, Or.inr ⟨hr, h1⟩⟩
    refine ⟨_, theOne_eq he fun b hb => ends_unique hP (List.mem_of_getElem? hm) he hb, ?_⟩
    simp only [result, hr, Bool.false_eq_true, if_false]

/-- A new object is at a new address, of its class, with the fields of the class; all other objects stay. -/
theorem new_object (P : Program) (t : Heap → Nat → Val → Option Nat) (f : Calls) (c : Nat) (k : Cls)
    (hc : P.classes[c]? = some k) (h : Heap) :
    ∃ a, (P.world t f).create c h = (.ref a, h ++ [.object c k.fields]) ∧ h[a]? = none ∧
      (h ++ [.object c k.fields])[a]? = some (.object c k.fields) := by
  refine ⟨h.length, ?_, by simp, by simp⟩
  simp only [Program.world, hc]

/-- A result does not depend on how deeply calls may be nested: whatever is computed with one bound is computed with
every greater one. -/
theorem deeper (o : Verif.Stmt.Opts) (P : Program) (hP : P.Fine o) (depth more m : Nat) (this : Val)
    (args : List Val) (h : Heap) (r : Val × Heap) (hr : P.exec o depth m this args h = some r) :
    P.exec o (depth + more) m this args h = some r := by
  rw [program_partial o P hP] at hr ⊢
  induction more with
  | zero => exact hr
  | succ k ih => exact source_succ hP _ _ _ _ _ _ ih

/-- So there is at most one result. -/
theorem result_unique (o : Verif.Stmt.Opts) (P : Program) (hP : P.Fine o) (d d' m : Nat) (this : Val)
    (args : List Val) (h : Heap) (r r' : Val × Heap) (hr : P.exec o d m this args h = some r)
    (hr' : P.exec o d' m this args h = some r') : r = r' := by
  have h1 := deeper o P hP d d' m this args h r hr
  have h2 := deeper o P hP d' d m this args h r' hr'
  rw [Nat.add_comm, h1] at h2
  exact Option.some.inj h2

example : ∃ r, P0.exec o0 4 1 (.ref 0) [.int 2] [.object 0 [.int 5, .null]] = some r := by
  refine ⟨(.int 5, [.object 0 [.int 5, .null]]), ?_⟩
  rw [program_partial o0 P0 P0_fine]
  exact trial_source P0_fine 10 4 1 _ _ _ _ (by decide +kernel)

/-- A call of a virtual method runs the override of the most derived class of the object — whatever table the machine
looks it up in. -/
theorem call_dispatched_partial (o : Verif.Stmt.Opts) (P : Program) (hP : P.Fine o) (h : Heap) (m : Nat)
    (hv : P.virt m = true) (v : Val) : P.vmTarget h m v = P.target h m v :=
  target_eq hP h m hv v

/-- `area` of a `Square` and of a `Shape`. -/
example : P0.virt 0 = true ∧ P0.vmTarget [.object 1 []] 0 (.ref 0) = some 4 ∧
    P0.vmTarget [.object 0 []] 0 (.ref 0) = some 0 ∧ P0.vmTarget [.object 0 []] 4 (.ref 0) = none := by
  decide +kernel

end Verif.Classes.Props
