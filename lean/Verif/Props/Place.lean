import Verif.Proof.Place

/-!
# C104: fields, properties and elements in compiled code

`statement_partial` and `value_partial` say that the compiled code of the
statements and expressions in the fragment `ok` does what the source says.  The
full property has no such fragment; the theorems ending in `_refuted` show what
is outside it.
-/

namespace Verif.Place.Props

/-- The methods of the examples. -/
def run0 : Nat → Val → List Val → Heap → Option (Val × Heap)
  | 0, o, _, h => (readField h o 0).map fun v => (v, h)
  | 1, o, [v], h => (writeField h o 0 v).map fun h' => (.null, h')
  | 2, o, _, h => do
    let v ← readField h o 0
    let w ← Op.add.apply v (.int 1)
    let h' ← writeField h o 0 w
    some (o, h')
  | 3, o, [i], h => do
    let a ← readField h o 1
    let v ← readElem h a i
    some (v, h)
  | 4, o, [i, v], h => do
    let a ← readField h o 1
    let h' ← writeElem h a i v
    some (.null, h')
  | 5, _, _, h => some (.null, h)
  | _, _, _, _ => none

/-- The world of the examples: method 0 reads field 0 of its receiver, method 1
writes it, method 2 adds one to it and returns the receiver, method 3 returns the
element of the array in field 1 with the given index, method 4 writes it, method
5 is an empty constructor.  Class 0 has two fields. -/
def W0 : World where
  returns m := m = 0 || m = 2 || m = 3
  arity m := if m = 1 || m = 3 then 1 else if m = 4 then 2 else 0
  virt _ := false
  run := run0
  direct := run0
  create _ h := (.ref h.length, h ++ [.object 0 [.int 0, .null]])
  direct_eq _ _ := rfl

/-- Object 0 has the array 1 in its field 1; the variables are the object, the
array and 0. -/
def s0 : State where
  locals := [.ref 0, .ref 1, .int 0]
  heap := [.object 0 [.int 7, .ref 1], .array [.int 10, .int 20, .int 30]]
  statics := [.int 5]

/-- **C104.**  An expression statement of the fragment, compiled and executed,
does what the source says: the same variables, the same heap, nothing left on or
taken from the operand stack; and it fails where the source fails. -/
theorem statement_partial (W : World) (this : Val) (st : Stmt) (h : st.ok W = true) :
    Correct W this st :=
  Stmt.right st h

/-- The fragment contains `o.f = o.f + a[i]`, `a[i] += o.M2().f`-like reads of
calls, `P = v`, `o[i] += v`, `o.f++` and calls. -/
example :
    (Stmt.assign (.field (.get (.var 0)) 0)
      (.bin .add (.get (.field (.get (.var 0)) 0)) (.get (.elem (.get (.var 1))
        (.get (.var 2)))))).ok W0 = true ∧
    (Stmt.opAssign .add (.elem (.get (.var 1)) (.get (.var 2)))
      (.get (.field (.call (.get (.var 0)) 2 .nil) 0))).ok W0 = true ∧
    (Stmt.assign (.prop .this 0 1) (.get (.prop (.new 0 5 .nil) 0 1))).ok W0 = true ∧
    (Stmt.opAssign .mul (.indexer (.get (.var 0)) (.cons (.get (.var 2)) .nil) 3 4)
      (.const (.int 3))).ok W0 = true ∧
    (Stmt.inc true .add (.field (.get (.var 0)) 0)).ok W0 = true ∧
    (Stmt.call (.bare 2 .nil) 2 .nil).ok W0 = true := by decide +kernel

example : (Stmt.opAssign .add (.elem (.get (.var 1)) (.get (.var 2)))
      (.get (.field (.call (.get (.var 0)) 2 .nil) 0))).run W0 .null s0 =
    some { s0 with heap := [.object 0 [.int 8, .ref 1], .array [.int 18, .int 20, .int 30]] } := by
  decide +kernel

/-- **C104.**  An expression of the fragment whose value is used pushes its
value. -/
theorem value_partial (W : World) (this : Val) (e : Exp) (h : e.ok W = true) :
    CorrectValue W this e :=
  Exp.right e h false

example : (Exp.assign (.field (.get (.var 0)) 0) (.inc true .add
      (.elem (.get (.var 1)) (.get (.var 2))))).ok W0 = true ∧
    (Exp.assign (.field (.get (.var 0)) 0) (.inc true .add
      (.elem (.get (.var 1)) (.get (.var 2))))).eval W0 .null s0 =
      some (.int 10, { s0 with
        heap := [.object 0 [.int 10, .ref 1], .array [.int 11, .int 20, .int 30]] }) := by
  decide +kernel

/-- Whether two values name the same element of the same array. -/
def SameElem (a i b j : Val) : Prop := a = b ∧ i = j

/-- What was written to an element is read from it, every other element and every
field is as before, and an element can be written exactly where it can be read. -/
theorem element_written {h h' : Heap} {a i v : Val} (hw : writeElem h a i v = some h') :
    readElem h' a i = some v ∧ (∃ w, readElem h a i = some w) ∧
    (∀ b j, ¬ SameElem a i b j → readElem h' b j = readElem h b j) ∧
    ∀ b f, readField h' b f = readField h b f := by
  cases a with
  | int _ => simp [writeElem] at hw
  | null => simp [writeElem] at hw
  | ref a =>
    cases i with
    | ref _ => simp [writeElem] at hw
    | null => simp [writeElem] at hw
    | int i =>
      simp only [writeElem] at hw
      split at hw
      · rename_i es he
        split at hw
        · rename_i hb
          cases hw
          have hlt : a < h.length := (List.getElem?_eq_some_iff.1 he).1
          refine ⟨?_, ?_, ?_, ?_⟩
          · simp [readElem, hlt, hb.1, hb.2]
          · simp only [readElem, he, hb.1, if_true]
            exact ⟨es[i.toInt.toNat], List.getElem?_eq_getElem hb.2⟩
          · intro b j hne
            cases b with
            | int _ => simp [readElem]
            | null => simp [readElem]
            | ref b =>
              cases j with
              | ref _ => simp [readElem]
              | null => simp [readElem]
              | int j =>
                simp only [readElem]
                by_cases hab : a = b
                · subst hab
                  rw [List.getElem?_set_self hlt, he]
                  by_cases hj : 0 ≤ j.toInt
                  · simp only [hj, if_true]
                    refine List.getElem?_set_ne ?_
                    intro hij
                    apply hne
                    refine ⟨rfl, ?_⟩
                    have : i.toInt = j.toInt := by omega
                    rw [BitVec.eq_of_toInt_eq this]
                  · simp only [hj, if_false]
                · rw [List.getElem?_set_ne hab]
          · intro b f
            cases b with
            | int _ => simp [readField]
            | null => simp [readField]
            | ref b =>
              simp only [readField]
              by_cases hab : a = b
              · subst hab
                rw [List.getElem?_set_self hlt, he]
              · rw [List.getElem?_set_ne hab]
        · cases hw
      · cases hw

/-- The same for fields. -/
theorem field_written {h h' : Heap} {o v : Val} {f : Nat} (hw : writeField h o f v = some h') :
    readField h' o f = some v ∧ (∃ w, readField h o f = some w) ∧
    (∀ b g, ¬ (o = b ∧ f = g) → readField h' b g = readField h b g) ∧
    ∀ b j, readElem h' b j = readElem h b j := by
  cases o with
  | int _ => simp [writeField] at hw
  | null => simp [writeField] at hw
  | ref a =>
    simp only [writeField] at hw
    split at hw
    · rename_i es he
      split at hw
      · rename_i hb
        cases hw
        have hlt : a < h.length := (List.getElem?_eq_some_iff.1 he).1
        refine ⟨?_, ?_, ?_, ?_⟩
        · simp [readField, hlt, hb]
        · simp only [readField, he]
          exact ⟨es[f], List.getElem?_eq_getElem hb⟩
        · intro b g hne
          cases b with
          | int _ => simp [readField]
          | null => simp [readField]
          | ref b =>
            simp only [readField]
            by_cases hab : a = b
            · subst hab
              rw [List.getElem?_set_self hlt, he]
              exact List.getElem?_set_ne (fun hfg => hne ⟨rfl, hfg⟩)
            · rw [List.getElem?_set_ne hab]
        · intro b j
          cases b with
          | int _ => simp [readElem]
          | null => simp [readElem]
          | ref b =>
            cases j with
            | ref _ => simp [readElem]
            | null => simp [readElem]
            | int j =>
              simp only [readElem]
              by_cases hab : a = b
              · subst hab
                rw [List.getElem?_set_self hlt, he]
              · rw [List.getElem?_set_ne hab]
      · cases hw
    · cases hw

/-- No assignment changes the class of an object. -/
theorem class_kept (h h' : Heap) (o v : Val)
    (hw : (∃ f, writeField h o f v = some h') ∨ ∃ i, writeElem h o i v = some h') (b : Val) :
    classOf h' b = classOf h b := by
  have key : ∀ (a : Nat) (x y : Obj), h[a]? = some x → h' = h.set a y →
      (∀ c fs, x = .object c fs → ∃ gs, y = .object c gs) →
      (∀ es, x = .array es → ∃ gs, y = .array gs) → classOf h' b = classOf h b := by
    intro a x y hx hh h1 h2
    subst hh
    cases b with
    | int _ => rfl
    | null => rfl
    | ref b =>
      simp only [classOf]
      by_cases hab : a = b
      · subst hab
        rw [List.getElem?_set_self (List.getElem?_eq_some_iff.1 hx).1, hx]
        cases x with
        | object c fs => obtain ⟨gs, rfl⟩ := h1 c fs rfl; rfl
        | array es => obtain ⟨gs, rfl⟩ := h2 es rfl; rfl
      · rw [List.getElem?_set_ne hab]
  rcases hw with ⟨f, hw⟩ | ⟨i, hw⟩
  · cases o with
    | int _ => simp [writeField] at hw
    | null => simp [writeField] at hw
    | ref a =>
      simp only [writeField] at hw
      split at hw
      · rename_i c fs he
        split at hw
        · cases hw
          exact key a _ _ he rfl (fun c' fs' hx => by cases hx; exact ⟨_, rfl⟩)
            (fun es hx => by cases hx)
        · cases hw
      · cases hw
  · cases o with
    | int _ => simp [writeElem] at hw
    | null => simp [writeElem] at hw
    | ref a =>
      cases i with
      | ref _ => simp [writeElem] at hw
      | null => simp [writeElem] at hw
      | int i =>
        simp only [writeElem] at hw
        split at hw
        · rename_i es he
          split at hw
          · cases hw
            exact key a _ _ he rfl (fun c' fs' hx => by cases hx)
              (fun es hx => by cases hx; exact ⟨_, rfl⟩)
          · cases hw
        · cases hw

example : writeElem s0.heap (.ref 1) (.int 2) (.int 9) =
    some [.object 0 [.int 7, .ref 1], .array [.int 10, .int 20, .int 9]] ∧
    writeField s0.heap (.ref 0) 0 (.int 9) =
    some [.object 0 [.int 9, .ref 1], .array [.int 10, .int 20, .int 30]] := by decide +kernel

/-! ## Outside the fragment -/

/-- `a[i] = (i = 1)` writes `a[1]`: the right side is evaluated before the index. -/
theorem order_refuted : ∃ W this, ¬ Correct W this
    (.assign (.elem (.get (.var 1)) (.get (.var 2))) (.assign (.var 2) (.const (.int 1)))) := by
  refine ⟨W0, .null, ?_⟩
  rintro ⟨c, hc, h⟩
  have hc' : c = [.push (.int 1), .pickLocal 2, .pushLocal 2, .pushLocal 1, .popElem] := by
    rw [← Option.some.injEq, ← hc]; decide +kernel
  subst hc'
  exact absurd (h [] s0) (by decide +kernel)

/-- `a[i++] += 1` evaluates `i++` twice. -/
theorem twice_refuted : ∃ W this, ¬ Correct W this
    (.opAssign .add (.elem (.get (.var 1)) (.inc true .add (.var 2))) (.const (.int 1))) := by
  refine ⟨W0, .null, ?_⟩
  rintro ⟨c, hc, h⟩
  have hc' : c = [.pushLocal 2, .pushLocal 2, .push (.int 1), .op .add, .popLocal 2, .pushLocal 1,
      .pushElem, .push (.int 1), .op .add, .pushLocal 2, .pushLocal 2, .push (.int 1), .op .add,
      .popLocal 2, .pushLocal 1, .popElem] := by
    rw [← Option.some.injEq, ← hc]; decide +kernel
  subst hc'
  exact absurd (h [] s0) (by decide +kernel)

/-- `next().f += 1` calls `next` twice. -/
theorem receiver_twice_refuted : ∃ W this, ¬ Correct W this
    (.opAssign .add (.field (.call (.get (.var 0)) 2 .nil) 1) (.const (.int 1))) := by
  refine ⟨W0, .null, ?_⟩
  rintro ⟨c, hc, h⟩
  have hc' : c = [.pushLocal 0, .call 2, .pushField 1, .push (.int 1), .op .add, .pushLocal 0,
      .call 2, .popField 1] := by
    rw [← Option.some.injEq, ← hc]; decide +kernel
  subst hc'
  exact absurd (h [] { s0 with heap := [.object 0 [.int 7, .int 3]] }) (by decide +kernel)

/-- `o.P++`, `++o.P`, `o.P--` and `--o.P` do not compile (the compiler runs into an
assertion), whatever `o` and `P` are, as statements and inside expressions. -/
theorem property_inc_refuted (W : World) (this : Val) (post : Bool) (op : Op) (o : Exp)
    (g s : Nat) :
    ¬ Correct W this (.inc post op (.prop o g s)) ∧
    ¬ CorrectValue W this (.inc post op (.prop o g s)) := by
  constructor
  · rintro ⟨c, hc, _⟩
    simp only [Stmt.compile, Place.pre, Place.read, Place.to] at hc
    cases h : o.compile W false false <;> simp [h] at hc
  · rintro ⟨c, hc, _⟩
    simp only [Exp.compile, Place.pre, Place.read, Place.to] at hc
    cases h : o.compile W false false <;> cases post <;> simp [h] at hc

/-- `o.P += v` never does what it says: the setter is called with `v`, on the sum
instead of `o`, and `o` stays on the operand stack. -/
theorem property_compound_refuted (W : World) (this : Val) (op : Op) (o : Exp) (g st : Nat)
    (e : Exp) (ho : o.ok W = true) (he : e.ok W = true) (hg : W.returns g = true)
    (hg0 : W.arity g = 0) (hs : W.returns st = false) (hs1 : W.arity st = 1)
    (hrun : ∃ s s', (Stmt.opAssign op (.prop o g st) e).run W this s = some s') :
    ¬ Correct W this (.opAssign op (.prop o g st) e) := by
  rintro ⟨c, hc, h⟩
  obtain ⟨s, s', hrun⟩ := hrun
  obtain ⟨co, hco, ro⟩ := Exp.right (W := W) (this := this) o ho false
  obtain ⟨ce, hce, re⟩ := Exp.right (W := W) (this := this) e he false
  have rr := Place.right (W := W) (this := this) (.prop o g st) (by
    simp only [Place.readOk, ho, hg, hg0]; rfl)
  obtain ⟨cr, hcr, rr⟩ := rr
  simp only [Stmt.compile, Place.pre, Place.to, hco, hce, hcr, Option.bind_eq_bind,
    Option.bind_some, Option.some.injEq] at hc
  subst hc
  have h := h [] s
  rw [hrun] at h
  simp only [Option.map_some] at h
  rw [exec_append, exec_append, exec_append, exec_append, ro] at h
  cases h1 : o.eval W this s with
  | none => simp [h1] at h
  | some q =>
    simp only [h1, Option.map_some, Option.bind_some] at h
    rw [rr] at h
    cases h2 : (Exp.get (.prop o g st)).eval W this q.2 with
    | none => simp [h2] at h
    | some x =>
      simp only [h2, Option.map_some, Option.bind_some] at h
      rw [re] at h
      cases h3 : e.eval W this x.2 with
      | none => simp [h3] at h
      | some y =>
        simp only [h3, Option.map_some, Option.bind_some, exec_one, step] at h
        cases h4 : op.apply x.1 y.1 with
        | none => simp [h4] at h
        | some z =>
          simp only [h4, Option.map_some, Option.bind_some] at h
          rw [exec_append, re] at h
          cases h5 : e.eval W this y.2 with
          | none => simp [h5] at h
          | some u =>
            simp only [h5, Option.map_some, Option.bind_some, exec_one] at h
            have h6 := call_values (W := W) (this := this) st [u.1] z [q.1] u.2
              (by rw [hs1]; rfl)
            simp only [List.reverse_singleton, List.singleton_append] at h6
            rw [h6, hs] at h
            cases h7 : invoke W st z [u.1] u.2 <;> simp [h7] at h

example : ∃ s s', (Stmt.opAssign .add (.prop (.get (.var 0)) 0 1) (.const (.int 3))).run W0 .null s
    = some s' := ⟨s0, { s0 with heap :=
      [.object 0 [.int 10, .ref 1], .array [.int 10, .int 20, .int 30]] }, by decide +kernel⟩

/-- `o[i] = v` never does what it says: `v` is not compiled at all, and the setter
finds too few values. -/
theorem indexer_assign_refuted (W : World) (this : Val) (o : Exp) (args : Args) (g st : Nat)
    (e : Exp) (ho : o.ok W = true) (ha : args.ok W = true)
    (hs1 : W.arity st = args.length + 1)
    (hrun : ∃ s s', (Stmt.assign (.indexer o args g st) e).run W this s = some s') :
    ¬ Correct W this (.assign (.indexer o args g st) e) := by
  rintro ⟨c, hc, h⟩
  obtain ⟨s, s', hrun⟩ := hrun
  obtain ⟨co, hco, ro⟩ := Exp.right (W := W) (this := this) o ho false
  obtain ⟨ca, hca, ra⟩ := Args.right (W := W) (this := this) args ha
  simp only [Stmt.compile, Place.pre, Place.to, Place.real, hco, hca, Option.bind_eq_bind,
    Option.bind_some, Option.some.injEq, Bool.false_eq_true, if_false] at hc
  subst hc
  have h := h [] s
  rw [hrun] at h
  simp only [Option.map_some] at h
  rw [exec_append, exec_append, ro] at h
  cases h1 : o.eval W this s with
  | none => simp [h1] at h
  | some q =>
    simp only [h1, Option.map_some, Option.bind_some] at h
    rw [ra] at h
    cases h2 : args.eval W this q.2 with
    | none => simp [h2] at h
    | some r =>
      obtain ⟨vs, s2⟩ := r
      have hl := Args.eval_length args h2
      simp only [h2, Option.map_some, Option.bind_some, exec_one, step, callStep] at h
      rw [List.drop_of_length_le (by simp [hs1, hl])] at h
      simp at h

example : ∃ s s', (Stmt.assign (.indexer (.get (.var 0)) (.cons (.get (.var 2)) .nil) 3 4)
    (.const (.int 3))).run W0 .null s = some s' :=
  ⟨s0, { s0 with heap := [.object 0 [.int 7, .ref 1], .array [.int 3, .int 20, .int 30]] }, by
    decide +kernel⟩

/-- The methods of `run0`, with an override of the setter of the indexer that does
nothing. -/
def W1 : World where
  returns := W0.returns
  arity := W0.arity
  virt m := m = 4
  run m := if m = 4 then fun _ _ h => some (.null, h) else run0 m
  direct := run0
  create := W0.create
  direct_eq m h := by simp only [decide_eq_false_iff_not] at h; rw [if_neg h]

/-- `o[i] += v` does not run the override of a virtual setter: the call of the setter
of an indexer is never dispatched. -/
theorem indexer_virtual_refuted : ∃ W this, ¬ Correct W this
    (.opAssign .add (.indexer (.get (.var 0)) (.cons (.get (.var 2)) .nil) 3 4)
      (.const (.int 3))) := by
  refine ⟨W1, .null, ?_⟩
  rintro ⟨c, hc, h⟩
  have hc' : c = [.pushLocal 0, .pushLocal 2, .pushLocal 0, .pushLocal 2, .call 3, .push (.int 3),
      .op .add, .callDirect 4] := by
    rw [← Option.some.injEq, ← hc]; decide +kernel
  subst hc'
  exact absurd (h [] s0) (by decide +kernel)

/-- The value of `a[i] = v` is never there to be used (`x = a[i] = v`). -/
theorem element_value_refuted (W : World) (this : Val) (a i e : Exp) (ha : a.ok W = true)
    (hi : i.ok W = true) (he : e.ok W = true)
    (hrun : ∃ s r, (Exp.assign (.elem a i) e).eval W this s = some r) :
    ¬ CorrectValue W this (.assign (.elem a i) e) := by
  rintro ⟨c, hc, h⟩
  obtain ⟨s, r, hrun⟩ := hrun
  obtain ⟨ca, hca, ra⟩ := Exp.right (W := W) (this := this) a ha false
  obtain ⟨ci, hci, ri⟩ := Exp.right (W := W) (this := this) i hi false
  obtain ⟨ce, hce, re⟩ := Exp.right (W := W) (this := this) e he false
  simp only [Exp.compile, Place.pre, Place.to, Place.real, hca, hci, hce, Option.bind_eq_bind,
    Option.bind_some, Option.some.injEq, if_true] at hc
  subst hc
  have h := h [] s
  rw [hrun] at h
  simp only [Option.map_some, List.nil_append] at h
  rw [exec_append, re] at h
  cases h1 : e.eval W this s with
  | none => simp [h1] at h
  | some q =>
    simp only [h1, Option.map_some, Option.bind_some] at h
    rw [ri.popElem ra] at h
    cases h2 : i.eval W this q.2 with
    | none => simp [h2] at h
    | some x =>
      simp only [h2, Option.bind_some] at h
      cases h3 : a.eval W this x.2 with
      | none => simp [h3] at h
      | some y =>
        simp only [h3, Option.bind_some] at h
        cases h4 : (Loc.elem y.1 x.1).store W q.1 y.2 <;> simp [h4] at h

example : ∃ s r, (Exp.assign (.elem (.get (.var 1)) (.get (.var 2))) (.const (.int 5))).eval
    W0 .null s = some r := ⟨s0, (.int 5, { s0 with heap :=
      [.object 0 [.int 7, .ref 1], .array [.int 5, .int 20, .int 30]] }), by decide +kernel⟩

/-- The value of `o.P = v` is never there to be used. -/
theorem property_value_refuted (W : World) (this : Val) (o : Exp) (g st : Nat) (e : Exp)
    (ho : o.ok W = true) (he : e.ok W = true) (hs : W.returns st = false)
    (hs1 : W.arity st = 1)
    (hrun : ∃ s r, (Exp.assign (.prop o g st) e).eval W this s = some r) :
    ¬ CorrectValue W this (.assign (.prop o g st) e) := by
  rintro ⟨c, hc, h⟩
  obtain ⟨s, r, hrun⟩ := hrun
  obtain ⟨co, hco, ro⟩ := Exp.right (W := W) (this := this) o ho false
  obtain ⟨ce, hce, re⟩ := Exp.right (W := W) (this := this) e he false
  simp only [Exp.compile, Place.pre, Place.to, Place.real, hco, hce, Option.bind_eq_bind,
    Option.bind_some, Option.some.injEq, Bool.false_eq_true, if_false] at hc
  subst hc
  have h := h [] s
  rw [hrun] at h
  simp only [Option.map_some] at h
  rw [exec_append, ro] at h
  cases h1 : o.eval W this s with
  | none => simp [h1] at h
  | some q =>
    simp only [h1, Option.map_some, Option.bind_some] at h
    rw [exec_append, re] at h
    cases h2 : e.eval W this q.2 with
    | none => simp [h2] at h
    | some x =>
      simp only [h2, Option.map_some, Option.bind_some, exec_one] at h
      have h6 := call_values (W := W) (this := this) st [x.1] q.1 [] x.2 (by rw [hs1]; rfl)
      simp only [List.reverse_singleton, List.singleton_append] at h6
      rw [h6, hs] at h
      cases h7 : invoke W st q.1 [x.1] x.2 <;> simp [h7] at h

example : ∃ s r, (Exp.assign (.prop (.get (.var 0)) 0 1) (.const (.int 5))).eval
    W0 .null s = some r := ⟨s0, (.int 5, { s0 with heap :=
      [.object 0 [.int 5, .ref 1], .array [.int 10, .int 20, .int 30]] }), by decide +kernel⟩

/-- `o.f().m(args);` never calls `m` on the result of `f`: the result is popped
from the stack before the call. -/
theorem chain_refuted (W : World) (this : Val) (o : Exp) (f m : Nat) (fargs args : Args)
    (ho : o.ok W = true) (hk : o.kept true = true) (hf : fargs.ok W = true)
    (ha : args.ok W = true) (hr : W.returns f = true) (hfa : fargs.length = W.arity f)
    (hma : args.length = W.arity m)
    (hrun : ∃ s s', (Stmt.call (.call o f fargs) m args).run W this s = some s') :
    ¬ Correct W this (.call (.call o f fargs) m args) := by
  rintro ⟨c, hc, h⟩
  obtain ⟨s, s', hrun⟩ := hrun
  obtain ⟨co, hco, ro⟩ := Exp.right (W := W) (this := this) o ho true
  obtain ⟨cf, hcf, rf⟩ := Args.right (W := W) (this := this) fargs hf
  obtain ⟨ca, hca, ra⟩ := Args.right (W := W) (this := this) args ha
  simp only [Stmt.compile, Exp.compile, Exp.kept_compile o hk, hco, hcf, hca,
    Option.bind_eq_bind, Option.bind_some, Option.some.injEq, popFor, hr, Bool.true_and,
    if_true] at hc
  subst hc
  have h := h [] s
  rw [hrun] at h
  simp only [Option.map_some] at h
  rw [exec_append, exec_append, exec_append, exec_append,
    Runs.call ro rf f (fun s vs s' hv => by rw [Args.eval_length fargs hv, hfa])] at h
  cases h1 : (o.eval W this s).bind fun q => (fargs.eval W this q.2).bind fun r =>
      invoke W f q.1 r.1 r.2 with
  | none => rw [h1] at h; simp at h
  | some q =>
    rw [h1] at h
    simp only [Option.map_some, Option.bind_some, exec_one, step, hr, if_true] at h
    rw [ra] at h
    cases h2 : args.eval W this q.2 with
    | none => simp [h2] at h
    | some r =>
      obtain ⟨vs, s2⟩ := r
      have hl := Args.eval_length args h2
      simp only [h2, Option.map_some, Option.bind_some, exec_one, step, callStep] at h
      rw [List.drop_of_length_le (by simp [hl, hma])] at h
      simp at h

/-- `o.P.m(args);` neither. -/
theorem property_chain_refuted (W : World) (this : Val) (o : Exp) (g st m : Nat) (args : Args)
    (ho : o.ok W = true) (hk : o.kept false = true)
    (ha : args.ok W = true) (hr : W.returns g = true) (hfa : W.arity g = 0)
    (hma : args.length = W.arity m)
    (hrun : ∃ s s', (Stmt.call (.get (.prop o g st)) m args).run W this s = some s') :
    ¬ Correct W this (.call (.get (.prop o g st)) m args) := by
  rintro ⟨c, hc, h⟩
  obtain ⟨s, s', hrun⟩ := hrun
  obtain ⟨co, hco, ro⟩ := Exp.right (W := W) (this := this) o ho false
  obtain ⟨ca, hca, ra⟩ := Args.right (W := W) (this := this) args ha
  simp only [Stmt.compile, Exp.compile, Place.read, Exp.kept_compile o hk, hco, hca,
    Option.bind_eq_bind, Option.bind_some, Option.some.injEq, popFor, hr, Bool.true_and,
    if_true] at hc
  subst hc
  have h := h [] s
  rw [hrun] at h
  simp only [Option.map_some] at h
  have hcall := Runs.call ro runs_nil g (fun s vs s' hv => by
    simp only [Option.some.injEq, Prod.mk.injEq] at hv; rw [← hv.1, hfa]; rfl) [] s
  rw [List.append_nil] at hcall
  rw [exec_append, exec_append, exec_append, exec_append, hcall] at h
  cases h1 : (o.eval W this s).bind fun q => (some (([] : List Val), q.2)).bind fun r =>
      invoke W g q.1 r.1 r.2 with
  | none => rw [h1] at h; simp at h
  | some q =>
    rw [h1] at h
    simp only [Option.map_some, Option.bind_some, exec_one, step, hr, if_true] at h
    rw [ra] at h
    cases h2 : args.eval W this q.2 with
    | none => simp [h2] at h
    | some r =>
      obtain ⟨vs, s2⟩ := r
      have hl := Args.eval_length args h2
      simp only [h2, Option.map_some, Option.bind_some, exec_one, step, callStep] at h
      rw [List.drop_of_length_le (by simp [hl, hma])] at h
      simp at h

example : (∃ s s', (Stmt.call (.call (.get (.var 0)) 2 .nil) 2 .nil).run W0 .null s = some s') ∧
    (Exp.get (.var 0)).kept true = true ∧
    ∃ s s', (Stmt.call (.get (.prop (.get (.var 0)) 0 1)) 2 .nil).run W0 .null s = some s' :=
  ⟨⟨s0, { s0 with heap := [.object 0 [.int 9, .ref 1], .array [.int 10, .int 20, .int 30]] }, by
    decide +kernel⟩, by decide +kernel,
    ⟨{ s0 with heap := [.object 0 [.ref 1, .null], .object 0 [.int 1, .null]] },
      { s0 with heap := [.object 0 [.ref 1, .null], .object 0 [.int 2, .null]] },
      by decide +kernel⟩⟩

/-- Reading a static field as `T.f` takes a value from the operand stack as if it
were an object. -/
theorem static_refuted (W : World) (this : Val) (f : Nat) :
    ¬ CorrectValue W this (.get (.static f)) := by
  rintro ⟨c, hc, h⟩
  simp only [Exp.compile, Place.read, Option.some.injEq] at hc
  subst hc
  have := h [] ⟨[], [], List.replicate (f + 1) .null⟩
  simp [exec, step, Exp.eval, Place.locate, Loc.load] at this

end Verif.Place.Props
