import Verif.Spec.Mval
import Verif.Props.Overload

/-!
# C125: a method used as a value is a delegate of that method and of the object it is named with
-/

namespace Verif.Mval

open Verif.Overload (Ty Tys Slot Method World Res Query getMember Sees demo demo_good demo_ready demo_facts mth byVal tInt tLong tStr)

theorem lists_toTys : ∀ l : List Ty, Lists (toTys l) l
  | [] => .nil
  | _ :: l => .cons (lists_toTys l)

theorem lists_unique : ∀ {a b : Tys} {l : List Ty}, Lists a l → Lists b l → a = b
  | _, _, _, .nil, .nil => rfl
  | _, _, _, .cons h, .cons h' => by rw [lists_unique h h']

theorem ofTys_toTys : ∀ l : List Ty, ofTys (toTys l) = l
  | [] => rfl
  | t :: l => by rw [toTys, ofTys, ofTys_toTys l]

theorem signature_iff (E : Env) (m : Method) (t : Ty) : Signature E m t ↔ t = typeOf E m := by
  constructor
  · rintro ⟨args, rfl, h⟩
    unfold typeOf
    rw [lists_unique h (.cons (lists_toTys _))]
  · rintro rfl
    exact ⟨_, rfl, .cons (lists_toTys _)⟩

/-! ## What the commands do -/

theorem init_obj (m o p : Nat) (l : List Val) (v : Nat → Option Delegate) :
    init ⟨.meth m :: .obj o :: .place p :: l, v⟩ = some ⟨l, fun q => if q = p then some ⟨some o, m⟩ else v q⟩ := rfl

theorem init_null (m p : Nat) (l : List Val) (v : Nat → Option Delegate) :
    init ⟨.meth m :: .null :: .place p :: l, v⟩ = some ⟨l, fun q => if q = p then some ⟨none, m⟩ else v q⟩ := rfl

theorem init_short (m p : Nat) (l : List Val) (v : Nat → Option Delegate) : init ⟨.meth m :: .place p :: l, v⟩ = none := by
  cases l with
  | nil => rfl
  | cons x l => cases x <;> rfl

theorem init_wrong (m o : Nat) (l : List Val) (v : Nat → Option Delegate) : init ⟨.meth m :: .null :: .obj o :: l, v⟩ = none := rfl

/-- Exactly when the code that was accepted does what the program says: the program is not wrong, and it is not the plain name of a method
that is not static. -/
theorem made_iff {E : Env} {p : Nat} {declared : Ty} {left : Left} {m : Method} {is : List Instr} {this : Option Nat} {s : State}
    (h : compileAssign E p declared left m = some is) :
    (∃ s', run this is s = some s' ∧ Made this left m p s s') ↔
      expected this left m.static_ ≠ none ∧ (left = .plain → m.static_ = true) := by
  unfold compileAssign at h
  split at h
  · exact absurd h (by simp)
  · obtain rfl := Option.some.inj h
    cases hst : m.static_ <;> cases left <;> cases this <;>
      simp [expected, Made, compileLeft, compileMethod, run, step, init_obj, init_null, init_short, init_wrong, hst] <;>
      (intro q hq hq'; exact absurd hq' hq)

/-- The assignment of a method to a variable gives the variable the delegate of the method and of the object that is named. -/
theorem made_partial {E : Env} {p : Nat} {declared : Ty} {left : Left} {m : Method} {is : List Instr} {this : Option Nat} {s : State}
    (h : compileAssign E p declared left m = some is) (he : expected this left m.static_ ≠ none)
    (hp : left = .plain → m.static_ = true) : ∃ s', run this is s = some s' ∧ Made this left m p s s' :=
  (made_iff h).2 ⟨he, hp⟩

/-- What the program does when it is wrong or when the object is not named: it takes what is not there, or what is something else. -/
theorem otherwise_fault {E : Env} {p : Nat} {declared : Ty} {left : Left} {m : Method} {is : List Instr} {this : Option Nat} {s : State}
    (h : compileAssign E p declared left m = some is)
    (he : ¬ (expected this left m.static_ ≠ none ∧ (left = .plain → m.static_ = true))) : run this is s = none := by
  unfold compileAssign at h
  split at h
  · exact absurd h (by simp)
  · obtain rfl := Option.some.inj h
    cases hst : m.static_ <;> cases left <;> cases this <;> rw [hst] at he <;>
      first
        | (exfalso; apply he; simp [expected]; done)
        | simp [compileLeft, compileMethod, run, step, init_short, init_wrong, hst]

/-! ## Which method it is -/

/-- A plain name in an assignment that is accepted: the method has the name, is one of the class or of a class above it, and has the result and
the parameters of the delegate. -/
theorem name_signature {E : Env} {p : Nat} {declared host : Ty} {first m : Method} {is : List Instr}
    (h : assignName E p declared host first = .code m is) :
    Signature E m declared ∧ m.name = first.name ∧ ∃ d, Sees E.W host d ∧ m ∈ E.W.methods d := by
  unfold assignName at h
  cases hw : walkName E host first [.assign declared] with
  | error => rw [hw] at h; exact absurd h (by simp)
  | thrown => rw [hw] at h; exact absurd h (by simp)
  | method m' =>
    rw [hw] at h
    dsimp only at h
    cases hc : compileAssign E p declared .plain m' with
    | none => rw [hc] at h; exact absurd h (by simp)
    | some is' =>
      rw [hc] at h
      dsimp only at h
      injection h with h1 h2
      subst h1
      constructor
      · unfold compileAssign at hc
        split at hc
        · exact absurd hc (by simp)
        · rename_i ht
          exact (signature_iff _ _ _).2 (Classical.not_not.1 ht)
      · unfold walkName pickFrom at hw
        dsimp only [context] at hw
        split at hw
        · rename_i hx; exact absurd hx (by simp)
        · rename_i q hx
          injection hw with hw
          subst hw
          obtain ⟨d, hd, hf⟩ := Verif.Overload.getMember_found (Option.some.inj hx)
          obtain ⟨h1, h2, _⟩ := Verif.Overload.inType_found rfl hf
          exact ⟨h2, d, hd, h1⟩
        · exact absurd hw (by simp)
        · exact absurd hw (by simp)

/-- The same for a name behind a dot. -/
theorem dot_signature {E : Env} {p : Nat} {declared type : Ty} {left : Left} {name : Nat} {m : Method} {is : List Instr}
    (h : assignDot E p declared left type name = .code m is) :
    Signature E m declared ∧ m.name = name ∧ ∃ d, Sees E.W type d ∧ m ∈ E.W.methods d := by
  unfold assignDot at h
  cases hw : walkDot E type name with
  | error => rw [hw] at h; exact absurd h (by simp)
  | thrown => rw [hw] at h; exact absurd h (by simp)
  | method m' =>
    rw [hw] at h
    dsimp only at h
    cases hc : compileAssign E p declared left m' with
    | none => rw [hc] at h; exact absurd h (by simp)
    | some is' =>
      rw [hc] at h
      dsimp only at h
      injection h with h1 h2
      subst h1
      constructor
      · unfold compileAssign at hc
        split at hc
        · exact absurd hc (by simp)
        · rename_i ht
          exact (signature_iff _ _ _).2 (Classical.not_not.1 ht)
      · unfold walkDot at hw
        split at hw
        · rename_i q hx
          injection hw with hw
          subst hw
          obtain ⟨d, hd, hf⟩ := Verif.Overload.getMember_found hx
          obtain ⟨h1, h2, _⟩ := Verif.Overload.inType_found rfl hf
          exact ⟨h2, d, hd, h1⟩
        · exact absurd hw (by simp)
        · exact absurd hw (by simp)

/-- Among several methods of a class with the name, a plain name is the one with the result and the parameters of the delegate, whichever of them the
region has for the name. -/
theorem overload_partial {E : Env} (g : E.W.Good) {p : Nat} {declared host : Ty} {first m : Method}
    (hi : E.W.iface host = false) (hs : Signature E m declared) (hm : m ∈ E.W.named first.name host)
    (hv : ∀ q ∈ m.params, q.1 = .default_)
    (hr : E.W.Ready m.params (E.W.named first.name host))
    (hd : ∀ a ∈ E.W.named first.name host, ∀ b ∈ E.W.named first.name host, a.params = b.params → a = b) :
    ∃ is, assignName E p declared host first = .code m is := by
  have ht := (signature_iff _ _ _).1 hs
  have hat : argumentTypes E declared = m.params := by
    rw [ht]
    unfold typeOf argumentTypes
    dsimp only
    rw [if_pos (Or.inl rfl), ofTys_toTys, List.map_map]
    conv => rhs; rw [← List.map_id m.params]
    apply List.map_congr_left
    intro q hq
    show (Verif.Overload.PType.default_, q.2) = q
    rw [← hv q hq]
  have hfound : getMember E.W ⟨first.name, .normal, none, some m.params⟩ E.fuel host = .found ⟨m, []⟩ := by
    obtain ⟨x, h1, h2⟩ := Verif.Overload.inType_chosen g hr
    have hx : x = .method m := Verif.Overload.chosen_unique hd h1 (.exact hm rfl)
    subst hx
    have h2 := h2 (Or.inl (by simp))
    unfold Verif.Overload.callQuery at h2
    unfold getMember
    rw [if_neg (by rw [hi]; simp), h2]
    rfl
  have hw : walkName E host first [.assign declared] = .method m := by
    unfold walkName pickFrom
    dsimp only [context]
    rw [hat, hfound]
  refine ⟨.place p :: (compileLeft .plain ++ compileMethod m (Left.plain == .base)), ?_⟩
  unfold assignName
  rw [hw]
  dsimp only
  unfold compileAssign
  rw [if_neg (by rw [ht]; simp)]

/-- The type that is expected is the one of the nearest assignment or cast around, whichever operators and calls are between; without any,
no type is expected. -/
theorem context_nearest (us : List Up) (h : ∀ u ∈ us, u = .binary ∨ u = .other) (t : Ty) (vs : List Up) :
    context (us ++ .assign t :: vs) = some t ∧ context (us ++ .cast t :: vs) = some t ∧ context us = none := by
  induction us with
  | nil => exact ⟨rfl, rfl, rfl⟩
  | cons u us ih =>
    have ih := ih fun x hx => h x (List.mem_cons_of_mem _ hx)
    rcases h u List.mem_cons_self with rfl | rfl <;> exact ih

/-- The initial value of a variable that is declared with a type is chosen as one that is assigned. -/
theorem initial_value (E : Env) (host : Ty) (first : Method) (t : Ty) :
    walkName E host first [.cast t] = walkName E host first [.assign t] := rfl

/-! ## A program -/

/-- The classes of `Verif.Overload.demo`: class 10 has `f(long)`, `f(string)` and `f(int, int)` with the results `int`, `string` and `long`.
`Delegate` is 40. -/
def sample : Env := ⟨demo, 40, 41, fun i => if i = 1 then tInt else if i = 2 then tStr else tLong, 9⟩

/-- `Delegate<string, string>`. -/
def ofString : Ty := .gen 40 (.cons tStr (.cons tStr .nil))

/-- A state in which other values wait on the stack. -/
def busy : State := ⟨[.obj 7, .place 3], fun _ => none⟩

/-- `v = f;` with `v` of type `Delegate<string, string>` is `f(string)`, though the region has `f(long)`. -/
example : ∃ is, assignName sample 5 ofString (.base 10) (mth 1 1 [] [byVal tLong]) = .code (mth 2 1 [] [byVal tStr]) is :=
  overload_partial demo_good rfl ((signature_iff _ _ _).2 rfl) (by decide +kernel)
    (by intro q hq; simp [mth, byVal] at hq; subst hq; rfl) (demo_ready _ rfl) (demo_facts (.base 10)).2.2

/-- A class with a static method `s()` and a method `f()`. -/
def two : Env :=
  ⟨{ demo with methods := fun t => if t = .base 10 then [⟨1, 1, .normal, [], [], true⟩, ⟨2, 2, .normal, [], [], false⟩] else [] }, 40, 41,
    fun _ => tInt, 9⟩

/-- `Delegate<int>`. -/
def toInt : Ty := .gen 40 (.cons tInt .nil)

/-- `v = e.f;` and `v = s;` are what they say. -/
example :
    (∃ is, assignDot two 5 toInt (.value 8) (.base 10) 2 = .code ⟨2, 2, .normal, [], [], false⟩ is ∧
      compileAssign two 5 toInt (.value 8) ⟨2, 2, .normal, [], [], false⟩ = some is ∧
      ∃ s', run none is busy = some s' ∧ Made none (.value 8) ⟨2, 2, .normal, [], [], false⟩ 5 busy s' ∧
        s'.vars 5 = some ⟨some 8, 2⟩) ∧
    (∃ is, assignName two 5 toInt (.base 10) ⟨1, 1, .normal, [], [], true⟩ = .code ⟨1, 1, .normal, [], [], true⟩ is ∧
      ∃ s', run (some 4) is busy = some s' ∧ Made (some 4) .plain ⟨1, 1, .normal, [], [], true⟩ 5 busy s' ∧
        s'.vars 5 = some ⟨none, 1⟩) ∧
    (∃ is, assignDot two 5 toInt .base (.base 10) 2 = .code ⟨2, 2, .normal, [], [], false⟩ is ∧
      ∃ s', run (some 4) is busy = some s' ∧ s'.vars 5 = some ⟨some 4, 2⟩) := by
  refine ⟨⟨[.place 5, .obj 8, .meth 2, .ctor 2], by rfl, by rfl, _, rfl, ⟨some 8, rfl, rfl, ?_, rfl⟩, rfl⟩,
    ⟨[.place 5, .null, .meth 1, .ctor 2], by rfl, _, rfl, ⟨none, rfl, rfl, ?_, rfl⟩, rfl⟩,
    ⟨[.place 5, .this, .meth 2, .callType, .ctor 3], by rfl, _, rfl, rfl⟩⟩
  · intro q hq; simp [hq]
  · intro q hq; simp [hq]

/-! ## Where the code fails -/

/-- `v = f;` in a method of an object, for a method `f` of the same object: this is accepted, but no object is pushed, and making the delegate
takes the address of the variable for it. -/
theorem plain_refuted : ∃ (E : Env) (m : Method) (is : List Instr), assignName E 5 toInt (.base 10) m = .code m is ∧
    expected (some 4) .plain m.static_ = some (some 4) ∧ ∀ s, run (some 4) is s = none :=
  ⟨two, ⟨2, 2, .normal, [], [], false⟩, [.place 5, .meth 2, .ctor 2], by rfl, rfl, fun s => by
    rcases s with ⟨l, v⟩
    cases l with
    | nil => rfl
    | cons x l => cases x <;> rfl⟩

/-- `v = e.s;` for a static method is accepted, and the delegate is written to the object `e`. -/
theorem static_of_object_refuted : ∃ (E : Env) (m : Method) (is : List Instr), assignDot E 5 toInt (.value 8) (.base 10) 1 = .code m is ∧
    expected (some 4) (.value 8) m.static_ = none ∧
    is = [.place 5, .obj 8, .null, .meth m.id, .ctor 2] ∧ ∀ s, run (some 4) is s = none :=
  ⟨two, ⟨1, 1, .normal, [], [], true⟩, [.place 5, .obj 8, .null, .meth 1, .ctor 2], by rfl, rfl, rfl, fun _ => rfl⟩

/-- `v = T.f;` for a method that is not static is accepted. -/
theorem method_of_type_refuted : ∃ (E : Env) (m : Method) (is : List Instr), assignDot E 5 toInt .type (.base 10) 2 = .code m is ∧
    expected (some 4) .type m.static_ = none :=
  ⟨two, ⟨2, 2, .normal, [], [], false⟩, [.place 5, .meth 2, .ctor 2], by rfl, rfl⟩

/-- `v = e.f;` for a name that several methods have is an exception that nobody catches, though one of them has the parameters and
the result of the delegate, and the plain name is accepted. -/
theorem dot_overload_refuted : ∃ (E : Env) (m : Method) (t : Ty), Signature E m t ∧ m ∈ E.W.methods (.base 10) ∧
    assignDot E 5 t (.value 8) (.base 10) m.name = .thrown ∧ ∃ is, assignName E 5 t (.base 10) m = .code m is :=
  ⟨sample, mth 2 1 [] [byVal tStr], ofString, (signature_iff _ _ _).2 rfl, by decide +kernel, by rfl, _, by rfl⟩

/-- `var v = f;` takes the method that the region has, whatever else has the name. -/
theorem var_refuted : ∃ (E : Env) (host : Ty) (a b : Method), a ≠ b ∧ a.name = b.name ∧ a ∈ E.W.methods host ∧ b ∈ E.W.methods host ∧
    walkName E host a [] = .method a ∧ walkName E host b [] = .method b :=
  ⟨sample, .base 10, mth 1 1 [] [byVal tLong], mth 2 1 [] [byVal tStr], by decide, rfl, by decide +kernel, by decide +kernel, rfl, rfl⟩

/-- In `x = g(f)` the method `f` is chosen by the type of `x`, not by the parameter of `g`: of two methods `f` the one that has the type of `x` is taken,
also when the parameter of `g` has the type of the other one. -/
theorem argument_refuted : ∃ (E : Env) (host x parameter : Ty) (first a b : Method), a ≠ b ∧ a.name = b.name ∧ a ∈ E.W.methods host ∧
    b ∈ E.W.methods host ∧ Signature E a x ∧ Signature E b parameter ∧ walkName E host first [.other, .assign x] = .method a :=
  ⟨sample, .base 10, ofString, typeOf sample (mth 1 1 [] [byVal tLong]), mth 1 1 [] [byVal tLong], mth 2 1 [] [byVal tStr],
    mth 1 1 [] [byVal tLong], by decide, rfl, by decide +kernel, by decide +kernel, (signature_iff _ _ _).2 rfl, (signature_iff _ _ _).2 rfl, by rfl⟩

end Verif.Mval
