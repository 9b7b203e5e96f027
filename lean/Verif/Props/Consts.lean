import Verif.Proof.Consts

/-!
# C117: Constants have the values that are written
-/

namespace Verif.Consts

/-- When only constants occur in the values of constants and none of them needs itself, the first pass is enough, nothing is
reported and every constant has the value of its expression, whatever the order in which they are declared.  Partial: the value need
not be one of the declared type (`range_refuted`), and when a field that is no constant occurs the compiler may not end
(`endless_refuted`). -/
theorem values_partial {V : Type} (decl : List (Fld V)) (vals : Nat → V) (ho : OnlyConsts decl) (hv : IsValues decl vals)
    (hac : ∀ (i : Nat) (f : Fld V), decl[i]? = some f → f.const = true → ¬ OnCircle decl i) (k : Nat) :
    (assign decl (k + 1)).1 = none ∧ (assign decl (k + 1)).2.errors = [] ∧
      ∀ (i : Nat) (f : Fld V), decl[i]? = some f → f.const = true → valueOf (assign decl (k + 1)).2 i = some (vals i) := by
  obtain ⟨s', h1, _, h3, _, h5⟩ := loop_value hv ho hac decl.length 0 none { flds := decl, errors := [] } ⟨rfl, fun _ => .inl rfl⟩
  have ha : assign decl (k + 1) = (none, s') := by
    rw [assign, passes, h1]
  rw [ha]
  refine ⟨rfl, h3, fun i f hi hc => ?_⟩
  have := h5 i f hi hc (Nat.zero_le _) (by have := (List.getElem?_eq_some_iff.1 hi).1; omega)
  unfold valueOf
  rw [this]

/-- A constant that needs itself, or leads to a field that does, is an error. -/
theorem circular_reported {V : Type} (decl : List (Fld V)) (hcl : Closed decl) (i : Nat) (f : Fld V) (hi : decl[i]? = some f)
    (hc : f.const = true) (hon : OnCircle decl i) (k : Nat) : (assign decl (k + 1)).2.errors ≠ [] := by
  -- the first such constant
  have hex : ∀ n, ∀ (i : Nat) (f : Fld V), i < n → decl[i]? = some f → f.const = true → OnCircle decl i →
      ∃ m fm, decl[m]? = some fm ∧ fm.const = true ∧ OnCircle decl m ∧
        ∀ (j : Nat) (g : Fld V), decl[j]? = some g → g.const = true → OnCircle decl j → m ≤ j := by
    intro n
    induction n with
    | zero => intro i f h; omega
    | succ n ih =>
      intro i f hlt hi hc hon
      by_cases h : ∃ (j : Nat) (g : Fld V), j < i ∧ decl[j]? = some g ∧ g.const = true ∧ OnCircle decl j
      · obtain ⟨j, g, h1, h2, h3, h4⟩ := h
        exact ih j g (by omega) h2 h3 h4
      · refine ⟨i, f, hi, hc, hon, fun j g h1 h2 h3 => ?_⟩
        by_cases hji : i ≤ j
        · exact hji
        · exact absurd ⟨j, g, by omega, h1, h2, h3⟩ h
  obtain ⟨m, fm, hm, hmc, hmo, hmin⟩ := hex (i + 1) i f (by omega) hi hc hon
  have hl := loop_circle hcl hm hmc hmo hmin decl.length 0 none { flds := decl, errors := [] } (Nat.zero_le _)
    (by have := (List.getElem?_eq_some_iff.1 hm).1; omega) rfl (fun _ _ => rfl)
  rw [assign, passes]
  cases hr : loop decl.length 0 none { flds := decl, errors := [] } with
  | mk b s' =>
    rw [hr] at hl
    cases b with
    | none => exact hl
    | some j =>
      dsimp only
      intro h
      have hp := passes_prefix k j s'
      rw [h] at hp
      exact hl (List.prefix_nil.1 hp)

/-- `class A { int n; const int C = n; }`: a constant whose value is a field that is no constant and has no initial value keeps the
compiler going for ever; nothing is reported however many passes are made. -/
theorem endless {V : Type} (decl : List (Fld V)) (i j : Nat) (f g : Fld V) (hi : decl[i]? = some f) (hc : f.const = true)
    (he : f.init = some (.field j)) (hj : decl[j]? = some g) (hg : g.const = false) (hn : g.init = none) (k : Nat) :
    (assign decl k).1 ≠ none := by
  obtain ⟨b, _, hb⟩ := passes_waits (i := i) (j := j) k 0 { flds := decl, errors := [] } ⟨⟨f, hi, hc, he⟩, g, hj, hg, hn⟩ (Nat.zero_le _)
  rw [assign, hb]
  simp

/-! ## Examples -/

/-- An `int` constant. -/
def constant (e : Option (Ex Int)) : Fld Int := { const := true, fits := fun _ => true, dflt := 0, init := e }

/-- A `byte` constant. -/
def byteConst (e : Option (Ex Int)) : Fld Int := { const := true, fits := fun x => decide (0 ≤ x ∧ x < 256), dflt := 0, init := e }

/-- An `int` field. -/
def plain (e : Option (Ex Int)) : Fld Int := { const := false, fits := fun _ => true, dflt := 0, init := e }

/-- An operator on two constants. -/
def both (f : Int → Int → Int) (a b : Ex Int) : Ex Int :=
  .op (fun x y => match x, y with | some x, some y => some (f x y) | _, _ => none) a b

/-- The compiler does not end. -/
theorem endless_refuted : ∃ decl : List (Fld Int), Closed decl ∧ ∀ k, (assign decl k).1 ≠ none :=
  ⟨[plain none, constant (some (.field 0))], by (
    intro i e he j hj
    match i with
    | 0 => cases he
    | 1 => cases he; simp [refs] at hj; subst hj; decide
    | n + 2 => cases he),
   endless _ 1 0 _ _ rfl rfl rfl rfl rfl rfl⟩

/-- `const byte B = 300;` is accepted, with the value 300. -/
theorem range_refuted : ∃ (decl : List (Fld Int)) (f : Fld Int) (v : Int), decl[0]? = some f ∧ (assign decl 1).1 = none ∧
    (assign decl 1).2.errors = [] ∧ valueOf (assign decl 1).2 0 = some v ∧ f.fits v = false :=
  ⟨[byteConst (some (.lit (some 300)))], _, 300, rfl, rfl, rfl, rfl, rfl⟩

/-- `const int A = B + C; const int B = C * 2; const int C = 21;` -/
def backwards : List (Fld Int) :=
  [constant (some (both (· + ·) (.field 1) (.field 2))), constant (some (both (· * ·) (.field 2) (.lit (some 2)))), constant (some (.lit (some 21)))]

/-- The values 63, 42 and 21. -/
def backwardsVals : Nat → Int
  | 0 => 63
  | 1 => 42
  | _ => 21

theorem backwards_needs {i j : Nat} (h : Needs backwards i j) : i < j := by
  obtain ⟨e, he, hj⟩ := h
  match i with
  | 0 => cases he; simp [both, refs] at hj; omega
  | 1 => cases he; simp [both, refs] at hj; omega
  | 2 => cases he; simp [refs] at hj
  | n + 3 => cases he

theorem backwards_plus {i j : Nat} (h : NeedsPlus backwards i j) : i < j := by
  induction h with
  | one h => exact backwards_needs h
  | cons h _ ih => exact Nat.lt_trans (backwards_needs h) ih

example : OnlyConsts backwards ∧ IsValues backwards backwardsVals ∧ ∀ i, ¬ OnCircle backwards i := by
  refine ⟨?_, ?_, fun i ⟨j, _, h⟩ => absurd (backwards_plus h) (by omega)⟩
  · intro i f e hi _ he j hj
    match i with
    | 0 =>
      cases hi; cases he
      simp only [both, refs, List.mem_append, List.mem_singleton] at hj
      rcases hj with rfl | rfl <;> exact ⟨_, rfl, rfl⟩
    | 1 =>
      cases hi; cases he
      simp only [both, refs, List.mem_append, List.mem_singleton, List.not_mem_nil, or_false] at hj
      subst hj; exact ⟨_, rfl, rfl⟩
    | 2 => cases hi; cases he; simp [refs] at hj
    | n + 3 => cases hi
  · intro i f hi _
    match i with
    | 0 => cases hi; rfl
    | 1 => cases hi; rfl
    | 2 => cases hi; rfl
    | n + 3 => cases hi

example : valueOf (assign backwards 1).2 0 = some 63 := rfl

/-- `const int A = B; const int B = A;` -/
example : OnCircle [constant (some (.field 1)), constant (some (.field 0))] 0 :=
  ⟨0, .inl rfl, .cons (j := 1) ⟨_, rfl, by simp [refs]⟩ (.one ⟨_, rfl, by simp [refs]⟩)⟩
example : (assign [constant (some (.field 1)), constant (some (.field 0))] 1).2.errors = [(0, .circular)] := by decide +kernel

end Verif.Consts
