import Verif.Proof.Enums

/-!
# C84, C85: the values of enumerators
-/

namespace Verif.Enums
open Verif.Fold (VT conv)

/-! ## C84 -/

/-- When only enumerators declared before occur in the values, and `ulong` constants meet only `ulong`, one round
over the enumeration is enough; nothing is reported exactly when there are values as they should be — the written
one, zero for the first, one more than the one before — that all fit the underlying type; and these are then
the values the enumerators have. -/
theorem enum_values_partial {t : VT} {decl : Inits} (ht : Integer t) (hb : Backward decl) (hp : Plain t decl) :
    ∃ s, assign t decl 1 = (none, s) ∧ (s.errors = [] ↔ ∃ vals, IsValues t decl vals) ∧
      ∀ vals, IsValues t decl vals → ∀ i, i < decl.length → valueOf s i = some (vals.getD i 0) := by
  have hu : ∀ vs : List Int, Upto t decl vs 0 ({ inits := decl } : St).inits :=
    fun vs => ⟨rfl, fun j hj => by omega, fun j _ => rfl⟩
  obtain ⟨s, ws, h1, h2, h3, h4⟩ := loop_run ht hb hp decl.length 0 { inits := decl } [] (by omega) rfl (by simp)
    (fits_zero ht) (hu []) (fun _ => ⟨⟨fun _ => ⟨rfl, rfl⟩, fun h => by omega⟩, fun j hj => by omega⟩)
  have hrun : assign t decl 1 = (none, s) := by simp only [assign, passes, h1]
  refine ⟨s, hrun, ⟨fun he => ⟨ws, h4 he⟩, ?_⟩, ?_⟩
  · rintro ⟨vals, hv⟩
    obtain ⟨s', h5, h6, _⟩ := loop_values ht hb hp hv decl.length 0 { inits := decl } (by omega) (hu vals)
      ⟨fun _ => ⟨rfl, rfl⟩, fun h => by omega⟩ rfl
    rw [h1] at h5
    cases h5
    exact h6
  · intro vals hv i hi
    obtain ⟨s', h5, _, h7⟩ := loop_values ht hb hp hv decl.length 0 { inits := decl } (by omega) (hu vals)
      ⟨fun _ => ⟨rfl, rfl⟩, fun h => by omega⟩ rfl
    rw [h1] at h5
    cases h5
    unfold valueOf
    rw [h7.2.1 i hi (by rw [h7.1]; exact hi)]

/-- Adding `int` constants. -/
def addInt : Cv → Cv → Cv
  | .num .int32 a, .num .int32 b => .num .int32 (conv .int32 (a + b))
  | _, _ => .nan

/-- `enum { A, B = 5, C, D = B + C }` has the values 0, 5, 6, 11. -/
def exampleEnum : Inits :=
  [none, some (.lit (.num .int32 5)), none, some (.op addInt (.field 1) (.field 2))]

example : (assign .int32 exampleEnum 1).2.errors = [] ∧
    (List.range 4).map (valueOf (assign .int32 exampleEnum 1).2) = [some 0, some 5, some 6, some 11] := by
  decide +kernel

example : Backward exampleEnum := by
  intro i e h j hj
  match i, h with
  | 0, h => simp [exampleEnum, initOf] at h
  | 1, h => simp [exampleEnum, initOf] at h; subst h; simp [refs] at hj
  | 2, h => simp [exampleEnum, initOf] at h
  | 3, h => simp [exampleEnum, initOf] at h; subst h; simp [refs] at hj; omega
  | i + 4, h => simp [exampleEnum, initOf] at h

theorem addInt_fits (a b : Cv) (t' : VT) (n : Int) (h : addInt a b = .num t' n) : t' = .int32 ∧ Fits .int32 n := by
  unfold addInt at h
  split at h
  · injection h with h1 h2
    refine ⟨h1.symm, ?_⟩
    subst h2
    simp only [Fits, minOf, maxOf, conv, VT.signed, VT.bits]
    rename_i a b
    have h1 := @Int.le_bmod (a + b) (2 ^ 32) (by decide)
    have h2 := @Int.bmod_lt (a + b) (2 ^ 32) (by decide)
    simp at h1 h2 ⊢
    omega
  · cases h

example : Plain .int32 exampleEnum := by
  intro i e h vals _ t' n hn
  match i, h with
  | 0, h => simp [exampleEnum, initOf] at h
  | 1, h =>
    simp [exampleEnum, initOf] at h; subst h
    simp [den] at hn
    obtain ⟨rfl, rfl⟩ := hn
    simp [VT.isInt, Fits, minOf, maxOf, VT.signed, VT.bits]
  | 2, h => simp [exampleEnum, initOf] at h
  | 3, h =>
    simp [exampleEnum, initOf] at h; subst h
    obtain ⟨rfl, hf⟩ := addInt_fits _ _ _ _ hn
    exact ⟨rfl, hf, .inl rfl⟩
  | i + 4, h => simp [exampleEnum, initOf] at h

example : IsValues .int32 exampleEnum [0, 5, 6, 11] := by
  refine ⟨rfl, ?_⟩
  intro i hi
  match i, hi with
  | 0, _ => exact ⟨by decide, rfl⟩
  | 1, _ => exact ⟨by decide, .int32, rfl⟩
  | 2, _ => exact ⟨by decide, rfl⟩
  | 3, _ => exact ⟨by decide, .int32, by decide⟩
  | i + 4, h => simp [exampleEnum] at h; omega

/-- A value that does not fit is reported: `enum : byte { A = 255, B }`. -/
example : (assign .uint8 [some (.lit (.num .int32 255)), none] 1).2.errors = [(1, .tooLarge)] := by decide +kernel

/-- A constant that is no `ulong`, in an enumeration whose underlying type is no `ulong`, is taken exactly when it
fits; otherwise the report says on which side it lies. -/
theorem enum_range_partial {t t' : VT} {s : St} {i : Nat} {v : Int} (ht : Integer t) (ht' : Integer t') (hf : Fits t' v)
    (hm : t' = t ∨ (t' ≠ .uint64 ∧ t ≠ .uint64)) (hi : initOf s.inits i = some (.lit (.num t' v))) :
    ((fill t s i).1 = .succeed ↔ Fits t v) ∧ ((fill t s i).1 = .error .tooLarge ↔ maxOf t < v) ∧
      ((fill t s i).1 = .error .tooSmall ↔ v < minOf t) := by
  have hcirc : circular s.inits (s.inits.length + 1) [] i = false := by
    simp [circular, depends, hi, refs]
  have hmm : minOf t ≤ maxOf t := (fits_max ht).1
  simp only [fill, hi, hcirc, St.fuel, exec, eval, Cv.le, Cv.lt, compare_plain ht' ht hf (fits_max ht) hm,
    compare_plain ht' ht hf (fits_min ht) hm]
  unfold Fits
  by_cases h1 : v ≤ maxOf t
  · by_cases h2 : v < minOf t
    · simp [h1, h2] <;> omega
    · simp [h1, h2] <;> omega
  · simp [h1] <;> omega

example : Fits .int32 300 ∧ ¬ Fits .uint8 300 := by decide

/-- A `ulong` constant is never taken where the underlying type is signed, even one that fits. -/
theorem ulong_constant_rejected {t : VT} {s : St} {i : Nat} {v : Int} (ht : Integer t) (hs : t.signed = true)
    (hf : Fits .uint64 v) (hi : initOf s.inits i = some (.lit (.num .uint64 v))) : (fill t s i).1 ≠ .succeed := by
  have hcirc : circular s.inits (s.inits.length + 1) [] i = false := by
    simp [circular, depends, hi, refs]
  have ht' : t.isInt = true := ht
  simp only [fill, hi, hcirc, St.fuel, exec, eval, Cv.le, Cv.lt, compare]
  have hne : (VT.uint64 = t) = False := by cases t <;> simp_all [VT.signed]
  simp only [hne, if_false, if_true]
  have hmax : conv .uint64 (conv .int64 (maxOf t)) = maxOf t := by
    cases t <;> simp_all [VT.isInt, VT.signed, maxOf, VT.bits] <;> decide
  have hmin : maxOf t < conv .uint64 (conv .int64 (minOf t)) := by
    cases t <;> simp_all [VT.isInt, VT.signed, maxOf, minOf, VT.bits] <;> decide
  rw [hmax]
  by_cases h1 : v ≤ maxOf t
  · simp [h1, show v < conv .uint64 (conv .int64 (minOf t)) by omega]
  · simp [h1]

/-- `enum : long { A = 5ul }`: five fits, and is reported as too small. -/
theorem ulong_constant_refuted : Fits .int64 5 ∧
    (assign .int64 [some (.lit (.num .uint64 5))] 1).2.errors = [(0, .tooSmall)] := by
  decide +kernel

/-- `enum : ulong { A = -1 }`: the value does not fit, and nothing is reported. -/
theorem negative_constant_refuted : ¬ Fits .uint64 (-1) ∧
    (assign .uint64 [some (.lit (.num .int32 (-1)))] 1).2.errors = [] ∧
    valueOf (assign .uint64 [some (.lit (.num .int32 (-1)))] 1).2 0 = some (2 ^ 64 - 1) := by
  decide +kernel

/-- `enum { A = D, B, C = 2, D }`: the values could be 3, 4, 2, 3; the compiler says nothing and gives `A` the
value 0. -/
theorem forward_reference_refuted :
    IsValues .int32 [some (.field 3), none, some (.lit (.num .int32 2)), none] [3, 4, 2, 3] ∧
    (assign .int32 [some (.field 3), none, some (.lit (.num .int32 2)), none] 1).1 = none ∧
    (assign .int32 [some (.field 3), none, some (.lit (.num .int32 2)), none] 1).2.errors = [] ∧
    valueOf (assign .int32 [some (.field 3), none, some (.lit (.num .int32 2)), none] 1).2 0 = some 0 ∧
    valueOf (assign .int32 [some (.field 3), none, some (.lit (.num .int32 2)), none] 1).2 3 = some 3 := by
  refine ⟨⟨rfl, ?_⟩, by decide +kernel, by decide +kernel, by decide +kernel, by decide +kernel⟩
  intro i hi
  match i, hi with
  | 0, _ => exact ⟨by decide, .int32, rfl⟩
  | 1, _ => exact ⟨by decide, rfl⟩
  | 2, _ => exact ⟨by decide, .int32, rfl⟩
  | 3, _ => exact ⟨by decide, rfl⟩
  | i + 4, h => simp at h; omega

/-- Reports are never lost: what was reported after `k` rounds is still reported, first, after `k + m` rounds. -/
theorem reports_kept (t : VT) (decl : Inits) (k m : Nat) :
    (assign t decl k).2.errors <+: (assign t decl (k + m)).2.errors := by
  simp only [assign]
  exact passes_prefix t k m 0 { inits := decl }

/-- `enum : byte { A = 300, B = 400 }`: both are reported. -/
example : (assign .uint8 [some (.lit (.num .int32 300)), some (.lit (.num .int32 400))] 1).2.errors =
    [(0, .tooLarge), (1, .tooLarge)] := by
  decide +kernel

/-- A field whose value is no constant waits, without report, as long as a field that occurs in it has no value. -/
theorem unset_waits {t : VT} {s : St} {i j : Nat} {e : Ex} (hi : initOf s.inits i = some e)
    (hc : circular s.inits s.fuel [] i = false) (hv : exec t s.inits s.fuel e = .nan) (hj : j ∈ refs e)
    (hn : initOf s.inits j = none) : fill t s i = (.break_, s) := by
  have : allInit t s.inits s.fuel e = false := by
    rw [show s.fuel = s.inits.length + 1 from rfl, allInit]
    rw [List.all_eq_false]
    exact ⟨j, hj, by simp [hn]⟩
  simp [fill, hi, hc, hv, this]

/-- `enum { A = x + B, B = D, C = 5, D }` where `x` is no constant yet: `A` waits because of `D`. -/
example : (fill .int32 { inits := [some (.op (fun _ _ => .nan) (.field 1) (.field 1)), some (.field 3),
    some (.lit (.num .int32 5)), none] } 0).1 = .break_ := by
  decide +kernel

/-! ## C85 -/

/-- A circular definition is reported for a field with a written value exactly when its value leads to an
enumerator that needs itself. -/
theorem circular_exact {t : VT} {s : St} {i : Nat} {e : Ex} (hc : Closed s.inits) (hi : initOf s.inits i = some e) :
    (fill t s i).1 = .error .circular ↔ OnCircle s.inits i := by
  rw [← circular_iff hc (initOf_lt hi), show s.inits.length + 1 = s.fuel from rfl]
  simp only [fill, hi]
  by_cases h : circular s.inits s.fuel [] i = true
  · simp [h]
  · rw [if_neg h]
    constructor
    · intro hf
      generalize exec t s.inits s.fuel e = v at hf
      cases h1 : allInit t s.inits s.fuel e <;> cases h2 : v.le (.num t (maxOf t)) <;>
        cases h3 : v.lt (.num t (minOf t)) <;> cases v <;> simp_all
    · intro hf; exact absurd hf h

/-- Whenever some enumerator's value leads to one that needs itself, something is reported. -/
theorem circular_reported {t : VT} {decl : Inits} (hc : Closed decl) {i : Nat} (h : OnCircle decl i) (k : Nat) :
    (assign t decl (k + 1)).2.errors ≠ [] := by
  obtain ⟨m, e, hm, ho⟩ := explicit_on_circle i h
  have hl : (loop t decl.length 0 none { inits := decl }).2.errors ≠ [] := by
    refine loop_circle hc hm ho decl.length 0 none { inits := decl } (by omega) (initOf_lt hm) ⟨rfl, fun _ _ => rfl⟩ ?_
    intro h0
    cases hd : initOf decl 0 with
    | some e => rfl
    | none =>
      obtain ⟨j, hj, _⟩ := onCircle_step h0
      unfold Needs at hj
      rw [hd] at hj
      simp at hj
  simp only [assign, passes]
  cases hr : loop t decl.length 0 none { inits := decl } with
  | mk b s' =>
    rw [hr] at hl
    cases b with
    | none => exact hl
    | some j => exact passes_errors t k j s' hl

/-- Whatever is written, no more rounds than there are enumerators, and one, are needed; then every enumerator has a
value. -/
theorem rounds_end {t : VT} {decl : Inits} (hc : Closed decl) :
    (assign t decl (decl.length + 1)).1 = none ∧
      ∀ i, i < decl.length → ∃ v, valueOf (assign t decl (decl.length + 1)).2 i = some v := by
  have h1 : (assign t decl (decl.length + 1)).1 = none :=
    passes_end decl.length (decl.length + 1) 0 { inits := decl } (List.countP_le_length) (by omega) hc
      (fun y hy => by omega)
  refine ⟨h1, fun i hi => ?_⟩
  have h2 := (passes_all (decl.length + 1) 0 { inits := decl } (fun y hy => by omega) h1).2 i hi
  obtain ⟨t', v, h3⟩ := done_lit h2
  refine ⟨v, ?_⟩
  unfold valueOf assign
  rw [h3]

/-- `enum { A, B = C, C }`: `C` is one more than `B`, `B` is `C`. -/
example : OnCircle [none, some (.field 2), none] 2 :=
  ⟨2, .inl rfl, .cons (j := 1) (by simp [Needs, initOf]) (.one (by simp [Needs, initOf, refs]))⟩

example : (assign .int32 [none, some (.field 2), none] 1).2.errors = [(1, .circular)] := by decide +kernel

/-- A field that has to wait: `enum { A = B, B = f() }` takes two rounds. -/
example : (assign .int32 [some (.field 1), some (.lit .nan)] 1).1 = some 0 ∧
    (assign .int32 [some (.field 1), some (.lit .nan)] 2).1 = none ∧
    (assign .int32 [some (.field 1), some (.lit .nan)] 2).2.errors = [(1, .notConstant)] := by decide +kernel

end Verif.Enums
