import Verif.Proof.Indexers
import Verif.Props.Overload

/-!
# C129: which indexer `x[i]` means
-/

namespace Verif.Indexers

open Verif.Overload (Ty Slot World AllFit Converts Above Reaches Height Sees demo demo_good demo_height demo_plainCall byVal tInt tLong
  tStr simpleTy)

/-! ## Classes -/

/-- On an object of a class, `x[i]` means what the rules say: the class itself decides, then its base class, and so on. -/
theorem class_index_partial {W : World} (g : W.Good) {props : Ty → List Property} {as : List Slot} {t : Ty} {k n : Nat}
    (ha : ∀ e d, t ≠ .arr e d) (hi : W.iface t = false) (hh : Height W (some t) k) (hn : k ≤ n)
    (hr : ∀ d, Above W (some t) d → Ready W as (props d)) :
    ∃ x : Res, ChosenUp W props as (some t) x ∧ walkIndex W props n t as = x.bound := by
  have hw : walkIndex W props n t as = (getMember W (fun d => inType W none false as (props d)) n t).bound := by
    unfold walkIndex
    split
    · rename_i e d
      exact absurd rfl (ha e d)
    · rfl
  rw [hw]
  refine ⟨_, ?_, rfl⟩
  unfold getMember
  rw [if_neg (by simp [hi])]
  dsimp only
  have h1 := inType_chosen g (hr t .here)
  cases hh with
  | @step _ k hh =>
    cases he : inType W none false as (props t) with
    | notFound =>
      rw [he] at h1
      dsimp only
      refine .up h1 (inBases_chosen k n (W.baseOf t) [t] hh (by omega) ?_ (fun s hs => inType_chosen g (hr s (.up hs))))
      intro w hw
      rw [List.mem_singleton] at hw
      subst hw
      exact ⟨k + 1, by omega, .step hh⟩
    | found p => rw [he] at h1; dsimp only; exact .here h1 (by simp)
    | conflict => rw [he] at h1; dsimp only; exact .here h1 (by simp)
    | unexpected => rw [he] at h1; dsimp only; exact .here h1 (by simp)
    | outOfFuel => rw [he] at h1; dsimp only; exact .here h1 (by simp)

/-- The rules have one answer when no two indexers of a class have the same parameters. -/
theorem class_index_unique {W : World} {props : Ty → List Property} {as : List Slot} {o : Option Ty}
    (hd : ∀ t, Above W o t → Different (props t)) {x y : Res} (hx : ChosenUp W props as o x) (hy : ChosenUp W props as o y) :
    x = y := chosenUp_unique hd hx hy

/-- The order in which the properties of a class are declared does not matter. -/
theorem order_irrelevant_partial {W : World} (g : W.Good) {as : List Slot} {ps qs : List Property} (h : ps.Perm qs)
    (hr : Ready W as ps) (hd : Different ps) : inType W none false as ps = inType W none false as qs := by
  have hm : ∀ p, p ∈ ps ↔ p ∈ qs := fun p => h.mem_iff
  have hq : Ready W as qs :=
    ⟨h.nodup_iff.1 hr.nodup, fun p hp => hr.closed p ((hm p).2 hp), fun p hp => hr.plain p ((hm p).2 hp)⟩
  refine chosen_unique hd (inType_chosen g hr) ?_
  have := inType_chosen g hq
  revert this
  generalize inType W none false as qs = x
  intro c
  cases c with
  | exact a b => exact .exact ((hm _).2 a) b
  | only a b c d => exact .only (fun q h => a q ((hm q).1 h)) ((hm _).2 b) c (fun q h => d q ((hm q).1 h))
  | ambiguous a b c d e f => exact .ambiguous (fun q h => a q ((hm q).1 h)) ((hm _).2 b) ((hm _).2 c) d e f
  | nothing a => exact .nothing (fun q h => a q ((hm q).1 h))

/-! ## Interfaces -/

/-- On an interface: what is found is what the rules say in one of the interfaces above it, and nothing is found only
when none of them has an applicable indexer. -/
theorem interface_index_partial {W : World} (g : W.Good) {props : Ty → List Property} {as : List Slot} {t : Ty} {n : Nat}
    {L : List Ty} (ha : ∀ e d, t ≠ .arr e d) (hi : W.iface t = true) (ht : t ∈ L)
    (hL : ∀ x ∈ L, ∀ s ∈ W.supers x, s ∈ L) (hn : L.length < n)
    (hr : ∀ d, Reaches W t d → Ready W as (props d)) :
    ∃ x : Res, walkIndex W props n t as = x.bound ∧
      (x ≠ .notFound → ∃ d, Reaches W t d ∧ Chosen W as (props d) x) ∧
      (x = .notFound → ∀ d, Reaches W t d → Chosen W as (props d) .notFound) := by
  have hw : walkIndex W props n t as = (getMember W (fun d => inType W none false as (props d)) n t).bound := by
    unfold walkIndex
    split
    · rename_i e d
      exact absurd rfl (ha e d)
    · rfl
  rw [hw]
  refine ⟨_, rfl, ?_⟩
  unfold getMember
  rw [if_pos hi]
  have hfuel : (inInterface W (fun d => inType W none false as (props d)) n t []).1 ≠ .outOfFuel := by
    refine inInterface_fuel (fun d => inType_fuel _ _ _ _ _) hL n t [] ht ?_
    have : (Verif.Overload.unwalked L []).length ≤ L.length := by
      unfold Verif.Overload.unwalked; exact List.length_filter_le _ _
    omega
  constructor
  · intro hne
    obtain ⟨d, h1, h2⟩ := inInterface_other W _ hne hfuel n t [] rfl
    exact ⟨d, h1, h2 ▸ inType_chosen g (hr d h1)⟩
  · intro he d hd
    have := inInterface_notFound he hd
    have h := inType_chosen g (hr d hd)
    rw [this] at h
    exact h

/-! ## Whatever the types are -/

theorem analyze_mem {W : World} {o : Option Nat} {as : List Slot} : ∀ (ps : List Property) (s t : Acc),
    analyze W o as ps s = some t →
    ∀ p, (t.equaled = some p ∨ p ∈ t.matched) →
      (s.equaled = some p ∨ p ∈ s.matched) ∨
        (p ∈ ps ∧ p.owner = o ∧ p.item = true ∧ ∃ l, p.params = some l ∧ l.length = as.length)
  | [], s, t, h, p, hp => by
    injection h with h
    subst h
    exact Or.inl hp
  | q :: ps, s, t, h, p, hp => by
    unfold analyze at h
    cases ho : analyzeOne W o as s q with
    | none => rw [ho] at h; cases h
    | some u =>
      rw [ho] at h
      rcases analyze_mem ps u t h p hp with hu | ⟨a, b⟩
      · have key : (u.equaled = some p ∨ p ∈ u.matched) → (s.equaled = some p ∨ p ∈ s.matched) ∨
            (p = q ∧ q.owner = o ∧ q.item = true ∧ ∃ l, q.params = some l ∧ l.length = as.length) := by
          intro hu
          unfold analyzeOne at ho
          split at ho
          · injection ho with ho; subst ho; exact Or.inl hu
          · rename_i hown
            have hown : q.owner = o := Decidable.not_not.1 hown
            split at ho
            · rename_i l hi hl
              split at ho
              · injection ho with ho; subst ho; exact Or.inl hu
              · rename_i hlen
                have hlen : l.length = as.length := Decidable.not_not.1 hlen
                split at ho
                · injection ho with ho; subst ho
                  rcases hu with hu | hu
                  · injection hu with hu
                    exact Or.inr ⟨hu.symm, hown, hi, l, hl, hlen⟩
                  · exact Or.inl (Or.inr hu)
                · injection ho with ho; subst ho
                  rcases hu with hu | hu
                  · exact Or.inl (Or.inl hu)
                  · rcases List.mem_append.1 hu with hu | hu
                    · exact Or.inl (Or.inr hu)
                    · exact Or.inr ⟨List.mem_singleton.1 hu, hown, hi, l, hl, hlen⟩
                · injection ho with ho; subst ho; exact Or.inl hu
                · cases ho
            · injection ho with ho; subst ho; exact Or.inl hu
        rcases key hu with hu | ⟨rfl, hk⟩
        · exact Or.inl hu
        · exact Or.inr ⟨List.mem_cons_self, hk⟩
      · exact Or.inr ⟨List.mem_cons_of_mem _ a, b⟩

theorem inType_found {W : World} {as : List Slot} {x : Bool} {o : Option Nat} {ps : List Property} {p : Property}
    (h : inType W o x as ps = .found p) :
    p ∈ ps ∧ p.owner = o ∧ p.item = true ∧ ∃ l, p.params = some l ∧ l.length = as.length := by
  unfold inType at h
  cases ha : analyze W o as ps ⟨none, []⟩ with
  | none => rw [ha] at h; cases h
  | some s =>
    rw [ha] at h
    dsimp only at h
    have hp : s.equaled = some p ∨ p ∈ s.matched := by
      unfold Acc.result at h
      split at h
      · rename_i q hq
        injection h with h
        subst h
        exact Or.inl hq
      · split at h
        · cases h
        · split at h
          · cases h
          · rename_i q hq
            injection h with h
            subst h
            exact Or.inr (by rw [hq]; exact List.mem_singleton.2 rfl)
          · cases h
    rcases analyze_mem ps _ s ha p hp with h | h
    · rcases h with h | h <;> cases h
    · exact h

theorem inBases_found {W : World} {own : Ty → Res} {p : Property} : ∀ (n : Nat) (walked : List Ty) (o : Option Ty),
    inBases W own n walked o = .found p → ∃ d, Above W o d ∧ own d = .found p
  | 0, _, _, h => by cases h
  | n + 1, _, none, h => by cases h
  | n + 1, walked, some t, h => by
    unfold inBases at h
    split at h
    · cases h
    · split at h
      · obtain ⟨d, h1, h2⟩ := inBases_found n _ _ h
        exact ⟨d, .up h1, h2⟩
      · exact ⟨t, .here, h⟩

/-- What `x[i]` is bound to is an indexer of the type or of one above it, it takes as many arguments as there are, and it
does not implement an interface explicitly; for all types, with or without type parameters. -/
theorem found_is_indexer {W : World} {props : Ty → List Property} {as : List Slot} {t : Ty} {n : Nat} {p : Property}
    (h : walkIndex W props n t as = .indexer p) :
    ∃ d, Sees W t d ∧ p ∈ props d ∧ ∃ l, IsIndexer p l ∧ l.length = as.length := by
  have main : getMember W (fun d => inType W none false as (props d)) n t = .found p := by
    unfold walkIndex at h
    split at h
    · cases h
    · revert h
      cases getMember W (fun d => inType W none false as (props d)) n t <;> intro h <;> cases h
      rfl
  have fin : ∀ d, inType W none false as (props d) = .found p → p ∈ props d ∧ ∃ l, IsIndexer p l ∧ l.length = as.length := by
    intro d hd
    obtain ⟨h1, h2, h3, l, h4, h5⟩ := inType_found hd
    exact ⟨h1, l, ⟨h3, h2, h4⟩, h5⟩
  unfold getMember at main
  by_cases hi : W.iface t = true
  · rw [if_pos hi] at main
    obtain ⟨d, h1, h2⟩ := inInterface_other W _ (r := .found p) (by simp) (by simp) n t [] main
    exact ⟨d, Or.inr ⟨hi, h1⟩, fin d h2⟩
  · have hi' : W.iface t = false := by simpa using hi
    rw [if_neg hi] at main
    dsimp only at main
    cases hs : inType W none false as (props t) with
    | notFound =>
      rw [hs] at main
      obtain ⟨d, h1, h2⟩ := inBases_found _ _ _ main
      exact ⟨d, Or.inl ⟨hi', .up h1⟩, fin d h2⟩
    | found q => rw [hs] at main; injection main with main; subst main; exact ⟨t, Or.inl ⟨hi', .here⟩, fin t hs⟩
    | conflict => rw [hs] at main; cases main
    | unexpected => rw [hs] at main; cases main
    | outOfFuel => rw [hs] at main; cases main

/-- When only exact matches are asked for, what is found has exactly these parameters. -/
theorem exact_only {W : World} (g : W.Good) {as : List Slot} {ps : List Property} (h : Ready W as ps) (p : Property) :
    inType W none true as ps = .found p → p ∈ ps ∧ Exact p as := by
  obtain ⟨e, l, h1, h2, h3, h4, h5⟩ := analyze_ready g ps ⟨none, []⟩ h.closed h.plain h.nodup
  unfold inType
  rw [h1]
  dsimp only
  unfold Acc.result
  cases e with
  | some q =>
    intro hq
    injection hq with hq
    subst hq
    exact h4 q rfl
  | none => intro hq; cases hq

/-- An element of an array has the type of the elements. -/
theorem array_element (W : World) (props : Ty → List Property) (n : Nat) (e : Ty) (d : Nat) (as : List Slot) :
    walkIndex W props n (.arr e d) as = .element e := rfl

/-! ## A program -/

def ix (id : Nat) (ps : List Slot) : Property := ⟨id, true, none, some ps⟩

/-- Class 10 has `this[long]`, `this[string]`, `this[int, int]`, an indexer of an interface and a plain property; class 11 has
`this[string, string]`; interface 30 has `this[long]`. -/
def props : Ty → List Property
  | .base 10 => [ix 1 [byVal tLong], ⟨7, true, some 30, some [byVal tInt]⟩, ix 2 [byVal tStr], ix 3 [byVal tInt, byVal tInt],
      ⟨8, false, none, none⟩]
  | .base 11 => [ix 4 [byVal tStr, byVal tStr]]
  | .base 30 => [ix 6 [byVal tLong]]
  | _ => []

/-- What is used of them. -/
def checked (ps : List Property) : Bool :=
  decide ps.Nodup && ps.all (fun p => (p.params.getD []).all fun x => simpleTy x.2 && x.2.closed)

theorem props_checked (d : Ty) : checked (props d) = true := by
  have h : ∀ l ∈ [props (.base 10), props (.base 11), props (.base 30), []], checked l = true := by decide +kernel
  refine h _ ?_
  rw [props.eq_def d]
  split <;> simp [props]

theorem props_ready (d : Ty) {as : List Slot} (ha : as.all (fun p => simpleTy p.2) = true) : Ready demo as (props d) := by
  have h := props_checked d
  simp only [checked, Bool.and_eq_true, decide_eq_true_eq, List.all_eq_true] at h
  refine ⟨h.1, ?_, ?_⟩
  · intro p hp l hl x hx
    exact (h.2 p hp x (by rw [hl.2.2]; exact hx)).2
  · intro p hp l hl
    exact demo_plainCall (List.all_eq_true.2 fun x hx => (h.2 p hp x (by rw [hl.2.2]; exact hx)).1) ha

/-- `x[5]` on class 11: in class 10 `this[long]` is the only one that fits, the one of the interface is not seen. -/
example : (∃ x : Res, ChosenUp demo props [byVal tInt] (some (.base 11)) x ∧
      walkIndex demo props 3 (.base 11) [byVal tInt] = x.bound) ∧
    walkIndex demo props 3 (.base 11) [byVal tInt] = .indexer (ix 1 [byVal tLong]) ∧
    walkIndex demo props 3 (.base 11) [byVal tInt, byVal tInt] = .indexer (ix 3 [byVal tInt, byVal tInt]) ∧
    walkIndex demo props 3 (.base 11) [byVal tStr, byVal tInt] = .undetermined :=
  ⟨class_index_partial demo_good (by simp) rfl demo_height (by decide) (fun d _ => props_ready d rfl),
    by decide +kernel, by decide +kernel, by decide +kernel⟩

/-- The properties of class 10 the other way round. -/
example : inType demo none false [byVal tInt] (props (.base 10)).reverse = .found (ix 1 [byVal tLong]) := by
  rw [← order_irrelevant_partial demo_good (List.reverse_perm _).symm (props_ready (.base 10) rfl)]
  · decide +kernel
  · intro p hp q hq l h1 h2
    have key : ∀ p ∈ props (.base 10), ∀ q ∈ props (.base 10), p.owner = none → q.owner = none → p.params ≠ none →
        p.params = q.params → p = q := by decide +kernel
    exact key p hp q hq h1.2.1 h2.2.1 (by rw [h1.2.2]; simp) (h1.2.2.trans h2.2.2.symm)

/-- An interface that inherits `this[long]`. -/
example : (∃ x : Res, walkIndex demo props 5 (.base 31) [byVal tInt] = x.bound ∧
      (x ≠ .notFound → ∃ d, Reaches demo (.base 31) d ∧ Chosen demo [byVal tInt] (props d) x) ∧
      (x = .notFound → ∀ d, Reaches demo (.base 31) d → Chosen demo [byVal tInt] (props d) .notFound)) ∧
    walkIndex demo props 5 (.base 31) [byVal tInt] = .indexer (ix 6 [byVal tLong]) :=
  ⟨interface_index_partial (L := [.base 31, .base 30, .base 0]) demo_good (by simp) rfl (by decide) (by decide) (by decide)
    (fun d _ => props_ready d rfl), by decide +kernel⟩

/-- Only an exact match. -/
example : inType demo none true [byVal tLong] (props (.base 10)) = .found (ix 1 [byVal tLong]) ∧
    inType demo none true [byVal tInt] (props (.base 10)) = .notFound := by decide +kernel

/-- Inside a generic class, `this[k]` with a `k` of the class's type parameter is not bound to the indexer that has this
very parameter: the compiler is left with an exception. -/
theorem own_parameter_refuted :
    Exact (ix 1 [byVal (.param 0)]) [byVal (.param 0)] ∧
      walkIndex demo (fun _ => [ix 1 [byVal (.param 0)]]) 3 (.base 10) [byVal (.param 0)] = .unexpected :=
  ⟨⟨rfl, rfl, rfl⟩, by decide +kernel⟩

/-- And so does every other `x[i]` with as many arguments, although another indexer has exactly these parameters. -/
theorem other_parameter_refuted :
    Exact (ix 2 [byVal tInt]) [byVal tInt] ∧
      walkIndex demo (fun _ => [ix 1 [byVal (.param 0)], ix 2 [byVal tInt]]) 3 (.base 10) [byVal tInt] = .unexpected :=
  ⟨⟨rfl, rfl, rfl⟩, by decide +kernel⟩

/-- Any number of indices is taken for an element of an array of one dimension. -/
theorem rank_refuted : walkIndex demo props 3 (.arr tInt 1) [byVal tInt, byVal tInt, byVal tInt] = .element tInt ∧
    walkIndex demo props 3 (.arr tInt 1) [byVal tStr] = .element tInt := by decide +kernel

end Verif.Indexers
