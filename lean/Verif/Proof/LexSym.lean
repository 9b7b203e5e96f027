import Verif.Spec.Lex

namespace Verif.Lex
open Verif.CStr (Ch)
open Verif.Numeric (at0)
open Spec

set_option linter.unusedSimpArgs false

/-! ## Longest match -/

theorem ite_cases {p : Prop} [Decidable p] {α : Type _} {a b x : α} (h : (if p then a else b) = x) :
    (p ∧ a = x) ∨ (¬ p ∧ b = x) := by
  by_cases hp : p
  · rw [if_pos hp] at h; exact .inl ⟨hp, h⟩
  · rw [if_neg hp] at h; exact .inr ⟨hp, h⟩

theorem pre0 (s : List Ch) : ([] <+: s) = True := by simp

theorem pre1 {x : Ch} (hx : x ≠ 0#32) (s : List Ch) : ([x] <+: s) = (at0 s = x) := by
  cases s with
  | nil => simp [at0, hx.symm]
  | cons c s => simp [at0, List.cons_prefix_cons, eq_comm]

@[simp] theorem at0_cons (c : Ch) (s : List Ch) : at0 (c :: s) = c := rfl

theorem pre2 {x y : Ch} (hx : x ≠ 0#32) (hy : y ≠ 0#32) (s : List Ch) : ([x, y] <+: s) = (at0 s = x ∧ at0 s.tail = y) := by
  cases s with
  | nil => simp [at0, hx.symm]
  | cons c s =>
    rw [List.cons_prefix_cons, pre1 hy]
    simp [at0, eq_comm]

theorem operators_nonempty : ∀ x ∈ operators, x.1 ≠ [] := by decide +kernel

theorem longest_iff {c : Ch} {L : List (List Ch × List Sym)} (hL : operators.filter (fun x => x.1.head? == some c) = L)
    {s sp : List Ch} {vs : List Sym} :
    Longest (c :: s) sp vs ↔ (sp, vs) ∈ L ∧ sp <+: c :: s ∧ ∀ x ∈ L, x.1 <+: c :: s → x.1.length ≤ sp.length := by
  have hmem : ∀ x : List Ch × List Sym, x ∈ operators → x.1 <+: c :: s → x ∈ L := by
    intro x hx hp
    rw [← hL, List.mem_filter]
    refine ⟨hx, ?_⟩
    have := operators_nonempty x hx
    cases hx1 : x.1 with
    | nil => exact absurd hx1 this
    | cons d r => rw [hx1, List.cons_prefix_cons] at hp; simp [hp.1]
  have hsub : ∀ x ∈ L, x ∈ operators := by
    intro x hx; rw [← hL] at hx; exact (List.mem_filter.mp hx).1
  constructor
  · rintro ⟨h1, h2, h3⟩
    exact ⟨hmem _ h1 h2, h2, fun x hx hp => h3 x.1 x.2 (hsub x hx) hp⟩
  · rintro ⟨h1, h2, h3⟩
    exact ⟨hsub _ h1, h2, fun sp' vs' hx hp => h3 _ (hmem _ hx hp) hp⟩

/-- The cases for punctuation take the longest operator. -/
theorem lexSym_longest {c : Ch} {s : List Ch} {vs : List Sym} {k : Nat} (h : lexSym c s = some (vs, k)) :
    ∃ sp, sp.length = k + 1 ∧ Longest (c :: s) sp vs := by
  have H := h
  clear h
  unfold lexSym at H
  dsimp only at H
  rcases ite_cases H with ⟨rfl, h⟩ | ⟨_, h⟩
  · clear H
    have hL : operators.filter (fun x => x.1.head? == some 40#32) = [([40#32], [.leftBracket])] := by decide +kernel
    cases h; exact ⟨[40#32], rfl, (longest_iff hL).mpr ⟨by simp, by simp [List.cons_prefix_cons, at0_cons,pre1 (by decide : (40#32 : Ch) ≠ 0#32), at0_cons,pre1 (by decide : (46#32 : Ch) ≠ 0#32), at0_cons,pre1 (by decide : (61#32 : Ch) ≠ 0#32), pre2 (by decide : (40#32 : Ch) ≠ 0#32) (by decide : (61#32 : Ch) ≠ 0#32), pre2 (by decide : (46#32 : Ch) ≠ 0#32) (by decide : (46#32 : Ch) ≠ 0#32)], by simp [List.cons_prefix_cons, at0_cons,pre1 (by decide : (40#32 : Ch) ≠ 0#32), at0_cons,pre1 (by decide : (46#32 : Ch) ≠ 0#32), at0_cons,pre1 (by decide : (61#32 : Ch) ≠ 0#32), pre2 (by decide : (40#32 : Ch) ≠ 0#32) (by decide : (61#32 : Ch) ≠ 0#32), pre2 (by decide : (46#32 : Ch) ≠ 0#32) (by decide : (46#32 : Ch) ≠ 0#32)]⟩⟩
  replace H := h
  clear h
  rcases ite_cases H with ⟨rfl, h⟩ | ⟨_, h⟩
  · clear H
    have hL : operators.filter (fun x => x.1.head? == some 41#32) = [([41#32], [.rightBracket])] := by decide +kernel
    cases h; exact ⟨[41#32], rfl, (longest_iff hL).mpr ⟨by simp, by simp [List.cons_prefix_cons, at0_cons,pre1 (by decide : (41#32 : Ch) ≠ 0#32), at0_cons,pre1 (by decide : (46#32 : Ch) ≠ 0#32), at0_cons,pre1 (by decide : (61#32 : Ch) ≠ 0#32), pre2 (by decide : (41#32 : Ch) ≠ 0#32) (by decide : (61#32 : Ch) ≠ 0#32), pre2 (by decide : (46#32 : Ch) ≠ 0#32) (by decide : (46#32 : Ch) ≠ 0#32)], by simp [List.cons_prefix_cons, at0_cons,pre1 (by decide : (41#32 : Ch) ≠ 0#32), at0_cons,pre1 (by decide : (46#32 : Ch) ≠ 0#32), at0_cons,pre1 (by decide : (61#32 : Ch) ≠ 0#32), pre2 (by decide : (41#32 : Ch) ≠ 0#32) (by decide : (61#32 : Ch) ≠ 0#32), pre2 (by decide : (46#32 : Ch) ≠ 0#32) (by decide : (46#32 : Ch) ≠ 0#32)]⟩⟩
  replace H := h
  clear h
  rcases ite_cases H with ⟨rfl, h⟩ | ⟨_, h⟩
  · clear H
    have hL : operators.filter (fun x => x.1.head? == some 91#32) = [([91#32], [.leftSquare])] := by decide +kernel
    cases h; exact ⟨[91#32], rfl, (longest_iff hL).mpr ⟨by simp, by simp [List.cons_prefix_cons, at0_cons,pre1 (by decide : (46#32 : Ch) ≠ 0#32), at0_cons,pre1 (by decide : (61#32 : Ch) ≠ 0#32), at0_cons,pre1 (by decide : (91#32 : Ch) ≠ 0#32), pre2 (by decide : (46#32 : Ch) ≠ 0#32) (by decide : (46#32 : Ch) ≠ 0#32), pre2 (by decide : (91#32 : Ch) ≠ 0#32) (by decide : (61#32 : Ch) ≠ 0#32)], by simp [List.cons_prefix_cons, at0_cons,pre1 (by decide : (46#32 : Ch) ≠ 0#32), at0_cons,pre1 (by decide : (61#32 : Ch) ≠ 0#32), at0_cons,pre1 (by decide : (91#32 : Ch) ≠ 0#32), pre2 (by decide : (46#32 : Ch) ≠ 0#32) (by decide : (46#32 : Ch) ≠ 0#32), pre2 (by decide : (91#32 : Ch) ≠ 0#32) (by decide : (61#32 : Ch) ≠ 0#32)]⟩⟩
  replace H := h
  clear h
  rcases ite_cases H with ⟨rfl, h⟩ | ⟨_, h⟩
  · clear H
    have hL : operators.filter (fun x => x.1.head? == some 93#32) = [([93#32], [.rightSquare])] := by decide +kernel
    cases h; exact ⟨[93#32], rfl, (longest_iff hL).mpr ⟨by simp, by simp [List.cons_prefix_cons, at0_cons,pre1 (by decide : (46#32 : Ch) ≠ 0#32), at0_cons,pre1 (by decide : (61#32 : Ch) ≠ 0#32), at0_cons,pre1 (by decide : (93#32 : Ch) ≠ 0#32), pre2 (by decide : (46#32 : Ch) ≠ 0#32) (by decide : (46#32 : Ch) ≠ 0#32), pre2 (by decide : (93#32 : Ch) ≠ 0#32) (by decide : (61#32 : Ch) ≠ 0#32)], by simp [List.cons_prefix_cons, at0_cons,pre1 (by decide : (46#32 : Ch) ≠ 0#32), at0_cons,pre1 (by decide : (61#32 : Ch) ≠ 0#32), at0_cons,pre1 (by decide : (93#32 : Ch) ≠ 0#32), pre2 (by decide : (46#32 : Ch) ≠ 0#32) (by decide : (46#32 : Ch) ≠ 0#32), pre2 (by decide : (93#32 : Ch) ≠ 0#32) (by decide : (61#32 : Ch) ≠ 0#32)]⟩⟩
  replace H := h
  clear h
  rcases ite_cases H with ⟨rfl, h⟩ | ⟨_, h⟩
  · clear H
    have hL : operators.filter (fun x => x.1.head? == some 123#32) = [([123#32], [.leftBrace])] := by decide +kernel
    cases h; exact ⟨[123#32], rfl, (longest_iff hL).mpr ⟨by simp, by simp [List.cons_prefix_cons, at0_cons,pre1 (by decide : (46#32 : Ch) ≠ 0#32), at0_cons,pre1 (by decide : (61#32 : Ch) ≠ 0#32), at0_cons,pre1 (by decide : (123#32 : Ch) ≠ 0#32), pre2 (by decide : (46#32 : Ch) ≠ 0#32) (by decide : (46#32 : Ch) ≠ 0#32), pre2 (by decide : (123#32 : Ch) ≠ 0#32) (by decide : (61#32 : Ch) ≠ 0#32)], by simp [List.cons_prefix_cons, at0_cons,pre1 (by decide : (46#32 : Ch) ≠ 0#32), at0_cons,pre1 (by decide : (61#32 : Ch) ≠ 0#32), at0_cons,pre1 (by decide : (123#32 : Ch) ≠ 0#32), pre2 (by decide : (46#32 : Ch) ≠ 0#32) (by decide : (46#32 : Ch) ≠ 0#32), pre2 (by decide : (123#32 : Ch) ≠ 0#32) (by decide : (61#32 : Ch) ≠ 0#32)]⟩⟩
  replace H := h
  clear h
  rcases ite_cases H with ⟨rfl, h⟩ | ⟨_, h⟩
  · clear H
    have hL : operators.filter (fun x => x.1.head? == some 125#32) = [([125#32], [.rightBrace])] := by decide +kernel
    cases h; exact ⟨[125#32], rfl, (longest_iff hL).mpr ⟨by simp, by simp [List.cons_prefix_cons, at0_cons,pre1 (by decide : (46#32 : Ch) ≠ 0#32), at0_cons,pre1 (by decide : (61#32 : Ch) ≠ 0#32), at0_cons,pre1 (by decide : (125#32 : Ch) ≠ 0#32), pre2 (by decide : (46#32 : Ch) ≠ 0#32) (by decide : (46#32 : Ch) ≠ 0#32), pre2 (by decide : (125#32 : Ch) ≠ 0#32) (by decide : (61#32 : Ch) ≠ 0#32)], by simp [List.cons_prefix_cons, at0_cons,pre1 (by decide : (46#32 : Ch) ≠ 0#32), at0_cons,pre1 (by decide : (61#32 : Ch) ≠ 0#32), at0_cons,pre1 (by decide : (125#32 : Ch) ≠ 0#32), pre2 (by decide : (46#32 : Ch) ≠ 0#32) (by decide : (46#32 : Ch) ≠ 0#32), pre2 (by decide : (125#32 : Ch) ≠ 0#32) (by decide : (61#32 : Ch) ≠ 0#32)]⟩⟩
  replace H := h
  clear h
  rcases ite_cases H with ⟨rfl, h⟩ | ⟨_, h⟩
  · clear H
    have hL : operators.filter (fun x => x.1.head? == some 46#32) = [([46#32, 46#32, 46#32], [.threeDots]), ([46#32], [.memberPoint])] := by decide +kernel
    rcases ite_cases h with ⟨hd, h1⟩ | ⟨hd, h1⟩
    · cases h1; exact ⟨[46#32, 46#32, 46#32], rfl, (longest_iff hL).mpr ⟨by simp, by simp [List.cons_prefix_cons, at0_cons,pre1 (by decide : (46#32 : Ch) ≠ 0#32), at0_cons,pre1 (by decide : (61#32 : Ch) ≠ 0#32), pre2 (by decide : (46#32 : Ch) ≠ 0#32) (by decide : (46#32 : Ch) ≠ 0#32), pre2 (by decide : (46#32 : Ch) ≠ 0#32) (by decide : (61#32 : Ch) ≠ 0#32), hd], by simp [List.cons_prefix_cons, at0_cons,pre1 (by decide : (46#32 : Ch) ≠ 0#32), at0_cons,pre1 (by decide : (61#32 : Ch) ≠ 0#32), pre2 (by decide : (46#32 : Ch) ≠ 0#32) (by decide : (46#32 : Ch) ≠ 0#32), pre2 (by decide : (46#32 : Ch) ≠ 0#32) (by decide : (61#32 : Ch) ≠ 0#32), hd]⟩⟩
    · cases h1; exact ⟨[46#32], rfl, (longest_iff hL).mpr ⟨by simp, by simp [List.cons_prefix_cons, at0_cons,pre1 (by decide : (46#32 : Ch) ≠ 0#32), at0_cons,pre1 (by decide : (61#32 : Ch) ≠ 0#32), pre2 (by decide : (46#32 : Ch) ≠ 0#32) (by decide : (46#32 : Ch) ≠ 0#32), pre2 (by decide : (46#32 : Ch) ≠ 0#32) (by decide : (61#32 : Ch) ≠ 0#32), hd], by simp [List.cons_prefix_cons, at0_cons,pre1 (by decide : (46#32 : Ch) ≠ 0#32), at0_cons,pre1 (by decide : (61#32 : Ch) ≠ 0#32), pre2 (by decide : (46#32 : Ch) ≠ 0#32) (by decide : (46#32 : Ch) ≠ 0#32), pre2 (by decide : (46#32 : Ch) ≠ 0#32) (by decide : (61#32 : Ch) ≠ 0#32), hd]⟩⟩
  replace H := h
  clear h
  rcases ite_cases H with ⟨rfl, h⟩ | ⟨_, h⟩
  · clear H
    have hL : operators.filter (fun x => x.1.head? == some 59#32) = [([59#32], [.semicolon])] := by decide +kernel
    cases h; exact ⟨[59#32], rfl, (longest_iff hL).mpr ⟨by simp, by simp [List.cons_prefix_cons, at0_cons,pre1 (by decide : (46#32 : Ch) ≠ 0#32), at0_cons,pre1 (by decide : (59#32 : Ch) ≠ 0#32), at0_cons,pre1 (by decide : (61#32 : Ch) ≠ 0#32), pre2 (by decide : (46#32 : Ch) ≠ 0#32) (by decide : (46#32 : Ch) ≠ 0#32), pre2 (by decide : (59#32 : Ch) ≠ 0#32) (by decide : (61#32 : Ch) ≠ 0#32)], by simp [List.cons_prefix_cons, at0_cons,pre1 (by decide : (46#32 : Ch) ≠ 0#32), at0_cons,pre1 (by decide : (59#32 : Ch) ≠ 0#32), at0_cons,pre1 (by decide : (61#32 : Ch) ≠ 0#32), pre2 (by decide : (46#32 : Ch) ≠ 0#32) (by decide : (46#32 : Ch) ≠ 0#32), pre2 (by decide : (59#32 : Ch) ≠ 0#32) (by decide : (61#32 : Ch) ≠ 0#32)]⟩⟩
  replace H := h
  clear h
  rcases ite_cases H with ⟨rfl, h⟩ | ⟨_, h⟩
  · clear H
    have hL : operators.filter (fun x => x.1.head? == some 44#32) = [([44#32], [.comma])] := by decide +kernel
    cases h; exact ⟨[44#32], rfl, (longest_iff hL).mpr ⟨by simp, by simp [List.cons_prefix_cons, at0_cons,pre1 (by decide : (44#32 : Ch) ≠ 0#32), at0_cons,pre1 (by decide : (46#32 : Ch) ≠ 0#32), at0_cons,pre1 (by decide : (61#32 : Ch) ≠ 0#32), pre2 (by decide : (44#32 : Ch) ≠ 0#32) (by decide : (61#32 : Ch) ≠ 0#32), pre2 (by decide : (46#32 : Ch) ≠ 0#32) (by decide : (46#32 : Ch) ≠ 0#32)], by simp [List.cons_prefix_cons, at0_cons,pre1 (by decide : (44#32 : Ch) ≠ 0#32), at0_cons,pre1 (by decide : (46#32 : Ch) ≠ 0#32), at0_cons,pre1 (by decide : (61#32 : Ch) ≠ 0#32), pre2 (by decide : (44#32 : Ch) ≠ 0#32) (by decide : (61#32 : Ch) ≠ 0#32), pre2 (by decide : (46#32 : Ch) ≠ 0#32) (by decide : (46#32 : Ch) ≠ 0#32)]⟩⟩
  replace H := h
  clear h
  rcases ite_cases H with ⟨rfl, h⟩ | ⟨_, h⟩
  · clear H
    have hL : operators.filter (fun x => x.1.head? == some 63#32) = [([63#32, 63#32, 61#32], [.nullCoalescingAssign]), ([63#32, 63#32], [.nullCoalescing]), ([63#32], [.questionMark])] := by decide +kernel
    rcases ite_cases h with ⟨hd, h1⟩ | ⟨hd, h1⟩
    · rcases ite_cases h1 with ⟨he, h2⟩ | ⟨he, h2⟩
      · cases h2; exact ⟨[63#32, 63#32, 61#32], rfl, (longest_iff hL).mpr ⟨by simp, by simp [List.cons_prefix_cons, at0_cons,pre1 (by decide : (46#32 : Ch) ≠ 0#32), at0_cons,pre1 (by decide : (61#32 : Ch) ≠ 0#32), at0_cons,pre1 (by decide : (63#32 : Ch) ≠ 0#32), pre2 (by decide : (46#32 : Ch) ≠ 0#32) (by decide : (46#32 : Ch) ≠ 0#32), pre2 (by decide : (63#32 : Ch) ≠ 0#32) (by decide : (61#32 : Ch) ≠ 0#32), hd, he], by simp [List.cons_prefix_cons, at0_cons,pre1 (by decide : (46#32 : Ch) ≠ 0#32), at0_cons,pre1 (by decide : (61#32 : Ch) ≠ 0#32), at0_cons,pre1 (by decide : (63#32 : Ch) ≠ 0#32), pre2 (by decide : (46#32 : Ch) ≠ 0#32) (by decide : (46#32 : Ch) ≠ 0#32), pre2 (by decide : (63#32 : Ch) ≠ 0#32) (by decide : (61#32 : Ch) ≠ 0#32), hd, he]⟩⟩
      · cases h2; exact ⟨[63#32, 63#32], rfl, (longest_iff hL).mpr ⟨by simp, by simp [List.cons_prefix_cons, at0_cons,pre1 (by decide : (46#32 : Ch) ≠ 0#32), at0_cons,pre1 (by decide : (61#32 : Ch) ≠ 0#32), at0_cons,pre1 (by decide : (63#32 : Ch) ≠ 0#32), pre2 (by decide : (46#32 : Ch) ≠ 0#32) (by decide : (46#32 : Ch) ≠ 0#32), pre2 (by decide : (63#32 : Ch) ≠ 0#32) (by decide : (61#32 : Ch) ≠ 0#32), hd, he], by simp [List.cons_prefix_cons, at0_cons,pre1 (by decide : (46#32 : Ch) ≠ 0#32), at0_cons,pre1 (by decide : (61#32 : Ch) ≠ 0#32), at0_cons,pre1 (by decide : (63#32 : Ch) ≠ 0#32), pre2 (by decide : (46#32 : Ch) ≠ 0#32) (by decide : (46#32 : Ch) ≠ 0#32), pre2 (by decide : (63#32 : Ch) ≠ 0#32) (by decide : (61#32 : Ch) ≠ 0#32), hd, he]⟩⟩
    · cases h1; exact ⟨[63#32], rfl, (longest_iff hL).mpr ⟨by simp, by simp [List.cons_prefix_cons, at0_cons,pre1 (by decide : (46#32 : Ch) ≠ 0#32), at0_cons,pre1 (by decide : (61#32 : Ch) ≠ 0#32), at0_cons,pre1 (by decide : (63#32 : Ch) ≠ 0#32), pre2 (by decide : (46#32 : Ch) ≠ 0#32) (by decide : (46#32 : Ch) ≠ 0#32), pre2 (by decide : (63#32 : Ch) ≠ 0#32) (by decide : (61#32 : Ch) ≠ 0#32), hd], by simp [List.cons_prefix_cons, at0_cons,pre1 (by decide : (46#32 : Ch) ≠ 0#32), at0_cons,pre1 (by decide : (61#32 : Ch) ≠ 0#32), at0_cons,pre1 (by decide : (63#32 : Ch) ≠ 0#32), pre2 (by decide : (46#32 : Ch) ≠ 0#32) (by decide : (46#32 : Ch) ≠ 0#32), pre2 (by decide : (63#32 : Ch) ≠ 0#32) (by decide : (61#32 : Ch) ≠ 0#32), hd]⟩⟩
  replace H := h
  clear h
  rcases ite_cases H with ⟨rfl, h⟩ | ⟨_, h⟩
  · clear H
    have hL : operators.filter (fun x => x.1.head? == some 58#32) = [([58#32, 58#32], [.doubleColon]), ([58#32], [.questionColon, .baseMark])] := by decide +kernel
    rcases ite_cases h with ⟨hd, h1⟩ | ⟨hd, h1⟩
    · cases h1; exact ⟨[58#32, 58#32], rfl, (longest_iff hL).mpr ⟨by simp, by simp [List.cons_prefix_cons, at0_cons,pre1 (by decide : (46#32 : Ch) ≠ 0#32), at0_cons,pre1 (by decide : (58#32 : Ch) ≠ 0#32), at0_cons,pre1 (by decide : (61#32 : Ch) ≠ 0#32), pre2 (by decide : (46#32 : Ch) ≠ 0#32) (by decide : (46#32 : Ch) ≠ 0#32), pre2 (by decide : (58#32 : Ch) ≠ 0#32) (by decide : (61#32 : Ch) ≠ 0#32), hd], by simp [List.cons_prefix_cons, at0_cons,pre1 (by decide : (46#32 : Ch) ≠ 0#32), at0_cons,pre1 (by decide : (58#32 : Ch) ≠ 0#32), at0_cons,pre1 (by decide : (61#32 : Ch) ≠ 0#32), pre2 (by decide : (46#32 : Ch) ≠ 0#32) (by decide : (46#32 : Ch) ≠ 0#32), pre2 (by decide : (58#32 : Ch) ≠ 0#32) (by decide : (61#32 : Ch) ≠ 0#32), hd]⟩⟩
    · cases h1; exact ⟨[58#32], rfl, (longest_iff hL).mpr ⟨by simp, by simp [List.cons_prefix_cons, at0_cons,pre1 (by decide : (46#32 : Ch) ≠ 0#32), at0_cons,pre1 (by decide : (58#32 : Ch) ≠ 0#32), at0_cons,pre1 (by decide : (61#32 : Ch) ≠ 0#32), pre2 (by decide : (46#32 : Ch) ≠ 0#32) (by decide : (46#32 : Ch) ≠ 0#32), pre2 (by decide : (58#32 : Ch) ≠ 0#32) (by decide : (61#32 : Ch) ≠ 0#32), hd], by simp [List.cons_prefix_cons, at0_cons,pre1 (by decide : (46#32 : Ch) ≠ 0#32), at0_cons,pre1 (by decide : (58#32 : Ch) ≠ 0#32), at0_cons,pre1 (by decide : (61#32 : Ch) ≠ 0#32), pre2 (by decide : (46#32 : Ch) ≠ 0#32) (by decide : (46#32 : Ch) ≠ 0#32), pre2 (by decide : (58#32 : Ch) ≠ 0#32) (by decide : (61#32 : Ch) ≠ 0#32), hd]⟩⟩
  replace H := h
  clear h
  rcases ite_cases H with ⟨rfl, h⟩ | ⟨_, h⟩
  · clear H
    have hL : operators.filter (fun x => x.1.head? == some 36#32) = [([36#32], [.dollar])] := by decide +kernel
    cases h; exact ⟨[36#32], rfl, (longest_iff hL).mpr ⟨by simp, by simp [List.cons_prefix_cons, at0_cons,pre1 (by decide : (36#32 : Ch) ≠ 0#32), at0_cons,pre1 (by decide : (46#32 : Ch) ≠ 0#32), at0_cons,pre1 (by decide : (61#32 : Ch) ≠ 0#32), pre2 (by decide : (36#32 : Ch) ≠ 0#32) (by decide : (61#32 : Ch) ≠ 0#32), pre2 (by decide : (46#32 : Ch) ≠ 0#32) (by decide : (46#32 : Ch) ≠ 0#32)], by simp [List.cons_prefix_cons, at0_cons,pre1 (by decide : (36#32 : Ch) ≠ 0#32), at0_cons,pre1 (by decide : (46#32 : Ch) ≠ 0#32), at0_cons,pre1 (by decide : (61#32 : Ch) ≠ 0#32), pre2 (by decide : (36#32 : Ch) ≠ 0#32) (by decide : (61#32 : Ch) ≠ 0#32), pre2 (by decide : (46#32 : Ch) ≠ 0#32) (by decide : (46#32 : Ch) ≠ 0#32)]⟩⟩
  replace H := h
  clear h
  rcases ite_cases H with ⟨rfl, h⟩ | ⟨_, h⟩
  · clear H
    have hL : operators.filter (fun x => x.1.head? == some 60#32) = [([60#32, 60#32, 61#32], [.leftShiftAssign]), ([60#32, 60#32], [.leftShift]), ([60#32, 61#32], [.lessEqual]), ([60#32], [.less, .leftAngle])] := by decide +kernel
    rcases ite_cases h with ⟨hd, h1⟩ | ⟨hd, h1⟩
    · rcases ite_cases h1 with ⟨he, h2⟩ | ⟨he, h2⟩
      · cases h2; exact ⟨[60#32, 60#32, 61#32], rfl, (longest_iff hL).mpr ⟨by simp, by simp [List.cons_prefix_cons, at0_cons,pre1 (by decide : (46#32 : Ch) ≠ 0#32), at0_cons,pre1 (by decide : (60#32 : Ch) ≠ 0#32), at0_cons,pre1 (by decide : (61#32 : Ch) ≠ 0#32), pre2 (by decide : (46#32 : Ch) ≠ 0#32) (by decide : (46#32 : Ch) ≠ 0#32), pre2 (by decide : (60#32 : Ch) ≠ 0#32) (by decide : (61#32 : Ch) ≠ 0#32), hd, he], by simp [List.cons_prefix_cons, at0_cons,pre1 (by decide : (46#32 : Ch) ≠ 0#32), at0_cons,pre1 (by decide : (60#32 : Ch) ≠ 0#32), at0_cons,pre1 (by decide : (61#32 : Ch) ≠ 0#32), pre2 (by decide : (46#32 : Ch) ≠ 0#32) (by decide : (46#32 : Ch) ≠ 0#32), pre2 (by decide : (60#32 : Ch) ≠ 0#32) (by decide : (61#32 : Ch) ≠ 0#32), hd, he]⟩⟩
      · cases h2; exact ⟨[60#32, 60#32], rfl, (longest_iff hL).mpr ⟨by simp, by simp [List.cons_prefix_cons, at0_cons,pre1 (by decide : (46#32 : Ch) ≠ 0#32), at0_cons,pre1 (by decide : (60#32 : Ch) ≠ 0#32), at0_cons,pre1 (by decide : (61#32 : Ch) ≠ 0#32), pre2 (by decide : (46#32 : Ch) ≠ 0#32) (by decide : (46#32 : Ch) ≠ 0#32), pre2 (by decide : (60#32 : Ch) ≠ 0#32) (by decide : (61#32 : Ch) ≠ 0#32), hd, he], by simp [List.cons_prefix_cons, at0_cons,pre1 (by decide : (46#32 : Ch) ≠ 0#32), at0_cons,pre1 (by decide : (60#32 : Ch) ≠ 0#32), at0_cons,pre1 (by decide : (61#32 : Ch) ≠ 0#32), pre2 (by decide : (46#32 : Ch) ≠ 0#32) (by decide : (46#32 : Ch) ≠ 0#32), pre2 (by decide : (60#32 : Ch) ≠ 0#32) (by decide : (61#32 : Ch) ≠ 0#32), hd, he]⟩⟩
    · rcases ite_cases h1 with ⟨he, h2⟩ | ⟨he, h2⟩
      · cases h2; exact ⟨[60#32, 61#32], rfl, (longest_iff hL).mpr ⟨by simp, by simp [List.cons_prefix_cons, at0_cons,pre1 (by decide : (46#32 : Ch) ≠ 0#32), at0_cons,pre1 (by decide : (60#32 : Ch) ≠ 0#32), at0_cons,pre1 (by decide : (61#32 : Ch) ≠ 0#32), pre2 (by decide : (46#32 : Ch) ≠ 0#32) (by decide : (46#32 : Ch) ≠ 0#32), pre2 (by decide : (60#32 : Ch) ≠ 0#32) (by decide : (61#32 : Ch) ≠ 0#32), hd, he], by simp [List.cons_prefix_cons, at0_cons,pre1 (by decide : (46#32 : Ch) ≠ 0#32), at0_cons,pre1 (by decide : (60#32 : Ch) ≠ 0#32), at0_cons,pre1 (by decide : (61#32 : Ch) ≠ 0#32), pre2 (by decide : (46#32 : Ch) ≠ 0#32) (by decide : (46#32 : Ch) ≠ 0#32), pre2 (by decide : (60#32 : Ch) ≠ 0#32) (by decide : (61#32 : Ch) ≠ 0#32), hd, he]⟩⟩
      · cases h2; exact ⟨[60#32], rfl, (longest_iff hL).mpr ⟨by simp, by simp [List.cons_prefix_cons, at0_cons,pre1 (by decide : (46#32 : Ch) ≠ 0#32), at0_cons,pre1 (by decide : (60#32 : Ch) ≠ 0#32), at0_cons,pre1 (by decide : (61#32 : Ch) ≠ 0#32), pre2 (by decide : (46#32 : Ch) ≠ 0#32) (by decide : (46#32 : Ch) ≠ 0#32), pre2 (by decide : (60#32 : Ch) ≠ 0#32) (by decide : (61#32 : Ch) ≠ 0#32), hd, he], by simp [List.cons_prefix_cons, at0_cons,pre1 (by decide : (46#32 : Ch) ≠ 0#32), at0_cons,pre1 (by decide : (60#32 : Ch) ≠ 0#32), at0_cons,pre1 (by decide : (61#32 : Ch) ≠ 0#32), pre2 (by decide : (46#32 : Ch) ≠ 0#32) (by decide : (46#32 : Ch) ≠ 0#32), pre2 (by decide : (60#32 : Ch) ≠ 0#32) (by decide : (61#32 : Ch) ≠ 0#32), hd, he]⟩⟩
  replace H := h
  clear h
  rcases ite_cases H with ⟨rfl, h⟩ | ⟨_, h⟩
  · clear H
    have hL : operators.filter (fun x => x.1.head? == some 62#32) = [([62#32, 62#32, 61#32], [.rightShiftAssign]), ([62#32, 62#32], [.rightShift, .rightAngle]), ([62#32, 61#32], [.greaterEqual]), ([62#32], [.greater, .rightAngle])] := by decide +kernel
    rcases ite_cases h with ⟨hd, h1⟩ | ⟨hd, h1⟩
    · rcases ite_cases h1 with ⟨he, h2⟩ | ⟨he, h2⟩
      · cases h2; exact ⟨[62#32, 62#32, 61#32], rfl, (longest_iff hL).mpr ⟨by simp, by simp [List.cons_prefix_cons, at0_cons,pre1 (by decide : (46#32 : Ch) ≠ 0#32), at0_cons,pre1 (by decide : (61#32 : Ch) ≠ 0#32), at0_cons,pre1 (by decide : (62#32 : Ch) ≠ 0#32), pre2 (by decide : (46#32 : Ch) ≠ 0#32) (by decide : (46#32 : Ch) ≠ 0#32), pre2 (by decide : (62#32 : Ch) ≠ 0#32) (by decide : (61#32 : Ch) ≠ 0#32), hd, he], by simp [List.cons_prefix_cons, at0_cons,pre1 (by decide : (46#32 : Ch) ≠ 0#32), at0_cons,pre1 (by decide : (61#32 : Ch) ≠ 0#32), at0_cons,pre1 (by decide : (62#32 : Ch) ≠ 0#32), pre2 (by decide : (46#32 : Ch) ≠ 0#32) (by decide : (46#32 : Ch) ≠ 0#32), pre2 (by decide : (62#32 : Ch) ≠ 0#32) (by decide : (61#32 : Ch) ≠ 0#32), hd, he]⟩⟩
      · cases h2; exact ⟨[62#32, 62#32], rfl, (longest_iff hL).mpr ⟨by simp, by simp [List.cons_prefix_cons, at0_cons,pre1 (by decide : (46#32 : Ch) ≠ 0#32), at0_cons,pre1 (by decide : (61#32 : Ch) ≠ 0#32), at0_cons,pre1 (by decide : (62#32 : Ch) ≠ 0#32), pre2 (by decide : (46#32 : Ch) ≠ 0#32) (by decide : (46#32 : Ch) ≠ 0#32), pre2 (by decide : (62#32 : Ch) ≠ 0#32) (by decide : (61#32 : Ch) ≠ 0#32), hd, he], by simp [List.cons_prefix_cons, at0_cons,pre1 (by decide : (46#32 : Ch) ≠ 0#32), at0_cons,pre1 (by decide : (61#32 : Ch) ≠ 0#32), at0_cons,pre1 (by decide : (62#32 : Ch) ≠ 0#32), pre2 (by decide : (46#32 : Ch) ≠ 0#32) (by decide : (46#32 : Ch) ≠ 0#32), pre2 (by decide : (62#32 : Ch) ≠ 0#32) (by decide : (61#32 : Ch) ≠ 0#32), hd, he]⟩⟩
    · rcases ite_cases h1 with ⟨he, h2⟩ | ⟨he, h2⟩
      · cases h2; exact ⟨[62#32, 61#32], rfl, (longest_iff hL).mpr ⟨by simp, by simp [List.cons_prefix_cons, at0_cons,pre1 (by decide : (46#32 : Ch) ≠ 0#32), at0_cons,pre1 (by decide : (61#32 : Ch) ≠ 0#32), at0_cons,pre1 (by decide : (62#32 : Ch) ≠ 0#32), pre2 (by decide : (46#32 : Ch) ≠ 0#32) (by decide : (46#32 : Ch) ≠ 0#32), pre2 (by decide : (62#32 : Ch) ≠ 0#32) (by decide : (61#32 : Ch) ≠ 0#32), hd, he], by simp [List.cons_prefix_cons, at0_cons,pre1 (by decide : (46#32 : Ch) ≠ 0#32), at0_cons,pre1 (by decide : (61#32 : Ch) ≠ 0#32), at0_cons,pre1 (by decide : (62#32 : Ch) ≠ 0#32), pre2 (by decide : (46#32 : Ch) ≠ 0#32) (by decide : (46#32 : Ch) ≠ 0#32), pre2 (by decide : (62#32 : Ch) ≠ 0#32) (by decide : (61#32 : Ch) ≠ 0#32), hd, he]⟩⟩
      · cases h2; exact ⟨[62#32], rfl, (longest_iff hL).mpr ⟨by simp, by simp [List.cons_prefix_cons, at0_cons,pre1 (by decide : (46#32 : Ch) ≠ 0#32), at0_cons,pre1 (by decide : (61#32 : Ch) ≠ 0#32), at0_cons,pre1 (by decide : (62#32 : Ch) ≠ 0#32), pre2 (by decide : (46#32 : Ch) ≠ 0#32) (by decide : (46#32 : Ch) ≠ 0#32), pre2 (by decide : (62#32 : Ch) ≠ 0#32) (by decide : (61#32 : Ch) ≠ 0#32), hd, he], by simp [List.cons_prefix_cons, at0_cons,pre1 (by decide : (46#32 : Ch) ≠ 0#32), at0_cons,pre1 (by decide : (61#32 : Ch) ≠ 0#32), at0_cons,pre1 (by decide : (62#32 : Ch) ≠ 0#32), pre2 (by decide : (46#32 : Ch) ≠ 0#32) (by decide : (46#32 : Ch) ≠ 0#32), pre2 (by decide : (62#32 : Ch) ≠ 0#32) (by decide : (61#32 : Ch) ≠ 0#32), hd, he]⟩⟩
  replace H := h
  clear h
  rcases ite_cases H with ⟨rfl, h⟩ | ⟨_, h⟩
  · clear H
    have hL : operators.filter (fun x => x.1.head? == some 43#32) = [([43#32, 43#32], [.leftIncrement, .rightIncrement]), ([43#32, 61#32], [.addAssign]), ([43#32], [.add, .positive])] := by decide +kernel
    rcases ite_cases h with ⟨hd, h1⟩ | ⟨hd, h1⟩
    · cases h1; exact ⟨[43#32, 43#32], rfl, (longest_iff hL).mpr ⟨by simp, by simp [List.cons_prefix_cons, at0_cons,pre1 (by decide : (43#32 : Ch) ≠ 0#32), at0_cons,pre1 (by decide : (46#32 : Ch) ≠ 0#32), at0_cons,pre1 (by decide : (61#32 : Ch) ≠ 0#32), pre2 (by decide : (43#32 : Ch) ≠ 0#32) (by decide : (61#32 : Ch) ≠ 0#32), pre2 (by decide : (46#32 : Ch) ≠ 0#32) (by decide : (46#32 : Ch) ≠ 0#32), hd], by simp [List.cons_prefix_cons, at0_cons,pre1 (by decide : (43#32 : Ch) ≠ 0#32), at0_cons,pre1 (by decide : (46#32 : Ch) ≠ 0#32), at0_cons,pre1 (by decide : (61#32 : Ch) ≠ 0#32), pre2 (by decide : (43#32 : Ch) ≠ 0#32) (by decide : (61#32 : Ch) ≠ 0#32), pre2 (by decide : (46#32 : Ch) ≠ 0#32) (by decide : (46#32 : Ch) ≠ 0#32), hd]⟩⟩
    · rcases ite_cases h1 with ⟨he, h2⟩ | ⟨he, h2⟩
      · cases h2; exact ⟨[43#32, 61#32], rfl, (longest_iff hL).mpr ⟨by simp, by simp [List.cons_prefix_cons, at0_cons,pre1 (by decide : (43#32 : Ch) ≠ 0#32), at0_cons,pre1 (by decide : (46#32 : Ch) ≠ 0#32), at0_cons,pre1 (by decide : (61#32 : Ch) ≠ 0#32), pre2 (by decide : (43#32 : Ch) ≠ 0#32) (by decide : (61#32 : Ch) ≠ 0#32), pre2 (by decide : (46#32 : Ch) ≠ 0#32) (by decide : (46#32 : Ch) ≠ 0#32), hd, he], by simp [List.cons_prefix_cons, at0_cons,pre1 (by decide : (43#32 : Ch) ≠ 0#32), at0_cons,pre1 (by decide : (46#32 : Ch) ≠ 0#32), at0_cons,pre1 (by decide : (61#32 : Ch) ≠ 0#32), pre2 (by decide : (43#32 : Ch) ≠ 0#32) (by decide : (61#32 : Ch) ≠ 0#32), pre2 (by decide : (46#32 : Ch) ≠ 0#32) (by decide : (46#32 : Ch) ≠ 0#32), hd, he]⟩⟩
      · cases h2; exact ⟨[43#32], rfl, (longest_iff hL).mpr ⟨by simp, by simp [List.cons_prefix_cons, at0_cons,pre1 (by decide : (43#32 : Ch) ≠ 0#32), at0_cons,pre1 (by decide : (46#32 : Ch) ≠ 0#32), at0_cons,pre1 (by decide : (61#32 : Ch) ≠ 0#32), pre2 (by decide : (43#32 : Ch) ≠ 0#32) (by decide : (61#32 : Ch) ≠ 0#32), pre2 (by decide : (46#32 : Ch) ≠ 0#32) (by decide : (46#32 : Ch) ≠ 0#32), hd, he], by simp [List.cons_prefix_cons, at0_cons,pre1 (by decide : (43#32 : Ch) ≠ 0#32), at0_cons,pre1 (by decide : (46#32 : Ch) ≠ 0#32), at0_cons,pre1 (by decide : (61#32 : Ch) ≠ 0#32), pre2 (by decide : (43#32 : Ch) ≠ 0#32) (by decide : (61#32 : Ch) ≠ 0#32), pre2 (by decide : (46#32 : Ch) ≠ 0#32) (by decide : (46#32 : Ch) ≠ 0#32), hd, he]⟩⟩
  replace H := h
  clear h
  rcases ite_cases H with ⟨rfl, h⟩ | ⟨_, h⟩
  · clear H
    have hL : operators.filter (fun x => x.1.head? == some 45#32) = [([45#32, 45#32], [.leftDecrement, .rightDecrement]), ([45#32, 61#32], [.subAssign]), ([45#32], [.sub, .minus])] := by decide +kernel
    rcases ite_cases h with ⟨hd, h1⟩ | ⟨hd, h1⟩
    · cases h1; exact ⟨[45#32, 45#32], rfl, (longest_iff hL).mpr ⟨by simp, by simp [List.cons_prefix_cons, at0_cons,pre1 (by decide : (45#32 : Ch) ≠ 0#32), at0_cons,pre1 (by decide : (46#32 : Ch) ≠ 0#32), at0_cons,pre1 (by decide : (61#32 : Ch) ≠ 0#32), pre2 (by decide : (45#32 : Ch) ≠ 0#32) (by decide : (61#32 : Ch) ≠ 0#32), pre2 (by decide : (46#32 : Ch) ≠ 0#32) (by decide : (46#32 : Ch) ≠ 0#32), hd], by simp [List.cons_prefix_cons, at0_cons,pre1 (by decide : (45#32 : Ch) ≠ 0#32), at0_cons,pre1 (by decide : (46#32 : Ch) ≠ 0#32), at0_cons,pre1 (by decide : (61#32 : Ch) ≠ 0#32), pre2 (by decide : (45#32 : Ch) ≠ 0#32) (by decide : (61#32 : Ch) ≠ 0#32), pre2 (by decide : (46#32 : Ch) ≠ 0#32) (by decide : (46#32 : Ch) ≠ 0#32), hd]⟩⟩
    · rcases ite_cases h1 with ⟨he, h2⟩ | ⟨he, h2⟩
      · cases h2; exact ⟨[45#32, 61#32], rfl, (longest_iff hL).mpr ⟨by simp, by simp [List.cons_prefix_cons, at0_cons,pre1 (by decide : (45#32 : Ch) ≠ 0#32), at0_cons,pre1 (by decide : (46#32 : Ch) ≠ 0#32), at0_cons,pre1 (by decide : (61#32 : Ch) ≠ 0#32), pre2 (by decide : (45#32 : Ch) ≠ 0#32) (by decide : (61#32 : Ch) ≠ 0#32), pre2 (by decide : (46#32 : Ch) ≠ 0#32) (by decide : (46#32 : Ch) ≠ 0#32), hd, he], by simp [List.cons_prefix_cons, at0_cons,pre1 (by decide : (45#32 : Ch) ≠ 0#32), at0_cons,pre1 (by decide : (46#32 : Ch) ≠ 0#32), at0_cons,pre1 (by decide : (61#32 : Ch) ≠ 0#32), pre2 (by decide : (45#32 : Ch) ≠ 0#32) (by decide : (61#32 : Ch) ≠ 0#32), pre2 (by decide : (46#32 : Ch) ≠ 0#32) (by decide : (46#32 : Ch) ≠ 0#32), hd, he]⟩⟩
      · cases h2; exact ⟨[45#32], rfl, (longest_iff hL).mpr ⟨by simp, by simp [List.cons_prefix_cons, at0_cons,pre1 (by decide : (45#32 : Ch) ≠ 0#32), at0_cons,pre1 (by decide : (46#32 : Ch) ≠ 0#32), at0_cons,pre1 (by decide : (61#32 : Ch) ≠ 0#32), pre2 (by decide : (45#32 : Ch) ≠ 0#32) (by decide : (61#32 : Ch) ≠ 0#32), pre2 (by decide : (46#32 : Ch) ≠ 0#32) (by decide : (46#32 : Ch) ≠ 0#32), hd, he], by simp [List.cons_prefix_cons, at0_cons,pre1 (by decide : (45#32 : Ch) ≠ 0#32), at0_cons,pre1 (by decide : (46#32 : Ch) ≠ 0#32), at0_cons,pre1 (by decide : (61#32 : Ch) ≠ 0#32), pre2 (by decide : (45#32 : Ch) ≠ 0#32) (by decide : (61#32 : Ch) ≠ 0#32), pre2 (by decide : (46#32 : Ch) ≠ 0#32) (by decide : (46#32 : Ch) ≠ 0#32), hd, he]⟩⟩
  replace H := h
  clear h
  rcases ite_cases H with ⟨rfl, h⟩ | ⟨_, h⟩
  · clear H
    have hL : operators.filter (fun x => x.1.head? == some 42#32) = [([42#32, 61#32], [.mulAssign]), ([42#32], [.mul])] := by decide +kernel
    rcases ite_cases h with ⟨hd, h1⟩ | ⟨hd, h1⟩
    · cases h1; exact ⟨[42#32, 61#32], rfl, (longest_iff hL).mpr ⟨by simp, by simp [List.cons_prefix_cons, at0_cons,pre1 (by decide : (42#32 : Ch) ≠ 0#32), at0_cons,pre1 (by decide : (46#32 : Ch) ≠ 0#32), at0_cons,pre1 (by decide : (61#32 : Ch) ≠ 0#32), pre2 (by decide : (42#32 : Ch) ≠ 0#32) (by decide : (61#32 : Ch) ≠ 0#32), pre2 (by decide : (46#32 : Ch) ≠ 0#32) (by decide : (46#32 : Ch) ≠ 0#32), hd], by simp [List.cons_prefix_cons, at0_cons,pre1 (by decide : (42#32 : Ch) ≠ 0#32), at0_cons,pre1 (by decide : (46#32 : Ch) ≠ 0#32), at0_cons,pre1 (by decide : (61#32 : Ch) ≠ 0#32), pre2 (by decide : (42#32 : Ch) ≠ 0#32) (by decide : (61#32 : Ch) ≠ 0#32), pre2 (by decide : (46#32 : Ch) ≠ 0#32) (by decide : (46#32 : Ch) ≠ 0#32), hd]⟩⟩
    · cases h1; exact ⟨[42#32], rfl, (longest_iff hL).mpr ⟨by simp, by simp [List.cons_prefix_cons, at0_cons,pre1 (by decide : (42#32 : Ch) ≠ 0#32), at0_cons,pre1 (by decide : (46#32 : Ch) ≠ 0#32), at0_cons,pre1 (by decide : (61#32 : Ch) ≠ 0#32), pre2 (by decide : (42#32 : Ch) ≠ 0#32) (by decide : (61#32 : Ch) ≠ 0#32), pre2 (by decide : (46#32 : Ch) ≠ 0#32) (by decide : (46#32 : Ch) ≠ 0#32), hd], by simp [List.cons_prefix_cons, at0_cons,pre1 (by decide : (42#32 : Ch) ≠ 0#32), at0_cons,pre1 (by decide : (46#32 : Ch) ≠ 0#32), at0_cons,pre1 (by decide : (61#32 : Ch) ≠ 0#32), pre2 (by decide : (42#32 : Ch) ≠ 0#32) (by decide : (61#32 : Ch) ≠ 0#32), pre2 (by decide : (46#32 : Ch) ≠ 0#32) (by decide : (46#32 : Ch) ≠ 0#32), hd]⟩⟩
  replace H := h
  clear h
  rcases ite_cases H with ⟨rfl, h⟩ | ⟨_, h⟩
  · clear H
    have hL : operators.filter (fun x => x.1.head? == some 47#32) = [([47#32, 61#32], [.divAssign]), ([47#32], [.div])] := by decide +kernel
    rcases ite_cases h with ⟨hd, h1⟩ | ⟨hd, h1⟩
    · cases h1; exact ⟨[47#32, 61#32], rfl, (longest_iff hL).mpr ⟨by simp, by simp [List.cons_prefix_cons, at0_cons,pre1 (by decide : (46#32 : Ch) ≠ 0#32), at0_cons,pre1 (by decide : (47#32 : Ch) ≠ 0#32), at0_cons,pre1 (by decide : (61#32 : Ch) ≠ 0#32), pre2 (by decide : (46#32 : Ch) ≠ 0#32) (by decide : (46#32 : Ch) ≠ 0#32), pre2 (by decide : (47#32 : Ch) ≠ 0#32) (by decide : (61#32 : Ch) ≠ 0#32), hd], by simp [List.cons_prefix_cons, at0_cons,pre1 (by decide : (46#32 : Ch) ≠ 0#32), at0_cons,pre1 (by decide : (47#32 : Ch) ≠ 0#32), at0_cons,pre1 (by decide : (61#32 : Ch) ≠ 0#32), pre2 (by decide : (46#32 : Ch) ≠ 0#32) (by decide : (46#32 : Ch) ≠ 0#32), pre2 (by decide : (47#32 : Ch) ≠ 0#32) (by decide : (61#32 : Ch) ≠ 0#32), hd]⟩⟩
    · cases h1; exact ⟨[47#32], rfl, (longest_iff hL).mpr ⟨by simp, by simp [List.cons_prefix_cons, at0_cons,pre1 (by decide : (46#32 : Ch) ≠ 0#32), at0_cons,pre1 (by decide : (47#32 : Ch) ≠ 0#32), at0_cons,pre1 (by decide : (61#32 : Ch) ≠ 0#32), pre2 (by decide : (46#32 : Ch) ≠ 0#32) (by decide : (46#32 : Ch) ≠ 0#32), pre2 (by decide : (47#32 : Ch) ≠ 0#32) (by decide : (61#32 : Ch) ≠ 0#32), hd], by simp [List.cons_prefix_cons, at0_cons,pre1 (by decide : (46#32 : Ch) ≠ 0#32), at0_cons,pre1 (by decide : (47#32 : Ch) ≠ 0#32), at0_cons,pre1 (by decide : (61#32 : Ch) ≠ 0#32), pre2 (by decide : (46#32 : Ch) ≠ 0#32) (by decide : (46#32 : Ch) ≠ 0#32), pre2 (by decide : (47#32 : Ch) ≠ 0#32) (by decide : (61#32 : Ch) ≠ 0#32), hd]⟩⟩
  replace H := h
  clear h
  rcases ite_cases H with ⟨rfl, h⟩ | ⟨_, h⟩
  · clear H
    have hL : operators.filter (fun x => x.1.head? == some 37#32) = [([37#32, 61#32], [.modAssign]), ([37#32], [.mod])] := by decide +kernel
    rcases ite_cases h with ⟨hd, h1⟩ | ⟨hd, h1⟩
    · cases h1; exact ⟨[37#32, 61#32], rfl, (longest_iff hL).mpr ⟨by simp, by simp [List.cons_prefix_cons, at0_cons,pre1 (by decide : (37#32 : Ch) ≠ 0#32), at0_cons,pre1 (by decide : (46#32 : Ch) ≠ 0#32), at0_cons,pre1 (by decide : (61#32 : Ch) ≠ 0#32), pre2 (by decide : (37#32 : Ch) ≠ 0#32) (by decide : (61#32 : Ch) ≠ 0#32), pre2 (by decide : (46#32 : Ch) ≠ 0#32) (by decide : (46#32 : Ch) ≠ 0#32), hd], by simp [List.cons_prefix_cons, at0_cons,pre1 (by decide : (37#32 : Ch) ≠ 0#32), at0_cons,pre1 (by decide : (46#32 : Ch) ≠ 0#32), at0_cons,pre1 (by decide : (61#32 : Ch) ≠ 0#32), pre2 (by decide : (37#32 : Ch) ≠ 0#32) (by decide : (61#32 : Ch) ≠ 0#32), pre2 (by decide : (46#32 : Ch) ≠ 0#32) (by decide : (46#32 : Ch) ≠ 0#32), hd]⟩⟩
    · cases h1; exact ⟨[37#32], rfl, (longest_iff hL).mpr ⟨by simp, by simp [List.cons_prefix_cons, at0_cons,pre1 (by decide : (37#32 : Ch) ≠ 0#32), at0_cons,pre1 (by decide : (46#32 : Ch) ≠ 0#32), at0_cons,pre1 (by decide : (61#32 : Ch) ≠ 0#32), pre2 (by decide : (37#32 : Ch) ≠ 0#32) (by decide : (61#32 : Ch) ≠ 0#32), pre2 (by decide : (46#32 : Ch) ≠ 0#32) (by decide : (46#32 : Ch) ≠ 0#32), hd], by simp [List.cons_prefix_cons, at0_cons,pre1 (by decide : (37#32 : Ch) ≠ 0#32), at0_cons,pre1 (by decide : (46#32 : Ch) ≠ 0#32), at0_cons,pre1 (by decide : (61#32 : Ch) ≠ 0#32), pre2 (by decide : (37#32 : Ch) ≠ 0#32) (by decide : (61#32 : Ch) ≠ 0#32), pre2 (by decide : (46#32 : Ch) ≠ 0#32) (by decide : (46#32 : Ch) ≠ 0#32), hd]⟩⟩
  replace H := h
  clear h
  rcases ite_cases H with ⟨rfl, h⟩ | ⟨_, h⟩
  · clear H
    have hL : operators.filter (fun x => x.1.head? == some 38#32) = [([38#32, 38#32], [.logicAnd]), ([38#32, 61#32], [.bitAndAssign]), ([38#32], [.bitAnd])] := by decide +kernel
    rcases ite_cases h with ⟨hd, h1⟩ | ⟨hd, h1⟩
    · cases h1; exact ⟨[38#32, 38#32], rfl, (longest_iff hL).mpr ⟨by simp, by simp [List.cons_prefix_cons, at0_cons,pre1 (by decide : (38#32 : Ch) ≠ 0#32), at0_cons,pre1 (by decide : (46#32 : Ch) ≠ 0#32), at0_cons,pre1 (by decide : (61#32 : Ch) ≠ 0#32), pre2 (by decide : (38#32 : Ch) ≠ 0#32) (by decide : (61#32 : Ch) ≠ 0#32), pre2 (by decide : (46#32 : Ch) ≠ 0#32) (by decide : (46#32 : Ch) ≠ 0#32), hd], by simp [List.cons_prefix_cons, at0_cons,pre1 (by decide : (38#32 : Ch) ≠ 0#32), at0_cons,pre1 (by decide : (46#32 : Ch) ≠ 0#32), at0_cons,pre1 (by decide : (61#32 : Ch) ≠ 0#32), pre2 (by decide : (38#32 : Ch) ≠ 0#32) (by decide : (61#32 : Ch) ≠ 0#32), pre2 (by decide : (46#32 : Ch) ≠ 0#32) (by decide : (46#32 : Ch) ≠ 0#32), hd]⟩⟩
    · rcases ite_cases h1 with ⟨he, h2⟩ | ⟨he, h2⟩
      · cases h2; exact ⟨[38#32, 61#32], rfl, (longest_iff hL).mpr ⟨by simp, by simp [List.cons_prefix_cons, at0_cons,pre1 (by decide : (38#32 : Ch) ≠ 0#32), at0_cons,pre1 (by decide : (46#32 : Ch) ≠ 0#32), at0_cons,pre1 (by decide : (61#32 : Ch) ≠ 0#32), pre2 (by decide : (38#32 : Ch) ≠ 0#32) (by decide : (61#32 : Ch) ≠ 0#32), pre2 (by decide : (46#32 : Ch) ≠ 0#32) (by decide : (46#32 : Ch) ≠ 0#32), hd, he], by simp [List.cons_prefix_cons, at0_cons,pre1 (by decide : (38#32 : Ch) ≠ 0#32), at0_cons,pre1 (by decide : (46#32 : Ch) ≠ 0#32), at0_cons,pre1 (by decide : (61#32 : Ch) ≠ 0#32), pre2 (by decide : (38#32 : Ch) ≠ 0#32) (by decide : (61#32 : Ch) ≠ 0#32), pre2 (by decide : (46#32 : Ch) ≠ 0#32) (by decide : (46#32 : Ch) ≠ 0#32), hd, he]⟩⟩
      · cases h2; exact ⟨[38#32], rfl, (longest_iff hL).mpr ⟨by simp, by simp [List.cons_prefix_cons, at0_cons,pre1 (by decide : (38#32 : Ch) ≠ 0#32), at0_cons,pre1 (by decide : (46#32 : Ch) ≠ 0#32), at0_cons,pre1 (by decide : (61#32 : Ch) ≠ 0#32), pre2 (by decide : (38#32 : Ch) ≠ 0#32) (by decide : (61#32 : Ch) ≠ 0#32), pre2 (by decide : (46#32 : Ch) ≠ 0#32) (by decide : (46#32 : Ch) ≠ 0#32), hd, he], by simp [List.cons_prefix_cons, at0_cons,pre1 (by decide : (38#32 : Ch) ≠ 0#32), at0_cons,pre1 (by decide : (46#32 : Ch) ≠ 0#32), at0_cons,pre1 (by decide : (61#32 : Ch) ≠ 0#32), pre2 (by decide : (38#32 : Ch) ≠ 0#32) (by decide : (61#32 : Ch) ≠ 0#32), pre2 (by decide : (46#32 : Ch) ≠ 0#32) (by decide : (46#32 : Ch) ≠ 0#32), hd, he]⟩⟩
  replace H := h
  clear h
  rcases ite_cases H with ⟨rfl, h⟩ | ⟨_, h⟩
  · clear H
    have hL : operators.filter (fun x => x.1.head? == some 124#32) = [([124#32, 124#32], [.logicOr]), ([124#32, 61#32], [.bitOrAssign]), ([124#32], [.bitOr])] := by decide +kernel
    rcases ite_cases h with ⟨hd, h1⟩ | ⟨hd, h1⟩
    · cases h1; exact ⟨[124#32, 124#32], rfl, (longest_iff hL).mpr ⟨by simp, by simp [List.cons_prefix_cons, at0_cons,pre1 (by decide : (46#32 : Ch) ≠ 0#32), at0_cons,pre1 (by decide : (61#32 : Ch) ≠ 0#32), at0_cons,pre1 (by decide : (124#32 : Ch) ≠ 0#32), pre2 (by decide : (46#32 : Ch) ≠ 0#32) (by decide : (46#32 : Ch) ≠ 0#32), pre2 (by decide : (124#32 : Ch) ≠ 0#32) (by decide : (61#32 : Ch) ≠ 0#32), hd], by simp [List.cons_prefix_cons, at0_cons,pre1 (by decide : (46#32 : Ch) ≠ 0#32), at0_cons,pre1 (by decide : (61#32 : Ch) ≠ 0#32), at0_cons,pre1 (by decide : (124#32 : Ch) ≠ 0#32), pre2 (by decide : (46#32 : Ch) ≠ 0#32) (by decide : (46#32 : Ch) ≠ 0#32), pre2 (by decide : (124#32 : Ch) ≠ 0#32) (by decide : (61#32 : Ch) ≠ 0#32), hd]⟩⟩
    · rcases ite_cases h1 with ⟨he, h2⟩ | ⟨he, h2⟩
      · cases h2; exact ⟨[124#32, 61#32], rfl, (longest_iff hL).mpr ⟨by simp, by simp [List.cons_prefix_cons, at0_cons,pre1 (by decide : (46#32 : Ch) ≠ 0#32), at0_cons,pre1 (by decide : (61#32 : Ch) ≠ 0#32), at0_cons,pre1 (by decide : (124#32 : Ch) ≠ 0#32), pre2 (by decide : (46#32 : Ch) ≠ 0#32) (by decide : (46#32 : Ch) ≠ 0#32), pre2 (by decide : (124#32 : Ch) ≠ 0#32) (by decide : (61#32 : Ch) ≠ 0#32), hd, he], by simp [List.cons_prefix_cons, at0_cons,pre1 (by decide : (46#32 : Ch) ≠ 0#32), at0_cons,pre1 (by decide : (61#32 : Ch) ≠ 0#32), at0_cons,pre1 (by decide : (124#32 : Ch) ≠ 0#32), pre2 (by decide : (46#32 : Ch) ≠ 0#32) (by decide : (46#32 : Ch) ≠ 0#32), pre2 (by decide : (124#32 : Ch) ≠ 0#32) (by decide : (61#32 : Ch) ≠ 0#32), hd, he]⟩⟩
      · cases h2; exact ⟨[124#32], rfl, (longest_iff hL).mpr ⟨by simp, by simp [List.cons_prefix_cons, at0_cons,pre1 (by decide : (46#32 : Ch) ≠ 0#32), at0_cons,pre1 (by decide : (61#32 : Ch) ≠ 0#32), at0_cons,pre1 (by decide : (124#32 : Ch) ≠ 0#32), pre2 (by decide : (46#32 : Ch) ≠ 0#32) (by decide : (46#32 : Ch) ≠ 0#32), pre2 (by decide : (124#32 : Ch) ≠ 0#32) (by decide : (61#32 : Ch) ≠ 0#32), hd, he], by simp [List.cons_prefix_cons, at0_cons,pre1 (by decide : (46#32 : Ch) ≠ 0#32), at0_cons,pre1 (by decide : (61#32 : Ch) ≠ 0#32), at0_cons,pre1 (by decide : (124#32 : Ch) ≠ 0#32), pre2 (by decide : (46#32 : Ch) ≠ 0#32) (by decide : (46#32 : Ch) ≠ 0#32), pre2 (by decide : (124#32 : Ch) ≠ 0#32) (by decide : (61#32 : Ch) ≠ 0#32), hd, he]⟩⟩
  replace H := h
  clear h
  rcases ite_cases H with ⟨rfl, h⟩ | ⟨_, h⟩
  · clear H
    have hL : operators.filter (fun x => x.1.head? == some 126#32) = [([126#32], [.bitNot])] := by decide +kernel
    cases h; exact ⟨[126#32], rfl, (longest_iff hL).mpr ⟨by simp, by simp [List.cons_prefix_cons, at0_cons,pre1 (by decide : (46#32 : Ch) ≠ 0#32), at0_cons,pre1 (by decide : (61#32 : Ch) ≠ 0#32), at0_cons,pre1 (by decide : (126#32 : Ch) ≠ 0#32), pre2 (by decide : (46#32 : Ch) ≠ 0#32) (by decide : (46#32 : Ch) ≠ 0#32), pre2 (by decide : (126#32 : Ch) ≠ 0#32) (by decide : (61#32 : Ch) ≠ 0#32)], by simp [List.cons_prefix_cons, at0_cons,pre1 (by decide : (46#32 : Ch) ≠ 0#32), at0_cons,pre1 (by decide : (61#32 : Ch) ≠ 0#32), at0_cons,pre1 (by decide : (126#32 : Ch) ≠ 0#32), pre2 (by decide : (46#32 : Ch) ≠ 0#32) (by decide : (46#32 : Ch) ≠ 0#32), pre2 (by decide : (126#32 : Ch) ≠ 0#32) (by decide : (61#32 : Ch) ≠ 0#32)]⟩⟩
  replace H := h
  clear h
  rcases ite_cases H with ⟨rfl, h⟩ | ⟨_, h⟩
  · clear H
    have hL : operators.filter (fun x => x.1.head? == some 94#32) = [([94#32, 61#32], [.bitXorAssign]), ([94#32], [.bitXor])] := by decide +kernel
    rcases ite_cases h with ⟨hd, h1⟩ | ⟨hd, h1⟩
    · cases h1; exact ⟨[94#32, 61#32], rfl, (longest_iff hL).mpr ⟨by simp, by simp [List.cons_prefix_cons, at0_cons,pre1 (by decide : (46#32 : Ch) ≠ 0#32), at0_cons,pre1 (by decide : (61#32 : Ch) ≠ 0#32), at0_cons,pre1 (by decide : (94#32 : Ch) ≠ 0#32), pre2 (by decide : (46#32 : Ch) ≠ 0#32) (by decide : (46#32 : Ch) ≠ 0#32), pre2 (by decide : (94#32 : Ch) ≠ 0#32) (by decide : (61#32 : Ch) ≠ 0#32), hd], by simp [List.cons_prefix_cons, at0_cons,pre1 (by decide : (46#32 : Ch) ≠ 0#32), at0_cons,pre1 (by decide : (61#32 : Ch) ≠ 0#32), at0_cons,pre1 (by decide : (94#32 : Ch) ≠ 0#32), pre2 (by decide : (46#32 : Ch) ≠ 0#32) (by decide : (46#32 : Ch) ≠ 0#32), pre2 (by decide : (94#32 : Ch) ≠ 0#32) (by decide : (61#32 : Ch) ≠ 0#32), hd]⟩⟩
    · cases h1; exact ⟨[94#32], rfl, (longest_iff hL).mpr ⟨by simp, by simp [List.cons_prefix_cons, at0_cons,pre1 (by decide : (46#32 : Ch) ≠ 0#32), at0_cons,pre1 (by decide : (61#32 : Ch) ≠ 0#32), at0_cons,pre1 (by decide : (94#32 : Ch) ≠ 0#32), pre2 (by decide : (46#32 : Ch) ≠ 0#32) (by decide : (46#32 : Ch) ≠ 0#32), pre2 (by decide : (94#32 : Ch) ≠ 0#32) (by decide : (61#32 : Ch) ≠ 0#32), hd], by simp [List.cons_prefix_cons, at0_cons,pre1 (by decide : (46#32 : Ch) ≠ 0#32), at0_cons,pre1 (by decide : (61#32 : Ch) ≠ 0#32), at0_cons,pre1 (by decide : (94#32 : Ch) ≠ 0#32), pre2 (by decide : (46#32 : Ch) ≠ 0#32) (by decide : (46#32 : Ch) ≠ 0#32), pre2 (by decide : (94#32 : Ch) ≠ 0#32) (by decide : (61#32 : Ch) ≠ 0#32), hd]⟩⟩
  replace H := h
  clear h
  rcases ite_cases H with ⟨rfl, h⟩ | ⟨_, h⟩
  · clear H
    have hL : operators.filter (fun x => x.1.head? == some 33#32) = [([33#32, 61#32], [.notEqual]), ([33#32], [.logicNot])] := by decide +kernel
    rcases ite_cases h with ⟨hd, h1⟩ | ⟨hd, h1⟩
    · cases h1; exact ⟨[33#32, 61#32], rfl, (longest_iff hL).mpr ⟨by simp, by simp [List.cons_prefix_cons, at0_cons,pre1 (by decide : (33#32 : Ch) ≠ 0#32), at0_cons,pre1 (by decide : (46#32 : Ch) ≠ 0#32), at0_cons,pre1 (by decide : (61#32 : Ch) ≠ 0#32), pre2 (by decide : (33#32 : Ch) ≠ 0#32) (by decide : (61#32 : Ch) ≠ 0#32), pre2 (by decide : (46#32 : Ch) ≠ 0#32) (by decide : (46#32 : Ch) ≠ 0#32), hd], by simp [List.cons_prefix_cons, at0_cons,pre1 (by decide : (33#32 : Ch) ≠ 0#32), at0_cons,pre1 (by decide : (46#32 : Ch) ≠ 0#32), at0_cons,pre1 (by decide : (61#32 : Ch) ≠ 0#32), pre2 (by decide : (33#32 : Ch) ≠ 0#32) (by decide : (61#32 : Ch) ≠ 0#32), pre2 (by decide : (46#32 : Ch) ≠ 0#32) (by decide : (46#32 : Ch) ≠ 0#32), hd]⟩⟩
    · cases h1; exact ⟨[33#32], rfl, (longest_iff hL).mpr ⟨by simp, by simp [List.cons_prefix_cons, at0_cons,pre1 (by decide : (33#32 : Ch) ≠ 0#32), at0_cons,pre1 (by decide : (46#32 : Ch) ≠ 0#32), at0_cons,pre1 (by decide : (61#32 : Ch) ≠ 0#32), pre2 (by decide : (33#32 : Ch) ≠ 0#32) (by decide : (61#32 : Ch) ≠ 0#32), pre2 (by decide : (46#32 : Ch) ≠ 0#32) (by decide : (46#32 : Ch) ≠ 0#32), hd], by simp [List.cons_prefix_cons, at0_cons,pre1 (by decide : (33#32 : Ch) ≠ 0#32), at0_cons,pre1 (by decide : (46#32 : Ch) ≠ 0#32), at0_cons,pre1 (by decide : (61#32 : Ch) ≠ 0#32), pre2 (by decide : (33#32 : Ch) ≠ 0#32) (by decide : (61#32 : Ch) ≠ 0#32), pre2 (by decide : (46#32 : Ch) ≠ 0#32) (by decide : (46#32 : Ch) ≠ 0#32), hd]⟩⟩
  replace H := h
  clear h
  rcases ite_cases H with ⟨rfl, h⟩ | ⟨_, h⟩
  · clear H
    have hL : operators.filter (fun x => x.1.head? == some 61#32) = [([61#32, 61#32], [.equal]), ([61#32], [.assign])] := by decide +kernel
    rcases ite_cases h with ⟨hd, h1⟩ | ⟨hd, h1⟩
    · cases h1; exact ⟨[61#32, 61#32], rfl, (longest_iff hL).mpr ⟨by simp, by simp [List.cons_prefix_cons, at0_cons,pre1 (by decide : (46#32 : Ch) ≠ 0#32), at0_cons,pre1 (by decide : (61#32 : Ch) ≠ 0#32), pre2 (by decide : (46#32 : Ch) ≠ 0#32) (by decide : (46#32 : Ch) ≠ 0#32), pre2 (by decide : (61#32 : Ch) ≠ 0#32) (by decide : (61#32 : Ch) ≠ 0#32), hd], by simp [List.cons_prefix_cons, at0_cons,pre1 (by decide : (46#32 : Ch) ≠ 0#32), at0_cons,pre1 (by decide : (61#32 : Ch) ≠ 0#32), pre2 (by decide : (46#32 : Ch) ≠ 0#32) (by decide : (46#32 : Ch) ≠ 0#32), pre2 (by decide : (61#32 : Ch) ≠ 0#32) (by decide : (61#32 : Ch) ≠ 0#32), hd]⟩⟩
    · cases h1; exact ⟨[61#32], rfl, (longest_iff hL).mpr ⟨by simp, by simp [List.cons_prefix_cons, at0_cons,pre1 (by decide : (46#32 : Ch) ≠ 0#32), at0_cons,pre1 (by decide : (61#32 : Ch) ≠ 0#32), pre2 (by decide : (46#32 : Ch) ≠ 0#32) (by decide : (46#32 : Ch) ≠ 0#32), pre2 (by decide : (61#32 : Ch) ≠ 0#32) (by decide : (61#32 : Ch) ≠ 0#32), hd], by simp [List.cons_prefix_cons, at0_cons,pre1 (by decide : (46#32 : Ch) ≠ 0#32), at0_cons,pre1 (by decide : (61#32 : Ch) ≠ 0#32), pre2 (by decide : (46#32 : Ch) ≠ 0#32) (by decide : (46#32 : Ch) ≠ 0#32), pre2 (by decide : (61#32 : Ch) ≠ 0#32) (by decide : (61#32 : Ch) ≠ 0#32), hd]⟩⟩
  replace H := h
  clear h
  cases H

/-- If the cases for punctuation do not apply, no operator begins here. -/
theorem lexSym_none {c : Ch} {s : List Ch} (h : lexSym c s = none) : ∀ sp vs, (sp, vs) ∈ operators → ¬ sp <+: c :: s := by
  have hheads : ∀ x ∈ operators, x.1.headD 0#32 ∈ ([40#32, 41#32, 91#32, 93#32, 123#32, 125#32, 46#32, 59#32, 44#32, 63#32, 58#32, 36#32, 60#32, 62#32, 43#32, 45#32, 42#32, 47#32, 37#32, 38#32, 124#32, 126#32, 94#32, 33#32, 61#32] : List Ch) := by decide +kernel
  have hc : c ∉ ([40#32, 41#32, 91#32, 93#32, 123#32, 125#32, 46#32, 59#32, 44#32, 63#32, 58#32, 36#32, 60#32, 62#32, 43#32, 45#32, 42#32, 47#32, 37#32, 38#32, 124#32, 126#32, 94#32, 33#32, 61#32] : List Ch) := by
    intro hm
    simp only [List.mem_cons, List.not_mem_nil, or_false] at hm
    unfold lexSym at h
    dsimp only at h
    rcases ite_cases h with ⟨n40, h⟩ | ⟨n40, h⟩
    · repeat (first | cases h | (rcases ite_cases h with ⟨_, h⟩ | ⟨_, h⟩))
    rcases ite_cases h with ⟨n41, h⟩ | ⟨n41, h⟩
    · repeat (first | cases h | (rcases ite_cases h with ⟨_, h⟩ | ⟨_, h⟩))
    rcases ite_cases h with ⟨n91, h⟩ | ⟨n91, h⟩
    · repeat (first | cases h | (rcases ite_cases h with ⟨_, h⟩ | ⟨_, h⟩))
    rcases ite_cases h with ⟨n93, h⟩ | ⟨n93, h⟩
    · repeat (first | cases h | (rcases ite_cases h with ⟨_, h⟩ | ⟨_, h⟩))
    rcases ite_cases h with ⟨n123, h⟩ | ⟨n123, h⟩
    · repeat (first | cases h | (rcases ite_cases h with ⟨_, h⟩ | ⟨_, h⟩))
    rcases ite_cases h with ⟨n125, h⟩ | ⟨n125, h⟩
    · repeat (first | cases h | (rcases ite_cases h with ⟨_, h⟩ | ⟨_, h⟩))
    rcases ite_cases h with ⟨n46, h⟩ | ⟨n46, h⟩
    · repeat (first | cases h | (rcases ite_cases h with ⟨_, h⟩ | ⟨_, h⟩))
    rcases ite_cases h with ⟨n59, h⟩ | ⟨n59, h⟩
    · repeat (first | cases h | (rcases ite_cases h with ⟨_, h⟩ | ⟨_, h⟩))
    rcases ite_cases h with ⟨n44, h⟩ | ⟨n44, h⟩
    · repeat (first | cases h | (rcases ite_cases h with ⟨_, h⟩ | ⟨_, h⟩))
    rcases ite_cases h with ⟨n63, h⟩ | ⟨n63, h⟩
    · repeat (first | cases h | (rcases ite_cases h with ⟨_, h⟩ | ⟨_, h⟩))
    rcases ite_cases h with ⟨n58, h⟩ | ⟨n58, h⟩
    · repeat (first | cases h | (rcases ite_cases h with ⟨_, h⟩ | ⟨_, h⟩))
    rcases ite_cases h with ⟨n36, h⟩ | ⟨n36, h⟩
    · repeat (first | cases h | (rcases ite_cases h with ⟨_, h⟩ | ⟨_, h⟩))
    rcases ite_cases h with ⟨n60, h⟩ | ⟨n60, h⟩
    · repeat (first | cases h | (rcases ite_cases h with ⟨_, h⟩ | ⟨_, h⟩))
    rcases ite_cases h with ⟨n62, h⟩ | ⟨n62, h⟩
    · repeat (first | cases h | (rcases ite_cases h with ⟨_, h⟩ | ⟨_, h⟩))
    rcases ite_cases h with ⟨n43, h⟩ | ⟨n43, h⟩
    · repeat (first | cases h | (rcases ite_cases h with ⟨_, h⟩ | ⟨_, h⟩))
    rcases ite_cases h with ⟨n45, h⟩ | ⟨n45, h⟩
    · repeat (first | cases h | (rcases ite_cases h with ⟨_, h⟩ | ⟨_, h⟩))
    rcases ite_cases h with ⟨n42, h⟩ | ⟨n42, h⟩
    · repeat (first | cases h | (rcases ite_cases h with ⟨_, h⟩ | ⟨_, h⟩))
    rcases ite_cases h with ⟨n47, h⟩ | ⟨n47, h⟩
    · repeat (first | cases h | (rcases ite_cases h with ⟨_, h⟩ | ⟨_, h⟩))
    rcases ite_cases h with ⟨n37, h⟩ | ⟨n37, h⟩
    · repeat (first | cases h | (rcases ite_cases h with ⟨_, h⟩ | ⟨_, h⟩))
    rcases ite_cases h with ⟨n38, h⟩ | ⟨n38, h⟩
    · repeat (first | cases h | (rcases ite_cases h with ⟨_, h⟩ | ⟨_, h⟩))
    rcases ite_cases h with ⟨n124, h⟩ | ⟨n124, h⟩
    · repeat (first | cases h | (rcases ite_cases h with ⟨_, h⟩ | ⟨_, h⟩))
    rcases ite_cases h with ⟨n126, h⟩ | ⟨n126, h⟩
    · repeat (first | cases h | (rcases ite_cases h with ⟨_, h⟩ | ⟨_, h⟩))
    rcases ite_cases h with ⟨n94, h⟩ | ⟨n94, h⟩
    · repeat (first | cases h | (rcases ite_cases h with ⟨_, h⟩ | ⟨_, h⟩))
    rcases ite_cases h with ⟨n33, h⟩ | ⟨n33, h⟩
    · repeat (first | cases h | (rcases ite_cases h with ⟨_, h⟩ | ⟨_, h⟩))
    rcases ite_cases h with ⟨n61, h⟩ | ⟨n61, h⟩
    · repeat (first | cases h | (rcases ite_cases h with ⟨_, h⟩ | ⟨_, h⟩))
    simp_all
  intro sp vs hm hp
  have hne := operators_nonempty _ hm
  cases sp with
  | nil => exact hne rfl
  | cons d r =>
    rw [List.cons_prefix_cons] at hp
    rw [← hp.1] at hc
    exact hc (hheads _ hm)

theorem lexSym_len {c : Ch} {s : List Ch} {vs : List Sym} {k : Nat} (h : lexSym c s = some (vs, k)) : k ≤ s.length := by
  obtain ⟨sp, e, _, hp, _⟩ := lexSym_longest h
  have := hp.length_le
  simp only [List.length_cons] at this
  omega
end Verif.Lex
