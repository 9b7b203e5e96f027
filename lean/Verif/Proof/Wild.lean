import Verif.Spec.Wild

/-! Helper lemmas about filters. -/

namespace Verif.Wild

open Spec
open Verif.Paths (Str slash dot)

/-- What a character of a filter becomes. -/
def itemOf (c : Nat) : Item :=
  if c = star then .many .any
  else if c = mark then .one .any
  else .one (.lit c)

def rest (p : Str) : Str := p.flatMap piece ++ [dollar]

theorem rest_cons (c : Nat) (p : Str) : rest (c :: p) = piece c ++ rest p := by
  simp [rest]

theorem tame_tail {c p} (h : Tame (c :: p)) : Tame p := by
  unfold Tame at *
  simp only [List.mem_cons, not_or] at h
  exact ⟨h.1.2, h.2.1.2, h.2.2.1.2, h.2.2.2.2⟩

theorem tame_head {c p} (h : Tame (c :: p)) : c ≠ plus ∧ c ≠ caret ∧ c ≠ dollar ∧ c ≠ bar := by
  unfold Tame at *
  simp only [List.mem_cons, not_or] at h
  exact ⟨fun e => h.1.1 e.symm, fun e => h.2.1.1 e.symm, fun e => h.2.2.1.1 e.symm,
    fun e => h.2.2.2.1 e.symm⟩

theorem rest_head {p : Str} (h : Tame p) : ∃ c cs, rest p = c :: cs ∧ c ≠ star ∧ c ≠ plus := by
  cases p with
  | nil => exact ⟨dollar, [], rfl, by decide, by decide⟩
  | cons c p =>
    rw [rest_cons]
    unfold piece
    by_cases h1 : c ∈ escaped
    · rw [if_pos h1]; exact ⟨backslash, c :: rest p, rfl, by decide, by decide⟩
    · rw [if_neg h1]
      by_cases h2 : c = star
      · rw [if_pos h2]; exact ⟨dot, star :: mark :: rest p, rfl, by decide, by decide⟩
      · rw [if_neg h2]
        by_cases h3 : c = mark
        · rw [if_pos h3]; exact ⟨dot, rest p, rfl, by decide, by decide⟩
        · rw [if_neg h3]; exact ⟨c, rest p, rfl, h2, (tame_head h).1⟩

theorem quantified_rest (a : Atom) {p : Str} (h : Tame p) : quantified a (rest p) = (.one a, 0) := by
  obtain ⟨c, cs, hr, h1, h2⟩ := rest_head h
  rw [hr]
  cases cs with
  | nil => simp [quantified, h1, h2]
  | cons d cs => simp [quantified, h1, h2]

theorem parse_rest : ∀ p : Str, Tame p → parse 0 (rest p) = some [p.map itemOf ++ [.last]] := by
  intro p
  induction p with
  | nil => intro _; decide
  | cons c p ih =>
    intro h
    have ht := tame_tail h
    have hh := tame_head h
    have hi := ih ht
    rw [rest_cons]
    unfold piece
    by_cases h1 : c ∈ escaped
    · have hs : c ≠ star := by rintro rfl; revert h1; decide
      have hm : c ≠ mark := by rintro rfl; revert h1; decide
      rw [if_pos h1]
      have hi1 : itemOf c = .one (.lit c) := by simp [itemOf, hs, hm]
      show parse 0 (backslash :: c :: rest p) = _
      rw [parse.eq_def]
      simp only
      rw [if_neg (by decide), if_neg (by decide), if_neg (by decide), if_pos trivial,
        quantified_rest _ ht]
      simp only
      rw [parse.eq_def]
      simp only
      rw [hi]
      simp [hi1]
    · rw [if_neg h1]
      by_cases h2 : c = star
      · rw [if_pos h2]
        have hi1 : itemOf c = .many .any := by simp [itemOf, h2]
        show parse 0 (dot :: star :: mark :: rest p) = _
        rw [parse.eq_def]
        simp only
        rw [if_neg (by decide), if_neg (by decide), if_neg (by decide), if_neg (by decide),
          if_pos trivial]
        have hq : quantified .any (star :: mark :: rest p) = (.many .any, 2) := by
          simp [quantified]
        rw [hq]
        simp only
        rw [parse.eq_def]
        simp only
        rw [parse.eq_def]
        simp only
        rw [hi]
        simp [hi1]
      · rw [if_neg h2]
        by_cases h3 : c = mark
        · rw [if_pos h3]
          have hi1 : itemOf c = .one .any := by rw [itemOf, if_neg h2, if_pos h3]
          show parse 0 (dot :: rest p) = _
          rw [parse.eq_def]
          simp only
          rw [if_neg (by decide), if_neg (by decide), if_neg (by decide), if_neg (by decide),
            if_pos trivial, quantified_rest _ ht]
          simp only
          rw [hi]
          simp [hi1]
        · rw [if_neg h3]
          have hi1 : itemOf c = .one (.lit c) := by simp [itemOf, h2, h3]
          have hb : c ≠ backslash := fun e => h1 (by rw [e]; decide)
          have hd : c ≠ dot := fun e => h1 (by rw [e]; decide)
          have hsp : c ∉ special := by
            intro hm
            unfold special at hm
            unfold escaped at h1
            simp only [List.mem_cons, List.not_mem_nil, or_false, not_or] at hm h1
            rcases hm with h | h | h | h | h | h | h | h | h
            · exact h1.2.2.2.2.2.1 h
            · exact h1.2.2.2.2.2.2.1 h
            · exact h1.2.2.1 h
            · exact h1.2.2.2.1 h
            · exact h1.2.2.2.2.2.2.2.1 h
            · exact h1.2.2.2.2.2.2.2.2 h
            · exact h2 h
            · exact hh.1 h
            · exact h3 h
          show parse 0 (c :: rest p) = _
          rw [parse.eq_def]
          simp only
          rw [if_neg hh.2.2.2, if_neg hh.2.1, if_neg hh.2.2.1, if_neg hb, if_neg hd, if_neg hsp,
            quantified_rest _ ht]
          simp only
          rw [hi]
          simp [hi1]

theorem parse_filter {p : Str} (h : Tame p) :
    parse 0 (toRegex p) = some [.first :: (p.map itemOf ++ [.last])] := by
  show parse 0 (caret :: rest p) = _
  rw [parse.eq_def]
  simp only
  rw [if_neg (by decide), if_pos trivial, parse_rest p h]
  simp

theorem oneLine_tail {c s} (h : OneLine (c :: s)) : OneLine s := by
  unfold OneLine at *
  simp only [List.mem_cons, not_or] at h
  exact ⟨h.1.2, h.2.2⟩

theorem any_ok {c s} (h : OneLine (c :: s)) : Atom.any.ok c = true := by
  unfold OneLine at h
  simp only [List.mem_cons, not_or] at h
  simp only [Atom.ok, Bool.and_eq_true, bne_iff_ne, ne_eq]
  exact ⟨fun e => h.1.1 e.symm, fun e => h.2.1 e.symm⟩

theorem fits_star_nil {p : Str} (h : Fits (star :: p) []) : Fits p [] := by
  cases h with
  | none h => exact h

theorem fits_star_cons {p : Str} {c s} (h : Fits (star :: p) (c :: s)) :
    Fits p (c :: s) ∨ Fits (star :: p) s := by
  cases h with
  | none h => exact .inl h
  | some h => exact .inr h
  | same h => exact absurd rfl h

theorem run_fits : ∀ (p : Str) (b : Bool) (s : Str), OneLine s →
    (run (p.map itemOf ++ [.last]) b s = true ↔ Fits p s) := by
  intro p
  induction p with
  | nil =>
    intro b s _
    simp only [List.map_nil, List.nil_append, run, Bool.and_true, List.isEmpty_iff]
    constructor
    · rintro rfl; exact .done
    · intro h; cases h; rfl
  | cons c p ih =>
    intro b s hs
    simp only [List.map_cons, List.cons_append]
    rw [show itemOf c = if c = star then .many .any
      else if c = mark then .one .any else .one (.lit c) from rfl]
    by_cases h2 : c = star
    · subst h2
      rw [if_pos rfl]
      simp only [run]
      induction s generalizing b with
      | nil =>
        simp only [runMany]
        rw [ih b [] hs]
        exact ⟨.none, fits_star_nil⟩
      | cons d s ihs =>
        simp only [runMany, Bool.or_eq_true, Bool.and_eq_true]
        rw [ih b _ hs, any_ok hs, ihs false (oneLine_tail hs)]
        constructor
        · rintro (h | ⟨_, h⟩)
          · exact .none h
          · exact .some h
        · intro h
          rcases fits_star_cons h with h | h
          · exact .inl h
          · exact .inr ⟨rfl, h⟩
    · rw [if_neg h2]
      by_cases h3 : c = mark
      · subst h3
        rw [if_pos rfl]
        cases s with
        | nil =>
          simp only [run]
          constructor
          · intro h; cases h
          · intro h; cases h
        | cons d s =>
          simp only [run, Bool.and_eq_true]
          rw [ih false s (oneLine_tail hs), any_ok hs]
          constructor
          · intro h; exact .one h.2
          · intro h
            cases h with
            | one h => exact ⟨rfl, h⟩
            | same _ h => exact absurd rfl h
      · rw [if_neg h3]
        cases s with
        | nil =>
          simp only [run]
          constructor
          · intro h; cases h
          · intro h
            cases h
            exact absurd rfl h2
        | cons d s =>
          simp only [run, Bool.and_eq_true, Atom.ok, beq_iff_eq]
          rw [ih false s (oneLine_tail hs)]
          constructor
          · rintro ⟨rfl, h⟩; exact .same h2 h3 h
          · intro h
            cases h with
            | none => exact absurd rfl h2
            | some => exact absurd rfl h2
            | one => exact absurd rfl h3
            | same _ _ h => exact ⟨rfl, h⟩

theorem search_late (is : List Item) (s : Str) : search [.first :: is] false s = false := by
  induction s with
  | nil => simp [search, run]
  | cons c s ih => simp [search, run, ih]

theorem search_first (is : List Item) (s : Str) : search [.first :: is] true s = run is true s := by
  cases s with
  | nil => simp [search, run]
  | cons c s => simp [search, run, search_late]

theorem splitLast_some : ∀ {s d f : Str}, splitLast s = some (d, f) →
    s = d ++ slash :: f ∧ slash ∉ f := by
  intro s
  induction s with
  | nil => intro d f h; simp [splitLast] at h
  | cons c cs ih =>
    intro d f h
    unfold splitLast at h
    cases hs : splitLast cs with
    | some r =>
      obtain ⟨d', f'⟩ := r
      rw [hs] at h
      simp at h
      obtain ⟨h1, h2⟩ := h
      subst h1; subst h2
      have := ih hs
      exact ⟨by rw [this.1]; rfl, this.2⟩
    | none =>
      rw [hs] at h
      simp only at h
      split at h
      · next hc =>
        simp at h
        obtain ⟨rfl, rfl⟩ := h
        refine ⟨by rw [hc]; rfl, ?_⟩
        clear ih
        intro hm
        have : ∀ t : Str, slash ∈ t → splitLast t ≠ none := by
          intro t
          induction t with
          | nil => intro h; simp at h
          | cons a t iht =>
            intro h
            unfold splitLast
            cases ht : splitLast t with
            | some r => simp
            | none =>
              rcases List.mem_cons.mp h with rfl | h
              · simp
              · exact absurd ht (iht h)
        exact this _ hm hs
      · simp at h

theorem splitLast_join (d f : Str) (hf : slash ∉ f) : splitLast (d ++ slash :: f) = some (d, f) := by
  have hn : splitLast f = none := by
    cases h : splitLast f with
    | none => rfl
    | some r =>
      obtain ⟨a, b⟩ := r
      have := (splitLast_some h).1
      exact absurd (by rw [this]; simp) hf
  induction d with
  | nil => simp [splitLast, hn]
  | cons c d ih => simp only [List.cons_append, splitLast, ih]

end Verif.Wild
