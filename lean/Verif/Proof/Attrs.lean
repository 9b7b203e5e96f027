import Verif.Spec.Attrs

/-! Lemmas about the commit of attributes. -/

namespace Verif.Attrs

/-- What one attribute adds to the state. -/
structure Adds (P : Program) (a : Attr) (s s1 : St) : Prop where
  entry : s1.entry = match s.entry, entries [a] with
    | some m, _ => some m
    | none, m :: _ => some m
    | none, [] => none
  errs : ∀ e m, (e, m) ∈ s1.errors ↔ (e, m) ∈ s.errors ∨
    (a = ⟨.entryPoint, .method m⟩ ∧ (e ∈ validate (P.methods m) ∨ (e = .duplicated ∧ s.entry.isSome))) ∨
    (a = ⟨.internal, .method m⟩ ∧ e ∈ validateExtern (P.methods m))
  inl : ∀ m, m ∈ s1.inlined ↔ m ∈ s.inlined ∨ a = ⟨.inline, .method m⟩

theorem commit_adds {P : Program} {s s1 : St} {a : Attr} (h : commit P s a = some s1) : Adds P a s s1 := by
  obtain ⟨k, o⟩ := a
  cases k <;> cases o <;> simp only [commit, Option.some.injEq] at h
  case internal.type t =>
    split at h
    · cases h
      constructor
      · cases s.entry <;> simp [entries]
      · simp
      · simp
    · cases h
  case internal.method m =>
    subst h
    constructor
    · cases s.entry <;> simp [entries]
    · intro e m'
      simp only [List.mem_append, List.mem_map, Prod.mk.injEq, Attr.mk.injEq, Owner.method.injEq, reduceCtorEq, false_and, false_or, true_and]
      constructor
      · rintro (h | ⟨x, hx, rfl, rfl⟩)
        · exact .inl h
        · exact .inr ⟨rfl, hx⟩
      · rintro (h | ⟨rfl, hx⟩)
        · exact .inl h
        · exact .inr ⟨_, hx, rfl, rfl⟩
    · simp
  case inline.method m =>
    subst h
    constructor
    · cases s.entry <;> simp [entries]
    · simp
    · intro m'; simp [eq_comm]
  case entryPoint.method m =>
    cases he : s.entry with
    | none =>
      simp only [he, Option.isSome_none, Bool.false_eq_true, if_false, Option.some.injEq] at h
      subst h
      constructor
      · simp [he, entries]
      · intro e m'
        simp only [he, List.mem_append, List.mem_map, Prod.mk.injEq, Attr.mk.injEq, Owner.method.injEq, reduceCtorEq, false_and, true_and,
          Option.isSome_none, Bool.false_eq_true, and_false, or_false]
        constructor
        · rintro (h | ⟨x, hx, rfl, rfl⟩)
          · exact .inl h
          · exact .inr ⟨rfl, hx⟩
        · rintro (h | ⟨rfl, hx⟩)
          · exact .inl h
          · exact .inr ⟨_, hx, rfl, rfl⟩
      · simp
    | some n =>
      simp only [he, Option.isSome_some, if_true, Option.some.injEq] at h
      subst h
      constructor
      · simp [he]
      · intro e m'
        simp only [he, List.mem_append, List.mem_map, List.mem_singleton, Prod.mk.injEq, Attr.mk.injEq, Owner.method.injEq, reduceCtorEq,
          false_and, true_and, Option.isSome_some, and_true, or_false]
        constructor
        · rintro ((h | ⟨x, hx, rfl, rfl⟩) | ⟨rfl, rfl⟩)
          · exact .inl h
          · exact .inr ⟨rfl, .inl hx⟩
          · exact .inr ⟨rfl, .inr rfl⟩
        · rintro (h | ⟨rfl, hx | hx⟩)
          · exact .inl (.inl h)
          · exact .inl (.inr ⟨_, hx, rfl, rfl⟩)
          · exact .inr ⟨hx, rfl⟩
      · simp
  all_goals
    subst h
    constructor
    · cases s.entry <;> simp [entries]
    · simp
    · simp

theorem entries_cons (a : Attr) (as : List Attr) : entries (a :: as) = entries [a] ++ entries as := by
  unfold entries; rw [← List.filterMap_append]; rfl

theorem mem_entries {as : List Attr} {m : Nat} : m ∈ entries as ↔ (⟨.entryPoint, .method m⟩ : Attr) ∈ as := by
  unfold entries
  rw [List.mem_filterMap]
  constructor
  · rintro ⟨⟨k, o⟩, h1, h2⟩
    cases k <;> cases o <;> simp at h2
    subst h2; exact h1
  · intro h; exact ⟨_, h, rfl⟩

/-- What all attributes add. -/
structure AddsAll (P : Program) (as : List Attr) (s s1 : St) : Prop where
  entry : s1.entry = match s.entry with
    | some m => some m
    | none => (entries as).head?
  proto : ∀ e m, e ≠ .duplicated → ((e, m) ∈ s1.errors ↔ (e, m) ∈ s.errors ∨
    (⟨.entryPoint, .method m⟩ ∈ as ∧ e ∈ validate (P.methods m)) ∨ (⟨.internal, .method m⟩ ∈ as ∧ e ∈ validateExtern (P.methods m)))
  dup : ∀ m, (.duplicated, m) ∈ s1.errors ↔ (.duplicated, m) ∈ s.errors ∨
    m ∈ (match s.entry with | some _ => entries as | none => (entries as).tail)
  inl : ∀ m, m ∈ s1.inlined ↔ m ∈ s.inlined ∨ ⟨.inline, .method m⟩ ∈ as

theorem no_dup_validate (m : Method) : Err.duplicated ∉ validate m ∧ Err.duplicated ∉ validateExtern m := by
  constructor
  · unfold validate
    simp only [List.mem_append]
    rintro ((((h | h) | h) | h) | h) <;> split at h <;> simp at h
  · unfold validateExtern
    simp only [List.mem_append]
    rintro ((h | h) | h) <;> split at h <;> simp at h

theorem commitAll_adds (P : Program) : ∀ (as : List Attr) (s s1 : St), commitAll P as s = some s1 → AddsAll P as s s1
  | [], s, s1, h => by
    cases h
    constructor
    · cases s.entry <;> simp [entries]
    · simp
    · intro m; cases s.entry <;> simp [entries]
    · simp
  | a :: as, s, s1, h => by
    unfold commitAll at h
    cases hc : commit P s a with
    | none => rw [hc] at h; cases h
    | some s2 =>
      rw [hc] at h
      have h1 := commit_adds hc
      have h2 := commitAll_adds P as s2 s1 h
      have nd := fun m => no_dup_validate (P.methods m)
      constructor
      · rw [h2.entry, h1.entry, entries_cons a as]
        cases s.entry with
        | some m => rfl
        | none => cases entries [a] <;> rfl
      · intro e m he
        rw [h2.proto e m he, h1.errs e m]
        simp only [he, false_and, or_false, List.mem_cons]
        constructor
        · rintro ((h | ⟨rfl, h⟩ | ⟨rfl, h⟩) | ⟨h, h'⟩ | ⟨h, h'⟩)
          · exact .inl h
          · exact .inr (.inl ⟨.inl rfl, h⟩)
          · exact .inr (.inr ⟨.inl rfl, h⟩)
          · exact .inr (.inl ⟨.inr h, h'⟩)
          · exact .inr (.inr ⟨.inr h, h'⟩)
        · rintro (h | ⟨rfl | h, h'⟩ | ⟨rfl | h, h'⟩)
          · exact .inl (.inl h)
          · exact .inl (.inr (.inl ⟨rfl, h'⟩))
          · exact .inr (.inl ⟨h, h'⟩)
          · exact .inl (.inr (.inr ⟨rfl, h'⟩))
          · exact .inr (.inr ⟨h, h'⟩)
      · intro m
        rw [h2.dup m, h1.errs _ m, h1.entry, entries_cons a as]
        simp only [(nd m).1, (nd m).2, and_false, or_false, false_or, true_and]
        have ha : a = ⟨.entryPoint, .method m⟩ ↔ m ∈ entries [a] := by rw [mem_entries, List.mem_singleton, eq_comm]
        rw [ha]
        cases s.entry with
        | some n => simp [or_assoc]
        | none =>
          have hl : (entries [a]).length ≤ 1 := by
            unfold entries; exact Nat.le_trans (List.length_filterMap_le ..) (by simp)
          match hh : entries [a] with
          | [] => simp
          | [x] => simp
          | _ :: _ :: _ => rw [hh] at hl; simp at hl
      · intro m
        rw [h2.inl m, h1.inl m]
        simp [or_assoc, eq_comm]

/-- Nothing is thrown when the types marked `[Internal]` are known. -/
theorem commitAll_some (P : Program) : ∀ (as : List Attr) (s : St), Known P as → ∃ s1, commitAll P as s = some s1
  | [], s, _ => ⟨s, rfl⟩
  | a :: as, s, h => by
    have : ∃ s2, commit P s a = some s2 := by
      obtain ⟨k, o⟩ := a
      cases k <;> cases o <;> simp only [commit, Option.some.injEq, exists_eq']
      case internal.type t => rw [if_pos (h t (by simp))]; exact ⟨_, rfl⟩
      case entryPoint.method m => split <;> exact ⟨_, rfl⟩
    obtain ⟨s2, h2⟩ := this
    obtain ⟨s1, h1⟩ := commitAll_some P as s2 (fun t ht => h t (List.mem_cons_of_mem _ ht))
    exact ⟨s1, by simp only [commitAll, h2, h1]⟩

theorem commitAll_known (P : Program) : ∀ (as : List Attr) (s s1 : St), commitAll P as s = some s1 → Known P as
  | [], _, _, _ => by intro t ht; cases ht
  | a :: as, s, s1, h => by
    unfold commitAll at h
    cases hc : commit P s a with
    | none => rw [hc] at h; cases h
    | some s2 =>
      rw [hc] at h
      intro t ht
      rcases List.mem_cons.1 ht with rfl | ht
      · simp only [commit] at hc
        split at hc
        · assumption
        · cases hc
      · exact commitAll_known P as s2 s1 h t ht

/-- The types marked `[Internal]`, with their names. -/
def internals (P : Program) (as : List Attr) : List (String × Nat) :=
  as.filterMap fun a => match a.kind, a.owner with
    | .internal, .type t => some (P.identity t, t)
    | _, _ => none

/-- The types bound to internal implementations. -/
theorem commitAll_bound (P : Program) : ∀ (as : List Attr) (s s1 : St), commitAll P as s = some s1 →
    s1.bound = (internals P as).reverse ++ s.bound
  | [], s, s1, h => by cases h; rfl
  | a :: as, s, s1, h => by
    unfold commitAll at h
    cases hc : commit P s a with
    | none => rw [hc] at h; cases h
    | some s2 =>
      rw [hc] at h
      rw [commitAll_bound P as s2 s1 h]
      obtain ⟨k, o⟩ := a
      cases k <;> cases o <;> simp only [commit, Option.some.injEq] at hc
      case internal.type t =>
        split at hc
        · cases hc; simp [internals]
        · cases hc
      case entryPoint.method m =>
        split at hc <;> cases hc <;> simp [internals]
      all_goals subst hc; simp [internals]

theorem notAllowed_nil (d : Decor) : notAllowed d = [] ↔ Plain d := by
  obtain ⟨a, b1, b2, b3, b4, b5, b6, b7, b8, b9⟩ := d
  unfold notAllowed Plain
  cases b2 <;> cases b3 <;> cases b4 <;> cases b5 <;> cases b6 <;> cases b7 <;> cases b8 <;> simp

end Verif.Attrs
