import Verif.Model.Block
import Verif.Spec.Block

/-! Helper lemmas for protected blocks. -/

namespace Verif.Block

/-- A block as a clause. -/
def Blk.clause (b : Blk) : Clause :=
  match b.type with
  | .catch_ => .catch_ b.rel b.entry
  | .finally_ => .finally_ b.start b.entry

/-- A block ends at or before those behind it that share a command with it, and they include it. -/
def Nested (bs : List Blk) : Prop :=
  bs.Pairwise (fun a b => ∀ p, a.has p = true → b.has p = true → b.includes a = true)

theorem has_iff (b : Blk) (p : Nat) : b.has p = true ↔ b.start ≤ p ∧ p < b.end_ := by simp [Blk.has]

theorem includes_iff (b a : Blk) : b.includes a = true ↔ b.start ≤ a.start ∧ a.end_ ≤ b.end_ := by
  simp [Blk.includes]

theorem has_of_includes {a b : Blk} {p : Nat} (hi : b.includes a = true) (ha : a.has p = true) :
    b.has p = true := by
  rw [has_iff] at *; rw [includes_iff] at hi; omega

theorem parent_filter (a : Blk) (p : Nat) (ha : a.has p = true) : ∀ bs : List Blk,
    (∀ b ∈ bs, b.has p = true → b.includes a = true) →
    (parent a bs).filter (·.has p) = bs.filter (·.has p) ∧
      (parent a bs = [] ∨ ∃ b rest, parent a bs = b :: rest ∧ b.has p = true) ∧
      (parent a bs).length ≤ bs.length ∧ (parent a bs).Sublist bs
  | [], _ => by simp [parent]
  | b :: rest, h => by
    rw [parent]
    by_cases hb : b.includes a = true
    · rw [if_pos hb]
      exact ⟨rfl, Or.inr ⟨b, rest, rfl, has_of_includes hb ha⟩, Nat.le_refl _, List.Sublist.refl _⟩
    · rw [if_neg hb]
      have hn : b.has p = false := by
        cases hx : b.has p with
        | false => rfl
        | true => exact absurd (h b (by simp) hx) hb
      have ih := parent_filter a p ha rest (fun c hc => h c (List.mem_cons_of_mem _ hc))
      refine ⟨?_, ih.2.1, ?_, ih.2.2.2.trans (List.sublist_cons_self _ _)⟩
      · rw [ih.1, List.filter_cons, hn]; rfl
      · have := ih.2.2.1; simp only [List.length_cons]; omega

theorem chain_filter (p : Nat) : ∀ (fuel : Nat) (bs : List Blk), bs.length ≤ fuel → Nested bs →
    (bs = [] ∨ ∃ b rest, bs = b :: rest ∧ b.has p = true) →
    chain fuel bs = bs.filter (·.has p)
  | 0, bs, hf, _, _ => by
    cases bs with
    | nil => rfl
    | cons b rest => simp at hf
  | fuel + 1, [], _, _, _ => rfl
  | fuel + 1, b :: rest, hf, hn, hb => by
    have hbp : b.has p = true := by
      rcases hb with hb | ⟨_, _, e, h⟩
      · cases hb
      · cases e; exact h
    have hn' := List.pairwise_cons.mp hn
    have hp := parent_filter b p hbp rest (fun c hc => hn'.1 c hc p hbp)
    rw [chain, List.filter_cons, if_pos hbp]
    rw [chain_filter p fuel (parent b rest) (by have := hp.2.2.1; simp only [List.length_cons] at hf; omega)
      (List.Pairwise.sublist hp.2.2.2 hn'.2) hp.2.1, hp.1]

theorem firstBlock_spec (m : Blk → Bool) (p : Nat) : ∀ bs : List Blk, Nested bs →
    match firstBlock m p bs with
    | [] => bs.filter (fun b => m b && b.has p) = []
    | b :: rest => b.has p = true ∧ m b = true ∧ Nested (b :: rest) ∧
        bs.filter (fun b => m b && b.has p) = (b :: rest).filter (fun b => m b && b.has p)
  | [], _ => by simp [firstBlock]
  | b :: rest, hn => by
    rw [firstBlock]
    by_cases h : (m b && b.has p) = true
    · rw [if_pos h]
      have h' : m b = true ∧ b.has p = true := by simpa using h
      exact ⟨h'.2, h'.1, hn, rfl⟩
    · rw [if_neg h]
      have ih := firstBlock_spec m p rest (List.pairwise_cons.mp hn).2
      rw [List.filter_cons, if_neg h]
      exact ih

/-- What `find_block` gives. -/
theorem findBlock_eq (m : Blk → Bool) (p : Nat) (bs : List Blk) (hn : Nested bs) :
    findBlock m p bs = if bs.filter (fun b => m b && b.has p) = [] then none
      else some (bs.filter (fun b => m b && b.has p)) := by
  have h := firstBlock_spec m p bs hn
  rw [findBlock]
  cases e : firstBlock m p bs with
  | nil => rw [e] at h; simp only at h; rw [if_pos h]
  | cons b rest =>
    rw [e] at h; simp only at h
    obtain ⟨hb, hm, hn', hf⟩ := h
    have hn'' := List.pairwise_cons.mp hn'
    have hp := parent_filter b p hb rest (fun c hc => hn''.1 c hc p hb)
    have hx : bs.filter (fun b => m b && b.has p)
        = b :: rest.filter (fun b => m b && b.has p) := by
      rw [hf, List.filter_cons, hm, hb]; rfl
    rw [hx, if_neg (by simp)]
    simp only
    rw [chain_filter p rest.length (parent b rest) hp.2.2.1 (List.Pairwise.sublist hp.2.2.2 hn''.2) hp.2.1,
      hp.1, List.filter_filter]

/-! ## Compilation -/

mutual
theorem emit_pos : ∀ (s : Stmt) (pos : Nat), (emit s pos).1 = pos + size s
  | .code n, pos => by simp only [emit, size]
  | .seq a b, pos => by simp only [emit, size, emit_pos]; omega
  | .try_ body passes catches fin, pos => by
    simp only [emit, size, emit_pos body, emitCatches_pos catches, emitFin_pos fin]; omega
theorem emitCatches_pos : ∀ (c : Catches) (a b pos : Nat), (emitCatches a b c pos).1 = pos + sizeCatches c
  | .nil, a, b, pos => by simp only [emitCatches, sizeCatches]; omega
  | .cons t body passes rest, a, b, pos => by
    simp only [emitCatches, sizeCatches, emit_pos body, emitCatches_pos rest]; omega
theorem emitFin_pos : ∀ (f : Fin) (a pos : Nat), (emitFin a pos f).1 = pos + sizeFin f
  | .none, a, pos => by simp only [emitFin, sizeFin]; omega
  | .some body passes, a, pos => by
    simp only [emitFin, sizeFin, emit_pos body]; omega
end

mutual
theorem emit_range : ∀ (s : Stmt) (pos : Nat), ∀ b ∈ (emit s pos).2, pos ≤ b.start ∧ b.end_ ≤ pos + size s
  | .code n, pos => by simp [emit]
  | .seq a b, pos => by
    intro x hx
    simp only [emit, List.mem_append, emit_pos] at hx
    simp only [size]
    rcases hx with hx | hx
    · have := emit_range a pos x hx; omega
    · have := emit_range b _ x hx; omega
  | .try_ body passes catches fin, pos => by
    intro x hx
    simp only [emit, List.mem_append, emit_pos, emitCatches_pos] at hx
    simp only [size]
    rcases hx with hx | hx | hx
    · have := emit_range body pos x hx; omega
    · rcases emitCatches_range catches _ _ _ x hx with ⟨h, h'⟩ | h <;> omega
    · rcases emitFin_range fin _ _ x hx with ⟨h, h'⟩ | h <;> omega
theorem emitCatches_range : ∀ (c : Catches) (s e pos : Nat), ∀ b ∈ (emitCatches s e c pos).2,
    (b.start = s ∧ b.end_ = e) ∨ (pos ≤ b.start ∧ b.end_ ≤ pos + sizeCatches c)
  | .nil, s, e, pos => by simp [emitCatches]
  | .cons t body passes rest, s, e, pos => by
    intro x hx
    simp only [emitCatches, List.mem_cons, List.mem_append, emit_pos] at hx
    simp only [sizeCatches]
    rcases hx with hx | hx | hx
    · subst hx; exact Or.inl ⟨rfl, rfl⟩
    · have := emit_range body _ x hx; omega
    · rcases emitCatches_range rest s e _ x hx with ⟨h, h'⟩ | h <;> omega
theorem emitFin_range : ∀ (f : Fin) (s pos : Nat), ∀ b ∈ (emitFin s pos f).2,
    (b.start = s ∧ b.end_ = pos) ∨ (pos ≤ b.start ∧ b.end_ ≤ pos + sizeFin f)
  | .none, s, pos => by simp [emitFin]
  | .some body passes, s, pos => by
    intro x hx
    simp only [emitFin, List.mem_cons] at hx
    simp only [sizeFin]
    rcases hx with hx | hx
    · subst hx; exact Or.inl ⟨rfl, rfl⟩
    · have := emit_range body _ x hx; omega
end

theorem nested_append {xs ys : List Blk} (hx : Nested xs) (hy : Nested ys)
    (h : ∀ a ∈ xs, ∀ b ∈ ys, ∀ p, a.has p = true → b.has p = true → b.includes a = true) :
    Nested (xs ++ ys) := List.pairwise_append.mpr ⟨hx, hy, h⟩

mutual
theorem emit_nested : ∀ (s : Stmt) (pos : Nat), Nested (emit s pos).2
  | .code n, pos => by simp [emit, Nested]
  | .seq a b, pos => by
    simp only [emit, emit_pos]
    refine nested_append (emit_nested a pos) (emit_nested b _) ?_
    intro x hx y hy p hxp hyp
    have h1 := emit_range a _ x hx
    have h2 := emit_range b _ y hy
    rw [has_iff] at hxp hyp; omega
  | .try_ body passes catches fin, pos => by
    simp only [emit, emit_pos, emitCatches_pos]
    refine nested_append (emit_nested body pos)
      (nested_append (emitCatches_nested catches pos _ _ (by omega)) (emitFin_nested fin pos _) ?_) ?_
    · intro x hx y hy p hxp hyp
      rw [has_iff] at hxp hyp; rw [includes_iff]
      rcases emitCatches_range catches _ _ _ x hx with h1 | h1 <;>
      rcases emitFin_range fin _ _ y hy with h2 | h2 <;> omega
    · intro x hx y hy p hxp hyp
      have h0 := emit_range body _ x hx
      rw [has_iff] at hxp hyp; rw [includes_iff]
      rcases List.mem_append.mp hy with hy | hy
      · rcases emitCatches_range catches _ _ _ y hy with h1 | h1 <;> omega
      · rcases emitFin_range fin _ _ y hy with h1 | h1 <;> omega
theorem emitCatches_nested : ∀ (c : Catches) (s e pos : Nat), e ≤ pos → Nested (emitCatches s e c pos).2
  | .nil, s, e, pos, _ => by simp [emitCatches, Nested]
  | .cons t body passes rest, s, e, pos, hle => by
    simp only [emitCatches, emit_pos]
    have h1 := emit_nested body (pos + 1)
    have h2 := emitCatches_nested rest s e (pos + 1 + size body + passes.toNat) (by omega)
    refine List.pairwise_cons.mpr ⟨?_, nested_append h1 h2 ?_⟩
    · intro y hy p hxp hyp
      rw [has_iff] at hxp hyp; rw [includes_iff]
      simp only at hxp ⊢
      rcases List.mem_append.mp hy with hy | hy
      · have := emit_range body _ y hy; omega
      · rcases emitCatches_range rest _ _ _ y hy with h | h <;> omega
    · intro x hx y hy p hxp hyp
      have h0 := emit_range body _ x hx
      rw [has_iff] at hxp hyp; rw [includes_iff]
      rcases emitCatches_range rest _ _ _ y hy with h | h <;> omega
theorem emitFin_nested : ∀ (f : Fin) (s pos : Nat), Nested (emitFin s pos f).2
  | .none, s, pos => by simp [emitFin, Nested]
  | .some body passes, s, pos => by
    simp only [emitFin]
    refine List.pairwise_cons.mpr ⟨?_, emit_nested body pos⟩
    intro y hy p hxp hyp
    have := emit_range body _ y hy
    rw [has_iff] at hxp hyp
    simp only at hxp
    omega
end

/-- The clauses of the blocks that contain a command. -/
def at_ (bs : List Blk) (p : Nat) : List Clause := (bs.filter (·.has p)).map Blk.clause

theorem at_append (xs ys : List Blk) (p : Nat) : at_ (xs ++ ys) p = at_ xs p ++ at_ ys p := by
  simp [at_]

theorem at_cons (b : Blk) (bs : List Blk) (p : Nat) :
    at_ (b :: bs) p = if b.has p then b.clause :: at_ bs p else at_ bs p := by
  rw [at_, List.filter_cons]
  by_cases h : b.has p = true
  · rw [if_pos h, if_pos h]; rfl
  · rw [if_neg h, if_neg h]; rfl

theorem at_nil {bs : List Blk} {p : Nat} (h : ∀ b ∈ bs, ¬ (b.start ≤ p ∧ p < b.end_)) : at_ bs p = [] := by
  rw [at_, List.filter_eq_nil_iff.mpr]
  · rfl
  · intro b hb hp; exact h b hb ((has_iff b p).mp hp)

theorem emit_out (s : Stmt) (pos p : Nat) (h : p < pos ∨ pos + size s ≤ p) : at_ (emit s pos).2 p = [] := by
  refine at_nil ?_
  intro b hb
  have := emit_range s pos b hb; omega

mutual
theorem emit_guards : ∀ (s : Stmt) (pos p : Nat), pos ≤ p → at_ (emit s pos).2 p = guards s pos p
  | .code n, pos, p, _ => by simp [emit, guards, at_]
  | .seq a b, pos, p, h => by
    simp only [emit, guards, emit_pos, at_append]
    by_cases hp : p < pos + size a
    · rw [if_pos hp, emit_guards a pos p h, emit_out b _ p (Or.inl hp), List.append_nil]
    · rw [if_neg hp, emit_guards b _ p (by omega), emit_out a _ p (Or.inr (by omega)), List.nil_append]
  | .try_ body passes catches fin, pos, p, h => by
    simp only [emit, guards, emit_pos, emitCatches_pos, at_append]
    by_cases hp : p < pos + size body
    · rw [if_pos hp, emit_guards body pos p h, emitCatches_try catches _ _ _ p h hp (by omega),
        emitFin_try fin _ _ p h (by omega)]
    · rw [if_neg hp, emit_out body pos p (Or.inr (by omega)), List.nil_append]
      by_cases hc : p < pos + size body + passes.toNat + sizeCatches catches
      · rw [if_pos hc, emitCatches_guards catches _ _ _ p (by omega), emitFin_try fin _ _ p h hc]
      · rw [if_neg hc, emitFin_guards fin _ _ p (by omega)]
        rw [at_nil (bs := (emitCatches pos (pos + size body) catches (pos + size body + passes.toNat)).2),
          List.nil_append]
        intro b hb
        rcases emitCatches_range catches _ _ _ b hb with h' | h' <;> omega
theorem emitCatches_try : ∀ (c : Catches) (s e pos p : Nat), s ≤ p → p < e → e ≤ pos →
    at_ (emitCatches s e c pos).2 p = catchClauses c pos
  | .nil, s, e, pos, p, _, _, _ => by simp [emitCatches, catchClauses, at_]
  | .cons t body passes rest, s, e, pos, p, h1, h2, h3 => by
    simp only [emitCatches, catchClauses, emit_pos]
    rw [at_cons, if_pos ((has_iff _ _).mpr ⟨h1, h2⟩), at_append, emit_out body _ p (Or.inl (by omega)),
      List.nil_append, emitCatches_try rest s e _ p h1 h2 (by omega)]
    rfl
theorem emitCatches_guards : ∀ (c : Catches) (s e pos p : Nat), e ≤ p →
    at_ (emitCatches s e c pos).2 p = guardsCatches c pos p
  | .nil, s, e, pos, p, _ => by simp [emitCatches, guardsCatches, at_]
  | .cons t body passes rest, s, e, pos, p, h1 => by
    simp only [emitCatches, guardsCatches, emit_pos]
    rw [at_cons, if_neg (by rw [has_iff]; simp only; omega), at_append]
    by_cases hp : p < pos + 1
    · rw [if_pos hp, emit_out body _ p (Or.inl hp), List.nil_append]
      refine at_nil ?_
      intro b hb
      rcases emitCatches_range rest _ _ _ b hb with h' | h' <;> omega
    · rw [if_neg hp]
      by_cases hb : p < pos + 1 + size body
      · rw [if_pos hb, emit_guards body _ p (by omega)]
        rw [at_nil (bs := (emitCatches s e rest _).2), List.append_nil]
        intro b hb
        rcases emitCatches_range rest _ _ _ b hb with h' | h' <;> omega
      · rw [if_neg hb, emit_out body _ p (Or.inr (by omega)), List.nil_append]
        exact emitCatches_guards rest s e _ p h1
theorem emitFin_try : ∀ (f : Fin) (s pos p : Nat), s ≤ p → p < pos →
    at_ (emitFin s pos f).2 p = finClause s f pos
  | .none, s, pos, p, _, _ => by simp [emitFin, finClause, at_]
  | .some body passes, s, pos, p, h1, h2 => by
    simp only [emitFin, finClause]
    rw [at_cons, if_pos ((has_iff _ _).mpr ⟨h1, h2⟩), emit_out body _ p (Or.inl h2)]
    rfl
theorem emitFin_guards : ∀ (f : Fin) (s pos p : Nat), pos ≤ p →
    at_ (emitFin s pos f).2 p = guardsFin f pos p
  | .none, s, pos, p, _ => by simp [emitFin, guardsFin, at_]
  | .some body passes, s, pos, p, h1 => by
    simp only [emitFin, guardsFin]
    rw [at_cons, if_neg (by rw [has_iff]; simp only; omega)]
    exact emit_guards body pos p h1
end

mutual
/-- The `finally` blocks of a statement end where their clause begins. -/
theorem emit_fin_end : ∀ (s : Stmt) (pos : Nat), ∀ b ∈ (emit s pos).2, b.type = .finally_ → b.end_ = b.entry
  | .code n, pos => by simp [emit]
  | .seq a b, pos => by
    intro x hx
    simp only [emit, List.mem_append] at hx
    rcases hx with hx | hx
    · exact emit_fin_end a _ x hx
    · exact emit_fin_end b _ x hx
  | .try_ body passes catches fin, pos => by
    intro x hx
    simp only [emit, List.mem_append] at hx
    rcases hx with hx | hx | hx
    · exact emit_fin_end body _ x hx
    · exact emitCatches_fin_end catches _ _ _ x hx
    · exact emitFin_fin_end fin _ _ x hx
theorem emitCatches_fin_end : ∀ (c : Catches) (s e pos : Nat), ∀ b ∈ (emitCatches s e c pos).2,
    b.type = .finally_ → b.end_ = b.entry
  | .nil, s, e, pos => by simp [emitCatches]
  | .cons t body passes rest, s, e, pos => by
    intro x hx
    simp only [emitCatches, List.mem_cons, List.mem_append] at hx
    rcases hx with hx | hx | hx
    · subst hx; intro h; cases h
    · exact emit_fin_end body _ x hx
    · exact emitCatches_fin_end rest _ _ _ x hx
theorem emitFin_fin_end : ∀ (f : Fin) (s pos : Nat), ∀ b ∈ (emitFin s pos f).2,
    b.type = .finally_ → b.end_ = b.entry
  | .none, s, pos => by simp [emitFin]
  | .some body passes, s, pos => by
    intro x hx
    simp only [emitFin, List.mem_cons] at hx
    rcases hx with hx | hx
    · subst hx; intro _; rfl
    · exact emit_fin_end body _ x hx
end

/-! ## What is run -/

theorem unwind_spec (is_ : Nat → Bool) : ∀ bs : List Blk,
    ((unwind is_ bs).1.map Blk.entry, (unwind is_ bs).2.map Blk.entry)
      = (passed is_ (bs.map Blk.clause), handler is_ (bs.map Blk.clause))
  | [] => rfl
  | b :: rest => by
    have ih := unwind_spec is_ rest
    simp only [Prod.mk.injEq] at ih
    rw [unwind]
    cases ht : b.type with
    | catch_ =>
      have hc : b.clause = .catch_ b.rel b.entry := by rw [Blk.clause, ht]
      cases hi : is_ b.rel with
      | true =>
        simp [passed, handler, hc, Clause.catches, hi, Clause.entry]
      | false =>
        simp only [hi, Bool.false_eq_true, if_false]
        simp only [passed, handler, List.map_cons, hc, List.takeWhile_cons, Clause.catches, hi,
          List.find?_cons, Bool.not_false, if_true, List.filterMap_cons, Clause.finally?] at ih ⊢
        exact Prod.ext ih.1 ih.2
    | finally_ =>
      have hc : b.clause = .finally_ b.start b.entry := by rw [Blk.clause, ht]
      simp only [passed, handler, List.map_cons, hc, List.takeWhile_cons, Clause.catches,
        List.find?_cons, Bool.not_false, if_true, List.filterMap_cons, Clause.finally?] at ih ⊢
      exact Prod.ext (by simp [ih.1]) ih.2

theorem unwind_types (is_ : Nat → Bool) : ∀ bs : List Blk, (∀ b ∈ (unwind is_ bs).1, b ∈ bs ∧ b.type = .finally_)
    ∧ (∀ b, (unwind is_ bs).2 = some b → b ∈ bs ∧ b.type = .catch_)
  | [] => by simp [unwind]
  | b :: rest => by
    have ih := unwind_types is_ rest
    rw [unwind]
    cases ht : b.type with
    | catch_ =>
      simp only
      split
      · refine ⟨by simp, ?_⟩
        intro x hx; cases hx; exact ⟨by simp, ht⟩
      · exact ⟨fun x hx => ⟨List.mem_cons_of_mem _ (ih.1 x hx).1, (ih.1 x hx).2⟩,
          fun x hx => ⟨List.mem_cons_of_mem _ (ih.2 x hx).1, (ih.2 x hx).2⟩⟩
    | finally_ =>
      simp only
      refine ⟨?_, fun x hx => ⟨List.mem_cons_of_mem _ (ih.2 x hx).1, (ih.2 x hx).2⟩⟩
      intro x hx
      rcases List.mem_cons.mp hx with hx | hx
      · subst hx; exact ⟨by simp, ht⟩
      · exact ⟨List.mem_cons_of_mem _ (ih.1 x hx).1, (ih.1 x hx).2⟩

theorem fin_entries (p : Nat) : ∀ bs : List Blk,
    (bs.filter (fun b => decide (b.type = .finally_) && b.has p)).map Blk.entry
      = allFinally ((bs.filter (·.has p)).map Blk.clause)
  | [] => rfl
  | b :: rest => by
    have ih := fin_entries p rest
    simp only [List.filter_cons]
    cases hp : b.has p with
    | false => simp only [Bool.and_false, Bool.false_eq_true, if_false]; exact ih
    | true =>
      simp only [Bool.and_true, if_true, List.map_cons]
      cases ht : b.type with
      | catch_ =>
        have hc : b.clause = .catch_ b.rel b.entry := by rw [Blk.clause, ht]
        simp only [hc, allFinally, List.filterMap_cons, Clause.finally?]
        exact ih
      | finally_ =>
        have hc : b.clause = .finally_ b.start b.entry := by rw [Blk.clause, ht]
        simp only [hc, allFinally, List.filterMap_cons, Clause.finally?, decide_true, if_true, List.map_cons]
        rw [ih]; rfl

theorem clause_has {blocks : List Blk} (hend : ∀ b ∈ blocks, b.type = .finally_ → b.end_ = b.entry) (t : Nat)
    (b : Blk) (hb : b ∈ blocks) (ht : b.type = .finally_) :
    (at_ blocks t).contains b.clause = b.has t := by
  rw [Bool.eq_iff_iff, List.contains_iff_mem]
  constructor
  · intro h
    rw [at_, List.mem_map] at h
    obtain ⟨c, hc, e⟩ := h
    rw [List.mem_filter] at hc
    cases hct : c.type with
    | catch_ => simp only [Blk.clause, ht, hct] at e; cases e
    | finally_ =>
      simp only [Blk.clause, ht, hct, Clause.finally_.injEq] at e
      have h1 := hend c hc.1 hct
      have h2 := hend b hb ht
      have h3 := hc.2
      simp only [has_iff] at h3 ⊢
      omega
  · intro h
    exact List.mem_map.mpr ⟨b, List.mem_filter.mpr ⟨hb, h⟩, rfl⟩

theorem left_entries (blocks : List Blk) (hend : ∀ b ∈ blocks, b.type = .finally_ → b.end_ = b.entry) (p t : Nat) :
    ∀ bs : List Blk, (∀ b ∈ bs, b ∈ blocks) →
    ((bs.filter (fun b => decide (b.type = .finally_) && b.has p)).filter (fun b => !b.has t)).map Blk.entry
      = left ((bs.filter (·.has p)).map Blk.clause) (at_ blocks t)
  | [], _ => rfl
  | b :: rest, h => by
    have ih := left_entries blocks hend p t rest (fun c hc => h c (List.mem_cons_of_mem _ hc))
    simp only [List.filter_cons (xs := rest)]
    cases hp : b.has p with
    | false => simp only [Bool.and_false, Bool.false_eq_true, if_false]; exact ih
    | true =>
      simp only [Bool.and_true, if_true, List.map_cons]
      cases ht : b.type with
      | catch_ =>
        have hc : b.clause = .catch_ b.rel b.entry := by rw [Blk.clause, ht]
        simp only [hc, left, List.filter_cons]
        by_cases hx : (!(at_ blocks t).contains (Clause.catch_ b.rel b.entry)) = true
        · rw [if_pos hx]
          simp only [allFinally, List.filterMap_cons, Clause.finally?]
          exact ih
        · rw [if_neg hx]; exact ih
      | finally_ =>
        have hh := clause_has hend t b (h b (by simp)) ht
        have hc : b.clause = .finally_ b.start b.entry := by rw [Blk.clause, ht]
        simp only [left, List.filter_cons, hh, decide_true, if_true]
        cases hbt : b.has t with
        | true =>
          simp only [Bool.not_true, Bool.false_eq_true, if_false]
          exact ih
        | false =>
          simp only [Bool.not_false, if_true, List.map_cons, hc, allFinally, List.filterMap_cons, Clause.finally?]
          rw [ih]; rfl

theorem takeWhile_filter (t : Nat) : ∀ bs : List Blk, bs.Pairwise (fun a b => b.includes a = true) →
    bs.takeWhile (fun b => !b.has t) = bs.filter (fun b => !b.has t)
  | [], _ => rfl
  | b :: rest, h => by
    have h' := List.pairwise_cons.mp h
    rw [List.takeWhile_cons, List.filter_cons]
    cases hb : b.has t with
    | false => simp only [Bool.not_false, if_true]; rw [takeWhile_filter t rest h'.2]
    | true =>
      simp only [Bool.not_true, Bool.false_eq_true, if_false]
      symm
      rw [List.filter_eq_nil_iff]
      intro c hc
      rw [has_of_includes (h'.1 c hc) hb]; simp

theorem filter_chain (m : Blk → Bool) (p : Nat) (bs : List Blk) (hn : Nested bs) :
    (bs.filter (fun b => m b && b.has p)).Pairwise (fun a b => b.includes a = true) := by
  refine List.Pairwise.imp_of_mem ?_ (List.Pairwise.sublist List.filter_sublist hn)
  intro a b ha hb h
  have h1 := (List.mem_filter.mp ha).2
  have h2 := (List.mem_filter.mp hb).2
  simp only [Bool.and_eq_true] at h1 h2
  exact h p h1.2 h2.2

/-! ## The machine -/

/-- A node of a `finally` block. -/
def finNode (b : Blk) : QNode := ⟨b, none, .default_⟩

theorem endFinally_default (u : St) (n : QNode) (ex : List QNode) (h : u.executing = n :: ex)
    (ha : n.action = .default_) :
    endFinally u = match process { u with executing := ex } with
      | some r => some r
      | none => some ({ u with executing := ex }, .leaveCall) := by
  rw [endFinally, h]; simp only [ha]; rfl

theorem run_process_catch (body : Nat → St → St) (hb : Quiet body) (c : Blk) (x e : Nat) (a : Action)
    (q : List QNode) : ∀ (fins : List Blk) (s : St) (k : Nat), fins.length < k →
    s.queue = fins.map finNode ++ ⟨c, some x, a⟩ :: q → s.excs.mem[x]? = some e →
    ∃ t, (process s).bind (fun r => run body k r.1 r.2)
        = some (fins.map Blk.entry, t, .enter c.entry (some e)) ∧ t.queue = q ∧ t.executing = s.executing
  | [], s, k, hk, hq, hx => by
    obtain ⟨k, rfl⟩ : ∃ j, k = j + 1 := ⟨k - 1, by omega⟩
    refine ⟨{ s with queue := q }, ?_, rfl, rfl⟩
    simp only [List.map_nil, List.nil_append] at hq
    simp only [process, hq, Option.bind_some, hx, run, List.map_nil]
  | b :: fins, s, k, hk, hq, hx => by
    obtain ⟨k, rfl⟩ : ∃ j, k = j + 1 := ⟨k - 1, by omega⟩
    simp only [List.length_cons] at hk
    simp only [List.map_cons, List.cons_append] at hq
    let s1 : St := { s with queue := fins.map finNode ++ ⟨c, some x, a⟩ :: q, executing := finNode b :: s.executing }
    have e1 : process s = some (s1, .enter b.entry none) := by
      simp only [process, hq, finNode, s1]
    obtain ⟨h1, h2, h3⟩ := hb b.entry s1
    let s2 : St := { body b.entry s1 with executing := s.executing }
    have e2 : endFinally (body b.entry s1) = match process s2 with
        | some r => some r
        | none => some (s2, .leaveCall) := by
      exact endFinally_default _ (finNode b) _ h2 rfl
    obtain ⟨t, ht, ht1, ht2⟩ := run_process_catch body hb c x e a q fins s2 k (by omega)
      h1 ((congrArg (fun m => m[x]?) h3).trans hx)
    cases hp : process s2 with
    | none => rw [hp] at ht; simp at ht
    | some r =>
      rw [hp] at ht e2
      simp only [Option.bind_some] at ht
      refine ⟨t, ?_, ht1, ht2⟩
      rw [e1, Option.bind_some]
      simp only [run, e2, ht, Option.map_some, List.map_cons]

theorem run_process_none (body : Nat → St → St) (hb : Quiet body) : ∀ (fins : List Blk) (s : St) (k : Nat),
    fins.length < k → fins ≠ [] → s.queue = fins.map finNode →
    ∃ t, (process s).bind (fun r => run body k r.1 r.2)
        = some (fins.map Blk.entry, t, .leaveCall) ∧ t.queue = [] ∧ t.executing = s.executing
  | [], s, k, hk, hne, hq => absurd rfl hne
  | b :: fins, s, k, hk, _, hq => by
    obtain ⟨k, rfl⟩ : ∃ j, k = j + 1 := ⟨k - 1, by omega⟩
    simp only [List.length_cons] at hk
    simp only [List.map_cons] at hq
    let s1 : St := { s with queue := fins.map finNode, executing := finNode b :: s.executing }
    have e1 : process s = some (s1, .enter b.entry none) := by
      simp only [process, hq, finNode, s1]
    obtain ⟨h1, h2, h3⟩ := hb b.entry s1
    let s2 : St := { body b.entry s1 with executing := s.executing }
    have e2 : endFinally (body b.entry s1) = match process s2 with
        | some r => some r
        | none => some (s2, .leaveCall) := by
      exact endFinally_default _ (finNode b) _ h2 rfl
    by_cases hf : fins = []
    · subst hf
      obtain ⟨k, rfl⟩ : ∃ j, k = j + 1 := ⟨k - 1, by simp at hk; omega⟩
      have hp : process s2 = none := by
        have : s2.queue = [] := h1
        simp only [process, this]
      rw [hp] at e2
      refine ⟨s2, ?_, h1, rfl⟩
      rw [e1, Option.bind_some]
      simp only [run, e2, Option.map_some, List.map_cons, List.map_nil]
    · obtain ⟨t, ht, ht1, ht2⟩ := run_process_none body hb fins s2 k (by omega) hf
        h1
      cases hp : process s2 with
      | none => rw [hp] at ht; simp at ht
      | some r =>
        rw [hp] at ht e2
        simp only [Option.bind_some] at ht
        refine ⟨t, ?_, ht1, ht2⟩
        rw [e1, Option.bind_some]
        simp only [run, e2, ht, Option.map_some, List.map_cons]

/-- What an action does when its `finally` block ends. -/
def after : Action → Next
  | .default_ => .following
  | .jump t => .goto_ t
  | .ret => .ret

theorem run_process_last (body : Nat → St → St) (hb : Quiet body) (a : Action) (ha : a ≠ .default_)
    (q : List QNode) : ∀ (fins : List Blk) (s : St) (k : Nat),
    fins.length < k → fins ≠ [] → s.queue = setLast a (fins.map finNode) ++ q →
    ∃ t, (process s).bind (fun r => run body k r.1 r.2)
        = some (fins.map Blk.entry, t, after a) ∧ t.queue = q ∧ t.executing = s.executing
  | [], s, k, hk, hne, hq => absurd rfl hne
  | [b], s, k, hk, _, hq => by
    obtain ⟨k, rfl⟩ : ∃ j, k = j + 2 := ⟨k - 2, by simp at hk; omega⟩
    simp only [List.map_cons, List.map_nil, setLast, List.cons_append, List.nil_append, finNode] at hq
    let s1 : St := { s with queue := q, executing := ⟨b, none, a⟩ :: s.executing }
    have e1 : process s = some (s1, .enter b.entry none) := by
      simp only [process, hq, s1]
    obtain ⟨h1, h2, h3⟩ := hb b.entry s1
    let s2 : St := { body b.entry s1 with executing := s.executing }
    have e2 : endFinally (body b.entry s1) = some (s2, after a) := by
      have h2' : (body b.entry s1).executing = ⟨b, none, a⟩ :: s.executing := h2
      rw [endFinally, h2']
      cases a with
      | default_ => exact absurd rfl ha
      | jump t => rfl
      | ret => rfl
    refine ⟨s2, ?_, h1, rfl⟩
    rw [e1, Option.bind_some]
    simp only [run, e2, List.map_cons, List.map_nil]
    cases a with
    | default_ => exact absurd rfl ha
    | jump t => rfl
    | ret => rfl
  | b :: b' :: fins, s, k, hk, _, hq => by
    obtain ⟨k, rfl⟩ : ∃ j, k = j + 1 := ⟨k - 1, by omega⟩
    simp only [List.length_cons] at hk
    have hset : setLast a (finNode b :: finNode b' :: fins.map finNode)
        = finNode b :: setLast a (finNode b' :: fins.map finNode) := by rw [setLast]; simp
    simp only [List.map_cons, hset, List.cons_append] at hq
    let s1 : St := { s with queue := setLast a (finNode b' :: fins.map finNode) ++ q,
                            executing := finNode b :: s.executing }
    have e1 : process s = some (s1, .enter b.entry none) := by
      simp only [process, hq, finNode, s1]
    obtain ⟨h1, h2, h3⟩ := hb b.entry s1
    let s2 : St := { body b.entry s1 with executing := s.executing }
    have e2 : endFinally (body b.entry s1) = match process s2 with
        | some r => some r
        | none => some (s2, .leaveCall) := by
      exact endFinally_default _ (finNode b) _ h2 rfl
    obtain ⟨t, ht, ht1, ht2⟩ := run_process_last body hb a ha q (b' :: fins) s2 k
      (by simp only [List.length_cons]; omega) (by simp) h1
    cases hp : process s2 with
    | none => rw [hp] at ht; simp at ht
    | some r =>
      rw [hp] at ht e2
      simp only [Option.bind_some] at ht
      refine ⟨t, ?_, ht1, ht2⟩
      rw [e1, Option.bind_some]
      simp only [run, e2, ht, Option.map_some, List.map_cons]

theorem dropWithin_keep (b : Blk) (q : List QNode) (h : ∀ n, q.head? = some n → b.includes n.block = false) :
    dropWithin b q = q := by
  cases q with
  | nil => rfl
  | cons n rest => rw [dropWithin, h n rfl]; rfl

theorem enqueue_keep (s : St) (group : List QNode) (last : QNode) (hl : group.getLast? = some last)
    (h : ∀ n, s.queue.head? = some n → last.block.includes n.block = false) :
    enqueue s group = ({ s with queue := group ++ s.queue }, false) := by
  simp only [enqueue, hl, dropWithin_keep last.block s.queue h, bne_self_eq_false]

theorem setLast_ne (a : Action) : ∀ ns : List QNode, ns ≠ [] → setLast a ns ≠ []
  | [], h => absurd rfl h
  | [n], _ => by simp [setLast]
  | n :: m :: rest, _ => by simp [setLast]

theorem setLast_last (a : Action) : ∀ (ns : List QNode) (n : QNode), ns.getLast? = some n →
    (setLast a ns).getLast? = some { n with action := a }
  | [], n, h => by simp at h
  | [m], n, h => by simp at h; subst h; rfl
  | m :: m' :: rest, n, h => by
    have h' : (m' :: rest).getLast? = some n := by simpa [List.getLast?_cons_cons] using h
    have ih := setLast_last a (m' :: rest) n h'
    have e : setLast a (m :: m' :: rest) = m :: setLast a (m' :: rest) := by rw [setLast]; simp
    rw [e]
    cases hx : setLast a (m' :: rest) with
    | nil => exact absurd hx (setLast_ne a _ (by simp))
    | cons y ys => rw [hx] at ih; rw [List.getLast?_cons_cons]; exact ih

end Verif.Block
