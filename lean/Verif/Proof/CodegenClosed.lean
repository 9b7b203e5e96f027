import Verif.Proof.CodegenFresh

/-! # Helper lemmas: every label that is jumped to is placed -/

namespace Verif.Stmt

variable {A : Type}

@[simp] theorem targets_nil : targets ([] : List (X A)) = [] := rfl
@[simp] theorem targets_append (xs ys : List (X A)) : targets (xs ++ ys) = targets xs ++ targets ys := by
  simp [targets]
@[simp] theorem targets_label (l) (ys : List (X A)) : targets (.label l :: ys) = targets ys := rfl
@[simp] theorem targets_jmp (m l) (ys : List (X A)) : targets (.jmp m l :: ys) = l :: targets ys := rfl
@[simp] theorem targets_switch (r d) (ys : List (X A)) :
    targets (.switch r d :: ys) = d :: r.map (·.2) ++ targets ys := rfl
@[simp] theorem targets_drop (ys : List (X A)) : targets (.drop :: ys) = targets ys := rfl
@[simp] theorem targets_eqInt (k) (ys : List (X A)) : targets (.eqInt k :: ys) = targets ys := rfl
@[simp] theorem targets_ret (ys : List (X A)) : targets (.ret :: ys) = targets ys := rfl
@[simp] theorem targets_thr (ys : List (X A)) : targets (.thr :: ys) = targets ys := rfl
@[simp] theorem targets_fail (ys : List (X A)) : targets (.fail :: ys) = targets ys := rfl
@[simp] theorem targets_point (p) (ys : List (X A)) : targets (.point p :: ys) = targets ys := rfl
@[simp] theorem targets_act (a) (ys : List (X A)) : targets (.act a :: ys) = targets ys := rfl
@[simp] theorem targets_acts (e : List A) : targets (acts e) = [] := by
  induction e with
  | nil => rfl
  | cons a e ih => simpa [acts, targets] using ih

theorem targets_resolve (b c : Option Nat) (xs : List (X A)) {l : Nat}
    (h : l ∈ targets (resolve b c xs)) : l ∈ targets xs ∨ b = some l ∨ c = some l := by
  induction xs with
  | nil => simp [resolve] at h
  | cons x xs ih =>
    rw [resolve_cons] at h
    cases x with
    | point p =>
      cases p with
      | brk =>
        cases b with
        | none => simpa using ih h
        | some l' =>
          simp only [X.resolve, targets_jmp, List.mem_cons] at h
          rcases h with rfl | h
          · simp
          · simpa using ih h
      | cont =>
        cases c with
        | none => simpa using ih h
        | some l' =>
          simp only [X.resolve, targets_jmp, List.mem_cons] at h
          rcases h with rfl | h
          · simp
          · simpa using ih h
    | jmp m l' =>
      simp only [X.resolve, targets_jmp, List.mem_cons] at h ⊢
      rcases h with rfl | h
      · simp
      · rcases ih h with h | h
        · exact Or.inl (Or.inr h)
        · exact Or.inr h
    | switch r d =>
      simp only [X.resolve, targets_switch, List.mem_cons, List.mem_append, List.cons_append] at h ⊢
      rcases h with rfl | h | h
      · simp
      · exact Or.inl (Or.inr (Or.inl h))
      · rcases ih h with h | h
        · exact Or.inl (Or.inr (Or.inr h))
        · exact Or.inr h
    | _ => simpa using ih h

/-- Every label that is jumped to is placed. -/
def Closed (xs : List (X A)) : Prop := ∀ l ∈ targets xs, l ∈ labels xs

theorem closed_none {xs : List (X A)} (h : targets xs = []) : Closed xs := by
  intro l hl; rw [h] at hl; cases hl

theorem Closed.append {xs ys : List (X A)} (h : Closed xs) (h' : Closed ys) : Closed (xs ++ ys) := by
  intro l hl
  rw [targets_append, List.mem_append] at hl
  rw [labels_append, List.mem_append]
  exact hl.imp (h l) (h' l)

theorem condJmp_targets {c : Option (List A)} {m l x} (h : x ∈ targets (condJmp c m l)) : x = l := by
  cases c with
  | none => simp [condJmp] at h
  | some e => simpa [condJmp] using h

theorem headTest_targets {o : Opts} {F : Folder A} {c l x} (h : x ∈ targets (headTest o F c l)) : x = l := by
  rw [headTest] at h
  split at h
  · simp at h
  · exact condJmp_targets h

theorem doTail_targets {o : Opts} {F : Folder A} {c l x} (h : x ∈ targets (doTail o F c l)) : x = l := by
  rw [doTail] at h
  split at h
  · simpa using h
  · split at h
    · simp at h
    · exact condJmp_targets h

theorem untilTail_targets {o : Opts} {F : Folder A} {c l x} (h : x ∈ targets (untilTail o F c l)) : x = l := by
  rw [untilTail] at h
  split at h
  · simpa using h
  · split at h
    · simp at h
    · exact condJmp_targets h

/-- A region that ends with its `break` point. -/
theorem closed_region {xs pre : List (X A)} {lb : Nat} (h : Closed xs) (hp : targets pre = []) :
    Closed (pre ++ resolve (some lb) none xs ++ [.label lb]) := by
  intro l hl
  simp only [targets_append, hp, targets_label, targets_nil, List.append_nil, List.nil_append] at hl
  simp only [labels_append, labels_resolve, labels_label, labels_nil, List.mem_append, List.mem_singleton]
  rcases targets_resolve _ _ _ hl with h1 | h1 | h1
  · exact Or.inl (Or.inr (h l h1))
  · injection h1 with h1; exact Or.inr h1.symm
  · cases h1

mutual

theorem closed (o : Opts) (F : Folder A) (t : Stmt A) (m : Nat) : Closed (compile o F t m).1 := by
  match t with
  | .expr e => rw [compile]; exact closed_none (by simp)
  | .typeDef => rw [compile]; exact closed_none (by simp)
  | .decl inits => rw [compile]; exact closed_none (by simp)
  | .brk => rw [compile]; exact closed_none (by simp)
  | .cont => rw [compile]; exact closed_none (by simp)
  | .thr e => rw [compile]; exact closed_none (by simp)
  | .goto_ l => rw [compile]; exact closed_none (by simp)
  | .ret e => rw [compile]; exact closed_none (by simp)
  | .block body => rw [compile]; exact closedAll o F body o.removeUnreached m
  | .doWhile c body =>
    rw [compile]
    intro l hl
    simp only [List.cons_append, List.append_assoc, targets_label, targets_append, targets_nil,
      List.append_nil, List.mem_append] at hl
    simp only [List.cons_append, List.append_assoc, labels_label, labels_append, labels_resolve,
      labels_nil, List.mem_cons, List.mem_append, List.not_mem_nil, or_false]
    rcases hl with hl | hl
    · rcases targets_resolve _ _ _ hl with h | h | h
      · exact Or.inr (Or.inl (closed o F body _ l h))
      · injection h with h; exact Or.inr (Or.inr (Or.inr h.symm))
      · injection h with h; exact Or.inl h.symm
    · exact Or.inl (doTail_targets hl)
  | .loopUntil c body =>
    rw [compile]
    intro l hl
    simp only [List.cons_append, List.append_assoc, targets_label, targets_append, targets_nil,
      List.append_nil, List.mem_append] at hl
    simp only [List.cons_append, List.append_assoc, labels_label, labels_append, labels_resolve,
      labels_nil, List.mem_cons, List.mem_append, List.not_mem_nil, or_false]
    rcases hl with hl | hl
    · rcases targets_resolve _ _ _ hl with h | h | h
      · exact Or.inr (Or.inl (closed o F body _ l h))
      · injection h with h; exact Or.inr (Or.inr (Or.inr h.symm))
      · injection h with h; exact Or.inl h.symm
    · exact Or.inl (untilTail_targets hl)
  | .while_ c body =>
    rw [compile]
    split
    · exact closed_none rfl
    · intro l hl
      simp only [List.cons_append, List.append_assoc, targets_label, targets_append, targets_nil,
        targets_jmp, List.mem_append, List.mem_cons, List.not_mem_nil, or_false] at hl
      simp only [List.cons_append, List.append_assoc, labels_label, labels_append, labels_resolve,
        labels_jmp, labels_nil, List.mem_cons, List.mem_append, List.not_mem_nil, or_false]
      rcases hl with hl | hl | rfl
      · exact Or.inr (Or.inr (Or.inr (headTest_targets hl)))
      · rcases targets_resolve _ _ _ hl with h | h | h
        · exact Or.inr (Or.inr (Or.inl (closed o F body _ l h)))
        · injection h with h; exact Or.inr (Or.inr (Or.inr h.symm))
        · injection h with h; exact Or.inl h.symm
      · exact Or.inl rfl
  | .for_ init c inc body =>
    rw [compile]
    split
    · exact closed_none (by simp)
    · intro l hl
      have hx : ∀ x, x ∈ targets (if inc.isSome then [X.jmp .always (m + 1)] else [] : List (X A)) →
          x = m + 1 := by
        intro x hx
        split at hx
        · simpa using hx
        · simp at hx
      simp only [List.cons_append, List.append_assoc, targets_label, targets_append, targets_nil,
        targets_acts, targets_jmp, List.mem_append, List.mem_cons, List.not_mem_nil, or_false,
        false_or] at hl
      simp only [List.cons_append, List.append_assoc, labels_label, labels_append, labels_resolve,
        labels_jmp, labels_nil, labels_acts, List.nil_append, List.mem_cons, List.mem_append,
        List.not_mem_nil, or_false]
      right
      rcases hl with hl | hl | hl | rfl
      · exact Or.inr (Or.inl (hx l hl))
      · exact Or.inr (Or.inr (Or.inr (Or.inr (headTest_targets hl))))
      · rcases targets_resolve _ _ _ hl with h | h | h
        · exact Or.inr (Or.inr (Or.inr (Or.inl (closed o F body _ l h))))
        · injection h with h; exact Or.inr (Or.inr (Or.inr (Or.inr h.symm)))
        · injection h with h; exact Or.inl h.symm
      · exact Or.inl rfl
  | .if_ c yes no =>
    rw [compile]
    split
    · exact closed o F yes m
    · split
      · exact closed o F no m
      · intro l hl
        simp only [List.cons_append, List.append_assoc, targets_label, targets_append, targets_nil,
          targets_jmp, List.mem_append, List.mem_cons, List.not_mem_nil, or_false] at hl
        simp only [List.cons_append, List.append_assoc, labels_label, labels_append,
          labels_jmp, labels_nil, List.mem_cons, List.mem_append, List.not_mem_nil, or_false]
        right
        rcases hl with hl | hl | rfl | hl
        · exact Or.inr (Or.inl (condJmp_targets hl))
        · exact Or.inl (closed o F yes _ l hl)
        · exact Or.inr (Or.inr (Or.inr rfl))
        · exact Or.inr (Or.inr (Or.inl (closed o F no _ l hl)))
  | .switch e cases =>
    rw [compile.eq_def]
    dsimp only
    split
    · refine (?_ : ∀ p [Decidable p], Closed (if p then _ else _ : List (X A) × Nat).1) _
      intro p _
      by_cases hp : p
      · rw [if_pos hp]; exact closed_none (by simp)
      · rw [if_neg hp]
        have := closed_region (closedNth o F cases 0 m) (pre := acts e ++ [.drop])
          (lb := (compileNth o F cases 0 m).2 + 1) (by simp)
        simpa using this
    · split
      · split
        · exact closed_none (by simp)
        · rename_i i k _
          refine closed_region (pre := []) ?_ rfl
          split
          · refine Closed.append (xs := acts e) (closed_none (by simp)) ?_
            exact Closed.append (xs := [.drop]) (closed_none rfl) (closedNth o F cases i m)
          · split
            · exact closedNth o F cases i m
            · cases lastDefault cases 0 none with
              | none => exact closed_none rfl
              | some j => exact closedNth o F cases j m
            · have hz : Closed ((lastDefault cases 0 none).elim ([], (compileNth o F cases i (m + 1)).2)
                    (fun j => compileNth o F cases j (compileNth o F cases i (m + 1)).2)).1 := by
                cases lastDefault cases 0 none with
                | none => exact closed_none rfl
                | some j => exact closedNth o F cases j _
              generalize (lastDefault cases 0 none).elim _ _ = z at hz ⊢
              intro l hl
              simp only [List.cons_append, List.append_assoc, targets_label, targets_append,
                targets_acts, targets_eqInt, targets_jmp, List.mem_append, List.mem_cons,
                List.not_mem_nil, false_or] at hl
              simp only [List.cons_append, List.append_assoc, labels_label, labels_append, labels_acts,
                labels_eqInt, labels_jmp, List.mem_cons, List.mem_append, List.not_mem_nil, false_or]
              rcases hl with rfl | hl | hl
              · exact Or.inr (Or.inl rfl)
              · exact Or.inl (closedNth o F cases i _ l hl)
              · exact Or.inr (Or.inr (hz l hl))
      · split
        · obtain ⟨hc1, hc2, hc3⟩ := closedCases o F cases m
          have ht : ∀ x, x ∈ (table (compileCases o F cases m).rows).map (·.2) →
              x ∈ labels (compileCases o F cases m).code := by
            intro x hx
            obtain ⟨r, hr, rfl⟩ := List.mem_map.mp hx
            rw [table] at hr
            exact hc2 r (List.mem_of_mem_take ((sortRows_perm _).mem_iff.mp hr))
          split
          · intro l hl
            simp only [List.cons_append, List.append_assoc, targets_label, targets_append,
              targets_acts, targets_switch, targets_nil, List.mem_append, List.mem_cons,
              List.not_mem_nil, false_or, or_false] at hl
            simp only [List.cons_append, List.append_assoc, labels_label, labels_append, labels_acts,
              labels_switch, labels_resolve, labels_nil, List.mem_cons, List.mem_append,
              List.not_mem_nil, false_or, or_false]
            rcases hl with rfl | hl | hl
            · exact Or.inr (Or.inr rfl)
            · exact Or.inl (ht l hl)
            · rcases targets_resolve _ _ _ hl with h | h | h
              · exact Or.inl (hc1 l h)
              · injection h with h; exact Or.inr (Or.inl h.symm)
              · cases h
          · rename_i d ds hd
            intro l hl
            simp only [List.cons_append, List.append_assoc, targets_label, targets_append,
              targets_acts, targets_switch, targets_nil, List.mem_append, List.mem_cons,
              List.not_mem_nil, false_or, or_false] at hl
            simp only [List.cons_append, List.append_assoc, labels_label, labels_append, labels_acts,
              labels_switch, labels_resolve, labels_nil, List.mem_cons, List.mem_append,
              List.not_mem_nil, false_or, or_false]
            rcases hl with rfl | hl | hl
            · exact Or.inl (hc3 _ (by rw [hd]; simp))
            · exact Or.inl (ht l hl)
            · rcases targets_resolve _ _ _ hl with h | h | h
              · exact Or.inl (hc1 l h)
              · injection h with h; exact Or.inr h.symm
              · cases h
        · exact closed_none (by simp)
  | .try_ _ _ _ => rw [compile]; exact closed_none (by simp)
  | .empty => rw [compile]; exact closed_none (by simp)

theorem closedAll (o : Opts) (F : Folder A) (ts : Stmts A) (cut : Bool) (m : Nat) :
    Closed (compileAll o F cut ts m).1 := by
  match ts with
  | .nil => rw [compileAll]; exact closed_none rfl
  | .cons t rest =>
    rw [compileAll]
    split
    · exact closed o F t m
    · exact (closed o F t m).append (closedAll o F rest cut _)

theorem closedNth (o : Opts) (F : Folder A) (cs : Cases A) (k m : Nat) :
    Closed (compileNth o F cs k m).1 := by
  match cs, k with
  | .nil, k => rw [compileNth]; exact closed_none rfl
  | .cons _ body rest, 0 => rw [compileNth]; exact closedAll o F body false m
  | .cons _ body rest, k + 1 => rw [compileNth]; exact closedNth o F rest k m

theorem closedCases (o : Opts) (F : Folder A) (cs : Cases A) (m : Nat) :
    Closed (compileCases o F cs m).code ∧
    (∀ r ∈ (compileCases o F cs m).rows, r.2 ∈ labels (compileCases o F cs m).code) ∧
    (∀ d ∈ (compileCases o F cs m).dflts, d ∈ labels (compileCases o F cs m).code) := by
  match cs with
  | .nil => rw [compileCases]; exact ⟨closed_none rfl, by simp, by simp⟩
  | .cons ls body rest =>
    rw [compileCases]
    obtain ⟨h1, h2, h3⟩ := closedCases o F rest (compileAll o F false body (m + 1)).2
    refine ⟨?_, ?_, ?_⟩
    · refine Closed.append (xs := .label (m + 1) :: (compileAll o F false body (m + 1)).1) ?_ h1
      exact Closed.append (xs := [.label (m + 1)]) (closed_none rfl) (closedAll o F body false (m + 1))
    · intro r hr
      simp only [List.mem_append, List.cons_append, labels_label, labels_append, List.mem_cons] at hr ⊢
      rcases hr with hr | hr
      · rw [rowsOf, List.mem_filterMap] at hr
        obtain ⟨a, _, ha⟩ := hr
        obtain ⟨w, _, hw⟩ := Option.map_eq_some_iff.mp ha
        rw [← hw]
        exact Or.inl rfl
      · exact Or.inr (Or.inr (h2 r hr))
    · intro d hd
      simp only [List.mem_append, List.cons_append, labels_label, labels_append, List.mem_cons,
        List.mem_map] at hd ⊢
      rcases hd with ⟨_, _, hd⟩ | hd
      · exact Or.inl hd.symm
      · exact Or.inr (Or.inr (h3 d hd))

end

end Verif.Stmt
