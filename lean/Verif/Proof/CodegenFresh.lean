import Verif.Proof.CodegenMain

/-! # Helper lemmas: no label is placed twice -/

namespace Verif.Stmt

variable {A : Type}

/-- The labels placed are new ones, each placed once. -/
def Fresh (m : Nat) (xs : List (X A)) (m' : Nat) : Prop :=
  m ≤ m' ∧ (labels xs).Nodup ∧ ∀ l ∈ labels xs, m < l ∧ l ≤ m'

theorem fresh_none {m : Nat} {xs : List (X A)} (h : labels xs = []) : Fresh m xs m := by
  simp [Fresh, h]

theorem labels_headTest (o : Opts) (F : Folder A) (c l) : labels (headTest o F c l) = [] := by
  rw [headTest]; split <;> simp
theorem labels_doTail (o : Opts) (F : Folder A) (c l) : labels (doTail o F c l) = [] := by
  rw [doTail]; repeat' split
  all_goals simp
theorem labels_untilTail (o : Opts) (F : Folder A) (c l) : labels (untilTail o F c l) = [] := by
  rw [untilTail]; repeat' split
  all_goals simp

theorem Fresh.seq {m k m' : Nat} {xs ys : List (X A)} (h : Fresh m xs k) (h' : Fresh k ys m') :
    Fresh m (xs ++ ys) m' := by
  obtain ⟨a1, a2, a3⟩ := h
  obtain ⟨b1, b2, b3⟩ := h'
  refine ⟨by omega, ?_, ?_⟩
  · rw [labels_append, List.nodup_append]
    refine ⟨a2, b2, ?_⟩
    intro x hx y hy
    have := a3 x hx
    have := b3 y hy
    omega
  · intro l hl
    rw [labels_append, List.mem_append] at hl
    rcases hl with hl | hl
    · have := a3 l hl; omega
    · have := b3 l hl; omega

/-- Two labels around. -/
theorem fresh_loop {m k : Nat} {xs ys : List (X A)} (h : Fresh (m + 1) xs k)
    (hl : labels ys = (m + 1) :: labels xs ++ [k + 1]) : Fresh m ys (k + 1) := by
  obtain ⟨a1, a2, a3⟩ := h
  refine ⟨by omega, ?_, ?_⟩
  · rw [hl]
    simp only [List.cons_append, List.nodup_cons, List.mem_append, List.mem_singleton, not_or,
      List.nodup_append]
    refine ⟨⟨fun hm => ?_, by omega⟩, a2, by simp, fun x hx y hy => ?_⟩
    · have := a3 _ hm; omega
    · have := a3 _ hx; omega
  · intro l hm
    rw [hl] at hm
    simp only [List.cons_append, List.mem_cons, List.mem_append, List.not_mem_nil, or_false] at hm
    rcases hm with rfl | hm | rfl
    · omega
    · have := a3 _ hm; omega
    · omega

/-- One label at the end. -/
theorem fresh_end {m k : Nat} {xs ys : List (X A)} (h : Fresh m xs k)
    (hl : labels ys = labels xs ++ [k + 1]) : Fresh m ys (k + 1) := by
  obtain ⟨a1, a2, a3⟩ := h
  refine ⟨by omega, ?_, ?_⟩
  · rw [hl, List.nodup_append]
    refine ⟨a2, by simp, fun x hx y hy => ?_⟩
    have := a3 _ hx
    simp at hy
    omega
  · intro l hm
    rw [hl] at hm
    simp only [List.mem_append, List.mem_singleton] at hm
    rcases hm with hm | rfl
    · have := a3 _ hm; omega
    · omega

theorem fresh_ite {m : Nat} {p : Prop} [Decidable p] {x y : List (X A) × Nat}
    (hx : p → Fresh m x.1 x.2) (hy : ¬p → Fresh m y.1 y.2) :
    Fresh m (if p then x else y).1 (if p then x else y).2 := by
  by_cases h : p
  · rw [if_pos h]; exact hx h
  · rw [if_neg h]; exact hy h

mutual

theorem fresh (o : Opts) (F : Folder A) (t : Stmt A) (m : Nat) :
    Fresh m (compile o F t m).1 (compile o F t m).2 := by
  match t with
  | .expr e => rw [compile]; exact fresh_none (by simp)
  | .typeDef => rw [compile]; exact fresh_none (by simp)
  | .decl inits => rw [compile]; exact fresh_none (by simp)
  | .brk => rw [compile]; exact fresh_none (by simp)
  | .cont => rw [compile]; exact fresh_none (by simp)
  | .thr e => rw [compile]; exact fresh_none (by simp)
  | .goto_ l => rw [compile]; exact fresh_none (by simp)
  | .ret e => rw [compile]; exact fresh_none (by simp)
  | .block body => rw [compile]; exact freshAll o F body o.removeUnreached m
  | .doWhile c body =>
    rw [compile]
    exact fresh_loop (fresh o F body (m + 1)) (by simp [labels_doTail])
  | .loopUntil c body =>
    rw [compile]
    exact fresh_loop (fresh o F body (m + 1)) (by simp [labels_untilTail])
  | .while_ c body =>
    rw [compile]
    split
    · exact fresh_none (by simp)
    · exact fresh_loop (fresh o F body (m + 1)) (by simp [labels_headTest])
  | .for_ init c inc body =>
    rw [compile]
    split
    · exact fresh_none (by simp)
    · obtain ⟨a1, a2, a3⟩ := fresh o F body (m + 2)
      have hl : labels (acts init ++ (if inc.isSome then [X.jmp .always (m + 1)] else []) ++
          .label (m + 2) :: acts (inc.getD []) ++
          .label (m + 1) :: headTest o F c ((compile o F body (m + 2)).2 + 1) ++
          resolve (some ((compile o F body (m + 2)).2 + 1)) (some (m + 2)) (compile o F body (m + 2)).1 ++
          [.jmp .always (m + 2), .label ((compile o F body (m + 2)).2 + 1)]) =
          (m + 2) :: (m + 1) :: labels (compile o F body (m + 2)).1 ++
            [(compile o F body (m + 2)).2 + 1] := by
        have : labels (if inc.isSome then [X.jmp .always (m + 1)] else [] : List (X A)) = [] := by
          split <;> rfl
        simp [labels_headTest, this]
      refine ⟨by simp only; omega, ?_, ?_⟩
      · simp only
        rw [hl]
        simp only [List.cons_append, List.nodup_cons, List.mem_cons, List.mem_append,
          not_or, List.nodup_append, List.not_mem_nil, not_false_eq_true, and_true]
        refine ⟨⟨by omega, fun hm => ?_, by omega⟩, ⟨fun hm => ?_, by omega⟩, a2, by simp, fun x hx y hy => ?_⟩
        · have := a3 _ hm; omega
        · have := a3 _ hm; omega
        · have := a3 _ hx; simp at hy; omega
      · intro l hm
        simp only at hm ⊢
        rw [hl] at hm
        simp only [List.cons_append, List.mem_cons, List.mem_append, List.not_mem_nil, or_false] at hm
        rcases hm with rfl | rfl | hm | rfl
        · omega
        · omega
        · have := a3 _ hm; omega
        · omega
  | .if_ c yes no =>
    rw [compile]
    split
    · exact fresh o F yes m
    · split
      · exact fresh o F no m
      · obtain ⟨a1, a2, a3⟩ := fresh o F yes (m + 2)
        obtain ⟨b1, b2, b3⟩ := fresh o F no (compile o F yes (m + 2)).2
        have hl : labels (condJmp c .ifFalse (m + 1) ++ (compile o F yes (m + 2)).1 ++
            X.jmp .always (m + 2) :: .label (m + 1) ::
            (compile o F no (compile o F yes (m + 2)).2).1 ++ [.label (m + 2)]) =
            labels (compile o F yes (m + 2)).1 ++ (m + 1) ::
            labels (compile o F no (compile o F yes (m + 2)).2).1 ++ [m + 2] := by simp
        refine ⟨by simp only; omega, ?_, ?_⟩
        · simp only
          rw [hl]
          simp only [List.append_assoc, List.cons_append, List.nodup_append, List.nodup_cons,
            List.mem_append, List.mem_cons, List.not_mem_nil, or_false, not_or]
          refine ⟨a2, ⟨⟨fun hm => ?_, by omega⟩, b2, by simp, fun x hx y hy => ?_⟩, fun x hx y hy => ?_⟩
          · have := b3 _ hm; omega
          · have := b3 _ hx; omega
          · have := a3 _ hx
            rcases hy with rfl | hy | rfl
            · omega
            · have := b3 _ hy; omega
            · omega
        · intro l hm
          simp only at hm ⊢
          rw [hl] at hm
          simp only [List.append_assoc, List.cons_append, List.mem_cons, List.mem_append,
            List.not_mem_nil, or_false] at hm
          rcases hm with hm | rfl | hm | rfl
          · have := a3 _ hm; omega
          · omega
          · have := b3 _ hm; omega
          · omega
  | .switch e cases =>
    rw [compile.eq_def]
    dsimp only
    split
    · exact fresh_ite (fun _ => fresh_none (by simp))
        (fun _ => fresh_end (freshNth o F cases 0 m) (by simp))
    · split
      · split
        · exact fresh_none (by simp)
        · rename_i i k _
          split
          · exact fresh_end (freshNth o F cases i m) (by simp)
          · split
            · exact fresh_end (freshNth o F cases i m) (by simp)
            · cases lastDefault cases 0 none with
              | none => exact fresh_end (fresh_none (xs := []) rfl) (by simp)
              | some j => exact fresh_end (freshNth o F cases j m) (by simp)
            · have hz : Fresh (compileNth o F cases i (m + 1)).2
                  ((lastDefault cases 0 none).elim ([], (compileNth o F cases i (m + 1)).2)
                    (fun j => compileNth o F cases j (compileNth o F cases i (m + 1)).2)).1
                  ((lastDefault cases 0 none).elim ([], (compileNth o F cases i (m + 1)).2)
                    (fun j => compileNth o F cases j (compileNth o F cases i (m + 1)).2)).2 := by
                cases lastDefault cases 0 none with
                | none => exact fresh_none rfl
                | some j => exact freshNth o F cases j _
              generalize (lastDefault cases 0 none).elim _ _ = z at hz ⊢
              obtain ⟨a1, a2, a3⟩ := freshNth o F cases i (m + 1)
              obtain ⟨b1, b2, b3⟩ := hz
              have hf : Fresh m (acts e ++ X.eqInt k :: .jmp .ifFalse (m + 1) ::
                  (compileNth o F cases i (m + 1)).1 ++ .label (m + 1) :: z.1) z.2 := by
                have hl : labels (acts e ++ X.eqInt k :: .jmp .ifFalse (m + 1) ::
                    (compileNth o F cases i (m + 1)).1 ++ .label (m + 1) :: z.1) =
                    labels (compileNth o F cases i (m + 1)).1 ++ (m + 1) :: labels z.1 := by simp
                refine ⟨by omega, ?_, ?_⟩
                · rw [hl]
                  simp only [List.nodup_append, List.nodup_cons, List.mem_cons]
                  refine ⟨a2, ⟨fun hm => ?_, b2⟩, fun x hx y hy => ?_⟩
                  · have := b3 _ hm; omega
                  · have := a3 _ hx
                    rcases hy with rfl | hy
                    · omega
                    · have := b3 _ hy; omega
                · intro l hm
                  rw [hl] at hm
                  simp only [List.mem_append, List.mem_cons] at hm
                  rcases hm with hm | rfl | hm
                  · have := a3 _ hm; omega
                  · omega
                  · have := b3 _ hm; omega
              exact fresh_end hf (by simp)
      · split
        · have hc := freshCases o F cases m
          split
          · refine fresh_end (xs := acts e ++ .switch (table (compileCases o F cases m).rows)
              ((compileCases o F cases m).next + 1 + 1) ::
              resolve (some ((compileCases o F cases m).next + 1)) none (compileCases o F cases m).code ++
              [.label ((compileCases o F cases m).next + 1)]) ?_ (by simp)
            exact fresh_end hc (by simp)
          · exact fresh_end hc (by simp)
        · exact fresh_none (by simp)
  | .try_ _ _ _ => rw [compile]; exact fresh_none (by simp)
  | .empty => rw [compile]; exact fresh_none (by simp)

theorem freshAll (o : Opts) (F : Folder A) (ts : Stmts A) (cut : Bool) (m : Nat) :
    Fresh m (compileAll o F cut ts m).1 (compileAll o F cut ts m).2 := by
  match ts with
  | .nil => rw [compileAll]; exact fresh_none rfl
  | .cons t rest =>
    rw [compileAll]
    split
    · exact fresh o F t m
    · exact (fresh o F t m).seq (freshAll o F rest cut _)

theorem freshNth (o : Opts) (F : Folder A) (cs : Cases A) (k m : Nat) :
    Fresh m (compileNth o F cs k m).1 (compileNth o F cs k m).2 := by
  match cs, k with
  | .nil, k => rw [compileNth]; exact fresh_none rfl
  | .cons _ body rest, 0 => rw [compileNth]; exact freshAll o F body false m
  | .cons _ body rest, k + 1 => rw [compileNth]; exact freshNth o F rest k m

theorem freshCases (o : Opts) (F : Folder A) (cs : Cases A) (m : Nat) :
    Fresh m (compileCases o F cs m).code (compileCases o F cs m).next := by
  match cs with
  | .nil => rw [compileCases]; exact fresh_none rfl
  | .cons ls body rest =>
    rw [compileCases]
    have h1 : Fresh m [X.label (m + 1) (A := A)] (m + 1) := by
      refine ⟨by omega, by simp, ?_⟩
      intro l hl
      simp at hl
      omega
    exact (h1.seq (freshAll o F body false (m + 1))).seq (freshCases o F rest _)

end

end Verif.Stmt
