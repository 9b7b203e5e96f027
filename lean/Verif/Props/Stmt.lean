import Verif.Proof.StmtSound

/-!
# C26: the exit analysis

`Stmt.run` (in `Verif.Spec.Stmt`) says how statements run; `exitType` is what the compiler computes.
-/

namespace Verif.Stmt.Props

variable {A S : Type}

/-! ## A concrete machine for the examples -/

/-- Actions push a truth value; conditions pop it. -/
def demo : Interp Bool (List Bool) where
  act a s := .ok (a :: s)
  popBool
    | [] => (false, [])
    | b :: s => (b, s)
  popInt
    | [] => (0#32, [])
    | b :: s => (if b then 1#32 else 0#32, s)
  pushBool b s := b :: s
  accepts _ _ := true
  pop_push _ _ := rfl
  accepts_all _ := rfl

/-- A folder that knows nothing. -/
def blind : Folder Bool := ⟨fun _ => none, fun _ => none⟩

/-- A folder that knows single truth values. -/
def seeing : Folder Bool where
  bool
    | [b] => some b
    | _ => none
  int
    | [b] => some (if b then 1#32 else 0#32)
    | _ => none

theorem blind_agrees : Agrees blind demo :=
  ⟨(fun _ _ h => by cases h), (fun _ _ h => by cases h)⟩

theorem seeing_agrees : Agrees seeing demo := by
  constructor
  · intro e b h s
    match e, h with
    | [c], h => cases h; exact ⟨_, rfl, rfl⟩
  · intro e v h s
    match e, h with
    | [c], h => cases h; exact ⟨_, rfl, rfl⟩

/-- `while (c) { if (c) break; if (c) { return; } }  do { } while (c)  switch (c) { … }` and more. -/
def sample : Stmts Bool :=
  .cons (.while_ (some [true, true])
    (.block (.cons (.if_ (some [false, false]) .brk .empty)
      (.cons (.if_ (some [false, true]) (.ret none) .empty) .nil))))
  (.cons (.doWhile (some [true, false]) (.expr [true]))
  (.cons (.switch [true, true] (.cons [some 1#32, none] (.cons (.expr []) (.cons .brk .nil)) .nil))
  (.cons (.try_ (.for_ [] none (some []) (.block (.cons .brk .nil))) .nil (.expr []))
    .nil)))

/-! ## What holds -/

/-- **C26** (partial: tidy statements).  Whatever a run of a statement does, the way it ends is one
the analysis allows for.  `tidy` excludes the shapes refuted below. -/
theorem exit_sound_partial {F : Folder A} {I : Interp A S} (hF : Agrees F I) (t : Stmt A)
    (ht : tidy F t = true) (n : Nat) (s : S) (o : Out) (s' : S) (h : t.run I n s = some (o, s')) :
    Admits I (exitType F t) o :=
  sound hF t ht n s o s' h

/-- The same for a whole body. -/
theorem body_sound_partial {F : Folder A} {I : Interp A S} (hF : Agrees F I) (body : Stmts A)
    (ht : tidys F body = true) (n : Nat) (s : S) (o : Out) (s' : S)
    (h : body.run I n s = some (o, s')) : Admits I (exitTypeOf F body) o :=
  sound hF (.block body) (by rw [tidy]; exact ht) n s o s' (by rw [Stmt.run]; exact h)

example : tidys blind sample = true := by decide
example : tidys seeing sample = true := by decide
example : (sample.run demo 3 []).map (·.1) = some .ret := by decide
example : exitTypeOf blind sample = ET.pass ||| ET.ret := by decide
example : tidys seeing (.cons (.while_ (some [false]) (.ret none)) .nil) = true := by decide

/-- **C26** (partial: tidy statements).  The code that the compiler drops because a statement in
front of it is never passed is unreachable: the block runs the same without it. -/
theorem dropped_unreachable_partial {F : Folder A} {I : Interp A S} (hF : Agrees F I)
    (body : Stmts A) (ht : tidys F body = true) (n : Nat) (s : S) :
    (kept F body).run I n s = body.run I n s := by
  match body with
  | .nil => rfl
  | .cons t rest =>
    rw [tidys, Bool.and_eq_true] at ht
    rw [kept]
    split
    · rename_i hu
      rw [Stmts.run, Stmts.run]
      split
      · rename_i s1 h1
        exact (not_pass_of_unreached hu (sound hF t ht.1 n s .pass s1 h1)).elim
      · rfl
    · rw [Stmts.run, Stmts.run]
      split
      · exact dropped_unreachable_partial hF rest ht.2 n _
      · rfl

/-- Code is really dropped: everything behind the `return`, the endless loop and the `if` whose
branches both leave. -/
example : kept blind (.cons (.while_ none (.expr [])) (.cons (.expr []) .nil))
    = (.cons (.while_ none (.expr [])) .nil) := by rfl
example : kept blind (.cons (.if_ (some []) (.ret none) (.thr none)) (.cons (.expr []) .nil))
    = (.cons (.if_ (some []) (.ret none) (.thr none)) .nil) := by rfl

theorem snoc_run (I : Interp A S) (n : Nat) (t : Stmt A) : ∀ (body : Stmts A) (s : S),
    (body.snoc t).run I n s =
      match body.run I n s with
      | some (.pass, s') => t.run I n s'
      | r => r
  | .nil, s => by
    rw [Stmts.snoc, Stmts.run, Stmts.run]
    simp only
    split
    · rename_i h; rw [h, Stmts.run]
    · rfl
  | .cons u rest, s => by
    rw [Stmts.snoc, Stmts.run, Stmts.run]
    cases h : u.run I n s with
    | none => rfl
    | some p =>
      obtain ⟨o, s1⟩ := p
      cases o <;> first | exact snoc_run I n t rest s1 | rfl

/-- **C26** (partial: tidy bodies).  After the end analysis of a method body that was accepted, no
run falls off the end of the body; and the body runs as it was written, except that falling off the
end has become a `return`. -/
theorem method_end_partial {F : Folder A} {I : Interp A S} (hF : Agrees F I) (isVoid : Bool)
    (body body' : Stmts A) (ht : tidys F body = true) (h : postAnalysis F isVoid body = some body')
    (n : Nat) (s : S) :
    (∀ s', body'.run I n s ≠ some (.pass, s')) ∧
    body'.run I n s = match body.run I n s with
      | some (.pass, s') => some (.ret, s')
      | r => r := by
  rw [postAnalysis] at h
  split at h
  · split at h
    · cases h
      rw [snoc_run]
      constructor
      · intro s' h
        split at h
        · rw [Stmt.run] at h
          cases h
        · rename_i hne
          exact hne _ h
      · rfl
    · cases h
  · rename_i hn
    cases h
    have key : ∀ s', body.run I n s ≠ some (.pass, s') := by
      intro s' h
      have := body_sound_partial hF body ht n s .pass s' h
      apply hn
      simpa [Admits, mayPass] using this
    refine ⟨key, ?_⟩
    split
    · rename_i s' h; exact absurd h (key s')
    · rfl

/-- With a result type, a body that can fall off its end is reported: what is accepted was written
without falling off. -/
theorem method_result_partial {F : Folder A} {I : Interp A S} (hF : Agrees F I)
    (body body' : Stmts A) (ht : tidys F body = true) (h : postAnalysis F false body = some body') :
    body' = body ∧ ∀ n s s', body.run I n s ≠ some (.pass, s') := by
  have h0 := h
  rw [postAnalysis] at h
  split at h
  · cases h
  · cases h
    exact ⟨rfl, fun n s => (method_end_partial hF false body body ht h0 n s).1⟩

example : (postAnalysis blind true sample).isSome = true := by decide
example : postAnalysis blind false sample = none := by rfl
example : (postAnalysis blind false (.cons (.if_ (some []) (.ret none) (.thr none)) .nil)).isSome
    = true := by decide
example : tidys blind (.cons (.if_ (some []) (.ret none) (.thr none)) .nil) = true := by decide

/-! ## What does not hold

Each time a run that ends in a way the analysis does not list. -/

/-- `while (c) { return; }` is analysed as never passed. -/
def whileReturn : Stmt Bool := .while_ (some [false]) (.ret none)

/-- **C26 refuted** for loops that test first: `while (c) { return; }` is passed when `c` does not
hold, but the analysis says that it always returns. -/
theorem exit_while_refuted :
    exitType blind whileReturn = ET.ret ∧ whileReturn.run demo 1 [] = some (.pass, []) ∧
    ¬ Admits demo (exitType blind whileReturn) .pass := by
  refine ⟨by decide, by rfl, ?_⟩
  show ¬ mayPass _ = true
  decide

/-- **C26 refuted**, the consequence: the statement behind such a loop is dropped, and a method that
ends with such a loop gets neither a `return` nor an error although it can fall off its end. -/
theorem method_end_refuted :
    kept blind (.cons whileReturn (.cons (.expr [true]) .nil)) = .cons whileReturn .nil ∧
    (Stmts.cons whileReturn (.cons (.expr [true]) .nil)).run demo 1 [] = some (.pass, [true]) ∧
    postAnalysis blind true (.cons whileReturn .nil) = some (.cons whileReturn .nil) ∧
    postAnalysis blind false (.cons whileReturn .nil) = some (.cons whileReturn .nil) ∧
    (Stmts.cons whileReturn .nil).run demo 1 [] = some (.pass, []) := by
  exact ⟨by rfl, by rfl, by rfl, by rfl, by rfl⟩

/-- `while (true) { if (c) break; return; }`. -/
def endlessBreak : Stmt Bool :=
  .while_ none (.block (.cons (.if_ (some [true]) .brk .empty) (.cons (.ret none) .nil)))

/-- **C26 refuted** for loops left by `break`. -/
theorem exit_break_refuted :
    endlessBreak.run demo 1 [] = some (.pass, []) ∧
    ¬ Admits demo (exitType blind endlessBreak) .pass := by
  refine ⟨by rfl, ?_⟩
  show ¬ mayPass _ = true
  decide

/-- `do { if (c) break; else return; } while (c)`. -/
def doBreak : Stmt Bool := .doWhile (some [true]) (.if_ (some [true]) .brk (.ret none))

/-- **C26 refuted** for loops that test last. -/
theorem exit_do_refuted :
    doBreak.run demo 1 [] = some (.pass, []) ∧ ¬ Admits demo (exitType blind doBreak) .pass := by
  refine ⟨by rfl, ?_⟩
  show ¬ mayPass _ = true
  decide

/-- `loop { return; } until (true)`. -/
def loopOnce : Stmt Bool := .loopUntil (some [true]) (.ret none)

/-- **C26 refuted** for `loop … until (true)`: its body runs once, but is not looked at. -/
theorem exit_until_refuted :
    loopOnce.run demo 1 [] = some (.ret, []) ∧ ¬ Admits demo (exitType seeing loopOnce) .ret := by
  refine ⟨by rfl, ?_⟩
  show ¬ (exitType seeing loopOnce).has ET.ret = true
  decide

/-- `switch (x) { case 1: return; default: ; }`. -/
def switchLast : Stmt Bool :=
  .switch [false] (.cons [some 1#32] (.cons (.ret none) .nil) (.cons [none] (.cons .empty .nil) .nil))

/-- **C26 refuted** for a `switch` whose last case is empty. -/
theorem exit_switch_refuted :
    switchLast.run demo 1 [] = some (.pass, []) ∧
    ¬ Admits demo (exitType blind switchLast) .pass := by
  refine ⟨by rfl, ?_⟩
  show ¬ mayPass _ = true
  decide

/-- `switch (1) { case 1: if (c) break; case 2: return; }`. -/
def switchKnown : Stmt Bool :=
  .switch [true] (.cons [some 1#32] (.cons (.if_ (some [true, true]) .brk .empty) .nil)
    (.cons [some 2#32] (.cons (.ret none) .nil) .nil))

/-- **C26 refuted** for a `switch` over a constant with a conditional `break`. -/
theorem exit_switch_known_refuted :
    switchKnown.run demo 1 [] = some (.pass, [true]) ∧
    ¬ Admits demo (exitType seeing switchKnown) .pass := by
  refine ⟨by rfl, ?_⟩
  show ¬ mayPass _ = true
  decide

/-- `try { throw; } catch (T) { }` — the exception is a `T`. -/
def tryCatch : Stmt Bool := .try_ (.thr none) (.cons 1 .empty .nil) .empty

/-- **C26 refuted** for `catch`: the ways out of catch clauses are not looked at. -/
theorem exit_catch_refuted :
    tryCatch.run demo 1 [] = some (.pass, []) ∧ ¬ Admits demo (exitType blind tryCatch) .pass := by
  refine ⟨by rfl, ?_⟩
  show ¬ mayPass _ = true
  decide

/-- `try { } finally { if (c) return; }`. -/
def tryFinally : Stmt Bool := .try_ (.expr []) .nil (.if_ (some [true]) (.ret none) .empty)

/-- **C26 refuted** for `finally`: of a `finally` that may pass, no other way out is listed. -/
theorem exit_finally_refuted :
    tryFinally.run demo 1 [] = some (.ret, []) ∧
    ¬ Admits demo (exitType blind tryFinally) .ret := by
  refine ⟨by rfl, ?_⟩
  show ¬ (exitType blind tryFinally).has ET.ret = true
  decide

end Verif.Stmt.Props
