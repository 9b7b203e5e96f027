import Verif.Proof.Scope

/-!
# C103: what a plain name means
-/

namespace Verif.Scope.Props
open Verif.Scope

/-- The compiler gets through the declarations of every program; it reports a duplicate exactly when some scope declares a name
twice (methods may share one); a program without duplicates is bound to its end. -/
theorem reports (p : Program) : ∃ log res, compile p = some (log, res) ∧ (log = [] ↔ p.Tidy) ∧ (p.Tidy → res.isSome) := by
  obtain ⟨log, res, h1, h2, h3, _⟩ := compile_spec p
  exact ⟨log, res, h1, h2, fun h => h3 (h2.2 h)⟩

/-- Every name, wherever it stands, is bound to the declaration of the innermost scope around it that declares it, be it before
or behind the name. -/
theorem binds (p : Program) (log : List Nat) (bs : List (Nat × Option Variable)) (h : compile p = some (log, some bs)) :
    bs = p.uses := by
  obtain ⟨log', res, h1, _, _, h4⟩ := compile_spec p
  rw [h1] at h
  simp only [Option.some.injEq, Prod.mk.injEq] at h
  exact h4 bs h.2

/-- In the body of a method without duplicates where no name stands before its declaration, a name means what was declared last
before it in the innermost scope: the parameters count from the start, a local from its declaration on. -/
theorem lexical_partial (params : List (Nat × Nat)) (body : Stmt) (env : Env)
    (hc : Clean (body.declares ++ paramDecls params)) (hb : body.backward [] = true) (normal : Bool) (id name : Nat) :
    (Member.method normal id name params body).uses env = (body.lexical (paramDecls params :: env)).1 := by
  rw [lexical_eq body (paramDecls params) [] (body.declares ++ paramDecls params) env env [] (by simpa using hb)
    (fun _ _ => rfl) ?_]
  · rfl
  · intro n
    rw [List.append_nil]
    refine lookup_swap n fun x hx y hy e => ?_
    unfold Clean at hc
    rw [List.pairwise_append] at hc
    have h2 := (hc.2.2 x hx y hy e).2
    simp only [paramDecls, List.mem_map] at hy
    obtain ⟨q, _, rfl⟩ := hy
    cases h2

/-- The method `void f(int a) { int x = a; { int y = x; } for (int x = 1; …) { x; } catch … }` in a class with a field. -/
def sample : Program := [(none, .seq (.field 1 100 []) (.method true 2 101 [(3, 102)]
  (.seq (.define 4 103 [(10, 102), (11, 100)]) (.seq (.block (.define 5 104 [(12, 103)]))
    (.seq (.for_ true (.seq (.define 6 103 []) (.exp 13 103))) (.catch_ 7 105 (.seq (.exp 14 105) (.exp 15 103))))))))]

/-- It is tidy, its names reach back, and each finds what it should. -/
example : compile sample = some ([], some [(10, some ⟨.param, 3⟩), (11, some ⟨.field, 1⟩), (12, some ⟨.local_, 4⟩),
    (13, some ⟨.local_, 6⟩), (14, some ⟨.local_, 7⟩), (15, some ⟨.local_, 4⟩)]) := by decide +kernel

/-- The hypotheses of `lexical_partial` are met by its method. -/
example : Clean (Stmt.declares (.seq (.define 4 103 [(10, 102)]) (.block (.define 5 103 [(12, 102)])))
      ++ paramDecls [(3, 102)])
    ∧ Stmt.backward (.seq (.define 4 103 [(10, 102)]) (.block (.define 5 103 [(12, 102)]))) [] = true := by
  refine ⟨?_, by decide⟩
  simp [Clean, Stmt.declares, paramDecls]

/-- A local counts in its whole block: in `{ int x; { x; int x; } }` the name is bound to the local that comes after it, not to
the one that was declared before. -/
theorem hoisted_refuted : ∃ body : Stmt, compile [(none, .method true 1 100 [] body)]
      = some ([], some [(10, some ⟨.local_, 3⟩)])
    ∧ (body.lexical [[]]).1 = [(10, some ⟨.local_, 2⟩)] :=
  ⟨.seq (.define 2 101 []) (.block (.seq (.exp 10 101) (.define 3 101 []))), by decide +kernel, by decide +kernel⟩

/-- In `int x = x;` the name is bound to the local itself, although a field of this name is there. -/
theorem itself_refuted : ∃ body : Stmt, compile [(none, .seq (.field 5 101 []) (.method true 1 100 [] body))]
      = some ([], some [(10, some ⟨.local_, 2⟩)])
    ∧ (body.lexical [[], [(101, ⟨.field, 5⟩)]]).1 = [(10, some ⟨.field, 5⟩)] :=
  ⟨.define 2 101 [(10, 101)], by decide +kernel, by decide +kernel⟩

/-- A duplicate local is reported, and then the compiler follows the null pointer that the definition left behind. -/
theorem duplicate_local_refuted : ∃ p : Program, compile p = some ([3], none) :=
  ⟨[(none, .method true 1 100 [] (.seq (.define 2 101 []) (.define 3 101 [])))], by decide +kernel⟩

/-- Duplicate fields and parameters are reported, and the rest is bound as ever. -/
example : compile [(none, .seq (.field 1 100 []) (.seq (.field 2 100 []) (.method true 3 101 [(4, 102), (5, 102)] (.exp 10 102))))]
    = some ([2, 5], some [(10, some ⟨.param, 4⟩)]) := by decide +kernel

/-- A field of the base class is not found by its plain name. -/
theorem inherited_refuted : ∃ p : Program, ∃ derived : Member, p = [(none, .field 1 100 []), (some 0, derived)] ∧
    compile p = some ([], some [(10, none)]) :=
  ⟨_, .method true 2 101 [] (.exp 10 100), rfl, by decide +kernel⟩

/-- The base of a class never matters for what a plain name means. -/
theorem base_ignored (p : Program) : compile (p.map fun t => (none, t.2)) = compile p := by
  have h : ∀ (p : Program) (s : State), walkTypes (p.map fun t => (none, t.2)) s = walkTypes p s := by
    intro p
    induction p with
    | nil => intro s; rfl
    | cons t ts ih =>
      intro s
      simp only [List.map_cons, walkTypes, Member.walk]
      congr 1
      funext s'
      exact ih s'
  simp only [compile, h]

/-- A method of a nested class finds the fields of the class around it. -/
theorem nested_outer_refuted : ∃ p : Program, compile p = some ([], some [(10, some ⟨.field, 1⟩)]) ∧
    p = [(none, .seq (.field 1 100 []) (.type none (.method true 2 101 [] (.exp 10 100))))] :=
  ⟨_, by decide +kernel, rfl⟩

end Verif.Scope.Props
