import Verif.Model.Scope

/-!
# What a programmer expects of names
-/

namespace Verif.Scope

/-- The scopes around a point of a program, the innermost first, each with its declarations. -/
abbrev Env := List (List (Nat × Variable))

/-- The declaration that a name means: that of the innermost scope that has one. -/
def Env.find (env : Env) (name : Nat) : Option Variable := env.flatten.lookup name

/-- The declarations that belong to the scope that a statement stands in. -/
def Stmt.declares : Stmt → List (Nat × Variable)
  | .skip => []
  | .seq a b => a.declares ++ b.declares
  | .exp _ _ => []
  | .define id name _ => [(name, ⟨.local_, id⟩)]
  | .block _ => []
  | .for_ d body => if d then [] else body.declares
  | .catch_ _ _ _ => []

/-- What each of a list of names means. -/
def findAll (env : Env) (names : List (Nat × Nat)) : List (Nat × Option Variable) := names.map fun x => (x.1, env.find x.2)

/-- The names in a statement, in their order, with what they mean. -/
def Stmt.uses : Stmt → Env → List (Nat × Option Variable)
  | .skip, _ => []
  | .seq a b, env => a.uses env ++ b.uses env
  | .exp id name, env => [(id, env.find name)]
  | .define _ _ init, env => findAll env init
  | .block body, env => body.uses (body.declares :: env)
  | .for_ d body, env => if d then body.uses (body.declares :: env) else body.uses env
  | .catch_ id name body, env => body.uses (((name, ⟨.local_, id⟩) :: body.declares) :: env)

/-- The parameters of a method as declarations. -/
def paramDecls (params : List (Nat × Nat)) : List (Nat × Variable) := params.map fun p => (p.2, ⟨.param, p.1⟩)

/-- The declarations that belong to the scope that a member stands in. -/
def Member.declares : Member → List (Nat × Variable)
  | .none => []
  | .seq a b => a.declares ++ b.declares
  | .field id name _ => [(name, ⟨.field, id⟩)]
  | .property id name accessors => (name, ⟨.property, id⟩) :: accessors.declares
  | .method normal id name _ _ => if normal then [(name, ⟨.method, id⟩)] else []
  | .type _ _ => []

/-- The names in a member, with what they mean. -/
def Member.uses : Member → Env → List (Nat × Option Variable)
  | .none, _ => []
  | .seq a b, env => a.uses env ++ b.uses env
  | .field _ _ init, env => findAll env init
  | .property _ _ accessors, env => accessors.uses env
  | .method _ _ _ params body, env => body.uses ((body.declares ++ paramDecls params) :: env)
  | .type _ members, env => members.uses (members.declares :: env)

/-- No name is declared twice in a scope; only methods may share a name. -/
def Clean (xs : List (Nat × Variable)) : Prop :=
  xs.Pairwise fun a b => a.1 = b.1 → a.2.kind = .method ∧ b.2.kind = .method

/-- All scopes in a statement are clean. -/
def Stmt.Tidy : Stmt → Prop
  | .skip => True
  | .seq a b => a.Tidy ∧ b.Tidy
  | .exp _ _ => True
  | .define _ _ _ => True
  | .block body => Clean body.declares ∧ body.Tidy
  | .for_ d body => (d = true → Clean body.declares) ∧ body.Tidy
  | .catch_ id name body => Clean ((name, ⟨.local_, id⟩) :: body.declares) ∧ body.Tidy

/-- All scopes in a member are clean. -/
def Member.Tidy : Member → Prop
  | .none => True
  | .seq a b => a.Tidy ∧ b.Tidy
  | .field _ _ _ => True
  | .property _ _ accessors => accessors.Tidy
  | .method _ _ _ params body => Clean (body.declares ++ paramDecls params) ∧ body.Tidy
  | .type _ members => Clean members.declares ∧ members.Tidy

/-- All scopes of a program are clean. -/
def Program.Tidy (p : Program) : Prop := ∀ t ∈ p, (Member.type t.1 t.2).Tidy

/-- The names of a program, with what they mean. -/
def Program.uses (p : Program) : List (Nat × Option Variable) := p.flatMap fun t => (Member.type t.1 t.2).uses []

/-! ## Names that only reach back -/

/-- The names in a statement when a declaration counts from its end on: what they mean, and the scopes behind it. -/
def Stmt.lexical : Stmt → Env → List (Nat × Option Variable) × Env
  | .skip, env => ([], env)
  | .seq a b, env => ((a.lexical env).1 ++ (b.lexical (a.lexical env).2).1, (b.lexical (a.lexical env).2).2)
  | .exp id name, env => ([(id, env.find name)], env)
  | .define id name init, env =>
    (findAll env init, match env with
      | b :: bs => (b ++ [(name, ⟨.local_, id⟩)]) :: bs
      | [] => [])
  | .block body, env => ((body.lexical ([] :: env)).1, env)
  | .for_ d body, env => if d then ((body.lexical ([] :: env)).1, env) else body.lexical env
  | .catch_ id name body, env => ((body.lexical ([(name, ⟨.local_, id⟩)] :: env)).1, env)

/-- No name is used before it is declared in a scope around its use: `later` are the names that are declared behind the
statement in the scopes around it. -/
def Stmt.backward : Stmt → List Nat → Bool
  | .skip, _ => true
  | .seq a b, later => a.backward (b.declares.map (·.1) ++ later) && b.backward later
  | .exp _ name, later => !later.contains name
  | .define _ name init, later => init.all fun x => !(name :: later).contains x.2
  | .block body, later => body.backward later
  | .for_ _ body, later => body.backward later
  | .catch_ _ _ body, later => body.backward later

end Verif.Scope
