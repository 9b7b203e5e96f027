import Verif.Spec.Classes
import Verif.Proof.Place
import Verif.Props.Codegen
import Verif.Props.Dispatch

/-! # Lemmas about programs of classes -/

namespace Verif.Classes

open Verif.Place

/-! ## The world matters only where methods are called -/

section Congr

variable {W W' : World}

mutual

theorem Exp.compile_congr (h : W.returns = W'.returns) : ∀ (e : Exp) (drop env : Bool),
    e.compile W drop env = e.compile W' drop env
  | .const _, _, _ => by simp only [Exp.compile]
  | .this, _, _ => by simp only [Exp.compile]
  | .get p, _, _ => by simp only [Exp.compile, Place.read_congr h p]
  | .bin _ a b, _, _ => by simp only [Exp.compile, Exp.compile_congr h a, Exp.compile_congr h b]
  | .assign p e, _, _ => by
    simp only [Exp.compile, Place.pre_congr h p, Exp.compile_congr h e, Place.to_congr h p]
  | .opAssign _ p e, _, _ => by
    simp only [Exp.compile, Place.pre_congr h p, Place.read_congr h p, Exp.compile_congr h e, Place.to_congr h p]
  | .inc _ _ p, _, _ => by
    simp only [Exp.compile, Place.pre_congr h p, Place.read_congr h p, Place.to_congr h p]
  | .call o m args, _, _ => by
    simp only [Exp.compile, Exp.compile_congr h o, Args.compile_congr h args, popFor, h]
  | .bare m args, _, _ => by simp only [Exp.compile, Args.compile_congr h args, popFor, h]
  | .baseCall m args, _, _ => by simp only [Exp.compile, Args.compile_congr h args, popFor, h]
  | .new c m args, _, _ => by simp only [Exp.compile, Args.compile_congr h args]

theorem Place.read_congr (h : W.returns = W'.returns) : ∀ (p : Place) (drop : Bool),
    p.read W drop = p.read W' drop
  | .var _, _ => by simp only [Place.read]
  | .field o _, _ => by simp only [Place.read, Exp.compile_congr h o]
  | .elem a i, _ => by simp only [Place.read, Exp.compile_congr h a, Exp.compile_congr h i]
  | .prop o _ _, _ => by simp only [Place.read, Exp.compile_congr h o, popFor, h]
  | .indexer o args _ _, _ => by
    simp only [Place.read, Exp.compile_congr h o, Args.compile_congr h args, popFor, h]
  | .static _, _ => by simp only [Place.read]

theorem Place.pre_congr (h : W.returns = W'.returns) : ∀ (p : Place), p.pre W = p.pre W'
  | .var _ => by simp only [Place.pre]
  | .field _ _ => by simp only [Place.pre]
  | .elem _ _ => by simp only [Place.pre]
  | .prop o _ _ => by simp only [Place.pre, Exp.compile_congr h o]
  | .indexer o args _ _ => by simp only [Place.pre, Exp.compile_congr h o, Args.compile_congr h args]
  | .static _ => by simp only [Place.pre]

theorem Place.to_congr (h : W.returns = W'.returns) : ∀ (p : Place) (pick : Bool) (v : Option (List Ins)),
    p.to W pick v = p.to W' pick v
  | .var _, _, _ => by simp only [Place.to]
  | .field o _, _, _ => by simp only [Place.to, Exp.compile_congr h o]
  | .elem a i, _, _ => by simp only [Place.to, Exp.compile_congr h a, Exp.compile_congr h i]
  | .prop _ _ _, _, _ => by simp only [Place.to]
  | .indexer _ _ _ _, _, _ => by simp only [Place.to]
  | .static _, _, _ => by simp only [Place.to]

theorem Args.compile_congr (h : W.returns = W'.returns) : ∀ (as : Args), as.compile W = as.compile W'
  | .nil => by simp only [Args.compile]
  | .cons e r => by simp only [Args.compile, Exp.compile_congr h e, Args.compile_congr h r]

end

theorem Stmt.compile_congr (h : W.returns = W'.returns) (st : Place.Stmt) : st.compile W = st.compile W' := by
  cases st <;>
    simp only [Verif.Place.Stmt.compile, Args.compile_congr h, popFor, h, Place.pre_congr h, Place.read_congr h, Exp.compile_congr h, Place.to_congr h]

theorem Task.compile_congr (h : W.returns = W'.returns) : Task.compile W = Task.compile W' := by
  funext t
  cases t with
  | run st => exact Stmt.compile_congr h st
  | value e => exact Exp.compile_congr h e false false

variable (hr : W.returns = W'.returns) (ha : W.arity = W'.arity) (hv : W.virt = W'.virt)
set_option linter.unusedSectionVars false
include hr ha

mutual

theorem Exp.ok_congr : ∀ (e : Exp), e.ok W = e.ok W'
  | .const _ => by simp only [Exp.ok]
  | .this => by simp only [Exp.ok]
  | .get p => by simp only [Exp.ok, Place.readOk_congr p]
  | .bin _ a b => by simp only [Exp.ok, Exp.ok_congr a, Exp.ok_congr b]
  | .assign p e => by simp only [Exp.ok, Exp.ok_congr e, Place.keepOk_congr p]
  | .opAssign _ p e => by simp only [Exp.ok, Exp.ok_congr e, Place.keepOk_congr p]
  | .inc _ _ p => by simp only [Exp.ok, Place.incOk_congr p]
  | .call o m args => by simp only [Exp.ok, Exp.ok_congr o, Args.ok_congr args, hr, ha]
  | .bare m args => by simp only [Exp.ok, Args.ok_congr args, hr, ha]
  | .baseCall m args => by simp only [Exp.ok, Args.ok_congr args, hr, ha]
  | .new _ m args => by simp only [Exp.ok, Args.ok_congr args, hr, ha]

theorem Place.readOk_congr : ∀ (p : Place), p.readOk W = p.readOk W'
  | .var _ => by simp only [Place.readOk]
  | .field o _ => by simp only [Place.readOk, Exp.ok_congr o]
  | .elem a i => by simp only [Place.readOk, Exp.ok_congr a, Exp.ok_congr i]
  | .prop o _ _ => by simp only [Place.readOk, Exp.ok_congr o, hr, ha]
  | .indexer o args _ _ => by simp only [Place.readOk, Exp.ok_congr o, Args.ok_congr args, hr, ha]
  | .static _ => by simp only [Place.readOk]

theorem Place.keepOk_congr : ∀ (p : Place) (e : Exp), p.keepOk W e = p.keepOk W' e
  | .var _, _ => by simp only [Place.keepOk]
  | .field o _, _ => by simp only [Place.keepOk, Exp.ok_congr o]
  | .elem _ _, _ => by simp only [Place.keepOk]
  | .prop _ _ _, _ => by simp only [Place.keepOk]
  | .indexer _ _ _ _, _ => by simp only [Place.keepOk]
  | .static _, _ => by simp only [Place.keepOk]

theorem Place.incOk_congr : ∀ (p : Place) (post : Bool), p.incOk W post = p.incOk W' post
  | .var _, _ => by simp only [Place.incOk]
  | .field o _, _ => by simp only [Place.incOk, Exp.ok_congr o]
  | .elem a i, _ => by simp only [Place.incOk, Exp.ok_congr a, Exp.ok_congr i]
  | .prop _ _ _, _ => by simp only [Place.incOk]
  | .indexer _ _ _ _, _ => by simp only [Place.incOk]
  | .static _, _ => by simp only [Place.incOk]

theorem Args.ok_congr : ∀ (as : Args), as.ok W = as.ok W'
  | .nil => by simp only [Args.ok]
  | .cons e r => by simp only [Args.ok, Exp.ok_congr e, Args.ok_congr r]

end

include hv in
theorem Stmt.ok_congr (st : Place.Stmt) : st.ok W = st.ok W' := by
  cases st with
  | assign p e => cases p <;> simp only [Stmt.ok, Exp.ok_congr hr ha, hr, ha]
  | opAssign op p e =>
    cases p <;> simp only [Stmt.ok, Exp.ok_congr hr ha, Args.ok_congr hr ha, hr, ha, hv]
  | inc b op p =>
    cases p <;> simp only [Stmt.ok, Exp.ok_congr hr ha, Args.ok_congr hr ha, hr, ha, hv]
  | call o m args => simp only [Stmt.ok, Exp.ok_congr hr ha, Args.ok_congr hr ha, ha]
  | bare m args => simp only [Stmt.ok, Args.ok_congr hr ha, ha]
  | baseCall m args => simp only [Stmt.ok, Args.ok_congr hr ha, ha]
  | new c m args => simp only [Stmt.ok, Args.ok_congr hr ha, hr, ha]

end Congr

/-! ## Tasks -/

/-- What the instructions do, as an interpretation. -/
def interp (W : World) (this : Val) : Verif.Stmt.Interp Ins Cfg where
  act := (machine W this).act
  popBool := popBool
  popInt := popInt
  pushBool := pushBool
  accepts _ _ := true
  pop_push b s := by cases b <;> rfl
  accepts_all _ := rfl

theorem interp_machine (W : World) (this : Val) : (interp W this).machine = machine W this := rfl

theorem interp_eval (W : World) (this : Val) : ∀ (code : List Ins) (c : Cfg),
    (interp W this).eval code c = match exec W this code c with
      | some c' => .ok c'
      | none => .error dead
  | [], c => rfl
  | i :: is, c => by
    rw [Verif.Stmt.Interp.eval, exec]
    simp only [interp, machine]
    cases step W this i c with
    | none => rfl
    | some c' => exact interp_eval W this is c'

/-- The instructions of a task do what it says. -/
theorem task_right {W W' : World} (hr : W.returns = W'.returns) (ha : W.arity = W'.arity)
    (hv : W.virt = W'.virt) (this : Val) (t : Task) (h : t.ok W' = true) (code : List Ins)
    (hc : t.compile W' = some code) (c : Cfg) :
    (interp W this).eval code c = (meaning W this).act t c := by
  obtain ⟨k, s⟩ := c
  rw [interp_eval]
  cases t with
  | run st =>
    simp only [Task.ok] at h
    rw [← Stmt.ok_congr hr ha hv st] at h
    obtain ⟨code', h1, h2⟩ := Stmt.right (this := this) st h
    simp only [Task.compile] at hc
    rw [← Stmt.compile_congr hr, h1] at hc
    cases hc
    rw [h2]
    simp only [meaning]
    cases st.run W this s <;> rfl
  | value e =>
    simp only [Task.ok] at h
    rw [← Exp.ok_congr hr ha e] at h
    obtain ⟨code', h1, h2⟩ := Exp.right (this := this) e h false
    simp only [Task.compile] at hc
    rw [← Exp.compile_congr hr, h1] at hc
    cases hc
    rw [h2]
    simp only [meaning]
    cases e.eval W this s <;> rfl

theorem agrees (W : World) (this : Val) : Verif.Stmt.Agrees folder (interp W this) := by
  constructor
  · intro e b h c
    obtain ⟨k, s⟩ := c
    simp only [folder] at h
    split at h
    · cases h
      exact ⟨_, rfl, rfl⟩
    · cases h
  · intro e b h c
    obtain ⟨k, s⟩ := c
    simp only [folder] at h
    split at h
    · cases h
      exact ⟨_, rfl, rfl⟩
    · cases h

/-! ## Statements -/

section Lower

variable {A B S : Type} {f : A → Option (List B)} {I : Verif.Stmt.Interp B S} {J : Verif.Stmt.Interp A S}
  {p : A → Bool}

/-- Both read conditions alike, and the instructions of each task do what the task says. -/
structure Match (f : A → Option (List B)) (p : A → Bool) (I : Verif.Stmt.Interp B S)
    (J : Verif.Stmt.Interp A S) : Prop where
  popBool : I.popBool = J.popBool
  popInt : I.popInt = J.popInt
  accepts : I.accepts = J.accepts
  act : ∀ a c, p a = true → f a = some c → ∀ s, I.eval c s = J.act a s

theorem eval_append (I : Verif.Stmt.Interp B S) : ∀ (a b : List B) (s : S), I.eval (a ++ b) s =
    match I.eval a s with
    | .ok s' => I.eval b s'
    | .error s' => .error s'
  | [], b, s => rfl
  | x :: a, b, s => by
    rw [List.cons_append, Verif.Stmt.Interp.eval, Verif.Stmt.Interp.eval]
    cases I.act x s with
    | error e => rfl
    | ok s' => exact eval_append I a b s'

theorem Match.eval (hm : Match f p I J) : ∀ (e : List A) (c : List B), e.all p = true → lowerE f e = some c →
    ∀ s, I.eval c s = J.eval e s
  | [], c, _, h, s => by
    simp only [lowerE] at h
    cases h
    rfl
  | a :: as, c, hp, h, s => by
    simp only [List.all_cons, Bool.and_eq_true] at hp
    simp only [lowerE, Option.bind_eq_bind, Option.bind_eq_some_iff, Option.some.injEq] at h
    obtain ⟨c1, h1, c2, h2, rfl⟩ := h
    rw [eval_append, hm.act a c1 hp.1 h1, Verif.Stmt.Interp.eval]
    cases J.act a s with
    | error e => rfl
    | ok s' => exact Match.eval hm as c2 hp.2 h2 s'

theorem Match.evalO (hm : Match f p I J) (e : Option (List A)) (c : Option (List B))
    (hp : (e.getD []).all p = true) (h : lowerO f e = some c) (s : S) :
    I.eval (c.getD []) s = J.eval (e.getD []) s := by
  cases e with
  | none => simp only [lowerO] at h; cases h; rfl
  | some e =>
    simp only [lowerO, Option.map_eq_some_iff] at h
    obtain ⟨c', h1, rfl⟩ := h
    exact hm.eval e c' hp h1 s

theorem Match.evalL (hm : Match f p I J) : ∀ (e : List (List A)) (c : List (List B)),
    e.all (·.all p) = true → lowerL f e = some c → ∀ s, I.eval c.flatten s = J.eval e.flatten s
  | [], c, _, h, s => by simp only [lowerL] at h; cases h; rfl
  | a :: as, c, hp, h, s => by
    simp only [List.all_cons, Bool.and_eq_true] at hp
    simp only [lowerL, Option.bind_eq_bind, Option.bind_eq_some_iff, Option.some.injEq] at h
    obtain ⟨c1, h1, c2, h2, rfl⟩ := h
    rw [List.flatten_cons, List.flatten_cons, eval_append, eval_append, hm.eval a c1 hp.1 h1]
    cases J.eval a s with
    | error e => rfl
    | ok s' => exact Match.evalL hm as c2 hp.2 h2 s'

theorem Match.test (hm : Match f p I J) (e : Option (List A)) (c : Option (List B))
    (hp : (e.getD []).all p = true) (h : lowerO f e = some c) : I.test c = J.test e := by
  funext s
  cases e with
  | none => simp only [lowerO] at h; cases h; rfl
  | some e =>
    simp only [lowerO, Option.map_eq_some_iff] at h
    obtain ⟨c', h1, rfl⟩ := h
    rw [Verif.Stmt.Interp.test, Verif.Stmt.Interp.test]
    simp only [hm.eval e c' hp h1 s, hm.popBool]

theorem lowerCases_index : ∀ (cs : Verif.Stmt.Cases A) (cs' : Verif.Stmt.Cases B), lowerCases f cs = some cs' →
    ∀ l, Verif.Stmt.pickCase.index l cs' = Verif.Stmt.pickCase.index l cs
  | .nil, cs', h, l => by simp only [lowerCases] at h; cases h; rfl
  | .cons ls body rest, cs', h, l => by
    simp only [lowerCases, Option.bind_eq_bind, Option.bind_eq_some_iff, Option.some.injEq] at h
    obtain ⟨b, h1, r, h2, rfl⟩ := h
    simp only [Verif.Stmt.pickCase.index, lowerCases_index rest r h2 l]

theorem lowerO_none {e : Option (List A)} {c : Option (List B)} (h : lowerO f e = some c) :
    (c = none ↔ e = none) := by
  cases e with
  | none => simp only [lowerO] at h; cases h; simp
  | some e =>
    simp only [lowerO, Option.map_eq_some_iff] at h
    obtain ⟨c', _, rfl⟩ := h
    simp

mutual

theorem Match.run (hm : Match f p I J) (n : Nat) : ∀ (st : Verif.Stmt.Stmt A) (st' : Verif.Stmt.Stmt B),
    allS p st = true → lower f st = some st' → ∀ s, st'.run I n s = st.run J n s
  | .expr e, st', hp, h, s => by
    simp only [lower, Option.bind_eq_bind, Option.bind_eq_some_iff, Option.some.injEq] at h
    obtain ⟨c, h1, rfl⟩ := h
    simp only [allS] at hp
    simp only [Verif.Stmt.Stmt.run, Verif.Stmt.Stmt.run.simple, hm.eval e c hp h1]
  | .typeDef, st', hp, h, s => by simp only [lower] at h; cases h; simp only [Verif.Stmt.Stmt.run]
  | .decl inits, st', hp, h, s => by
    simp only [lower, Option.bind_eq_bind, Option.bind_eq_some_iff, Option.some.injEq] at h
    obtain ⟨c, h1, rfl⟩ := h
    simp only [allS] at hp
    simp only [Verif.Stmt.Stmt.run, Verif.Stmt.Stmt.run.simple, hm.evalL inits c hp h1]
  | .brk, st', hp, h, s => by simp only [lower] at h; cases h; simp only [Verif.Stmt.Stmt.run]
  | .cont, st', hp, h, s => by simp only [lower] at h; cases h; simp only [Verif.Stmt.Stmt.run]
  | .goto_ l, st', hp, h, s => by simp only [lower] at h; cases h; simp only [Verif.Stmt.Stmt.run]
  | .empty, st', hp, h, s => by simp only [lower] at h; cases h; simp only [Verif.Stmt.Stmt.run]
  | .thr e, st', hp, h, s => by
    simp only [lower, Option.bind_eq_bind, Option.bind_eq_some_iff, Option.some.injEq] at h
    obtain ⟨c, h1, rfl⟩ := h
    simp only [allS] at hp
    simp only [Verif.Stmt.Stmt.run, Verif.Stmt.Stmt.run.simple, hm.evalO e c hp h1]
  | .ret e, st', hp, h, s => by
    simp only [lower, Option.bind_eq_bind, Option.bind_eq_some_iff, Option.some.injEq] at h
    obtain ⟨c, h1, rfl⟩ := h
    simp only [allS] at hp
    simp only [Verif.Stmt.Stmt.run, Verif.Stmt.Stmt.run.simple, hm.evalO e c hp h1]
  | .block body, st', hp, h, s => by
    simp only [lower, Option.bind_eq_bind, Option.bind_eq_some_iff, Option.some.injEq] at h
    obtain ⟨b, h1, rfl⟩ := h
    simp only [allS] at hp
    simp only [Verif.Stmt.Stmt.run, Match.runs hm n body b hp h1]
  | .doWhile c body, st', hp, h, s => by
    simp only [lower, Option.bind_eq_bind, Option.bind_eq_some_iff, Option.some.injEq] at h
    obtain ⟨c', h1, b, h2, rfl⟩ := h
    simp only [allS, Bool.and_eq_true] at hp
    have hb : b.run I n = body.run J n := funext (Match.run hm n body b hp.2 h2)
    simp only [Verif.Stmt.Stmt.run, hm.test c c' hp.1 h1, hb]
  | .loopUntil c body, st', hp, h, s => by
    simp only [lower, Option.bind_eq_bind, Option.bind_eq_some_iff, Option.some.injEq] at h
    obtain ⟨c', h1, b, h2, rfl⟩ := h
    simp only [allS, Bool.and_eq_true] at hp
    have hb : b.run I n = body.run J n := funext (Match.run hm n body b hp.2 h2)
    cases c with
    | none =>
      simp only [lowerO] at h1
      cases h1
      simp only [Verif.Stmt.Stmt.run, hb]
      rfl
    | some e =>
      simp only [lowerO, Option.map_eq_some_iff] at h1
      obtain ⟨c2, h3, rfl⟩ := h1
      have ht : I.test (some c2) = J.test (some e) :=
        hm.test (some e) (some c2) hp.1 (by simp only [lowerO, h3, Option.map_some])
      simp only [Verif.Stmt.Stmt.run, hb, ht]
  | .while_ c body, st', hp, h, s => by
    simp only [lower, Option.bind_eq_bind, Option.bind_eq_some_iff, Option.some.injEq] at h
    obtain ⟨c', h1, b, h2, rfl⟩ := h
    simp only [allS, Bool.and_eq_true] at hp
    have hb : b.run I n = body.run J n := funext (Match.run hm n body b hp.2 h2)
    simp only [Verif.Stmt.Stmt.run, hm.test c c' hp.1 h1, hb]
  | .for_ init c inc body, st', hp, h, s => by
    simp only [lower, Option.bind_eq_bind, Option.bind_eq_some_iff, Option.some.injEq] at h
    obtain ⟨i', h0, c', h1, k', h3, b, h2, rfl⟩ := h
    simp only [allS, Bool.and_eq_true] at hp
    have hb : b.run I n = body.run J n := funext (Match.run hm n body b hp.2 h2)
    have hk : I.evalOpt k' = J.evalOpt inc := funext (hm.evalO inc k' hp.1.2 h3)
    simp only [Verif.Stmt.Stmt.run, hm.test c c' hp.1.1.2 h1, hb, hk, hm.eval init i' hp.1.1.1 h0]
  | .if_ c yes no, st', hp, h, s => by
    simp only [lower, Option.bind_eq_bind, Option.bind_eq_some_iff, Option.some.injEq] at h
    obtain ⟨c', h1, y, h2, z, h3, rfl⟩ := h
    simp only [allS, Bool.and_eq_true] at hp
    have hy : y.run I n = yes.run J n := funext (Match.run hm n yes y hp.1.2 h2)
    have hz : z.run I n = no.run J n := funext (Match.run hm n no z hp.2 h3)
    simp only [Verif.Stmt.Stmt.run, hm.test c c' hp.1.1 h1, hy, hz]
  | .switch e cases, st', hp, h, s => by
    simp only [lower, Option.bind_eq_bind, Option.bind_eq_some_iff, Option.some.injEq] at h
    obtain ⟨c, h1, cs, h2, rfl⟩ := h
    simp only [allS, Bool.and_eq_true] at hp
    have hc : ∀ k s, cs.run I n k s = cases.run J n k s := Match.runCases hm n cases cs hp.2 h2
    have hx : ∀ v, Verif.Stmt.pickCase v cs = Verif.Stmt.pickCase v cases := fun v => by
      simp only [Verif.Stmt.pickCase, lowerCases_index cases cs h2]
    simp only [Verif.Stmt.Stmt.run, hm.eval e c hp.1 h1, hm.popInt, hx, hc]
  | .try_ body catches fin, st', hp, h, s => by
    simp only [lower, Option.bind_eq_bind, Option.bind_eq_some_iff, Option.some.injEq] at h
    obtain ⟨b, h1, cs, h2, z, h3, rfl⟩ := h
    simp only [allS, Bool.and_eq_true] at hp
    have hb : b.run I n = body.run J n := funext (Match.run hm n body b hp.1.1 h1)
    have hz : z.run I n = fin.run J n := funext (Match.run hm n fin z hp.2 h3)
    have hc : cs.run I n = catches.run J n := funext (Match.runCatches hm n catches cs hp.1.2 h2)
    simp only [Verif.Stmt.Stmt.run, hb, hz, hc]

theorem Match.runs (hm : Match f p I J) (n : Nat) : ∀ (st : Verif.Stmt.Stmts A) (st' : Verif.Stmt.Stmts B),
    allSs p st = true → lowers f st = some st' → ∀ s, st'.run I n s = st.run J n s
  | .nil, st', hp, h, s => by simp only [lowers] at h; cases h; simp only [Verif.Stmt.Stmts.run]
  | .cons t rest, st', hp, h, s => by
    simp only [lowers, Option.bind_eq_bind, Option.bind_eq_some_iff, Option.some.injEq] at h
    obtain ⟨t', h1, r, h2, rfl⟩ := h
    simp only [allSs, Bool.and_eq_true] at hp
    have hr : r.run I n = rest.run J n := funext (Match.runs hm n rest r hp.2 h2)
    simp only [Verif.Stmt.Stmts.run, Match.run hm n t t' hp.1 h1, hr]

theorem Match.runCases (hm : Match f p I J) (n : Nat) : ∀ (cs : Verif.Stmt.Cases A) (cs' : Verif.Stmt.Cases B),
    allCases p cs = true → lowerCases f cs = some cs' → ∀ k s, cs'.run I n k s = cs.run J n k s
  | .nil, cs', hp, h, k, s => by
    simp only [lowerCases] at h
    cases h
    simp only [Verif.Stmt.Cases.run]
  | .cons ls body rest, cs', hp, h, k, s => by
    simp only [lowerCases, Option.bind_eq_bind, Option.bind_eq_some_iff, Option.some.injEq] at h
    obtain ⟨b, h1, r, h2, rfl⟩ := h
    simp only [allCases, Bool.and_eq_true] at hp
    have hr := Match.runCases hm n rest r hp.2 h2
    have hb : b.run I n = body.run J n := funext (Match.runs hm n body b hp.1 h1)
    cases k with
    | zero => simp only [Verif.Stmt.Cases.run, hb, hr]
    | succ k => simp only [Verif.Stmt.Cases.run, hr]

theorem Match.runCatches (hm : Match f p I J) (n : Nat) :
    ∀ (cs : Verif.Stmt.Catches A) (cs' : Verif.Stmt.Catches B),
    allCatches p cs = true → lowerCatches f cs = some cs' → ∀ s, cs'.run I n s = cs.run J n s
  | .nil, cs', hp, h, s => by
    simp only [lowerCatches] at h
    cases h
    simp only [Verif.Stmt.Catches.run]
  | .cons ty body rest, cs', hp, h, s => by
    simp only [lowerCatches, Option.bind_eq_bind, Option.bind_eq_some_iff, Option.some.injEq] at h
    obtain ⟨b, h1, r, h2, rfl⟩ := h
    simp only [allCatches, Bool.and_eq_true] at hp
    simp only [Verif.Stmt.Catches.run, hm.accepts, Match.run hm n body b hp.1 h1,
      Match.runCatches hm n rest r hp.2 h2]

end

end Lower

/-! ## Virtual calls -/

theorem below_eq : ∀ (c : Nat) (l ds : List Nat), below c l = some ds → ∃ rest, l = ds ++ c :: rest
  | _, [], _, h => by cases h
  | c, k :: l, ds, h => by
    simp only [below] at h
    split at h
    · rename_i hk
      cases h
      exact ⟨l, by rw [hk]; rfl⟩
    · simp only [Option.map_eq_some_iff] at h
      obtain ⟨ds', h1, rfl⟩ := h
      obtain ⟨rest, h2⟩ := below_eq c l ds' h1
      exact ⟨rest, by rw [h2]; rfl⟩

theorem lined_suffix (P : Program) : ∀ (l pre : List Nat) (b : Nat) (rest : List Nat), P.lined l = true →
    l = pre ++ b :: rest → P.lineage b = b :: rest
  | l, [], b, rest, h, e => by
    subst e
    simp only [List.nil_append, Program.lined, Bool.and_eq_true, decide_eq_true_eq] at h
    exact h.1
  | l, x :: pre, b, rest, h, e => by
    subst e
    simp only [List.cons_append, Program.lined, Bool.and_eq_true] at h
    exact lined_suffix P _ pre b rest h.2 rfl

/-- The table leads to the most derived override. -/
theorem target_eq {o : Verif.Stmt.Opts} {P : Program} (hP : P.Fine o) (h : Heap) (m : Nat)
    (hv : P.virt m = true) (v : Val) : P.vmTarget h m v = P.target h m v := by
  rw [Program.vmTarget, Program.target]
  cases hk : classOf h v with
  | none => rfl
  | some k =>
    cases hd : P.decl m with
    | none => rfl
    | some x =>
      obtain ⟨c, i, d⟩ := x
      simp only
      cases hb : below c (P.lineage k) with
      | none => rfl
      | some ds =>
        -- the declaration
        have hd' := hd
        simp only [Program.decl] at hd'
        split at hd'
        · cases hd'
        · split at hd'
          · cases hd'
          · rename_i _ k' _ _ c' hc'
            simp only [Option.map_eq_some_iff, Prod.mk.injEq] at hd'
            obtain ⟨d', h1, rfl, rfl, rfl⟩ := hd'
            have hl : P.loaded k' = some ⟨0, c'.first, c'.methods⟩ := by
              simp only [Program.loaded, hc', Option.map_some]
            have hlin : P.lineage k' = k' :: c'.bases := by simp only [Program.lineage, hc']
            -- the class of the object
            obtain ⟨rest, hr⟩ := below_eq _ _ _ hb
            have hsuf : k' :: rest = P.lineage k' := by
              have hkc : ∃ ck, P.classes[k]? = some ck := by
                cases hck : P.classes[k]? with
                | none => simp [Program.lineage, hck] at hr
                | some ck => exact ⟨ck, rfl⟩
              obtain ⟨ck, hck⟩ := hkc
              have hlk : P.lineage k = k :: ck.bases := by simp only [Program.lineage, hck]
              rw [hlk] at hr
              cases ds with
              | nil =>
                simp only [List.nil_append, List.cons.injEq] at hr
                obtain ⟨rfl, h2⟩ := hr
                rw [hlk, h2]
              | cons x ds =>
                simp only [List.cons_append, List.cons.injEq] at hr
                exact (lined_suffix P _ ds k' rest (hP.lined ck (List.mem_of_getElem? hck)) hr.2).symm
            have hchain : P.chain k = ds.filterMap P.loaded ++ P.chain k' := by
              rw [Program.chain, hr, hsuf, List.filterMap_append, Program.chain]
            have hchain' : P.chain k' = ⟨0, c'.first, c'.methods⟩ :: c'.bases.filterMap P.loaded := by
              rw [Program.chain, hlin, List.filterMap_cons, hl]
            have hcall : Dispatch.Callable 0 (P.chain k') d' := by
              have hv' : d'.virt = true ∨ d'.over = true := by
                simp only [Program.virt, hd, Bool.or_eq_true] at hv
                exact hv
              rcases hv' with hv' | hv'
              · exact Or.inl hv'
              · refine Or.inr ⟨hv', ?_⟩
                intro x hx
                simp only [Program.chain, List.mem_filterMap, Program.loaded, Option.map_eq_some_iff] at hx
                obtain ⟨_, _, _, _, rfl⟩ := hx
                rfl
            have key := Dispatch.Props.virtual_call_partial 0 (ds.filterMap P.loaded) ⟨0, c'.first, c'.methods⟩
              (c'.bases.filterMap P.loaded) (by rw [← hchain', ← hchain]; exact hP.ordered k)
              (by rw [← hchain', ← hchain]; exact hP.tidy k) (m - c'.first) d' h1
              (by rw [← hchain']; exact hcall)
            obtain ⟨off, h2, h3, _⟩ := key
            rw [hchain', hchain, hchain', h2, hl]
            simp only [h3, Option.map_some]

theorem world_eq {o : Verif.Stmt.Opts} {P : Program} (hP : P.Fine o) (f : Calls) :
    P.world P.vmTarget f = P.world P.target f := by
  have h : (fun m v args h => if P.virt m then (P.vmTarget h m v).bind (fun t => f t v args h) else f m v args h) =
      (fun m v args h => if P.virt m then (P.target h m v).bind (fun t => f t v args h) else f m v args h) := by
    funext m v args h
    cases hv : P.virt m with
    | false => rfl
    | true => rw [target_eq hP h m hv v]
  simp only [Program.world, h]

/-! ## Methods -/

/-- The commands of a method return exactly where its statements do. -/
theorem method_right {o : Verif.Stmt.Opts} {P : Program} (M : Method) (hM : M.Fine o P)
    (cmds : List (Verif.Stmt.Cmd Ins)) (hc : P.compile o M = some cmds)
    (t : Heap → Nat → Val → Option Nat) (f : Calls) (this : Val) (c c' : Cfg) :
    (∃ n, Verif.Stmt.steps (machine (P.world t f) this) cmds n (.at_ 0 c) = .returned c') ↔
      Ends (P.world t f) this M c c' := by
  simp only [Program.compile, Option.bind_eq_some_iff] at hc
  obtain ⟨body', h1, h2⟩ := hc
  have hlow := h1
  simp only [Program.lowered, Option.bind_eq_some_iff] at h1
  obtain ⟨body, h3, h4⟩ := h1
  have h5 : Verif.Stmt.compileMethod o folder body' = .ok cmds := by
    revert h2
    cases Verif.Stmt.compileMethod o folder body' with
    | error e => intro h; cases h
    | ok x => intro h; cases h; rfl
  have hm : Match (Task.compile P.sig) (Task.ok P.sig) (interp (P.world t f) this) (meaning (P.world t f) this) :=
    ⟨rfl, rfl, rfl, fun a c hp hf s => task_right (W := P.world t f) (W' := P.sig) rfl rfl rfl this a hp c hf s⟩
  have hrun := fun n s => hm.runs n M.body body hM.tasks h3 s
  have hend := fun n s => (Verif.Stmt.Props.method_end_partial (agrees (P.world t f) this) (!M.returns) body body'
    (hM.tidy body h3) h4 n s).2
  have hplain : Verif.Stmt.plains o folder body' = true := by
    have hp := hM.plain body h3
    rw [Verif.Stmt.postAnalysis] at h4
    split at h4
    · split at h4
      · injection h4 with h4
        rw [← h4, Verif.Stmt.Props.plains_snoc, hp, Verif.Stmt.plain] <;> simp
      · cases h4
    · injection h4 with h4
      rw [← h4]; exact hp
  have hf := (Verif.Stmt.Props.method_follows_partial (agrees (P.world t f) this) body' cmds h5 hplain
    (hM.short body' hlow) c c').1
  rw [interp_machine] at hf
  rw [show (∃ n, Verif.Stmt.steps (machine (P.world t f) this) cmds n (.at_ 0 c) = .returned c') ↔
    Verif.Stmt.Reach (machine (P.world t f) this) cmds (.at_ 0 c) (.returned c') from Iff.rfl, ← hf, Ends]
  constructor
  · rintro ⟨n, hn⟩
    rw [hend, hrun] at hn
    refine ⟨n, ?_⟩
    split at hn
    · rename_i s' hs
      cases hn
      right
      refine ⟨?_, hs⟩
      cases hr : M.returns with
      | false => rfl
      | true =>
        rw [hr] at h4
        have := (Verif.Stmt.Props.method_result_partial (agrees (P.world t f) this) body body'
          (hM.tidy body h3) h4).2 n c c'
        rw [hrun] at this
        exact absurd hs this
    · exact Or.inl hn
  · rintro ⟨n, hn | ⟨_, hn⟩⟩
    · refine ⟨n, ?_⟩
      rw [hend, hrun, hn]
    · refine ⟨n, ?_⟩
      rw [hend, hrun, hn]

theorem exec_eq_source {o : Verif.Stmt.Opts} {P : Program} (hP : P.Fine o) : ∀ d, P.exec o d = P.source d
  | 0 => rfl
  | d + 1 => by
    funext m this args h
    simp only [Program.exec, Program.source]
    rw [exec_eq_source hP d, world_eq hP]
    cases hm : P.methods[m]? with
    | none => rfl
    | some M =>
      have hmem := List.mem_of_getElem? hm
      simp only
      split
      · have hacc := hP.accepted M hmem
        cases hc : P.compile o M with
        | none => rw [hc] at hacc; cases hacc
        | some cmds =>
          simp only
          congr 2
          funext c
          exact propext (method_right M (hP.methods M hmem) cmds hc P.target (P.source d) this _ c)
      · rfl

/-! ## More may end when more calls do -/

/-- The second world knows the results of more calls. -/
structure Le (W W' : World) : Prop where
  create : W.create = W'.create
  run : ∀ m o args h r, W.run m o args h = some r → W'.run m o args h = some r
  direct : ∀ m o args h r, W.direct m o args h = some r → W'.direct m o args h = some r

section Mono

variable {W W' : World} (hW : Le W W') (this : Val)
include hW

theorem Le.invoke {m : Nat} {o : Val} {args : List Val} {s : State} {r : Val × State}
    (h : invoke W m o args s = some r) : invoke W' m o args s = some r := by
  simp only [Place.invoke, Option.map_eq_some_iff] at h ⊢
  obtain ⟨x, h1, h2⟩ := h
  exact ⟨x, hW.run _ _ _ _ _ h1, h2⟩

theorem Le.invokeDirect {m : Nat} {o : Val} {args : List Val} {s : State} {r : Val × State}
    (h : invokeDirect W m o args s = some r) : invokeDirect W' m o args s = some r := by
  simp only [Place.invokeDirect, Option.map_eq_some_iff] at h ⊢
  obtain ⟨x, h1, h2⟩ := h
  exact ⟨x, hW.direct _ _ _ _ _ h1, h2⟩

theorem Le.load {l : Loc} {s : State} {r : Val × State} (h : l.load W s = some r) : l.load W' s = some r := by
  cases l <;> simp only [Loc.load] at h ⊢
  all_goals first | exact h | exact hW.invoke h

theorem Le.store {l : Loc} {v : Val} {s : State} {r : State} (h : l.store W v s = some r) :
    l.store W' v s = some r := by
  cases l <;> simp only [Loc.store] at h ⊢
  all_goals first
    | exact h
    | (simp only [Option.map_eq_some_iff] at h ⊢
       obtain ⟨x, h1, h2⟩ := h
       exact ⟨x, hW.invoke h1, h2⟩)

mutual

theorem Le.eval : ∀ (e : Exp) (s : State) (r : Val × State), e.eval W this s = some r → e.eval W' this s = some r
  | .const _, _, _, h => h
  | .this, _, _, h => h
  | .get p, s, r, h => by
    simp only [Exp.eval, Option.bind_eq_bind, Option.bind_eq_some_iff] at h ⊢
    obtain ⟨x, h1, h2⟩ := h
    exact ⟨x, Le.locate p s x h1, hW.load h2⟩
  | .bin op a b, s, r, h => by
    simp only [Exp.eval, Option.bind_eq_bind, Option.bind_eq_some_iff] at h ⊢
    obtain ⟨x, h1, y, h2, h3⟩ := h
    exact ⟨x, Le.eval a s x h1, y, Le.eval b _ y h2, h3⟩
  | .assign p e, s, r, h => by
    simp only [Exp.eval, Option.bind_eq_bind, Option.bind_eq_some_iff] at h ⊢
    obtain ⟨x, h1, y, h2, z, h3, h4⟩ := h
    exact ⟨x, Le.locate p s x h1, y, Le.eval e _ y h2, z, hW.store h3, h4⟩
  | .opAssign op p e, s, r, h => by
    simp only [Exp.eval, Option.bind_eq_bind, Option.bind_eq_some_iff] at h ⊢
    obtain ⟨x, h1, y, h2, z, h3, w, h4, u, h5, h6⟩ := h
    exact ⟨x, Le.locate p s x h1, y, hW.load h2, z, Le.eval e _ z h3, w, h4, u, hW.store h5, h6⟩
  | .inc post op p, s, r, h => by
    simp only [Exp.eval, Option.bind_eq_bind, Option.bind_eq_some_iff] at h ⊢
    obtain ⟨x, h1, y, h2, z, h3, u, h5, h6⟩ := h
    exact ⟨x, Le.locate p s x h1, y, hW.load h2, z, h3, u, hW.store h5, h6⟩
  | .call o m args, s, r, h => by
    simp only [Exp.eval, Option.bind_eq_bind, Option.bind_eq_some_iff] at h ⊢
    obtain ⟨x, h1, y, h2, h3⟩ := h
    exact ⟨x, Le.eval o s x h1, y, Le.args args _ y h2, hW.invoke h3⟩
  | .bare m args, s, r, h => by
    simp only [Exp.eval, Option.bind_eq_bind, Option.bind_eq_some_iff] at h ⊢
    obtain ⟨y, h2, h3⟩ := h
    exact ⟨y, Le.args args _ y h2, hW.invoke h3⟩
  | .baseCall m args, s, r, h => by
    simp only [Exp.eval, Option.bind_eq_bind, Option.bind_eq_some_iff] at h ⊢
    obtain ⟨y, h2, h3⟩ := h
    exact ⟨y, Le.args args _ y h2, hW.invokeDirect h3⟩
  | .new c m args, s, r, h => by
    simp only [Exp.eval, Option.bind_eq_bind, Option.bind_eq_some_iff, ← hW.create] at h ⊢
    obtain ⟨y, h2, z, h3, h4⟩ := h
    exact ⟨y, Le.args args _ y h2, z, hW.invoke h3, h4⟩

theorem Le.locate : ∀ (p : Place) (s : State) (r : Loc × State), p.locate W this s = some r →
    p.locate W' this s = some r
  | .var _, _, _, h => h
  | .field o f, s, r, h => by
    simp only [Place.locate, Option.bind_eq_bind, Option.bind_eq_some_iff] at h ⊢
    obtain ⟨x, h1, h2⟩ := h
    exact ⟨x, Le.eval o s x h1, h2⟩
  | .elem a i, s, r, h => by
    simp only [Place.locate, Option.bind_eq_bind, Option.bind_eq_some_iff] at h ⊢
    obtain ⟨x, h1, y, h2, h3⟩ := h
    exact ⟨x, Le.eval a s x h1, y, Le.eval i _ y h2, h3⟩
  | .prop o g st, s, r, h => by
    simp only [Place.locate, Option.bind_eq_bind, Option.bind_eq_some_iff] at h ⊢
    obtain ⟨x, h1, h2⟩ := h
    exact ⟨x, Le.eval o s x h1, h2⟩
  | .indexer o args g st, s, r, h => by
    simp only [Place.locate, Option.bind_eq_bind, Option.bind_eq_some_iff] at h ⊢
    obtain ⟨x, h1, y, h2, h3⟩ := h
    exact ⟨x, Le.eval o s x h1, y, Le.args args _ y h2, h3⟩
  | .static _, _, _, h => h

theorem Le.args : ∀ (as : Args) (s : State) (r : List Val × State), as.eval W this s = some r →
    as.eval W' this s = some r
  | .nil, _, _, h => h
  | .cons e rest, s, r, h => by
    simp only [Args.eval, Option.bind_eq_bind, Option.bind_eq_some_iff] at h ⊢
    obtain ⟨x, h1, y, h2, h3⟩ := h
    exact ⟨x, Le.eval e s x h1, y, Le.args rest _ y h2, h3⟩

end

end Mono

section MonoStmt

variable {A S : Type}

/-- The second one raises fewer exceptions. -/
structure LeI (I J : Verif.Stmt.Interp A S) : Prop where
  popBool : I.popBool = J.popBool
  popInt : I.popInt = J.popInt
  act : ∀ a s s', I.act a s = .ok s' → J.act a s = .ok s'

/-- An end that is no exception is the same. -/
def Below (r r' : Option (Verif.Stmt.Out × S)) : Prop :=
  ∀ o s, r = some (o, s) → o ≠ .thr → r' = some (o, s)

variable {I J : Verif.Stmt.Interp A S} (hI : LeI I J)
set_option linter.unusedSectionVars false
include hI

theorem LeI.eval : ∀ (e : List A) (s s' : S), I.eval e s = .ok s' → J.eval e s = .ok s'
  | [], _, _, h => h
  | a :: as, s, s', h => by
    rw [Verif.Stmt.Interp.eval] at h ⊢
    cases ha : I.act a s with
    | error x => rw [ha] at h; cases h
    | ok x =>
      rw [ha] at h
      rw [hI.act a s x ha]
      exact LeI.eval as x s' h

theorem LeI.test (c : Option (List A)) (s : S) (r : Bool × S) (h : I.test c s = .ok r) : J.test c s = .ok r := by
  cases c with
  | none => exact h
  | some e =>
    rw [Verif.Stmt.Interp.test] at h ⊢
    cases he : I.eval e s with
    | error x => rw [he] at h; cases h
    | ok x =>
      rw [he] at h
      rw [hI.eval e s x he, ← hI.popBool]
      exact h

theorem LeI.simple (o : Verif.Stmt.Out) (e : List A) (s : S) :
    Below (Verif.Stmt.Stmt.run.simple I o e s) (Verif.Stmt.Stmt.run.simple J o e s) := by
  intro o' s' h hne
  rw [Verif.Stmt.Stmt.run.simple] at h ⊢
  cases he : I.eval e s with
  | error x => rw [he] at h; cases h; exact absurd rfl hne
  | ok x => rw [he] at h; rw [hI.eval e s x he]; exact h

omit hI in
theorem rounds_below {t t' : S → Except S (Bool × S)} {b b' : S → Option (Verif.Stmt.Out × S)}
    {a a' : S → Except S S} (ht : ∀ s r, t s = .ok r → t' s = .ok r) (hb : ∀ s, Below (b s) (b' s))
    (ha : ∀ s r, a s = .ok r → a' s = .ok r) : ∀ (n m : Nat) (s : S), n ≤ m →
    Below (Verif.Stmt.rounds t b a n s) (Verif.Stmt.rounds t' b' a' m s)
  | 0, _, _, _ => by intro o s' h; cases h
  | n + 1, 0, _, h => by omega
  | n + 1, m + 1, s, hnm => by
    intro o s' h hne
    rw [Verif.Stmt.rounds] at h ⊢
    cases h1 : t s with
    | error x => rw [h1] at h; cases h; exact absurd rfl hne
    | ok x =>
      obtain ⟨v, s1⟩ := x
      rw [h1] at h
      rw [ht s _ h1]
      cases v with
      | false => exact h
      | true =>
        simp only at h ⊢
        cases h2 : b s1 with
        | none => rw [h2] at h; cases h
        | some y =>
          obtain ⟨o1, s2⟩ := y
          rw [h2] at h
          have key := hb s1 o1 s2 h2
          cases o1 with
          | thr => cases h; exact absurd rfl hne
          | brk => rw [key (by simp)]; exact h
          | ret => rw [key (by simp)]; exact h
          | goto_ l => rw [key (by simp)]; exact h
          | pass =>
            rw [key (by simp)]
            simp only at h ⊢
            cases h3 : a s2 with
            | error z => rw [h3] at h; cases h; exact absurd rfl hne
            | ok z =>
              rw [h3] at h
              rw [ha s2 z h3]
              exact rounds_below ht hb ha n m z (by omega) o s' h hne
          | cont =>
            rw [key (by simp)]
            simp only at h ⊢
            cases h3 : a s2 with
            | error z => rw [h3] at h; cases h; exact absurd rfl hne
            | ok z =>
              rw [h3] at h
              rw [ha s2 z h3]
              exact rounds_below ht hb ha n m z (by omega) o s' h hne

omit hI in
theorem roundsDo_below {again : Bool} {t t' : S → Except S (Bool × S)}
    {b b' : S → Option (Verif.Stmt.Out × S)} (ht : ∀ s r, t s = .ok r → t' s = .ok r)
    (hb : ∀ s, Below (b s) (b' s)) : ∀ (n m : Nat) (s : S), n ≤ m →
    Below (Verif.Stmt.roundsDo again t b n s) (Verif.Stmt.roundsDo again t' b' m s)
  | 0, _, _, _ => by intro o s' h; cases h
  | n + 1, 0, _, h => by omega
  | n + 1, m + 1, s, hnm => by
    intro o s' h hne
    rw [Verif.Stmt.roundsDo] at h ⊢
    cases h2 : b s with
    | none => rw [h2] at h; cases h
    | some y =>
      obtain ⟨o1, s2⟩ := y
      rw [h2] at h
      have key := hb s o1 s2 h2
      cases o1 with
      | thr => cases h; exact absurd rfl hne
      | brk => rw [key (by simp)]; exact h
      | ret => rw [key (by simp)]; exact h
      | goto_ l => rw [key (by simp)]; exact h
      | pass =>
        rw [key (by simp)]
        simp only at h ⊢
        cases h3 : t s2 with
        | error z => rw [h3] at h; cases h; exact absurd rfl hne
        | ok z =>
          obtain ⟨v, z⟩ := z
          rw [h3] at h
          rw [ht s2 _ h3]
          simp only at h ⊢
          split at h
          · rename_i hv
            rw [if_pos hv]
            exact roundsDo_below ht hb n m z (by omega) o s' h hne
          · rename_i hv
            rw [if_neg hv]
            exact h
      | cont =>
        rw [key (by simp)]
        simp only at h ⊢
        cases h3 : t s2 with
        | error z => rw [h3] at h; cases h; exact absurd rfl hne
        | ok z =>
          obtain ⟨v, z⟩ := z
          rw [h3] at h
          rw [ht s2 _ h3]
          simp only at h ⊢
          split at h
          · rename_i hv
            rw [if_pos hv]
            exact roundsDo_below ht hb n m z (by omega) o s' h hne
          · rename_i hv
            rw [if_neg hv]
            exact h

mutual

/-- No `try`. -/
def noTry : Verif.Stmt.Stmt A → Bool
  | .try_ _ _ _ => false
  | .block body => noTrys body
  | .doWhile _ body => noTry body
  | .loopUntil _ body => noTry body
  | .while_ _ body => noTry body
  | .for_ _ _ _ body => noTry body
  | .if_ _ yes no => noTry yes && noTry no
  | .switch _ cases => noTryCases cases
  | _ => true

/-- No `try` in several statements. -/
def noTrys : Verif.Stmt.Stmts A → Bool
  | .nil => true
  | .cons s rest => noTry s && noTrys rest

/-- No `try` in cases. -/
def noTryCases : Verif.Stmt.Cases A → Bool
  | .nil => true
  | .cons _ body rest => noTrys body && noTryCases rest

end

mutual

theorem LeI.run {n m : Nat} (hnm : n ≤ m) : ∀ (st : Verif.Stmt.Stmt A), noTry st = true →
    ∀ s, Below (st.run I n s) (st.run J m s)
  | .expr e, _, s => by simp only [Verif.Stmt.Stmt.run]; exact hI.simple _ _ _
  | .typeDef, _, s => by simp only [Verif.Stmt.Stmt.run]; exact fun _ _ h _ => h
  | .decl inits, _, s => by simp only [Verif.Stmt.Stmt.run]; exact hI.simple _ _ _
  | .brk, _, s => by simp only [Verif.Stmt.Stmt.run]; exact fun _ _ h _ => h
  | .cont, _, s => by simp only [Verif.Stmt.Stmt.run]; exact fun _ _ h _ => h
  | .thr e, _, s => by simp only [Verif.Stmt.Stmt.run]; exact hI.simple _ _ _
  | .goto_ l, _, s => by simp only [Verif.Stmt.Stmt.run]; exact fun _ _ h _ => h
  | .ret e, _, s => by simp only [Verif.Stmt.Stmt.run]; exact hI.simple _ _ _
  | .empty, _, s => by simp only [Verif.Stmt.Stmt.run]; exact fun _ _ h _ => h
  | .block body, ht, s => by
    simp only [noTry] at ht
    simp only [Verif.Stmt.Stmt.run]
    exact LeI.runs hnm body ht s
  | .doWhile c body, ht, s => by
    simp only [noTry] at ht
    simp only [Verif.Stmt.Stmt.run]
    exact roundsDo_below (hI.test c) (LeI.run hnm body ht) n m s hnm
  | .loopUntil none body, ht, s => by
    simp only [noTry] at ht
    simp only [Verif.Stmt.Stmt.run]
    exact roundsDo_below (hI.test none) (LeI.run hnm body ht) n m s hnm
  | .loopUntil (some e) body, ht, s => by
    simp only [noTry] at ht
    simp only [Verif.Stmt.Stmt.run]
    exact roundsDo_below (hI.test (some e)) (LeI.run hnm body ht) n m s hnm
  | .while_ c body, ht, s => by
    simp only [noTry] at ht
    simp only [Verif.Stmt.Stmt.run]
    exact rounds_below (hI.test c) (LeI.run hnm body ht) (fun _ _ h => h) n m s hnm
  | .for_ init c inc body, ht, s => by
    simp only [noTry] at ht
    simp only [Verif.Stmt.Stmt.run]
    intro o s' h hne
    cases hi : I.eval init s with
    | error x => rw [hi] at h; cases h; exact absurd rfl hne
    | ok x =>
      rw [hi] at h
      rw [hI.eval init s x hi]
      exact rounds_below (hI.test c) (LeI.run hnm body ht) (fun s r h => hI.eval (inc.getD []) s r h) n m x hnm
        o s' h hne
  | .if_ c yes no, ht, s => by
    simp only [noTry, Bool.and_eq_true] at ht
    simp only [Verif.Stmt.Stmt.run]
    intro o s' h hne
    cases hi : I.test c s with
    | error x => rw [hi] at h; cases h; exact absurd rfl hne
    | ok x =>
      obtain ⟨v, x⟩ := x
      rw [hi] at h
      rw [hI.test c s _ hi]
      cases v with
      | true => exact LeI.run hnm yes ht.1 x o s' h hne
      | false => exact LeI.run hnm no ht.2 x o s' h hne
  | .switch e cases, ht, s => by
    simp only [noTry] at ht
    simp only [Verif.Stmt.Stmt.run]
    intro o s' h hne
    cases hi : I.eval e s with
    | error x => rw [hi] at h; cases h; exact absurd rfl hne
    | ok x =>
      rw [hi] at h
      rw [hI.eval e s x hi, ← hI.popInt]
      simp only at h ⊢
      cases hp : Verif.Stmt.pickCase (I.popInt x).1 cases with
      | none => rw [hp] at h; exact h
      | some k =>
        rw [hp] at h
        simp only at h ⊢
        cases hr : cases.run I n k (I.popInt x).2 with
        | none => rw [hr] at h; cases h
        | some y =>
          obtain ⟨o1, s1⟩ := y
          rw [hr] at h
          have h1 : o1 ≠ .thr := by
            rintro rfl
            simp only [Verif.Stmt.leaveSwitch] at h
            cases h
            exact hne rfl
          rw [LeI.runCases hnm cases ht k _ o1 s1 hr h1]
          exact h

theorem LeI.runs {n m : Nat} (hnm : n ≤ m) : ∀ (st : Verif.Stmt.Stmts A), noTrys st = true →
    ∀ s, Below (st.run I n s) (st.run J m s)
  | .nil, _, s => by simp only [Verif.Stmt.Stmts.run]; exact fun _ _ h _ => h
  | .cons t rest, ht, s => by
    simp only [noTrys, Bool.and_eq_true] at ht
    simp only [Verif.Stmt.Stmts.run]
    intro o s' h hne
    cases hr : t.run I n s with
    | none => rw [hr] at h; cases h
    | some y =>
      obtain ⟨o1, s1⟩ := y
      rw [hr] at h
      have key := LeI.run hnm t ht.1 s o1 s1 hr
      cases o1 with
      | pass => rw [key (by simp)]; exact LeI.runs hnm rest ht.2 s1 o s' h hne
      | thr => cases h; exact absurd rfl hne
      | brk => rw [key (by simp)]; exact h
      | cont => rw [key (by simp)]; exact h
      | ret => rw [key (by simp)]; exact h
      | goto_ l => rw [key (by simp)]; exact h

theorem LeI.runCases {n m : Nat} (hnm : n ≤ m) : ∀ (cs : Verif.Stmt.Cases A), noTryCases cs = true →
    ∀ k s, Below (cs.run I n k s) (cs.run J m k s)
  | .nil, _, k, s => by simp only [Verif.Stmt.Cases.run]; exact fun _ _ h _ => h
  | .cons ls body rest, ht, k + 1, s => by
    simp only [noTryCases, Bool.and_eq_true] at ht
    simp only [Verif.Stmt.Cases.run]
    exact LeI.runCases hnm rest ht.2 k s
  | .cons ls body rest, ht, 0, s => by
    simp only [noTryCases, Bool.and_eq_true] at ht
    simp only [Verif.Stmt.Cases.run]
    intro o s' h hne
    cases hr : body.run I n s with
    | none => rw [hr] at h; cases h
    | some y =>
      obtain ⟨o1, s1⟩ := y
      rw [hr] at h
      have key := LeI.runs hnm body ht.1 s o1 s1 hr
      cases o1 with
      | pass => rw [key (by simp)]; exact LeI.runCases hnm rest ht.2 0 s1 o s' h hne
      | thr => cases h; exact absurd rfl hne
      | brk => rw [key (by simp)]; exact h
      | cont => rw [key (by simp)]; exact h
      | ret => rw [key (by simp)]; exact h
      | goto_ l => rw [key (by simp)]; exact h

end

end MonoStmt

/-! Methods of the fragment have no `try`. -/

section NoTry

variable {A B : Type} {f : A → Option (List B)} {o : Verif.Stmt.Opts} {F : Verif.Stmt.Folder B}

mutual

theorem noTry_of_plain : ∀ (st : Verif.Stmt.Stmt A) (st' : Verif.Stmt.Stmt B), lower f st = some st' →
    Verif.Stmt.plain o F st' = true → noTry st = true
  | .expr _, _, _, _ => by simp only [noTry]
  | .typeDef, _, _, _ => by simp only [noTry]
  | .decl _, _, _, _ => by simp only [noTry]
  | .brk, _, _, _ => by simp only [noTry]
  | .cont, _, _, _ => by simp only [noTry]
  | .thr _, _, _, _ => by simp only [noTry]
  | .goto_ _, _, _, _ => by simp only [noTry]
  | .ret _, _, _, _ => by simp only [noTry]
  | .empty, _, _, _ => by simp only [noTry]
  | .block body, st', h, hp => by
    simp only [lower, Option.bind_eq_bind, Option.bind_eq_some_iff, Option.some.injEq] at h
    obtain ⟨b, h1, rfl⟩ := h
    simp only [Verif.Stmt.plain, Bool.and_eq_true] at hp
    simp only [noTry]
    exact noTrys_of_plain body b h1 hp.1
  | .doWhile c body, st', h, hp => by
    simp only [lower, Option.bind_eq_bind, Option.bind_eq_some_iff, Option.some.injEq] at h
    obtain ⟨_, _, b, h1, rfl⟩ := h
    simp only [Verif.Stmt.plain, Bool.and_eq_true] at hp
    simp only [noTry]
    exact noTry_of_plain body b h1 hp.1
  | .loopUntil c body, st', h, hp => by
    simp only [lower, Option.bind_eq_bind, Option.bind_eq_some_iff, Option.some.injEq] at h
    obtain ⟨_, _, b, h1, rfl⟩ := h
    simp only [Verif.Stmt.plain, Bool.and_eq_true] at hp
    simp only [noTry]
    exact noTry_of_plain body b h1 hp.1
  | .while_ c body, st', h, hp => by
    simp only [lower, Option.bind_eq_bind, Option.bind_eq_some_iff, Option.some.injEq] at h
    obtain ⟨_, _, b, h1, rfl⟩ := h
    simp only [Verif.Stmt.plain] at hp
    simp only [noTry]
    exact noTry_of_plain body b h1 hp
  | .for_ init c inc body, st', h, hp => by
    simp only [lower, Option.bind_eq_bind, Option.bind_eq_some_iff, Option.some.injEq] at h
    obtain ⟨_, _, _, _, _, _, b, h1, rfl⟩ := h
    simp only [Verif.Stmt.plain] at hp
    simp only [noTry]
    exact noTry_of_plain body b h1 hp
  | .if_ c yes no, st', h, hp => by
    simp only [lower, Option.bind_eq_bind, Option.bind_eq_some_iff, Option.some.injEq] at h
    obtain ⟨_, _, y, h1, z, h2, rfl⟩ := h
    simp only [Verif.Stmt.plain, Bool.and_eq_true] at hp
    simp only [noTry, Bool.and_eq_true]
    exact ⟨noTry_of_plain yes y h1 hp.1, noTry_of_plain no z h2 hp.2⟩
  | .switch e cases, st', h, hp => by
    simp only [lower, Option.bind_eq_bind, Option.bind_eq_some_iff, Option.some.injEq] at h
    obtain ⟨_, _, cs, h1, rfl⟩ := h
    simp only [Verif.Stmt.plain, Bool.and_eq_true] at hp
    simp only [noTry]
    exact noTryCases_of_plain cases cs h1 hp.1.1.1.1
  | .try_ body catches fin, st', h, hp => by
    simp only [lower, Option.bind_eq_bind, Option.bind_eq_some_iff, Option.some.injEq] at h
    obtain ⟨_, _, _, _, _, _, rfl⟩ := h
    simp only [Verif.Stmt.plain, Bool.false_eq_true] at hp

theorem noTrys_of_plain : ∀ (st : Verif.Stmt.Stmts A) (st' : Verif.Stmt.Stmts B), lowers f st = some st' →
    Verif.Stmt.plains o F st' = true → noTrys st = true
  | .nil, _, _, _ => by simp only [noTrys]
  | .cons t rest, st', h, hp => by
    simp only [lowers, Option.bind_eq_bind, Option.bind_eq_some_iff, Option.some.injEq] at h
    obtain ⟨y, h1, z, h2, rfl⟩ := h
    simp only [Verif.Stmt.plains, Bool.and_eq_true] at hp
    simp only [noTrys, Bool.and_eq_true]
    exact ⟨noTry_of_plain t y h1 hp.1, noTrys_of_plain rest z h2 hp.2⟩

theorem noTryCases_of_plain : ∀ (cs : Verif.Stmt.Cases A) (cs' : Verif.Stmt.Cases B), lowerCases f cs = some cs' →
    Verif.Stmt.plainCases o F cs' = true → noTryCases cs = true
  | .nil, _, _, _ => by simp only [noTryCases]
  | .cons ls body rest, st', h, hp => by
    simp only [lowerCases, Option.bind_eq_bind, Option.bind_eq_some_iff, Option.some.injEq] at h
    obtain ⟨y, h1, z, h2, rfl⟩ := h
    simp only [Verif.Stmt.plainCases, Bool.and_eq_true] at hp
    simp only [noTryCases, Bool.and_eq_true]
    exact ⟨noTrys_of_plain body y h1 hp.1, noTryCases_of_plain rest z h2 hp.2⟩

end

end NoTry

theorem meaning_le {W W' : World} (hW : Le W W') (this : Val) : LeI (meaning W this) (meaning W' this) := by
  refine ⟨rfl, rfl, ?_⟩
  intro a s s' h
  obtain ⟨k, s⟩ := s
  cases a with
  | run st =>
    simp only [meaning, Place.Stmt.run] at h ⊢
    cases he : st.exp.eval W this s with
    | none => rw [he] at h; cases h
    | some r => rw [he] at h; rw [hW.eval this _ _ _ he]; exact h
  | value e =>
    simp only [meaning] at h ⊢
    cases he : e.eval W this s with
    | none => rw [he] at h; cases h
    | some r => rw [he] at h; rw [hW.eval this _ _ _ he]; exact h

theorem world_le {P : Program} {t : Heap → Nat → Val → Option Nat} {f g : Calls}
    (h : ∀ m o args h r, f m o args h = some r → g m o args h = some r) : Le (P.world t f) (P.world t g) := by
  refine ⟨rfl, ?_, ?_⟩
  · intro m o args hp r hr
    simp only [Program.world] at hr ⊢
    split at hr
    · rename_i hv
      rw [if_pos hv]
      simp only [Option.bind_eq_some_iff] at hr ⊢
      obtain ⟨x, h1, h2⟩ := hr
      exact ⟨x, h1, h _ _ _ _ _ h2⟩
    · rename_i hv
      rw [if_neg hv]
      exact h _ _ _ _ _ hr
  · intro m o args hp r hr
    exact h _ _ _ _ _ hr

theorem fine_noTry {o : Verif.Stmt.Opts} {P : Program} (hP : P.Fine o) {M : Method} (hM : M ∈ P.methods) :
    noTrys M.body = true := by
  have hacc := hP.accepted M hM
  simp only [Program.compile, Program.lowered] at hacc
  cases hl : lowers (Task.compile P.sig) M.body with
  | none => rw [hl] at hacc; cases hacc
  | some body => exact noTrys_of_plain M.body body hl ((hP.methods M hM).plain body hl)

theorem ends_mono {o : Verif.Stmt.Opts} {P : Program} (hP : P.Fine o) {M : Method} (hM : M ∈ P.methods)
    {t : Heap → Nat → Val → Option Nat} {f g : Calls} {this : Val} {c c' : Cfg}
    (h : ∀ m o args h r, f m o args h = some r → g m o args h = some r)
    (he : Ends (P.world t f) this M c c') : Ends (P.world t g) this M c c' := by
  obtain ⟨n, he⟩ := he
  have key := LeI.runs (meaning_le (world_le (P := P) (t := t) h) this) (Nat.le_refl n) M.body
    (fine_noTry hP hM) c
  refine ⟨n, ?_⟩
  rcases he with he | ⟨hr, he⟩
  · exact Or.inl (key _ _ he (by simp))
  · exact Or.inr ⟨hr, key _ _ he (by simp)⟩

theorem theOne_eq {α : Type} {p : α → Prop} {a : α} (h : p a) (hu : ∀ b, p b → b = a) : theOne p = some a := by
  have he : ∃ a, p a := ⟨a, h⟩
  rw [theOne, dif_pos he]
  exact congrArg some (hu _ he.choose_spec)

/-- There is only one end. -/
theorem ends_unique {o : Verif.Stmt.Opts} {P : Program} (hP : P.Fine o) {M : Method} (hM : M ∈ P.methods)
    {t : Heap → Nat → Val → Option Nat} {f : Calls} {this : Val} {c a b : Cfg}
    (ha : Ends (P.world t f) this M c a) (hb : Ends (P.world t f) this M c b) : b = a := by
  have hacc := hP.accepted M hM
  cases hc : P.compile o M with
  | none => rw [hc] at hacc; cases hacc
  | some cmds =>
    have ha' := (method_right M (hP.methods M hM) cmds hc t f this c a).2 ha
    have hb' := (method_right M (hP.methods M hM) cmds hc t f this c b).2 hb
    have := Verif.Stmt.Props.final_unique (M := machine (P.world t f) this) (cmds := cmds)
      (by intro _ _ h; cases h) (by intro _ _ h; cases h) hb' ha'
    injection this

theorem theOne_spec {α : Type} {p : α → Prop} {a : α} (h : theOne p = some a) : p a := by
  rw [theOne] at h
  split at h
  · rename_i he
    cases h
    exact he.choose_spec
  · cases h

theorem source_succ {o : Verif.Stmt.Opts} {P : Program} (hP : P.Fine o) : ∀ (d m : Nat) (this : Val)
    (args : List Val) (h : Heap) (r : Val × Heap), P.source d m this args h = some r →
    P.source (d + 1) m this args h = some r
  | 0, m, this, args, h, r, hs => by cases hs
  | d + 1, m, this, args, h, r, hs => by
    rw [Program.source] at hs ⊢
    dsimp only at hs ⊢
    cases hm : P.methods[m]? with
    | none => rw [hm] at hs; cases hs
    | some M =>
      rw [hm] at hs
      simp only at hs ⊢
      split at hs
      · rename_i hl
        rw [if_pos hl]
        simp only [Option.bind_eq_some_iff] at hs ⊢
        obtain ⟨c, h1, h2⟩ := hs
        have hmem := List.mem_of_getElem? hm
        have he := ends_mono hP hmem (source_succ hP d) (theOne_spec h1)
        exact ⟨c, theOne_eq he fun b hb => ends_unique hP hmem he hb, h2⟩
      · cases hs

theorem trial_source {o : Verif.Stmt.Opts} {P : Program} (hP : P.Fine o) (n : Nat) : ∀ (d m : Nat) (this : Val)
    (args : List Val) (h : Heap) (r : Val × Heap), P.trial n d m this args h = some r →
    P.source d m this args h = some r
  | 0, m, this, args, h, r, hs => by cases hs
  | d + 1, m, this, args, h, r, hs => by
    rw [Program.trial] at hs
    rw [Program.source]
    dsimp only at hs ⊢
    cases hm : P.methods[m]? with
    | none => rw [hm] at hs; cases hs
    | some M =>
      rw [hm] at hs
      simp only at hs ⊢
      split at hs
      · rename_i hl
        rw [if_pos hl]
        have hmem := List.mem_of_getElem? hm
        have key : ∀ c, Ends (P.world P.target (P.trial n d)) this M (frame M args h) c → result M c = some r →
            (theOne (Ends (P.world P.target (P.source d)) this M (frame M args h))).bind (result M) = some r := by
          intro c he hr
          have he := ends_mono hP hmem (trial_source hP n d) he
          rw [theOne_eq he fun b hb => ends_unique hP hmem he hb]
          exact hr
        split at hs
        · rename_i c hc
          exact key c ⟨n, Or.inl hc⟩ hs
        · rename_i c hc
          split at hs
          · cases hs
          · rename_i hr
            exact key c ⟨n, Or.inr ⟨by simpa using hr, hc⟩⟩ hs
        · cases hs
      · cases hs

end Verif.Classes
