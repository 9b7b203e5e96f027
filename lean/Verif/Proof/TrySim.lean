import Verif.Proof.Try

/-!
# Methods with `try` statements: the simulation
-/

namespace Verif.Try

open Verif.Block (BType Blk Next QNode emit emitCatches emitFin unwind has_iff includes_iff Nested finNode
  setLast dropWithin enqueue process)

variable {A S : Type}

/-! ## What waits -/

/-- The `finally` clauses among the blocks that a jump leaves. -/
def fins (B : List Blk) (t : Nat) : List Blk :=
  (B.filter (fun b => decide (b.type = .finally_))).takeWhile (fun b => !b.has t)

/-- The machine goes on with what waits in the queue. -/
def resume (M : Machine A S) (q : Block.St) (s : S) : Conf S :=
  match process q with
  | some r => go M 0 s (some r)
  | none => .left (top q) s

/-- The machine on the way to a command, with the `finally` clauses that it has to run first. -/
def jumpConf (M : Machine A S) (B : List Blk) (t : Nat) (s : S) (q : Block.St) : Conf S :=
  if fins B t = [] then .at_ t s q
  else resume M { q with queue := setLast (.jump t) ((fins B t).map finNode) ++ q.queue } s

/-- The nodes of the stack of exceptions are there. -/
def Bounded (x : Block.Exceptions) : Prop := (∀ n ∈ x.free, n < x.mem.length) ∧ ∀ n ∈ x.stack, n < x.mem.length

/-- Nothing waits. -/
structure Idle (q : Block.St) : Prop where
  queue : q.queue = []
  executing : q.executing = []
  stack : q.excs.stack = []
  bounded : Bounded q.excs

/-- The state afterwards: the same, or idle before and after. -/
def Same (q q' : Block.St) : Prop := q' = q ∨ (Idle q ∧ Idle q')

theorem Same.refl (q : Block.St) : Same q q := Or.inl rfl

theorem Same.trans {a b c : Block.St} (h1 : Same a b) (h2 : Same b c) : Same a c := by
  rcases h1 with rfl | ⟨i, j⟩
  · exact h2
  · rcases h2 with rfl | ⟨_, k⟩
    · exact Or.inr ⟨i, j⟩
    · exact Or.inr ⟨i, k⟩

theorem Same.back {a b : Block.St} (h : Same a b) (hi : Idle b) : Idle a := by
  rcases h with rfl | ⟨i, _⟩
  · exact hi
  · exact i

theorem Same.queue {a b : Block.St} (h : Same a b) : b.queue = a.queue := by
  rcases h with rfl | ⟨i, j⟩
  · rfl
  · rw [i.queue, j.queue]

/-- The exception waits for the blocks. -/
def Holds (is_ : Nat → Nat → Bool) (B : List Blk) (x : Nat) (q : Block.St) : Prop :=
  match unwind (is_ x) B with
  | (fs, none) => q.queue = fs.map finNode ∧ ∃ n, q.excs.stack = [n] ∧ q.excs.mem[n]? = some x
  | (fs, some b) => ∃ n, q.queue = fs.map finNode ++ [⟨b, some n, .default_⟩] ∧ q.excs.stack = [] ∧
      q.excs.mem[n]? = some x

theorem go_process (M : Machine A S) (pc : Nat) (s : S) (q : Block.St) (h : q.queue ≠ []) :
    go M pc s (process q) = resume M q s := by
  unfold resume
  cases hq : q.queue with
  | nil => exact absurd hq h
  | cons n rest =>
    simp only [process, hq]
    cases n.exc with
    | none => rfl
    | some x => simp only; cases q.excs.mem[x]? <;> rfl

theorem go_some_process (M : Machine A S) (pc : Nat) (s : S) (q : Block.St) :
    go M pc s (match process q with
      | some r => some r
      | none => some (q, .leaveCall)) = resume M q s := by
  unfold resume
  cases hq : q.queue with
  | nil => simp only [process, hq]; rfl
  | cons n rest =>
    simp only [process, hq]
    cases n.exc with
    | none => rfl
    | some x => simp only; cases q.excs.mem[x]? <;> rfl

theorem enqueue_idle (q : Block.St) (g : List QNode) (h : q.queue = []) :
    enqueue q g = ({ q with queue := g }, false) := by
  unfold enqueue
  cases hg : g.getLast? with
  | none =>
    have : g = [] := by simpa using hg
    subst this
    cases q; simp_all
  | some last => simp [h, dropWithin]

theorem dropWithin_old (last : Blk) (lo : Nat) (hl : lo ≤ last.start) (queue : List QNode)
    (h : ∀ n ∈ queue, n.block.start < lo) : dropWithin last queue = queue := by
  cases queue with
  | nil => rfl
  | cons n rest =>
    have := h n List.mem_cons_self
    rw [dropWithin, if_neg]
    rw [includes_iff]; omega

theorem push_spec (x : Block.Exceptions) (e : Nat) (hb : Bounded x) :
    ∃ n, (x.push e).stack = n :: x.stack ∧ (x.push e).mem[n]? = some e ∧ Bounded (x.push e) := by
  obtain ⟨h1, h2⟩ := hb
  unfold Block.Exceptions.push
  cases hf : x.free with
  | nil =>
    refine ⟨x.mem.length, rfl, by simp, ?_, ?_⟩
    · intro n hn; cases hn
    · intro n hn
      simp only [List.length_append, List.length_singleton]
      rcases List.mem_cons.mp hn with rfl | hn
      · omega
      · have := h2 n hn; omega
  | cons m free =>
    have hm := h1 m (by rw [hf]; exact List.mem_cons_self)
    refine ⟨m, rfl, by simp [hm], ?_, ?_⟩
    · intro n hn
      simp only [List.length_set]
      exact h1 n (by rw [hf]; exact List.mem_cons_of_mem _ hn)
    · intro n hn
      simp only [List.length_set]
      rcases List.mem_cons.mp hn with rfl | hn
      · exact hm
      · exact h2 n hn

section
variable {M : Machine A S} {is_ : Nat → Nat → Bool} {T : List Blk} {C : List (Cmd A)}

theorem find_all (hn : Nested T) {p : Nat} (hg : filt p T ≠ [] ∨ T = []) :
    Block.methodFind (fun _ => true) p T = some (filt p T) := by
  unfold Block.methodFind
  by_cases hT : T = []
  · rw [if_pos hT, hT]; rfl
  · rw [if_neg hT, Block.findBlock_eq _ _ _ hn]
    have e1 : T.filter (fun b => true && b.has p) = filt p T := by simp [filt]
    rw [e1, if_neg (hg.resolve_right hT)]

theorem find_fin (hn : Nested T) {p : Nat} (hg : ∃ b ∈ filt p T, b.type = .finally_) :
    Block.methodFind (fun b => decide (b.type = .finally_)) p T
      = some ((filt p T).filter (fun b => decide (b.type = .finally_))) := by
  obtain ⟨b, hb, ht⟩ := hg
  have hbT := (List.mem_filter.mp hb).1
  unfold Block.methodFind
  rw [if_neg (by intro h; rw [h] at hbT; cases hbT), Block.findBlock_eq _ _ _ hn]
  have e1 : T.filter (fun b => decide (b.type = .finally_) && b.has p)
      = (filt p T).filter (fun b => decide (b.type = .finally_)) := by
    rw [filt, List.filter_filter]
  rw [e1, if_neg]
  intro h
  have : b ∈ (filt p T).filter (fun b => decide (b.type = .finally_)) := List.mem_filter.mpr ⟨hb, by simp [ht]⟩
  rw [h] at this; cases this

/-- An exception is raised. -/
theorem raise (hn : Nested T) {p : Nat} {B : List Blk} (hB : filt p T = B) (hg : B ≠ [] ∨ T = []) {q : Block.St}
    (hq : Idle q) (s : S) (x : Nat) :
    ∃ q', go M p s (Block.throw_ T is_ q p x) = resume M q' s ∧ q'.executing = [] ∧ Bounded q'.excs ∧
      Holds is_ B x q' := by
  subst hB
  obtain ⟨n, h1, h2, h3⟩ := push_spec q.excs x hq.bounded
  rw [hq.stack] at h1
  unfold Block.throw_ Block.handlers
  rw [find_all hn hg]
  simp only [Option.map_some]
  unfold Holds
  obtain ⟨fs, hd⟩ : ∃ u, u = unwind (is_ x) (filt p T) := ⟨_, rfl⟩
  rw [← hd]
  cases hd2 : fs with
  | mk fs o =>
    cases o with
    | none =>
      simp only
      rw [enqueue_idle { q with excs := q.excs.push x } _ hq.queue]
      simp only [Bool.false_eq_true, if_false]
      by_cases hg' : fs.map (fun b => (⟨b, none, .default_⟩ : QNode)) = []
      · rw [if_pos hg']
        refine ⟨{ q with excs := q.excs.push x }, ?_, hq.executing, h3, ?_, n, h1, h2⟩
        · unfold resume process
          simp only [hq.queue]
          rfl
        · rw [hq.queue]; exact hg'.symm
      · rw [if_neg hg']
        refine ⟨_, go_process M p s _ ?_, hq.executing, h3, rfl, n, h1, h2⟩
        exact hg'
    | some b =>
      simp only
      rw [enqueue_idle { q with excs := (q.excs.push x).pop } _ hq.queue]
      simp only [Bool.false_eq_true, if_false]
      have hne : fs.map (fun b => (⟨b, none, .default_⟩ : QNode)) ++
        [(⟨b, (q.excs.push x).stack.head?, .default_⟩ : QNode)] ≠ [] := by simp
      rw [if_neg hne]
      refine ⟨_, go_process M p s _ hne, hq.executing, ?_, n, ?_, ?_, ?_⟩
      · simp only [Block.Exceptions.pop, h1]
        refine ⟨?_, by intro m hm; cases hm⟩
        intro m hm
        rcases List.mem_append.mp hm with hm | hm
        · exact h3.1 m hm
        · rw [List.mem_singleton.mp hm]
          exact h3.2 n (by rw [h1]; exact List.mem_cons_self)
      · simp only [h1, List.head?_cons]; rfl
      · simp only [Block.Exceptions.pop, h1]
      · simp only [Block.Exceptions.pop, h1]; exact h2

theorem getLast_setLast (a : Block.Action) : ∀ l : List QNode, l ≠ [] →
    ∃ m, (setLast a l).getLast? = some m ∧ ∃ m' ∈ l, m.block = m'.block
  | [], h => absurd rfl h
  | [n], _ => ⟨_, rfl, n, List.mem_cons_self, rfl⟩
  | n :: k :: rest, _ => by
    obtain ⟨m, h1, m', h2, h3⟩ := getLast_setLast a (k :: rest) (by simp)
    refine ⟨m, ?_, m', List.mem_cons_of_mem _ h2, h3⟩
    rw [setLast, List.getLast?_cons, h1]
    · rfl
    · simp

theorem setLast_ne (a : Block.Action) (l : List QNode) (h : l ≠ []) : setLast a l ≠ [] := by
  obtain ⟨m, h1, _⟩ := getLast_setLast a l h
  intro h'; rw [h'] at h1; cases h1

/-- A jump that leaves blocks. -/
theorem leave_go (hn : Nested T) {p : Nat} {B : List Blk} (hB : filt p T = B) (hf : ∃ b ∈ B, b.type = .finally_)
    {q : Block.St} {lo t : Nat} (ho : ∀ n ∈ q.queue, n.block.start < lo) (hb : ∀ b ∈ fins B t, lo ≤ b.start)
    (s : S) :
    go M p s (Block.leave T q p t) = if fins B t = [] then .at_ (p + 1) s q else jumpConf M B t s q := by
  subst hB
  unfold Block.leave Block.leaving
  rw [find_fin hn hf]
  simp only [Option.map_some]
  have e1 : ((filt p T).filter (fun b => decide (b.type = .finally_))).takeWhile (fun b => !b.has t)
    = fins (filt p T) t := rfl
  rw [e1]
  have e2 : (fins (filt p T) t).map (fun b => (⟨b, none, .default_⟩ : QNode)) = (fins (filt p T) t).map finNode := rfl
  rw [e2]
  by_cases hfs : fins (filt p T) t = []
  · rw [if_pos hfs, hfs]; rfl
  · have hne : (fins (filt p T) t).map finNode ≠ [] := by simpa using hfs
    rw [if_neg hfs, if_neg (setLast_ne _ _ hne), jumpConf, if_neg hfs]
    obtain ⟨m, h1, m', h2, h3⟩ := getLast_setLast (.jump t) _ hne
    obtain ⟨b, hb1, rfl⟩ := List.mem_map.mp h2
    have hd := dropWithin_old m.block lo (by rw [h3]; exact hb b hb1) q.queue ho
    unfold enqueue
    rw [h1]
    simp only [hd]
    exact go_process M p s _ (by simp [setLast_ne _ _ hne])

theorem fins_nil {B : List Blk} {t : Nat} (h : ∀ b ∈ B, b.type = .finally_ → b.has t = true) : fins B t = [] := by
  unfold fins
  cases hB : B.filter (fun b => decide (b.type = .finally_)) with
  | nil => rfl
  | cons b rest =>
    have hb : b ∈ B.filter (fun b => decide (b.type = .finally_)) := by rw [hB]; exact List.mem_cons_self
    have := List.mem_filter.mp hb
    rw [List.takeWhile_cons, h b this.1 (by simpa using this.2)]; rfl

theorem fins_mem {B : List Blk} {t : Nat} {b : Blk} (h : b ∈ fins B t) : b ∈ B :=
  (List.mem_filter.mp ((List.takeWhile_sublist _).subset h)).1

theorem fins_catch (F : Verif.Stmt.Folder A) (need : Bool) (st en : Nat) (R : List Blk) (t : Nat) :
    ∀ (cs : Catches A) (c : Nat), fins (catchBlks F need st en cs c ++ R) t = fins R t
  | .nil, c => rfl
  | .cons ty x body rest, c => by
    have := fins_catch F need st en R t rest (c + 1 + len F need body + (pass F body).toNat)
    unfold fins at *
    rw [catchBlks, List.cons_append, List.filter_cons, if_neg (by simp)]
    exact this

theorem catchBlks_type (F : Verif.Stmt.Folder A) (need : Bool) (st en : Nat) :
    ∀ (cs : Catches A) (c : Nat), ∀ b ∈ catchBlks F need st en cs c, b.type = .catch_
  | .nil, c, b, hb => by cases hb
  | .cons ty x body rest, c, b, hb => by
    rw [catchBlks] at hb
    rcases List.mem_cons.mp hb with rfl | hb
    · rfl
    · exact catchBlks_type F need st en rest _ b hb

theorem fins_fin (st fp t : Nat) (B : List Blk) (h : ¬ (st ≤ t ∧ t < fp)) :
    fins (⟨.finally_, st, fp, fp, 0⟩ :: B) t = ⟨.finally_, st, fp, fp, 0⟩ :: fins B t := by
  unfold fins
  rw [List.filter_cons, if_pos (by simp), List.takeWhile_cons, if_pos]
  rw [Bool.not_eq_true', Bool.eq_false_iff]
  intro hh
  exact h ((has_iff _ _).mp hh)

/-! ## Before and after -/

/-- A jump to `t` from a statement. -/
def JOk (B : List Blk) (need : Bool) (t lo pos n : Nat) : Prop :=
  (need = false → fins B t = []) ∧ (∀ b ∈ fins B t, lo ≤ b.start) ∧ (t < pos ∨ pos + n ≤ t)

/-- What is asked of the place that the end leads to. -/
def Aims (e : Env) (B : List Blk) (lo pos n : Nat) (loop : Bool) : Res S → Prop
  | .normal _ => ∀ b ∈ B, b.type = .finally_ → b.has (pos + n) = true
  | .brk _ => loop = true → JOk B e.need e.brk lo pos n
  | .cont _ => loop = true → JOk B e.need e.cont lo pos n
  | .thrown _ _ => True

/-- The state that the machine gets to from `c0`. -/
def Post (M : Machine A S) (is_ : Nat → Nat → Bool) (T : List Blk) (C : List (Cmd A)) (tb tc : Nat) (B : List Blk)
    (loop : Bool) (c0 : Conf S) (q : Block.St) (nrm : S → Block.St → Conf S) : Res S → Prop
  | .normal s => ∃ q', Reach M is_ T C c0 (nrm s q') ∧ Same q q'
  | .brk s => loop = true ∧ ∃ q', Reach M is_ T C c0 (jumpConf M B tb s q') ∧ Same q q'
  | .cont s => loop = true ∧ ∃ q', Reach M is_ T C c0 (jumpConf M B tc s q') ∧ Same q q'
  | .thrown x s => Idle q ∧ ∃ q', Reach M is_ T C c0 (resume M q' s) ∧ q'.executing = [] ∧ Bounded q'.excs ∧
      Holds is_ B x q'

theorem Post.from {tb tc : Nat} {B : List Blk} {loop : Bool} {c0 c1 : Conf S} {q q1 : Block.St}
    {nrm : S → Block.St → Conf S} {r : Res S} (h1 : Reach M is_ T C c0 c1) (h2 : Same q q1)
    (h : Post M is_ T C tb tc B loop c1 q1 nrm r) : Post M is_ T C tb tc B loop c0 q nrm r := by
  cases r with
  | normal s => obtain ⟨q', h3, h4⟩ := h; exact ⟨q', h1.trans h3, h2.trans h4⟩
  | brk s => obtain ⟨hl, q', h3, h4⟩ := h; exact ⟨hl, q', h1.trans h3, h2.trans h4⟩
  | cont s => obtain ⟨hl, q', h3, h4⟩ := h; exact ⟨hl, q', h1.trans h3, h2.trans h4⟩
  | thrown x s => obtain ⟨hi, q', h3, h4⟩ := h; exact ⟨h2.back hi, q', h1.trans h3, h4⟩

theorem Post.to {tb tc : Nat} {B : List Blk} {loop : Bool} {c0 : Conf S} {q : Block.St}
    {nrm nrm' : S → Block.St → Conf S} {r : Res S}
    (hn : ∀ s q', r = .normal s → Same q q' → Reach M is_ T C (nrm s q') (nrm' s q'))
    (h : Post M is_ T C tb tc B loop c0 q nrm r) : Post M is_ T C tb tc B loop c0 q nrm' r := by
  cases r with
  | normal s => obtain ⟨q', h3, h4⟩ := h; exact ⟨q', h3.trans (hn s q' rfl h4), h4⟩
  | brk s => exact h
  | cont s => exact h
  | thrown x s => exact h

theorem JOk.mono {B : List Blk} {need : Bool} {t lo pos n pos' n' : Nat} (h : JOk B need t lo pos n)
    (h1 : pos ≤ pos') (h2 : pos' + n' ≤ pos + n) : JOk B need t lo pos' n' :=
  ⟨h.1, h.2.1, by have := h.2.2; omega⟩

theorem Aims.mono {e : Env} {B : List Blk} {lo pos n pos' n' : Nat} {loop : Bool} {r : Res S}
    (h : Aims e B lo pos n loop r) (h1 : pos ≤ pos') (h2 : pos' + n' ≤ pos + n)
    (h3 : ∀ s, r = .normal s → ∀ b ∈ B, b.type = .finally_ → b.has (pos' + n') = true) :
    Aims e B lo pos' n' loop r := by
  cases r with
  | normal s => exact h3 s rfl
  | brk s => exact fun hl => (h hl).mono h1 h2
  | cont s => exact fun hl => (h hl).mono h1 h2
  | thrown x s => trivial

/-- What is known before a statement. -/
structure Pre (M : Machine A S) (is_ : Nat → Nat → Bool) (F : Verif.Stmt.Folder A) (T : List Blk) (C : List (Cmd A))
    (e : Env) (pl : Place) (s : Stmt A) (pos : Nat) (B : List Blk) (lo : Nat) (q : Block.St) : Prop where
  ctx : Ctx F T C e s pos B
  fits : Fits M pl s
  honest : Honest M is_ F s
  need : pl.crosses = e.need
  guarded : pl.guarded = true → B ≠ [] ∨ T = []
  inFin : pl.inFin = true → ∃ b ∈ B, b.type = .finally_
  loPos : lo ≤ pos
  old : ∀ n ∈ q.queue, n.block.start < lo
  mode : Idle q ∨ Calm M s

/-- The claim about a statement. -/
def Claim (M : Machine A S) (is_ : Nat → Nat → Bool) (F : Verif.Stmt.Folder A) (T : List Blk) (C : List (Cmd A))
    (s : Stmt A) (v : S) (r : Res S) : Prop :=
  ∀ e pl pos B lo q, Pre M is_ F T C e pl s pos B lo q → Aims e B lo pos (len F e.need s) pl.inLoop r →
    Post M is_ T C e.brk e.cont B pl.inLoop (.at_ pos v q) q (fun v' q' => .at_ (pos + len F e.need s) v' q') r

/-- An action raises an exception. -/
theorem raiseAct (hn : Nested T) {p : Nat} {B : List Blk} {a : A} {v : S} {x : Nat} {v' : S} {q : Block.St}
    {tb tc : Nat} {loop : Bool} {nrm : S → Block.St → Conf S}
    (hc : C[p]? = some (.act a)) (ha : M.act a v = .error (x, v')) (hB : filt p T = B) (hg : B ≠ [] ∨ T = [])
    (hi : Idle q) : Post M is_ T C tb tc B loop (.at_ p v q) q nrm (.thrown x v') := by
  obtain ⟨q', h1, h2, h3, h4⟩ := raise (M := M) (is_ := is_) hn hB hg hi v' x
  refine ⟨hi, q', ?_, h2, h3, h4⟩
  have h := Reach.step (M := M) (is_ := is_) (T := T) (s := v) (q := q) hc
  simp only [exec, ha] at h
  rwa [h1] at h

theorem not_safe {a : A} {v : S} {x : Nat × S} (ha : M.act a v = .error x) : ¬ Safe M a := by
  intro h
  obtain ⟨s', hs⟩ := h v
  rw [ha] at hs; cases hs

theorem Same.mode {s : Stmt A} {q q' : Block.St} (h : Same q q') (hm : Idle q ∨ Calm M s) : Idle q' ∨ Calm M s := by
  rcases h with rfl | ⟨_, j⟩
  · exact hm
  · exact Or.inl j

theorem Reach.act {p : Nat} {a : A} {v v' : S} {q : Block.St} (hc : C[p]? = some (.act a)) (ha : M.act a v = .ok v') :
    Reach M is_ T C (.at_ p v q) (.at_ (p + 1) v' q) := by
  have h := Reach.step (M := M) (is_ := is_) (T := T) (s := v) (q := q) hc
  simpa only [exec, ha] using h

theorem Reach.jmp {p t : Nat} {v : S} {q : Block.St} (hc : C[p]? = some (.jmp t)) :
    Reach M is_ T C (.at_ p v q) (.at_ t v q) := Reach.step hc

theorem Reach.jmpFalse {p t : Nat} {v : S} {q : Block.St} (hc : C[p]? = some (.jmpFalse t)) :
    Reach M is_ T C (.at_ p v q)
      (.at_ (if (M.popBool v).1 = true then p + 1 else t) (M.popBool v).2 q) := by
  have h := Reach.step (M := M) (is_ := is_) (T := T) (s := v) (q := q) hc
  simp only [exec] at h
  split at h <;> simp_all

/-! ## The end of a `finally` clause -/

theorem pop_default (q : Block.St) (n : QNode) (ex : List QNode) (he : q.executing = n :: ex)
    (ha : n.action = .default_) (pc : Nat) (s : S) :
    go M pc s (Block.endFinally q) = resume M { q with executing := ex } s := by
  rw [Block.endFinally_default q n ex he ha]
  exact go_some_process M pc s _

theorem pop_jump (q : Block.St) (n : QNode) (ex : List QNode) (t : Nat) (he : q.executing = n :: ex)
    (ha : n.action = .jump t) (pc : Nat) (s : S) :
    go M pc s (Block.endFinally q) = .at_ t s { q with executing := ex } := by
  rw [Block.endFinally, he]; simp only [ha]; rfl

/-- What the `finally` clause does. -/
def FinRun (M : Machine A S) (is_ : Nat → Nat → Bool) (T : List Blk) (C : List (Cmd A)) (fp n : Nat) (v v' : S) : Prop :=
  ∀ q : Block.St, q.executing ≠ [] → (∀ n ∈ q.queue, n.block.start < fp) →
    Reach M is_ T C (.at_ fp v q) (.at_ (fp + n) v' q)

theorem finJump {st fp n t : Nat} {B : List Blk} {v v' : S} {q : Block.St} (hf : FinRun M is_ T C fp n v v')
    (hc : C[fp + n]? = some .endFinally) (ht : ¬ (st ≤ t ∧ t < fp)) (hB : ∀ b ∈ B, b.start < fp)
    (ho : ∀ n ∈ q.queue, n.block.start < fp) :
    Reach M is_ T C (jumpConf M (⟨.finally_, st, fp, fp, 0⟩ :: B) t v q) (jumpConf M B t v' q) := by
  rw [jumpConf, fins_fin st fp t B ht, if_neg (by simp)]
  by_cases hB0 : fins B t = []
  · rw [jumpConf, if_pos hB0, hB0]
    have e1 : resume M { q with queue := setLast (.jump t) ([(⟨.finally_, st, fp, fp, 0⟩ : Blk)].map finNode) ++ q.queue } v
      = .at_ fp v
          { q with executing := ⟨⟨.finally_, st, fp, fp, 0⟩, none, .jump t⟩ :: q.executing } := rfl
    rw [e1]
    refine (hf { q with executing := ⟨⟨.finally_, st, fp, fp, 0⟩, none, .jump t⟩ :: q.executing }
      (List.cons_ne_nil _ _) ho).trans ?_
    have h := Reach.step (M := M) (is_ := is_) (T := T) (s := v')
      (q := { q with executing := ⟨⟨.finally_, st, fp, fp, 0⟩, none, .jump t⟩ :: q.executing }) hc
    rw [exec, pop_jump _ _ _ t rfl rfl] at h
    exact h
  · obtain ⟨b, fs, hfs⟩ := List.exists_cons_of_ne_nil hB0
    rw [jumpConf, if_neg hB0]
    have e0 : setLast (.jump t) (((⟨.finally_, st, fp, fp, 0⟩ : Blk) :: fins B t).map finNode)
      = finNode ⟨.finally_, st, fp, fp, 0⟩ :: setLast (.jump t) ((fins B t).map finNode) := by
      rw [hfs]; rfl
    rw [e0]
    have e1 : resume M { q with
        queue := (finNode ⟨.finally_, st, fp, fp, 0⟩ :: setLast (.jump t) ((fins B t).map finNode)) ++ q.queue } v
      = .at_ fp v
          { q with
            queue := setLast (.jump t) ((fins B t).map finNode) ++ q.queue
            executing := finNode ⟨.finally_, st, fp, fp, 0⟩ :: q.executing } := rfl
    rw [e1]
    refine (hf _ (List.cons_ne_nil _ _) ?_).trans ?_
    · intro m hm
      rcases List.mem_append.mp hm with hm | hm
      · have key : ∀ (l : List Blk), ∀ m ∈ setLast (.jump t) (l.map finNode), m.block ∈ l := by
          intro l
          induction l with
          | nil => intro m hm; cases hm
          | cons c l ih =>
            intro m hm
            cases l with
            | nil =>
              rw [List.mem_singleton.mp hm]; exact List.mem_cons_self
            | cons d l =>
              rcases List.mem_cons.mp hm with rfl | hm
              · exact List.mem_cons_self
              · exact List.mem_cons_of_mem _ (ih m hm)
        exact hB _ (fins_mem (key _ m hm))
      · exact ho m hm
    · have h := Reach.step (M := M) (is_ := is_) (T := T) (s := v')
        (q := { q with
          queue := setLast (.jump t) ((fins B t).map finNode) ++ q.queue
          executing := finNode ⟨.finally_, st, fp, fp, 0⟩ :: q.executing }) hc
      rw [exec, pop_default _ _ _ rfl rfl] at h
      exact h

theorem finPend {st fp n : Nat} {B : List Blk} {v v' : S} {q : Block.St} {x : Nat} (hf : FinRun M is_ T C fp n v v')
    (hc : C[fp + n]? = some .endFinally) (hB : ∀ b ∈ B, b.start < fp) (he : q.executing = []) (hb : Bounded q.excs)
    (hq : Holds is_ (⟨.finally_, st, fp, fp, 0⟩ :: B) x q) :
    ∃ q', Reach M is_ T C (resume M q v) (resume M q' v') ∧ q'.executing = [] ∧ Bounded q'.excs ∧
      Holds is_ B x q' := by
  unfold Holds at hq
  have hu : unwind (is_ x) (⟨.finally_, st, fp, fp, 0⟩ :: B)
    = (⟨.finally_, st, fp, fp, 0⟩ :: (unwind (is_ x) B).1, (unwind (is_ x) B).2) := rfl
  rw [hu] at hq
  have key : ∀ rest, q.queue = finNode ⟨.finally_, st, fp, fp, 0⟩ :: rest → (∀ n ∈ rest, n.block.start < fp) →
      Reach M is_ T C (resume M q v) (resume M { q with queue := rest } v') := by
    intro rest hr hrb
    have e1 : resume M q v = .at_ fp v
        { q with queue := rest, executing := finNode ⟨.finally_, st, fp, fp, 0⟩ :: q.executing } := by
      unfold resume process
      rw [hr]; rfl
    rw [e1]
    refine (hf _ (List.cons_ne_nil _ _) hrb).trans ?_
    have h := Reach.step (M := M) (is_ := is_) (T := T) (s := v')
      (q := { q with queue := rest, executing := finNode ⟨.finally_, st, fp, fp, 0⟩ :: q.executing }) hc
    rw [exec, pop_default _ _ _ rfl rfl] at h
    exact h
  have ht := Block.unwind_types (is_ x) B
  obtain ⟨u, hu'⟩ : ∃ u, u = unwind (is_ x) B := ⟨_, rfl⟩
  rw [← hu'] at hq ht
  unfold Holds
  rw [← hu']
  obtain ⟨fs, o⟩ := u
  have hfs : ∀ n ∈ fs.map finNode, n.block.start < fp := by
    intro n hn
    obtain ⟨b, hb', rfl⟩ := List.mem_map.mp hn
    exact hB b (ht.1 b hb').1
  cases o with
  | none =>
    obtain ⟨h1, n, h2, h3⟩ := hq
    refine ⟨_, key (fs.map finNode) h1 hfs, he, hb, rfl, n, h2, h3⟩
  | some b =>
    obtain ⟨n, h1, h2, h3⟩ := hq
    refine ⟨_, key (fs.map finNode ++ ([⟨b, some n, .default_⟩] : List QNode)) h1 ?_, he, hb, n, rfl, h2, h3⟩
    intro m hm
    rcases List.mem_append.mp hm with hm | hm
    · exact hfs m hm
    · rw [List.mem_singleton.mp hm]
      exact hB b (ht.2 b rfl).1

/-! ## Statements without commands -/

theorem len_zero (F : Verif.Stmt.Folder A) : ∀ (need : Bool) (s : Stmt A), len F need s = 0 →
    Verif.Stmt.exitType F (view s) = 0#16
  | need, .skip, _ => by simp [view, Verif.Stmt.exitType, Verif.Stmt.ET.none]
  | need, .act _, h => by simp [len] at h
  | need, .seq a b, h => by
    rw [len] at h
    have h1 := len_zero F need a (by omega)
    have h2 := len_zero F need b (by omega)
    simp only [view, Verif.Stmt.exitType, Verif.Stmt.exitTypes, h1, h2]
    decide
  | need, .if_ c a b, h => by rw [len] at h; omega
  | need, .while_ c a, h => by rw [len] at h; omega
  | need, .brk, h => by cases need <;> simp [len, exitLen] at h
  | need, .cont, h => by cases need <;> simp [len, exitLen] at h
  | need, .thr _, h => by simp [len] at h
  | need, .rethrow, h => by simp [len] at h
  | need, .try_ body cs f, h => by
    rw [len] at h
    have h1 := len_zero F (needBody need cs f) body (by omega)
    have h2 : pass F body = true := by rw [pass, h1]; decide
    rw [h2] at h
    simp at h

theorem fPos_lt (F : Verif.Stmt.Folder A) (e : Env) (body : Stmt A) (cs : Catches A) (f : Fin A) (pos : Nat) :
    pos < fPos F e body cs f pos := by
  rw [fPos, cPos]
  by_cases h : len F (needBody e.need cs f) body = 0
  · have h2 : pass F body = true := by rw [pass, len_zero F _ body h]; decide
    rw [h2]; simp only [Bool.toNat_true]; omega
  · omega

end

end Verif.Try
