import Verif.Proof.Block

/-!
# Protected blocks and exceptions: properties
-/

namespace Verif.Block.Props

open Verif.Block

/-- The blocks of a method. -/
def table (s : Stmt) : List Blk := (emit s 0).2

theorem table_at (s : Stmt) (p : Nat) : ((table s).filter (·.has p)).map Blk.clause = guards s 0 p :=
  emit_guards s 0 p (Nat.zero_le _)

/-! ## The search -/

/-- A `catch` takes the exceptions of its type and of the types derived from it; without a type, all. -/
theorem isBaseType_spec (types : List Nat) (base : Option Nat) :
    isBaseType types base = true ↔ ∀ t, base = some t → t ∈ types := by
  induction types with
  | nil => cases base <;> simp [isBaseType]
  | cons t rest ih =>
    rw [isBaseType]
    by_cases h : some t = base
    · subst h; simp
    · rw [if_pos h, ih]
      constructor
      · intro h' u hu; exact List.mem_cons_of_mem _ (h' u hu)
      · intro h' u hu
        rcases List.mem_cons.mp (h' u hu) with rfl | hm
        · exact absurd hu.symm h
        · exact hm

example : isBaseType [5, 3, 1] (some 3) = true ∧ isBaseType [5, 3, 1] (some 2) = false ∧
    isBaseType [5, 3, 1] none = true := by decide

/-- **C50 (partial).**  For every statement and every command of it that some clause is in charge of: the
search gives the `finally` clauses between the command and the innermost clause that catches the exception,
innermost first, and that clause. -/
theorem handler_partial (s : Stmt) (p : Nat) (is_ : Nat → Bool) (hg : guards s 0 p ≠ []) :
    (handlers is_ p (table s)).map (fun r => (r.1.map Blk.entry, r.2.map Blk.entry))
      = some (passed is_ (guards s 0 p), handler is_ (guards s 0 p)) := by
  have hf : (table s).filter (·.has p) ≠ [] := by
    intro h
    rw [← table_at, h] at hg; exact hg rfl
  have hne : table s ≠ [] := by
    intro h; rw [h] at hf; exact hf rfl
  have e : (fun b : Blk => (fun _ => true) b && b.has p) = (fun b => b.has p) := by
    funext b; simp
  rw [handlers, methodFind, if_neg hne, findBlock_eq _ p (table s) (emit_nested s 0)]
  simp only [Bool.true_and]
  rw [if_neg hf, Option.map_some, Option.map_some, unwind_spec, table_at]

/-- Without `try` statements nothing is found. -/
theorem handler_none (s : Stmt) (p : Nat) (is_ : Nat → Bool) (hg : table s = []) :
    handlers is_ p (table s) = some ([], none) := by
  rw [handlers, methodFind, if_pos hg]; rfl

/-- **C50 (refuted).**  In every method with a `try` statement, the search for a command that no clause is in
charge of reads the parent of the block behind the last one. -/
theorem handler_refuted (s : Stmt) (p : Nat) (is_ : Nat → Bool) (hg : guards s 0 p = []) (hs : table s ≠ []) :
    handlers is_ p (table s) = none := by
  have hf : (table s).filter (·.has p) = [] := by
    rw [← List.map_eq_nil_iff (f := Blk.clause), table_at, hg]
  rw [handlers, methodFind, if_neg hs, findBlock_eq _ p (table s) (emit_nested s 0)]
  simp only [Bool.true_and]
  rw [if_pos hf]; rfl

/-- The innermost clause, in terms of the blocks: the block chosen is a `catch` of a `try` whose body has the
command and whose type matches, and the body of every other such block includes the body of this one. -/
theorem handler_innermost (s : Stmt) (p : Nat) (is_ : Nat → Bool) (fins : List Blk) (c : Blk)
    (h : handlers is_ p (table s) = some (fins, some c)) :
    c ∈ table s ∧ c.type = .catch_ ∧ c.has p = true ∧ is_ c.rel = true ∧
      ∀ d ∈ table s, d.type = .catch_ → d.has p = true → is_ d.rel = true →
        c.start ≥ d.start ∧ c.end_ ≤ d.end_ := by
  have hne : table s ≠ [] := by
    intro h'; rw [handler_none s p is_ h'] at h; simp at h
  have hn : Nested (table s) := emit_nested s 0
  rw [handlers, methodFind, if_neg hne, findBlock_eq _ p _ hn] at h
  simp only [Bool.true_and] at h
  split at h
  · cases h
  · simp only [Option.map_some, Option.some.injEq] at h
    have hch := filter_chain (fun _ => true) p (table s) hn
    simp only [Bool.true_and] at hch
    have key : ∀ bs : List Blk, bs.Pairwise (fun a b => b.includes a = true) →
        ∀ fins c, unwind is_ bs = (fins, some c) → c ∈ bs ∧ c.type = .catch_ ∧ is_ c.rel = true ∧
          ∀ d ∈ bs, d.type = .catch_ → is_ d.rel = true → d.includes c = true := by
      intro bs
      induction bs with
      | nil => intro _ fins c h; simp [unwind] at h
      | cons b rest ih =>
        intro hp fins c h
        have hp' := List.pairwise_cons.mp hp
        rw [unwind] at h
        cases ht : b.type with
        | catch_ =>
          simp only [ht] at h
          by_cases hi : is_ b.rel = true
          · rw [if_pos hi] at h
            simp only [Prod.mk.injEq, Option.some.injEq] at h
            obtain ⟨_, rfl⟩ := h
            refine ⟨by simp, ht, hi, ?_⟩
            intro d hd _ _
            rcases List.mem_cons.mp hd with rfl | hd
            · simp [Blk.includes]
            · exact hp'.1 d hd
          · rw [if_neg hi] at h
            obtain ⟨h1, h2, h3, h4⟩ := ih hp'.2 fins c h
            refine ⟨List.mem_cons_of_mem _ h1, h2, h3, ?_⟩
            intro d hd hdt hdi
            rcases List.mem_cons.mp hd with rfl | hd
            · exact absurd hdi hi
            · exact h4 d hd hdt hdi
        | finally_ =>
          simp only [ht] at h
          obtain ⟨h1, h2, h3, h4⟩ := ih hp'.2 (unwind is_ rest).1 c (by
            have := congrArg Prod.snd h; exact Prod.ext rfl this)
          refine ⟨List.mem_cons_of_mem _ h1, h2, h3, ?_⟩
          intro d hd hdt hdi
          rcases List.mem_cons.mp hd with rfl | hd
          · rw [ht] at hdt; cases hdt
          · exact h4 d hd hdt hdi
    obtain ⟨h1, h2, h3, h4⟩ := key _ hch fins c h
    have hc := List.mem_filter.mp h1
    refine ⟨hc.1, h2, hc.2, h3, ?_⟩
    intro d hd hdt hdp hdi
    have := h4 d (List.mem_filter.mpr ⟨hd, hdp⟩) hdt hdi
    rw [includes_iff] at this
    exact this

/-- A jump: the `finally` clauses in charge of the command and not of its target, innermost first. -/
theorem leaving_partial (s : Stmt) (p t : Nat) (hg : allFinally (guards s 0 p) ≠ []) :
    (leaving p t (table s)).map (·.map Blk.entry) = some (left (guards s 0 p) (guards s 0 t)) := by
  have hn : Nested (table s) := emit_nested s 0
  have hf : (table s).filter (fun b => decide (b.type = .finally_) && b.has p) ≠ [] := by
    intro h
    have := fin_entries p (table s)
    rw [h, table_at] at this
    exact hg this.symm
  have hne : table s ≠ [] := by
    intro h; rw [h] at hf; exact hf rfl
  rw [leaving, methodFind, if_neg hne, findBlock_eq _ p _ hn, if_neg hf, Option.map_some, Option.map_some,
    takeWhile_filter t _ (filter_chain _ p _ hn),
    left_entries (table s) (emit_fin_end s 0) p t (table s) (fun _ h => h), table_at]
  rw [at_, table_at]

/-- `return`: all the `finally` clauses in charge of the command, innermost first. -/
theorem returning_partial (s : Stmt) (p : Nat) (hg : allFinally (guards s 0 p) ≠ []) :
    (returning p (table s)).map (·.map Blk.entry) = some (allFinally (guards s 0 p)) := by
  have hn : Nested (table s) := emit_nested s 0
  have hf : (table s).filter (fun b => decide (b.type = .finally_) && b.has p) ≠ [] := by
    intro h
    have := fin_entries p (table s)
    rw [h, table_at] at this
    exact hg this.symm
  have hne : table s ≠ [] := by
    intro h; rw [h] at hf; exact hf rfl
  rw [returning, methodFind, if_neg hne, findBlock_eq _ p _ hn, if_neg hf, Option.map_some, fin_entries, table_at]

/-- A jump out of a `try` statement without `finally` clauses (and with `catch` clauses) reads past the
blocks. -/
theorem leaving_refuted (s : Stmt) (p t : Nat) (hg : allFinally (guards s 0 p) = []) (hs : table s ≠ []) :
    leaving p t (table s) = none ∧ returning p (table s) = none := by
  have hn : Nested (table s) := emit_nested s 0
  have hf : (table s).filter (fun b => decide (b.type = .finally_) && b.has p) = [] := by
    have := fin_entries p (table s)
    rw [table_at, hg] at this
    exact List.map_eq_nil_iff.mp this
  constructor
  · rw [leaving, methodFind, if_neg hs, findBlock_eq _ p _ hn, if_pos hf]; rfl
  · rw [returning, methodFind, if_neg hs, findBlock_eq _ p _ hn, if_pos hf]

/-- A method: `try { c c try { c } catch (1) { c } finally { c } c } catch (2) { c } catch (3) { } c`. -/
def sample : Stmt :=
  .seq (.try_ (.seq (.code 2) (.seq (.try_ (.code 1) true (.cons 1 (.code 1) true .nil) (.some (.code 1) true))
      (.code 1))) true (.cons 2 (.code 1) true (.cons 3 (.code 0) true .nil)) .none) (.code 1)

example : table sample = [⟨.catch_, 2, 3, 4, 1⟩, ⟨.finally_, 2, 7, 7, 0⟩, ⟨.catch_, 0, 10, 11, 2⟩,
    ⟨.catch_, 0, 10, 14, 3⟩] := by decide
example : guards sample 0 2 = [.catch_ 1 4, .finally_ 2 7, .catch_ 2 11, .catch_ 3 14] := by decide
example : guards sample 0 5 = [.finally_ 2 7, .catch_ 2 11, .catch_ 3 14] := by decide
example : guards sample 0 16 = [] := by decide
example : passed (· == 3) (guards sample 0 2) = [7] ∧ handler (· == 3) (guards sample 0 2) = some 14 := by decide
example : left (guards sample 0 2) (guards sample 0 9) = [7] := by decide
example : left (guards sample 0 2) (guards sample 0 4) = [] := by decide

/-! ## The machine -/

/-- The nodes that were released exist. -/
def ExcsOk (x : Exceptions) : Prop := ∀ n ∈ x.free, n < x.mem.length

theorem excs_ok (x : Exceptions) (e : Nat) (h : ExcsOk x) (h' : ∀ n ∈ x.stack, n < x.mem.length) :
    (ExcsOk (x.push e) ∧ ∀ n ∈ (x.push e).stack, n < (x.push e).mem.length) ∧
    (ExcsOk x.pop ∧ ∀ n ∈ x.pop.stack, n < x.pop.mem.length) := by
  rcases x with ⟨stack, free, mem⟩
  simp only [ExcsOk] at *
  constructor
  · cases free with
    | nil =>
      simp only [Exceptions.push, List.mem_cons, List.length_append, List.length_cons, List.length_nil]
      refine ⟨(by intro n hn; cases hn), ?_⟩
      intro n hn
      rcases hn with rfl | hn
      · omega
      · have := h' n hn; omega
    | cons f free =>
      simp only [Exceptions.push, List.mem_cons, List.length_set]
      refine ⟨fun n hn => h n (List.mem_cons_of_mem _ hn), ?_⟩
      intro n hn
      rcases hn with rfl | hn
      · exact h n (by simp)
      · exact h' n hn
  · cases stack with
    | nil => exact ⟨h, h'⟩
    | cons n rest =>
      simp only [Exceptions.pop, List.mem_append, List.mem_singleton]
      refine ⟨?_, fun m hm => h' m (List.mem_cons_of_mem _ hm)⟩
      intro m hm
      rcases hm with hm | rfl
      · exact h m hm
      · exact h' m (by simp)

theorem push_top (x : Exceptions) (e : Nat) (h : ExcsOk x) :
    ∃ n, (x.push e).stack = n :: x.stack ∧ (x.push e).mem[n]? = some e ∧ (x.push e).pop.mem[n]? = some e
      ∧ (x.push e).pop.stack = x.stack := by
  rcases x with ⟨stack, free, mem⟩
  cases free with
  | nil => exact ⟨mem.length, by simp [Exceptions.push, Exceptions.pop]⟩
  | cons f free =>
    have : f < mem.length := h f (by simp)
    exact ⟨f, by simp [Exceptions.push, Exceptions.pop, this]⟩

/-- The block that waits first is not within the given ones (it would be taken off). -/
def Outer (blocks : List Blk) (s : St) (which : Blk → Prop) : Prop :=
  ∀ n, s.queue.head? = some n → ∀ b ∈ blocks, which b → b.includes n.block = false

theorem getLast_fins (fins : List Blk) (h : fins ≠ []) : ∃ b, b ∈ fins ∧
    (fins.map finNode).getLast? = some (finNode b) := by
  refine ⟨fins.getLast h, List.getLast_mem h, ?_⟩
  rw [List.getLast?_map, List.getLast?_eq_some_getLast h]; rfl

/-- **C74 (partial).**  An exception raised at a command with a clause that catches it: the `finally` clauses on
the way are each run once, innermost first, and then the innermost clause that catches it is entered, with
the exception; the blocks that waited before still wait, and the exception is no longer held. -/
theorem throw_partial (st : Stmt) (p e h : Nat) (is_ : Nat → Nat → Bool) (s : St) (body : Nat → St → St)
    (hb : Quiet body) (hx : ExcsOk s.excs)
    (hq : Outer (table st) s (fun b => b.type = .catch_ ∧ b.has p = true ∧ b.entry = h))
    (hh : handler (is_ e) (guards st 0 p) = some h) (k : Nat) (hk : (guards st 0 p).length < k) :
    ∃ t, (throw_ (table st) is_ s p e).bind (fun r => run body k r.1 r.2)
        = some (passed (is_ e) (guards st 0 p), t, .enter h (some e)) ∧
      t.queue = s.queue ∧ t.executing = s.executing := by
  have hg : guards st 0 p ≠ [] := by
    intro h'; rw [h'] at hh; simp [handler] at hh
  have hp := handler_partial st p (is_ e) hg
  cases hr : handlers (is_ e) p (table st) with
  | none => rw [hr] at hp; simp at hp
  | some r =>
    obtain ⟨fins, hc⟩ := r
    rw [hr] at hp
    simp only [Option.map_some, Option.some.injEq, Prod.mk.injEq, hh] at hp
    obtain ⟨hp1, hp2⟩ := hp
    cases hc with
    | none => simp at hp2
    | some c =>
      simp only [Option.map_some, Option.some.injEq] at hp2
      obtain ⟨hc1, hc2, hc3, _, _⟩ := handler_innermost st p (is_ e) fins c hr
      obtain ⟨n, hn1, hn2, hn3, hn4⟩ := push_top s.excs e hx
      have hlen : fins.length < k := by
        have : fins.length = (passed (is_ e) (guards st 0 p)).length := by rw [← hp1, List.length_map]
        rw [this, passed]
        exact Nat.lt_of_le_of_lt (Nat.le_trans (List.length_filterMap_le _ _)
          (List.Sublist.length_le (List.takeWhile_sublist _))) hk
      let s' : St := { s with excs := (s.excs.push e).pop }
      let group : List QNode := fins.map finNode ++ [⟨c, some n, .default_⟩]
      have hgl : group.getLast? = some ⟨c, some n, .default_⟩ := by simp [group]
      have henq : enqueue s' group = ({ s' with queue := group ++ s'.queue }, false) :=
        enqueue_keep s' group _ hgl (fun m hm => hq m hm c hc1 ⟨hc2, hc3, hp2⟩)
      have hgne : group ≠ [] := by simp [group]
      have e1 : throw_ (table st) is_ s p e = process { s' with queue := group ++ s'.queue } := by
        simp only [throw_, hr, hn1, List.head?_cons]
        change (if group = [] then _ else process (if (enqueue s' group).2 = true then _ else (enqueue s' group).1))
          = _
        rw [if_neg hgne, henq]
        rfl
      obtain ⟨t, ht, ht1, ht2⟩ := run_process_catch body hb c n e .default_ s.queue fins
        { s' with queue := group ++ s'.queue } k hlen (by simp [group, s']) hn3
      refine ⟨t, ?_, ht1, ht2⟩
      rw [e1, ht, hp1, hp2]

/-- An exception that no clause in charge of the command catches: all `finally` clauses are run, innermost
first, and the call is left, with the exception held. -/
theorem throw_out_partial (st : Stmt) (p e : Nat) (is_ : Nat → Nat → Bool) (s : St) (body : Nat → St → St)
    (hb : Quiet body) (hq : s.queue = []) (hg : guards st 0 p ≠ [])
    (hh : handler (is_ e) (guards st 0 p) = none) (k : Nat) (hk : (guards st 0 p).length < k) :
    ∃ t, (throw_ (table st) is_ s p e).bind (fun r => run body k r.1 r.2)
        = some (allFinally (guards st 0 p), t, .leaveCall) ∧
      t.queue = [] ∧ t.executing = s.executing := by
  have hall : passed (is_ e) (guards st 0 p) = allFinally (guards st 0 p) := by
    rw [passed, allFinally]
    congr 1
    have : (guards st 0 p).find? (fun g => g.catches (is_ e)) = none := by
      rw [handler, Option.map_eq_none_iff] at hh; exact hh
    rw [List.find?_eq_none] at this
    have key : ∀ gs : List Clause, (∀ g ∈ gs, ¬ g.catches (is_ e) = true) →
        gs.takeWhile (fun g => !g.catches (is_ e)) = gs := by
      intro gs
      induction gs with
      | nil => intro _; rfl
      | cons g gs ih =>
        intro h
        have hg : g.catches (is_ e) = false := by simpa using h g (by simp)
        rw [List.takeWhile_cons, hg, Bool.not_false, if_pos rfl, ih (fun x hx => h x (List.mem_cons_of_mem _ hx))]
    exact key _ this
  have hp := handler_partial st p (is_ e) hg
  cases hr : handlers (is_ e) p (table st) with
  | none => rw [hr] at hp; simp at hp
  | some r =>
    obtain ⟨fins, hc⟩ := r
    rw [hr] at hp
    simp only [Option.map_some, Option.some.injEq, Prod.mk.injEq, hh] at hp
    obtain ⟨hp1, hp2⟩ := hp
    have hc' : hc = none := by simpa using hp2
    subst hc'
    have hlen : fins.length < k := by
      have : fins.length = (passed (is_ e) (guards st 0 p)).length := by rw [← hp1, List.length_map]
      rw [this, passed]
      exact Nat.lt_of_le_of_lt (Nat.le_trans (List.length_filterMap_le _ _)
        (List.Sublist.length_le (List.takeWhile_sublist _))) hk
    obtain ⟨k, rfl⟩ : ∃ j, k = j + 1 := ⟨k - 1, by omega⟩
    let s' : St := { s with excs := s.excs.push e }
    by_cases hf : fins = []
    · subst hf
      refine ⟨s', ?_, hq, rfl⟩
      simp only [throw_, hr, List.map_nil, enqueue, List.getLast?_nil, if_true, Option.bind_some,
        Bool.false_eq_true, if_false]
      rw [← hall, ← hp1]
      rfl
    · have hgne : fins.map finNode ≠ [] := by simpa using hf
      obtain ⟨b, _, hbl⟩ := getLast_fins fins hf
      have henq : enqueue s' (fins.map finNode) = ({ s' with queue := fins.map finNode ++ s'.queue }, false) :=
        enqueue_keep s' _ _ hbl (fun m hm => by simp only [s', hq, List.head?_nil] at hm; cases hm)
      have e1 : throw_ (table st) is_ s p e = process { s' with queue := fins.map finNode ++ s'.queue } := by
        simp only [throw_, hr]
        change (if fins.map finNode = [] then _ else
          process (if (enqueue s' (fins.map finNode)).2 = true then _ else (enqueue s' (fins.map finNode)).1)) = _
        rw [if_neg hgne, henq]
        rfl
      obtain ⟨t, ht, ht1, ht2⟩ := run_process_none body hb fins
        { s' with queue := fins.map finNode ++ s'.queue } (k + 1) hlen hf (by simp [s', hq])
      refine ⟨t, ?_, ht1, ht2⟩
      rw [e1, ht, hp1, hall]

/-- `break`, `continue` and the end of a protected block: the `finally` clauses that are left are each run
once, innermost first, and then the target runs. -/
theorem leave_partial (st : Stmt) (p tgt : Nat) (s : St) (body : Nat → St → St)
    (hb : Quiet body) (hq : Outer (table st) s (fun b => b.type = .finally_ ∧ b.has p = true ∧ b.has tgt = false))
    (hl : left (guards st 0 p) (guards st 0 tgt) ≠ []) (k : Nat) (hk : (guards st 0 p).length < k) :
    ∃ t, (leave (table st) s p tgt).bind (fun r => run body k r.1 r.2)
        = some (left (guards st 0 p) (guards st 0 tgt), t, .goto_ tgt) ∧
      t.queue = s.queue ∧ t.executing = s.executing := by
  have hg : allFinally (guards st 0 p) ≠ [] := by
    intro h
    apply hl
    rw [left, allFinally, List.filterMap_eq_nil_iff]
    rw [allFinally, List.filterMap_eq_nil_iff] at h
    intro x hx
    exact h x (List.mem_filter.mp hx).1
  have hp := leaving_partial st p tgt hg
  cases hr : leaving p tgt (table st) with
  | none => rw [hr] at hp; simp at hp
  | some fins =>
    rw [hr] at hp
    simp only [Option.map_some, Option.some.injEq] at hp
    have hf : fins ≠ [] := by intro h; rw [h] at hp; exact hl hp.symm
    have hlen : fins.length < k := by
      have : fins.length = (left (guards st 0 p) (guards st 0 tgt)).length := by rw [← hp, List.length_map]
      rw [this, left, allFinally]
      exact Nat.lt_of_le_of_lt (Nat.le_trans (List.length_filterMap_le _ _) (List.length_filter_le _ _)) hk
    have hmem : ∀ b ∈ fins, b ∈ table st ∧ b.type = .finally_ ∧ b.has p = true ∧ b.has tgt = false := by
      intro b hb
      have hn : Nested (table st) := emit_nested st 0
      rw [leaving, methodFind] at hr
      by_cases hne : table st = []
      · rw [if_pos hne] at hr
        simp only [Option.map_some, List.takeWhile_nil, Option.some.injEq] at hr
        exact absurd hr.symm hf
      · rw [if_neg hne, findBlock_eq _ p _ hn] at hr
        split at hr
        · cases hr
        · simp only [Option.map_some, Option.some.injEq] at hr
          rw [← hr] at hb
          rw [takeWhile_filter tgt _ (filter_chain _ p _ hn)] at hb
          have h1 := List.mem_filter.mp hb
          have h2 := List.mem_filter.mp h1.1
          simp only [Bool.and_eq_true, decide_eq_true_eq] at h2
          exact ⟨h2.1, h2.2.1, h2.2.2, by simpa using h1.2⟩
    have hgne : setLast (.jump tgt) (fins.map finNode) ≠ [] := setLast_ne _ _ (by simpa using hf)
    obtain ⟨b, hb1, hbl⟩ := getLast_fins fins hf
    have henq : enqueue s (setLast (.jump tgt) (fins.map finNode))
        = ({ s with queue := setLast (.jump tgt) (fins.map finNode) ++ s.queue }, false) :=
      enqueue_keep s _ _ (setLast_last _ _ _ hbl) (fun m hm => hq m hm b (hmem b hb1).1 (hmem b hb1).2)
    have e1 : leave (table st) s p tgt
        = process { s with queue := setLast (.jump tgt) (fins.map finNode) ++ s.queue } := by
      simp only [leave, hr]
      change (if setLast (.jump tgt) (fins.map finNode) = [] then _ else
        process (enqueue s (setLast (.jump tgt) (fins.map finNode))).1) = _
      rw [if_neg hgne, henq]
    obtain ⟨t, ht, ht1, ht2⟩ := run_process_last body hb (.jump tgt) (by simp) s.queue fins
      { s with queue := setLast (.jump tgt) (fins.map finNode) ++ s.queue } k hlen hf rfl
    exact ⟨t, by rw [e1, ht, hp]; rfl, ht1, ht2⟩

/-- Nothing is left: the command behind runs (it is the jump). -/
theorem leave_inside (st : Stmt) (p tgt : Nat) (s : St) (hg : allFinally (guards st 0 p) ≠ [])
    (hl : left (guards st 0 p) (guards st 0 tgt) = []) :
    leave (table st) s p tgt = some (s, .following) := by
  have hp := leaving_partial st p tgt hg
  cases hr : leaving p tgt (table st) with
  | none => rw [hr] at hp; simp at hp
  | some fins =>
    rw [hr] at hp
    simp only [Option.map_some, Option.some.injEq, hl] at hp
    have : fins = [] := List.map_eq_nil_iff.mp hp
    subst this
    simp only [leave, hr, List.map_nil, setLast, if_true]

/-- `return`: all `finally` clauses are run once, innermost first, and then the method returns. -/
theorem return_partial (st : Stmt) (p : Nat) (s : St) (body : Nat → St → St)
    (hb : Quiet body) (hq : Outer (table st) s (fun b => b.type = .finally_ ∧ b.has p = true))
    (hg : allFinally (guards st 0 p) ≠ []) (k : Nat) (hk : (guards st 0 p).length < k) :
    ∃ t, (leaveRet (table st) s p).bind (fun r => run body k r.1 r.2)
        = some (allFinally (guards st 0 p), t, .ret) ∧
      t.queue = s.queue ∧ t.executing = s.executing := by
  have hp := returning_partial st p hg
  cases hr : returning p (table st) with
  | none => rw [hr] at hp; simp at hp
  | some fins =>
    rw [hr] at hp
    simp only [Option.map_some, Option.some.injEq] at hp
    have hf : fins ≠ [] := by intro h; rw [h] at hp; exact hg hp.symm
    have hlen : fins.length < k := by
      have : fins.length = (allFinally (guards st 0 p)).length := by rw [← hp, List.length_map]
      rw [this, allFinally]
      exact Nat.lt_of_le_of_lt (List.length_filterMap_le _ _) hk
    have hmem : ∀ b ∈ fins, b ∈ table st ∧ b.type = .finally_ ∧ b.has p = true := by
      intro b hb
      have hn : Nested (table st) := emit_nested st 0
      rw [returning, methodFind] at hr
      by_cases hne : table st = []
      · rw [if_pos hne] at hr
        simp only [Option.some.injEq] at hr
        exact absurd hr.symm hf
      · rw [if_neg hne, findBlock_eq _ p _ hn] at hr
        split at hr
        · cases hr
        · simp only [Option.some.injEq] at hr
          rw [← hr] at hb
          have := List.mem_filter.mp hb
          simp only [Bool.and_eq_true, decide_eq_true_eq] at this
          exact this
    have hgne : setLast .ret (fins.map finNode) ≠ [] := setLast_ne _ _ (by simpa using hf)
    obtain ⟨b, hb1, hbl⟩ := getLast_fins fins hf
    have henq : enqueue s (setLast .ret (fins.map finNode))
        = ({ s with queue := setLast .ret (fins.map finNode) ++ s.queue }, false) :=
      enqueue_keep s _ _ (setLast_last _ _ _ hbl) (fun m hm => hq m hm b (hmem b hb1).1 (hmem b hb1).2)
    have e1 : leaveRet (table st) s p
        = process { s with queue := setLast .ret (fins.map finNode) ++ s.queue } := by
      simp only [leaveRet, hr]
      change (if setLast .ret (fins.map finNode) = [] then _ else
        process (enqueue s (setLast .ret (fins.map finNode))).1) = _
      rw [if_neg hgne, henq]
    obtain ⟨t, ht, ht1, ht2⟩ := run_process_last body hb .ret (by simp) s.queue fins
      { s with queue := setLast .ret (fins.map finNode) ++ s.queue } k hlen hf rfl
    exact ⟨t, by rw [e1, ht, hp]; rfl, ht1, ht2⟩

/-- In a method without `try` statements nothing is run: the exception leaves the call, a `return` returns and a
jump goes on. -/
theorem no_clauses (st : Stmt) (p tgt e : Nat) (is_ : Nat → Nat → Bool) (s : St) (hs : table st = []) :
    throw_ (table st) is_ s p e = some ({ s with excs := s.excs.push e }, .leaveCall) ∧
      leaveRet (table st) s p = some (s, .ret) ∧ leave (table st) s p tgt = some (s, .following) := by
  refine ⟨?_, ?_, ?_⟩
  · simp [throw_, handler_none st p (is_ e) hs, enqueue]
  · simp [leaveRet, returning, methodFind, hs, setLast]
  · simp [leave, leaving, methodFind, hs, setLast]

example : table (.seq (.code 3) (.code 2)) = [] := by decide

/-- Two `try` statements with `finally`, one in the other, in one with `catch (9)`; in the inner `finally` clause
a `try` with `catch (8)`.  Commands 0 .. 12. -/
def deep : Stmt :=
  .try_ (.try_ (.try_ (.code 1) true .nil
      (.some (.try_ (.code 1) true (.cons 8 (.code 0) true .nil) .none) true)) true .nil
    (.some (.code 1) true)) true (.cons 9 (.code 0) true .nil) .none

/-- The state at the start of a call. -/
def start : St := ⟨⟨[], [], []⟩, [], []⟩

example : guards deep 0 0 = [.finally_ 0 2, .finally_ 0 8, .catch_ 9 11] := by decide
example : guards deep 0 2 = [.catch_ 8 4, .finally_ 0 8, .catch_ 9 11] := by decide
example : table deep = [⟨.finally_, 0, 2, 2, 0⟩, ⟨.catch_, 2, 3, 4, 8⟩, ⟨.finally_, 0, 8, 8, 0⟩,
    ⟨.catch_, 0, 10, 11, 9⟩] := by decide

example (w : Blk → Prop) : ExcsOk start.excs ∧ Outer (table deep) start w := by
  refine ⟨by simp [ExcsOk, start], ?_⟩
  intro n hn; simp [start] at hn

/-- The type of an exception: its last digit. -/
def typed (e t : Nat) : Bool := e % 10 == t

example : handler (typed 19) (guards deep 0 0) = some 11 ∧ passed (typed 19) (guards deep 0 0) = [2, 8] := by decide
example : handler (typed 17) (guards deep 0 0) = none := by decide

/-- The state after the exception 19 at command 0: the first `finally` clause runs. -/
def inFinally : St := ((throw_ (table deep) typed start 0 19).getD (start, .ret)).1

/-- Within the `finally` clause an exception can be raised and caught: the hypotheses hold, and what waits
still waits. -/
example : ExcsOk inFinally.excs ∧ handler (typed 18) (guards deep 0 2) = some 4 ∧ inFinally.queue.length = 2 ∧
    Outer (table deep) inFinally (fun b => b.type = .catch_ ∧ b.has 2 = true ∧ b.entry = 4) := by
  refine ⟨?_, by decide, by decide, ?_⟩
  · have h : ∀ n ∈ inFinally.excs.free, n < inFinally.excs.mem.length := by decide
    exact h
  · intro n hn b hb hp
    have hq : inFinally.queue.head? = some ⟨⟨.finally_, 0, 8, 8, 0⟩, none, .default_⟩ := by decide
    rw [hq] at hn
    cases hn
    revert hp
    revert b
    decide

/-! ## Refuted -/

/-- **C74 (refuted).**  The node of an exception is released when its handler is found, before the `finally`
clauses run: an exception raised and caught within one of them takes the node, and the handler of the first
exception (19) is entered with the second one (18). -/
theorem wrong_exception_refuted :
    (do
      let a ← throw_ (table deep) typed start 0 19      -- the first exception, at command 0
      let b ← throw_ (table deep) typed a.1 2 18        -- in the `finally` clause, at command 2
      let c ← endFinally b.1                             -- the end of the first `finally` clause
      let d ← endFinally c.1                             -- the end of the second
      pure (a.2, b.2, c.2, d.2))
      = some (.enter 2 none, .enter 4 (some 18), .enter 8 none, .enter 11 (some 18)) := by decide

/-- A method: a `try` with `finally` in `try`/`catch (1)`, all in `try`/`catch (9)`, then a `try` with `finally`. -/
def stale : Stmt :=
  .try_ (.seq (.try_ (.try_ (.code 1) true .nil (.some (.code 1) true)) true (.cons 1 (.code 0) true .nil) .none)
    (.try_ (.code 1) true .nil (.some (.code 0) true))) true (.cons 9 (.code 0) true .nil) .none

example : table stale = [⟨.finally_, 0, 2, 2, 0⟩, ⟨.catch_, 0, 4, 5, 1⟩, ⟨.finally_, 7, 9, 9, 0⟩,
    ⟨.catch_, 0, 10, 11, 9⟩] := by decide

/-- **C74 (refuted).**  The exception 19, for the outer handler, is replaced by 21, raised in the `finally`
clause and caught within; the outer handler still waits: when the method goes on and leaves another `try`
with an exception (15) that nothing catches, the handler for 19 is entered. -/
theorem stale_handler_refuted :
    handler (typed 15) (guards stale 0 7) = none ∧
    (do
      let a ← throw_ (table stale) typed start 0 19
      let b ← throw_ (table stale) typed a.1 2 21
      let c ← throw_ (table stale) typed b.1 7 15
      let d ← endFinally c.1
      pure (a.2, b.2, c.2, d.2))
      = some (.enter 2 none, .enter 5 (some 21), .enter 9 none, .enter 11 (some 15)) := by decide

/-- `return` outside of protected blocks gives the value of its expression. -/
theorem return_value_partial (v : Nat) : runReturn (returnCode false v) [] = some v := rfl

/-- **C74 (refuted).**  In a protected block `leave.ret` comes before the expression: the method returns without
the value. -/
theorem return_value_refuted (v : Nat) : runReturn (returnCode true v) [] = none := rfl

end Verif.Block.Props
