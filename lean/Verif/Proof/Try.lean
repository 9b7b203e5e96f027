import Verif.Spec.Try
import Verif.Proof.Block

/-!
# Methods with `try` statements: lemmas
-/

namespace Verif.Try

open Verif.Block (BType Blk Next QNode emit emitCatches emitFin unwind has_iff includes_iff Nested finNode
  setLast dropWithin enqueue process)

variable {A S : Type}

/-! ## Lengths -/

mutual
theorem size_shape (F : Verif.Stmt.Folder A) : ∀ (need : Bool) (s : Stmt A), Block.size (shape F need s) = len F need s
  | need, .skip => by simp [shape, Block.size, len]
  | need, .act _ => by simp [shape, Block.size, len]
  | need, .seq a b => by simp only [shape, Block.size, len, size_shape F need a, size_shape F need b]
  | need, .if_ c a b => by
    simp only [shape, Block.size, len, size_shape F need a, size_shape F need b]; omega
  | need, .while_ c a => by simp only [shape, Block.size, len, size_shape F false a]; omega
  | need, .brk => by simp [shape, Block.size, len]
  | need, .cont => by simp [shape, Block.size, len]
  | need, .thr _ => by simp [shape, Block.size, len]
  | need, .rethrow => by simp [shape, Block.size, len]
  | need, .try_ body cs f => by
    simp only [shape, Block.size, len, size_shape F _ body, size_shapeCatches F _ cs, size_shapeFin F _ f]
theorem size_shapeCatches (F : Verif.Stmt.Folder A) : ∀ (need : Bool) (c : Catches A),
    Block.sizeCatches (shapeCatches F need c) = lenCatches F need c
  | need, .nil => by simp [shapeCatches, Block.sizeCatches, lenCatches]
  | need, .cons _ _ body rest => by
    simp only [shapeCatches, Block.sizeCatches, lenCatches, size_shape F _ body, size_shapeCatches F _ rest]
theorem size_shapeFin (F : Verif.Stmt.Folder A) : ∀ (need : Bool) (f : Fin A),
    Block.sizeFin (shapeFin F need f) = lenFin F need f
  | need, .none => by simp [shapeFin, Block.sizeFin, lenFin]
  | need, .some body => by simp only [shapeFin, Block.sizeFin, lenFin, size_shape F _ body]
end

theorem exitCode_length (need : Bool) (t : Nat) : (exitCode need t : List (Cmd A)).length = exitLen need := by
  cases need <;> rfl

theorem tailCode_length (p l : Bool) (t : Nat) : (tailCode p l t : List (Cmd A)).length = p.toNat := by
  cases p <;> cases l <;> rfl

mutual
theorem compile_length (F : Verif.Stmt.Folder A) : ∀ (e : Env) (s : Stmt A) (pos : Nat),
    (compile F e s pos).length = len F e.need s
  | e, .skip, pos => by simp [compile, len]
  | e, .act _, pos => by simp [compile, len]
  | e, .seq a b, pos => by
    simp only [compile, len, List.length_append, compile_length F e a, compile_length F e b]
  | e, .if_ c a b, pos => by
    simp only [compile, len, List.length_append, List.length_cons, compile_length F e a, compile_length F e b]
    omega
  | e, .while_ c a, pos => by
    simp only [compile, len, List.length_append, List.length_cons, List.length_nil, compile_length F _ a]
    omega
  | e, .brk, pos => by simp only [compile, len, exitCode_length]
  | e, .cont, pos => by simp only [compile, len, exitCode_length]
  | e, .thr _, pos => by simp [compile, len]
  | e, .rethrow, pos => by simp [compile, len]
  | e, .try_ body cs f, pos => by
    simp only [compile, len, List.length_append, compile_length F _ body, compileCatches_length F _ _ _ cs,
      compileFin_length F _ f, tailCode_length]
    omega
theorem compileCatches_length (F : Verif.Stmt.Folder A) : ∀ (e : Env) (l : Bool) (t : Nat) (c : Catches A) (pos : Nat),
    (compileCatches F e l t c pos).length = lenCatches F e.need c
  | e, l, t, .nil, pos => by simp [compileCatches, lenCatches]
  | e, l, t, .cons _ _ body rest, pos => by
    simp only [compileCatches, lenCatches, List.length_append, List.length_cons, compile_length F _ body,
      compileCatches_length F _ _ _ rest, tailCode_length]
    omega
theorem compileFin_length (F : Verif.Stmt.Folder A) : ∀ (e : Env) (f : Fin A) (pos : Nat),
    (compileFin F e f pos).length = lenFin F e.need f
  | e, .none, pos => by simp [compileFin, lenFin]
  | e, .some body, pos => by
    simp only [compileFin, lenFin, List.length_append, compile_length F _ body]
    cases pass F body <;> rfl
end

/-! ## Commands at a place -/

/-- The commands `xs` are in `C` from `pos` on. -/
def Has (C : List (Cmd A)) (pos : Nat) (xs : List (Cmd A)) : Prop :=
  ∀ i x, xs[i]? = some x → C[pos + i]? = some x

theorem Has.head {C : List (Cmd A)} {pos : Nat} {x : Cmd A} {xs : List (Cmd A)} (h : Has C pos (x :: xs)) :
    C[pos]? = some x := h 0 x rfl

theorem Has.tail {C : List (Cmd A)} {pos : Nat} {x : Cmd A} {xs : List (Cmd A)} (h : Has C pos (x :: xs)) :
    Has C (pos + 1) xs := by
  intro i y hy
  have := h (i + 1) y (by simpa using hy)
  rwa [Nat.add_assoc, Nat.add_comm 1 i]

theorem Has.left {C : List (Cmd A)} {pos : Nat} {xs ys : List (Cmd A)} (h : Has C pos (xs ++ ys)) :
    Has C pos xs := by
  intro i y hy
  refine h i y ?_
  rw [List.getElem?_append_left]
  · exact hy
  · exact (List.getElem?_eq_some_iff.mp hy).1

theorem Has.right {C : List (Cmd A)} {pos : Nat} {xs ys : List (Cmd A)} (n : Nat) (h : Has C pos (xs ++ ys))
    (hn : xs.length = n) : Has C (pos + n) ys := by
  intro i y hy
  have := h (n + i) y (by
    rw [List.getElem?_append_right (by omega), hn, Nat.add_sub_cancel_left]; exact hy)
  rwa [Nat.add_assoc]

/-! ## Steps -/

section
variable (M : Machine A S) (is_ : Nat → Nat → Bool) (T : List Blk) (C : List (Cmd A))

theorem steps_add (n m : Nat) (c : Conf S) :
    steps M is_ T C (n + m) c = steps M is_ T C m (steps M is_ T C n c) := by
  induction n generalizing c with
  | zero => rw [Nat.zero_add]; rfl
  | succ n ih => rw [Nat.add_right_comm, steps, ih, steps]

/-- One state leads to another. -/
def Reach (c c' : Conf S) : Prop := ∃ n, steps M is_ T C n c = c'

variable {M is_ T C}

theorem Reach.refl (c : Conf S) : Reach M is_ T C c c := ⟨0, rfl⟩

theorem Reach.trans {a b c : Conf S} (h1 : Reach M is_ T C a b) (h2 : Reach M is_ T C b c) :
    Reach M is_ T C a c := by
  obtain ⟨n, hn⟩ := h1
  obtain ⟨m, hm⟩ := h2
  exact ⟨n + m, by rw [steps_add, hn, hm]⟩

theorem Reach.step {pc : Nat} {s : S} {q : Block.St} {x : Cmd A} (h : C[pc]? = some x) :
    Reach M is_ T C (.at_ pc s q) (exec M is_ T pc s q x) :=
  ⟨1, by rw [steps, steps, next, h]⟩

/-! ## Blocks at a place -/

/-- The blocks that a command is in. -/
def filt (p : Nat) (bs : List Blk) : List Blk := bs.filter (·.has p)

theorem filt_append (p : Nat) (xs ys : List Blk) : filt p (xs ++ ys) = filt p xs ++ filt p ys := by simp [filt]

theorem filt_nil {bs : List Blk} {p : Nat} (h : ∀ b ∈ bs, ¬ (b.start ≤ p ∧ p < b.end_)) : filt p bs = [] := by
  rw [filt, List.filter_eq_nil_iff]
  intro b hb hp; exact h b hb ((has_iff b p).mp hp)

theorem filt_cons_neg {b : Blk} {bs : List Blk} {p : Nat} (h : ¬ (b.start ≤ p ∧ p < b.end_)) :
    filt p (b :: bs) = filt p bs := by
  rw [filt, List.filter_cons, if_neg (by rw [has_iff]; exact h)]; rfl

theorem filt_cons_pos {b : Blk} {bs : List Blk} {p : Nat} (h : b.start ≤ p ∧ p < b.end_) :
    filt p (b :: bs) = b :: filt p bs := by
  rw [filt, List.filter_cons, if_pos ((has_iff _ _).mpr h)]; rfl

theorem emit_filt_out (s : Block.Stmt) (pos p : Nat) (h : p < pos ∨ pos + Block.size s ≤ p) :
    filt p (emit s pos).2 = [] := by
  refine filt_nil ?_
  intro b hb
  have := Block.emit_range s pos b hb; omega

/-- The blocks for the `catch` clauses of a `try`. -/
def catchBlks (F : Verif.Stmt.Folder A) (need : Bool) (start end_ : Nat) : Catches A → Nat → List Blk
  | .nil, _ => []
  | .cons type _ body rest, pos =>
    ⟨.catch_, start, end_, pos, type⟩ ::
      catchBlks F need start end_ rest (pos + 1 + len F need body + (pass F body).toNat)

/-- The block for the `finally` clause. -/
def finBlks (start : Nat) : Fin A → Nat → List Blk
  | .none, _ => []
  | .some _, pos => [⟨.finally_, start, pos, pos, 0⟩]

theorem catches_filt_try (F : Verif.Stmt.Folder A) (need : Bool) : ∀ (c : Catches A) (s e pos p : Nat), s ≤ p → p < e →
    e ≤ pos → filt p (emitCatches s e (shapeCatches F need c) pos).2 = catchBlks F need s e c pos
  | .nil, s, e, pos, p, _, _, _ => by simp [shapeCatches, emitCatches, catchBlks, filt]
  | .cons t x body rest, s, e, pos, p, h1, h2, h3 => by
    simp only [shapeCatches, emitCatches, catchBlks, Block.emit_pos, size_shape]
    rw [filt_cons_pos ⟨h1, h2⟩, filt_append, emit_filt_out _ _ p (Or.inl (by omega)), List.nil_append,
      catches_filt_try F need rest s e _ p h1 h2 (by omega)]

theorem catches_filt_out (F : Verif.Stmt.Folder A) (need : Bool) : ∀ (c : Catches A) (s e pos p : Nat), e ≤ p →
    (p < pos ∨ pos + lenCatches F need c ≤ p) → filt p (emitCatches s e (shapeCatches F need c) pos).2 = []
  | c, s, e, pos, p, h1, h2 => by
    refine filt_nil ?_
    intro b hb
    have := Block.emitCatches_range _ _ _ _ b hb
    rw [size_shapeCatches] at this
    omega

theorem fin_filt_try (F : Verif.Stmt.Folder A) (need : Bool) (f : Fin A) (s pos p : Nat) (h1 : s ≤ p) (h2 : p < pos) :
    filt p (emitFin s pos (shapeFin F need f)).2 = finBlks s f pos := by
  cases f with
  | none => simp [shapeFin, emitFin, finBlks, filt]
  | some body =>
    simp only [shapeFin, emitFin, finBlks]
    rw [filt_cons_pos ⟨h1, h2⟩, emit_filt_out _ _ p (Or.inl h2)]

/-! ## Contexts -/

/-- The statement stands at `pos`, and the blocks `B` outside of it are in charge there. -/
structure Ctx (F : Verif.Stmt.Folder A) (T : List Blk) (C : List (Cmd A)) (e : Env) (s : Stmt A) (pos : Nat)
    (B : List Blk) : Prop where
  code : Has C pos (compile F e s pos)
  tab : ∀ p, pos ≤ p → p < pos + len F e.need s → filt p T = filt p (emit (shape F e.need s) pos).2 ++ B

theorem Ctx.has {F : Verif.Stmt.Folder A} {e : Env} {s : Stmt A} {pos : Nat} {B : List Blk} (h : Ctx F T C e s pos B)
    {p : Nat} (h1 : pos ≤ p) (h2 : p < pos + len F e.need s) {b : Blk} (hb : b ∈ B) : b.has p = true := by
  have : b ∈ filt p T := by rw [h.tab p h1 h2]; exact List.mem_append_right _ hb
  exact (List.mem_filter.mp this).2

section
variable {F : Verif.Stmt.Folder A} {e : Env} {pos : Nat} {B : List Blk}

theorem Ctx.seqL {a b : Stmt A} (h : Ctx F T C e (.seq a b) pos B) : Ctx F T C e a pos B where
  code := by have := h.code; rw [compile] at this; exact this.left
  tab := by
    intro p h1 h2
    have := h.tab p h1 (by rw [len]; omega)
    rw [this, shape, emit, filt_append, Block.emit_pos, size_shape,
      emit_filt_out (shape F e.need b) _ p (Or.inl h2), List.append_nil]

theorem Ctx.seqR {a b : Stmt A} (h : Ctx F T C e (.seq a b) pos B) : Ctx F T C e b (pos + len F e.need a) B where
  code := by have := h.code; rw [compile] at this; exact this.right _ (compile_length F e a pos)
  tab := by
    intro p h1 h2
    have := h.tab p (by omega) (by rw [len]; omega)
    rw [this, shape, emit, filt_append, Block.emit_pos, size_shape,
      emit_filt_out (shape F e.need a) _ p (Or.inr (by rw [size_shape]; exact h1)), List.nil_append]

theorem Ctx.ifYes {c : A} {a b : Stmt A} (h : Ctx F T C e (.if_ c a b) pos B) : Ctx F T C e a (pos + 2) B where
  code := by
    have := h.code; rw [compile] at this
    exact (this.tail.tail).left
  tab := by
    intro p h1 h2
    have := h.tab p (by omega) (by rw [len]; omega)
    rw [this]
    simp only [shape, emit, filt_append, Block.emit_pos, size_shape, Block.size]
    rw [emit_filt_out (shape F e.need b) _ p (Or.inl (by omega))]
    simp [filt]

theorem Ctx.ifNo {c : A} {a b : Stmt A} (h : Ctx F T C e (.if_ c a b) pos B) :
    Ctx F T C e b (pos + 3 + len F e.need a) B where
  code := by
    have := h.code; rw [compile] at this
    have := ((this.tail.tail).right _ (compile_length F e a _)).tail
    have e1 : pos + 1 + 1 + len F e.need a + 1 = pos + 3 + len F e.need a := by omega
    rwa [e1] at this
  tab := by
    intro p h1 h2
    have := h.tab p (by omega) (by rw [len]; omega)
    rw [this]
    simp only [shape, emit, filt_append, Block.emit_pos, size_shape, Block.size]
    rw [emit_filt_out (shape F e.need a) _ p (Or.inr (by rw [size_shape]; omega))]
    have e1 : pos + 2 + len F e.need a + 1 = pos + 3 + len F e.need a := by omega
    rw [e1]
    simp [filt]

theorem Ctx.body {c : A} {a : Stmt A} (h : Ctx F T C e (.while_ c a) pos B) :
    Ctx F T C ⟨pos + 3 + len F false a, pos, false⟩ a (pos + 2) B where
  code := by
    have := h.code; rw [compile] at this
    exact (this.tail.tail).left
  tab := by
    intro p h1 h2
    have h2' : p < pos + 2 + len F false a := h2
    have := h.tab p (by omega) (by rw [len]; omega)
    rw [this]
    simp only [shape, emit, filt_append, Block.emit_pos, size_shape, Block.size]
    simp [filt]

/-- The parts of a `try`: where its `catch` clauses and its `finally` clause begin. -/
def cPos (F : Verif.Stmt.Folder A) (e : Env) (body : Stmt A) (cs : Catches A) (f : Fin A) (pos : Nat) : Nat :=
  pos + len F (needBody e.need cs f) body + (pass F body).toNat
def fPos (F : Verif.Stmt.Folder A) (e : Env) (body : Stmt A) (cs : Catches A) (f : Fin A) (pos : Nat) : Nat :=
  cPos F e body cs f pos + lenCatches F (needCatch e.need f) cs

theorem tryLen (body : Stmt A) (cs : Catches A) (f : Fin A) :
    pos + len F e.need (.try_ body cs f) = fPos F e body cs f pos + lenFin F e.need f := by
  rw [len, fPos, cPos]; omega

/-- The blocks of a `try` at its statement. -/
theorem try_filt_body {body : Stmt A} {cs : Catches A} {f : Fin A} {p : Nat} (h1 : pos ≤ p)
    (h2 : p < pos + len F (needBody e.need cs f) body) :
    filt p (emit (shape F e.need (.try_ body cs f)) pos).2
      = filt p (emit (shape F (needBody e.need cs f) body) pos).2 ++
        (catchBlks F (needCatch e.need f) pos (pos + len F (needBody e.need cs f) body) cs (cPos F e body cs f pos)
          ++ finBlks pos f (fPos F e body cs f pos)) := by
  simp only [shape, emit, filt_append, Block.emit_pos, Block.emitCatches_pos, size_shape, size_shapeCatches]
  rw [catches_filt_try _ _ cs _ _ _ p h1 h2 (by omega), fin_filt_try _ _ f _ _ p h1 (by omega)]
  rfl

/-- The blocks of a `try` behind its statement and in its `catch` clauses. -/
theorem try_filt_catch {body : Stmt A} {cs : Catches A} {f : Fin A} {p : Nat}
    (h1 : pos + len F (needBody e.need cs f) body ≤ p) (h2 : p < fPos F e body cs f pos) :
    filt p (emit (shape F e.need (.try_ body cs f)) pos).2
      = filt p (emitCatches pos (pos + len F (needBody e.need cs f) body) (shapeCatches F (needCatch e.need f) cs)
          (cPos F e body cs f pos)).2 ++ finBlks pos f (fPos F e body cs f pos) := by
  rw [fPos, cPos] at h2
  simp only [shape, emit, filt_append, Block.emit_pos, Block.emitCatches_pos, size_shape, size_shapeCatches]
  rw [emit_filt_out _ _ p (Or.inr (by rw [size_shape]; exact h1)), List.nil_append,
    fin_filt_try _ _ f _ _ p (by omega) (by omega)]
  rfl

theorem try_filt_fin {body : Stmt A} {cs : Catches A} {f : Stmt A} {p : Nat}
    (h1 : fPos F e body cs (.some f) pos ≤ p) :
    filt p (emit (shape F e.need (.try_ body cs (.some f))) pos).2
      = filt p (emit (shape F e.need f) (fPos F e body cs (.some f) pos)).2 := by
  have h1' := h1
  rw [fPos, cPos] at h1'
  simp only [shape, emit, shapeFin, emitFin, filt_append, Block.emit_pos, Block.emitCatches_pos, size_shape,
    size_shapeCatches]
  rw [emit_filt_out _ _ p (Or.inr (by rw [size_shape]; omega)), List.nil_append,
    catches_filt_out _ _ cs _ _ _ p (by omega) (Or.inr (by omega)), List.nil_append,
    filt_cons_neg (by simp only; omega)]
  rfl

theorem Ctx.tryBody {body : Stmt A} {cs : Catches A} {f : Fin A} (h : Ctx F T C e (.try_ body cs f) pos B) :
    Ctx F T C { e with need := needBody e.need cs f } body pos
      (catchBlks F (needCatch e.need f) pos (pos + len F (needBody e.need cs f) body) cs (cPos F e body cs f pos)
        ++ (finBlks pos f (fPos F e body cs f pos) ++ B)) where
  code := by have := h.code; rw [compile] at this; exact this.left
  tab := by
    intro p h1 h2
    have h2' : p < pos + len F (needBody e.need cs f) body := h2
    rw [h.tab p h1 (by rw [len]; omega), try_filt_body h1 h2']
    simp only [List.append_assoc]

theorem Ctx.tryFin {body : Stmt A} {cs : Catches A} {f : Stmt A} (h : Ctx F T C e (.try_ body cs (.some f)) pos B) :
    Ctx F T C e f (fPos F e body cs (.some f) pos) B where
  code := by
    have := h.code; rw [compile] at this
    have := ((this.right _ (compile_length F _ body pos)).right _ (tailCode_length _ _ _)).right _
      (compileCatches_length F _ _ _ cs _)
    simp only [compileFin] at this
    exact this.left
  tab := by
    intro p h1 h2
    have hl := tryLen (F := F) (e := e) (pos := pos) body cs (.some f)
    rw [lenFin] at hl
    have h0 : pos ≤ fPos F e body cs (.some f) pos := by rw [fPos, cPos]; omega
    rw [h.tab p (by omega) (by omega), try_filt_fin h1]

/-- Behind the statement and in the clauses. -/
theorem Ctx.tryCatch {body : Stmt A} {cs : Catches A} {f : Fin A} (h : Ctx F T C e (.try_ body cs f) pos B)
    {p : Nat} (h1 : pos + len F (needBody e.need cs f) body ≤ p) (h2 : p < fPos F e body cs f pos) :
    filt p T = filt p (emitCatches pos (pos + len F (needBody e.need cs f) body)
      (shapeCatches F (needCatch e.need f) cs) (cPos F e body cs f pos)).2
        ++ (finBlks pos f (fPos F e body cs f pos) ++ B) := by
  have hl := tryLen (F := F) (e := e) (pos := pos) body cs f
  rw [h.tab p (by omega) (by omega), try_filt_catch h1 h2, List.append_assoc]

/-- The code of a `try` behind its statement. -/
theorem Ctx.tryTail {body : Stmt A} {cs : Catches A} {f : Fin A} (h : Ctx F T C e (.try_ body cs f) pos B) :
    Has C (pos + len F (needBody e.need cs f) body)
      (tailCode (pass F body) f.any (pos + len F e.need (.try_ body cs f))) := by
  have := h.code; rw [compile] at this
  have := (this.right _ (compile_length F _ body pos)).left
  rw [tryLen]; exact this

theorem Ctx.tryClauses {body : Stmt A} {cs : Catches A} {f : Fin A} (h : Ctx F T C e (.try_ body cs f) pos B) :
    Has C (cPos F e body cs f pos) (compileCatches F { e with need := needCatch e.need f } f.any
      (pos + len F e.need (.try_ body cs f)) cs (cPos F e body cs f pos)) := by
  have := h.code; rw [compile] at this
  have := ((this.right _ (compile_length F _ body pos)).right _ (tailCode_length _ _ _)).left
  rw [tryLen]; exact this

theorem Ctx.tryEnd {body : Stmt A} {cs : Catches A} {f : Stmt A} (h : Ctx F T C e (.try_ body cs (.some f)) pos B)
    (hp : pass F f = true) : C[fPos F e body cs (.some f) pos + len F e.need f]? = some .endFinally := by
  have := h.code; rw [compile] at this
  have := ((this.right _ (compile_length F _ body pos)).right _ (tailCode_length _ _ _)).right _
    (compileCatches_length F _ _ _ cs _)
  simp only [compileFin] at this
  have := this.right _ (compile_length F e f _)
  rw [if_pos hp] at this
  exact this.head

end

/-! ## The clause for an exception -/

theorem unwind_missed (F : Verif.Stmt.Folder A) (need : Bool) (st en : Nat) (p : Nat → Bool) (R : List Blk) :
    ∀ (cs : Catches A) (c : Nat), cs.find p = none →
    unwind p (catchBlks F need st en cs c ++ R) = unwind p R
  | .nil, c, _ => rfl
  | .cons t x body rest, c, h => by
    rw [Catches.find] at h
    by_cases ht : p t = true
    · rw [if_pos ht] at h; cases h
    · rw [if_neg ht] at h
      simp only [catchBlks, List.cons_append, unwind]
      rw [if_neg ht, unwind_missed F need st en p R rest _ h]

/-- Where the clause is. -/
theorem unwind_caught (M : Machine A S) (is_ : Nat → Nat → Bool) (F : Verif.Stmt.Folder A) (C : List (Cmd A)) (e : Env)
    (l : Bool) (t st en : Nat) (p : Nat → Bool) (R : List Blk) (v : Nat) (h : Stmt A) (pl : Place) :
    ∀ (cs : Catches A) (c : Nat), cs.find p = some (v, h) → en ≤ c → Has C c (compileCatches F e l t cs c) →
    FitsCatches M pl cs → HonestCatches M is_ F cs →
    ∃ k ty, unwind p (catchBlks F e.need st en cs c ++ R) = ([], some ⟨.catch_, st, en, k, ty⟩) ∧
      C[k]? = some (.store v) ∧ Has C (k + 1) (compile F e h (k + 1)) ∧
      Has C (k + 1 + len F e.need h) (tailCode (pass F h) l t) ∧
      c ≤ k ∧ k + 1 + len F e.need h + (pass F h).toNat ≤ c + lenCatches F e.need cs ∧
      (∀ q, k + 1 ≤ q → q < k + 1 + len F e.need h + (pass F h).toNat →
        filt q (emitCatches st en (shapeCatches F e.need cs) c).2 = filt q (emit (shape F e.need h) (k + 1)).2) ∧
      Fits M pl h ∧ Told M is_ F h ∧ Honest M is_ F h ∧ (CalmCatches M cs → Calm M h)
  | .nil, c, hf, _, _, _, _ => by cases hf
  | .cons ty x body rest, c, hf, hen, hc, hfit, hhon => by
    rw [Catches.find] at hf
    rw [compileCatches] at hc
    rw [FitsCatches] at hfit
    rw [HonestCatches] at hhon
    by_cases ht : p ty = true
    · rw [if_pos ht] at hf
      cases hf
      refine ⟨c, ty, ?_, hc.head, hc.tail.left, (hc.tail.right _ (compile_length F e h _)).left,
        Nat.le_refl c, ?_, ?_, hfit.1, hhon.1, hhon.2.1, ?_⟩
      · simp only [catchBlks, List.cons_append, unwind]
        rw [if_pos ht]
      · rw [lenCatches]; omega
      · intro q h1 h2
        simp only [shapeCatches, emitCatches, Block.emit_pos, size_shape]
        rw [filt_cons_neg (by simp only; omega), filt_append,
          catches_filt_out F e.need rest _ _ _ q (by omega) (Or.inl (by omega)), List.append_nil]
      · rw [CalmCatches]; exact fun h => h.1
    · rw [if_neg ht] at hf
      have hr := (hc.tail.right _ (compile_length F e body _)).right _ (tailCode_length _ _ _)
      obtain ⟨k, ty', h1, h2, h3, h4, h5, h6, h7, h8, h9, h10, h11⟩ :=
        unwind_caught M is_ F C e l t st en p R v h pl rest _ hf (by omega) hr hfit.2 hhon.2.2
      refine ⟨k, ty', ?_, h2, h3, h4, by omega, by rw [lenCatches]; omega, ?_, h8, h9, h10, ?_⟩
      · simp only [catchBlks, List.cons_append, unwind]
        rw [if_neg ht, h1]
      · intro q hq1 hq2
        simp only [shapeCatches, emitCatches, Block.emit_pos, size_shape]
        rw [filt_cons_neg (by simp only; omega), filt_append,
          emit_filt_out _ _ q (Or.inr (by rw [size_shape]; omega)), List.nil_append]
        exact h7 q hq1 hq2
      · rw [CalmCatches]; exact fun h => h11 h.2

end

end Verif.Try
