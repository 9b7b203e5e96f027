import Verif.Proof.TrySim

/-!
# Methods with `try` statements: every statement does what it means
-/

namespace Verif.Try

open Verif.Block (BType Blk Next QNode emit emitCatches emitFin unwind has_iff includes_iff Nested finNode
  setLast dropWithin enqueue process)

variable {A S : Type}

section
variable {M : Machine A S} {is_ : Nat → Nat → Bool} {F : Verif.Stmt.Folder A} {T : List Blk} {C : List (Cmd A)}

/-- A statement that does not end normally has a command. -/
theorem runs_len : ∀ {cur : Option Nat} {s : Stmt A} {v : S} {r : Res S} {need : Bool}, Runs M is_ cur s v r →
    (∀ v', r ≠ .normal v') → len F need s ≠ 0
  | _, _, _, _, _, .skip, h => absurd rfl (h _)
  | _, _, _, _, _, .act _, h => by rw [len]; omega
  | _, _, _, _, _, .actErr _, h => by rw [len]; omega
  | _, _, _, _, need, .seq _ h2, h => by
    have := runs_len (need := need) h2 h
    rw [len]; omega
  | _, _, _, _, need, .seqLeft h1 _, h => by
    have := runs_len (need := need) h1 h
    rw [len]; omega
  | _, .if_ .., _, _, _, _, h => by rw [len]; omega
  | _, .while_ .., _, _, _, _, h => by rw [len]; omega
  | _, _, _, _, need, .brk, h => by cases need <;> simp [len, exitLen]
  | _, _, _, _, need, .cont, h => by cases need <;> simp [len, exitLen]
  | _, .thr _, _, _, _, _, h => by rw [len]; omega
  | _, _, _, _, _, .rethrow, h => by rw [len]; omega
  | _, .try_ body cs f, _, _, need, _, h => by
    have := fPos_lt F ⟨0, 0, need⟩ body cs f 0
    have hl := tryLen (F := F) (e := ⟨0, 0, need⟩) (pos := 0) body cs f
    simp only at hl
    omega

/-- The blocks at a command that no block of the statement is in. -/
theorem Ctx.plain {e : Env} {s : Stmt A} {pos : Nat} {B : List Blk} (h : Ctx F T C e s pos B) {p : Nat}
    (h1 : pos ≤ p) (h2 : p < pos + len F e.need s) (h3 : filt p (emit (shape F e.need s) pos).2 = []) :
    filt p T = B := by rw [h.tab p h1 h2, h3, List.nil_append]

theorem filt_if {e : Env} {c : A} {a b : Stmt A} {pos : Nat} :
    filt pos (emit (shape F e.need (.if_ c a b)) pos).2 = [] := by
  simp only [shape, emit, filt_append, Block.emit_pos, size_shape]
  rw [emit_filt_out _ _ _ (Or.inl (by omega)), emit_filt_out _ _ _ (Or.inl (by omega))]
  rfl

theorem filt_while {e : Env} {c : A} {a : Stmt A} {pos : Nat} :
    filt pos (emit (shape F e.need (.while_ c a)) pos).2 = [] := by
  simp only [shape, emit, filt_append]
  rw [emit_filt_out _ _ _ (Or.inl (by omega))]
  rfl

theorem Reach.true {p t : Nat} {c : A} {xs : List (Cmd A)} {v v' : S} {q : Block.St}
    (hc : Has C p (.act c :: .jmpFalse t :: xs)) (h1 : M.act c v = .ok v') (h2 : (M.popBool v').1 = true) :
    Reach M is_ T C (.at_ p v q) (.at_ (p + 2) (M.popBool v').2 q) := by
  have := Reach.jmpFalse (M := M) (is_ := is_) (T := T) (v := v') (q := q) hc.tail.head
  rw [if_pos h2] at this
  exact (Reach.act hc.head h1).trans this

theorem Reach.false {p t : Nat} {c : A} {xs : List (Cmd A)} {v v' : S} {q : Block.St}
    (hc : Has C p (.act c :: .jmpFalse t :: xs)) (h1 : M.act c v = .ok v') (h2 : (M.popBool v').1 = false) :
    Reach M is_ T C (.at_ p v q) (.at_ t (M.popBool v').2 q) := by
  have := Reach.jmpFalse (M := M) (is_ := is_) (T := T) (v := v') (q := q) hc.tail.head
  rw [if_neg (by rw [h2]; simp)] at this
  exact (Reach.act hc.head h1).trans this

theorem JOk.of_nil {B : List Blk} {need : Bool} {t lo pos n : Nat} (h : fins B t = [])
    (h' : t < pos ∨ pos + n ≤ t) : JOk B need t lo pos n :=
  ⟨fun _ => h, fun b hb => (by rw [h] at hb; cases hb), h'⟩

theorem idle_of {s : Stmt A} {q : Block.St} (h : Idle q ∨ Calm M s) (hc : ¬ Calm M s) : Idle q := h.resolve_right hc

/-- `break` and `continue`. -/
theorem exit_sim (hn : Nested T) {e : Env} {pos lo t : Nat} {B : List Blk} {q : Block.St} {v : S}
    (hc : Has C pos (exitCode e.need t)) (hB : ∀ p, pos ≤ p → p < pos + exitLen e.need → filt p T = B)
    (ho : ∀ n ∈ q.queue, n.block.start < lo) (hf : e.need = true → ∃ b ∈ B, b.type = .finally_) {n : Nat}
    (hj : JOk B e.need t lo pos n) : Reach M is_ T C (.at_ pos v q) (jumpConf M B t v q) := by
  cases hneed : e.need with
  | false =>
    rw [hneed] at hc
    rw [jumpConf, if_pos (hj.1 hneed)]
    exact Reach.jmp hc.head
  | true =>
    rw [hneed] at hc
    have h1 := Reach.step (M := M) (is_ := is_) (T := T) (s := v) (q := q) hc.head
    rw [exec, leave_go hn (hB pos (Nat.le_refl _) (by rw [hneed]; exact Nat.lt_add_of_pos_right (by decide)))
      (hf hneed) ho hj.2.1] at h1
    by_cases h0 : fins B t = []
    · rw [if_pos h0] at h1
      rw [jumpConf, if_pos h0]
      exact h1.trans (Reach.jmp hc.tail.head)
    · rwa [if_neg h0] at h1

/-- The jump behind the statement of a `try` or of a `catch`. -/
theorem tail_sim (hn : Nested T) {pos lo p t : Nat} {B : List Blk} {q : Block.St} {v : S} {f : Fin A} {fp : Nat}
    (hc : Has C p (tailCode true f.any t)) (hB : filt p T = finBlks pos f fp ++ B) (hlo : lo ≤ pos)
    (ho : ∀ n ∈ q.queue, n.block.start < lo) (ht : fp ≤ t) (he : fins B t = []) :
    Reach M is_ T C (.at_ p v q) (jumpConf M (finBlks pos f fp ++ B) t v q) := by
  cases f with
  | none =>
    change Reach M is_ T C _ (jumpConf M B t v q)
    rw [jumpConf, if_pos he]
    exact Reach.jmp hc.head
  | some body =>
    have hfs := fins_fin pos fp t B (by omega)
    change filt p T = ⟨.finally_, pos, fp, fp, 0⟩ :: B at hB
    change Reach M is_ T C _ (jumpConf M (⟨.finally_, pos, fp, fp, 0⟩ :: B) t v q)
    have h1 := Reach.step (M := M) (is_ := is_) (T := T) (s := v) (q := q) hc.head
    rw [exec, leave_go hn hB ⟨⟨.finally_, pos, fp, fp, 0⟩, List.mem_cons_self, rfl⟩ ho,
      if_neg (by rw [hfs]; simp)] at h1
    · exact h1
    · intro b hb
      rw [hfs, he] at hb
      rw [List.mem_singleton.mp hb]; exact hlo

theorem finBlks_has {pos fp p : Nat} {f : Fin A} {b : Blk} (hb : b ∈ finBlks pos f fp) (h1 : pos ≤ p) (h2 : p < fp) :
    b.has p = true := by
  cases f with
  | none => cases hb
  | some _ => rw [List.mem_singleton.mp hb, has_iff]; exact ⟨h1, h2⟩

/-- The place of a jump out of the parts of a `try`. -/
theorem JOk.inner {B : List Blk} {need need' : Bool} {t lo pos n pos' n' : Nat} {f : Fin A} {fp : Nat}
    (h : JOk B need t lo pos n) (hlo : lo ≤ pos) (hfp : fp ≤ pos + n) (h1 : pos ≤ pos') (h2 : pos' + n' ≤ pos + n)
    (hneed : need' = false → need = false ∧ f.any = false) : JOk (finBlks pos f fp ++ B) need' t lo pos' n' := by
  cases f with
  | none => exact ⟨fun h' => h.1 (hneed h').1, h.2.1, by have := h.2.2; omega⟩
  | some g =>
    have hfs := fins_fin pos fp t B (by have := h.2.2; omega)
    refine ⟨fun h' => absurd (hneed h').2 (by simp [Fin.any]), ?_, by have := h.2.2; omega⟩
    intro b hb
    simp only [finBlks, List.cons_append, List.nil_append] at hb
    rw [hfs] at hb
    rcases List.mem_cons.mp hb with rfl | hb
    · exact hlo
    · exact h.2.1 b hb

theorem Post.blocks {tb tc : Nat} {B B' : List Blk} {loop : Bool} {c0 : Conf S} {q : Block.St}
    {nrm : S → Block.St → Conf S} {r : Res S} (hr : ∀ x s, r ≠ .thrown x s) (hB : ∀ t, fins B t = fins B' t)
    (h : Post M is_ T C tb tc B loop c0 q nrm r) : Post M is_ T C tb tc B' loop c0 q nrm r := by
  cases r with
  | normal s => exact h
  | brk s => obtain ⟨hl, q', h3, h4⟩ := h; exact ⟨hl, q', by rwa [jumpConf, hB tb] at h3, h4⟩
  | cont s => obtain ⟨hl, q', h3, h4⟩ := h; exact ⟨hl, q', by rwa [jumpConf, hB tc] at h3, h4⟩
  | thrown x s => exact absurd rfl (hr x s)

/-- The claim about the statement of a `try` with its clauses. -/
def ClaimG (M : Machine A S) (is_ : Nat → Nat → Bool) (F : Verif.Stmt.Folder A) (T : List Blk) (C : List (Cmd A))
    (body : Stmt A) (cs : Catches A) (v : S) (r : Res S) : Prop :=
  ∀ f e pl pos B lo q, Pre M is_ F T C e pl (.try_ body cs f) pos B lo q →
    Aims e B lo pos (len F e.need (.try_ body cs f)) pl.inLoop r →
    Post M is_ T C e.brk e.cont (finBlks pos f (fPos F e body cs f pos) ++ B) pl.inLoop (.at_ pos v q) q
      (jumpConf M (finBlks pos f (fPos F e body cs f pos) ++ B) (pos + len F e.need (.try_ body cs f))) r

theorem preBody {body : Stmt A} {cs : Catches A} {f : Fin A} {e : Env} {pl : Place} {pos lo : Nat} {B : List Blk}
    {q : Block.St} (h : Pre M is_ F T C e pl (.try_ body cs f) pos B lo q) :
    Pre M is_ F T C { e with need := needBody e.need cs f }
      ⟨pl.guarded || f.any || cs.any, pl.inFin || f.any, pl.crosses || f.any || cs.any, pl.inLoop⟩ body pos
      (catchBlks F (needCatch e.need f) pos (pos + len F (needBody e.need cs f) body) cs (cPos F e body cs f pos)
        ++ (finBlks pos f (fPos F e body cs f pos) ++ B)) lo q where
  ctx := h.ctx.tryBody
  fits := by have := h.fits; rw [Fits] at this; exact this.1
  honest := by have := h.honest; rw [Honest] at this; exact this.2.1
  need := by rw [h.need]; rfl
  guarded := by
    intro hg
    cases cs with
    | cons ty x b rest => exact Or.inl (by simp [catchBlks])
    | nil =>
      cases f with
      | some g => exact Or.inl (by simp [catchBlks, finBlks])
      | none =>
        simp only [Catches.any, Fin.any, Bool.or_false] at hg
        simpa only [catchBlks, finBlks, List.nil_append] using h.guarded hg
  inFin := by
    intro hg
    cases f with
    | some g => exact ⟨⟨.finally_, pos, _, _, 0⟩, List.mem_append_right _ List.mem_cons_self, rfl⟩
    | none =>
      simp only [Fin.any, Bool.or_false] at hg
      obtain ⟨b, hb, ht⟩ := h.inFin hg
      exact ⟨b, List.mem_append_right _ (List.mem_append_right _ hb), ht⟩
  loPos := h.loPos
  old := h.old
  mode := h.mode.imp id (fun hc => by rw [Calm] at hc; exact hc.1)

theorem preFin {body : Stmt A} {cs : Catches A} {f : Stmt A} {e : Env} {pl : Place} {pos lo : Nat} {B : List Blk}
    {q q' : Block.St} (h : Pre M is_ F T C e pl (.try_ body cs (.some f)) pos B lo q)
    (ho : ∀ n ∈ q'.queue, n.block.start < fPos F e body cs (.some f) pos) :
    Pre M is_ F T C e ⟨pl.guarded, pl.inFin, pl.crosses, false⟩ f (fPos F e body cs (.some f) pos) B
      (fPos F e body cs (.some f) pos) q' where
  ctx := h.ctx.tryFin
  fits := by have := h.fits; rw [Fits, FitsFin] at this; exact this.2.2.2
  honest := by have := h.honest; rw [Honest, HonestFin] at this; exact this.2.2.2.2
  need := h.need
  guarded := h.guarded
  inFin := h.inFin
  loPos := Nat.le_refl _
  old := ho
  mode := Or.inr (by have := h.fits; rw [Fits, FitsFin] at this; exact this.2.2.1)

/-- What the `finally` clause does, from the claim about it. -/
theorem finRun {body : Stmt A} {cs : Catches A} {f : Stmt A} {e : Env} {pl : Place} {pos lo : Nat} {B : List Blk}
    {q : Block.St} (h : Pre M is_ F T C e pl (.try_ body cs (.some f)) pos B lo q) {v v' : S}
    (hp : pass F f = true) (hcl : Claim M is_ F T C f v (.normal v')) :
    FinRun M is_ T C (fPos F e body cs (.some f) pos) (len F e.need f) v v' := by
  intro q' hex ho
  have hl := tryLen (F := F) (e := e) (pos := pos) body cs (.some f)
  rw [lenFin, hp] at hl
  simp only [Bool.toNat_true] at hl
  have hlt := fPos_lt F e body cs (.some f) pos
  obtain ⟨q2, h1, h2⟩ := hcl e _ _ B _ q' (preFin h ho) (by
    intro b hb _
    exact h.ctx.has (p := fPos F e body cs (.some f) pos + len F e.need f) (by omega) (by omega) hb)
  rcases h2 with rfl | ⟨i, _⟩
  · exact h1
  · exact absurd i.executing hex

theorem outer_start {body : Stmt A} {cs : Catches A} {f : Fin A} {e : Env} {pl : Place} {pos lo : Nat} {B : List Blk}
    {q : Block.St} (h : Pre M is_ F T C e pl (.try_ body cs f) pos B lo q) {b : Blk} (hb : b ∈ B) :
    b.start < fPos F e body cs f pos := by
  have hl := tryLen (F := F) (e := e) (pos := pos) body cs f
  have hlt := fPos_lt F e body cs f pos
  have := (has_iff _ _).mp (h.ctx.has (p := pos) (Nat.le_refl _) (by omega) hb)
  omega

mutual
theorem sim (hn : Nested T) : ∀ {cur : Option Nat} {s : Stmt A} {v : S} {r : Res S}, Runs M is_ cur s v r →
    Claim M is_ F T C s v r
  | _, _, _, _, .skip => by
    intro e pl pos B lo q hp ha
    exact ⟨q, Reach.refl _, Same.refl q⟩
  | _, .act a, _, _, .act h => by
    intro e pl pos B lo q hp ha
    have hc := hp.ctx.code; rw [compile] at hc
    exact ⟨q, Reach.act hc.head h, Same.refl q⟩
  | _, .act a, _, _, .actErr h => by
    intro e pl pos B lo q hp ha
    have hc := hp.ctx.code; rw [compile] at hc
    have hf := hp.fits; rw [Fits] at hf
    exact raiseAct hn hc.head h
      (hp.ctx.plain (Nat.le_refl _) (by rw [len]; omega) (by rw [shape, emit]; rfl))
      (hp.guarded (hf.resolve_right (not_safe h)))
      (idle_of hp.mode (by rw [Calm]; exact not_safe h))
  | _, .seq a b, _, r, .seq h1 h2 => by
    intro e pl pos B lo q hp ha
    have hf := hp.fits; rw [Fits] at hf
    have hh := hp.honest; rw [Honest] at hh
    rw [len] at ha
    have e1 : pos + len F e.need a + len F e.need b = pos + (len F e.need a + len F e.need b) := by omega
    have p1 := sim hn h1 e pl pos B lo q
      ⟨hp.ctx.seqL, hf.1, hh.1, hp.need, hp.guarded, hp.inFin, hp.loPos, hp.old,
        hp.mode.imp id (fun hc => by rw [Calm] at hc; exact hc.1)⟩ (by
        intro b' hb' ht
        by_cases h0 : len F e.need b = 0
        · cases r with
          | normal s' =>
            have := ha b' hb' ht
            rwa [h0, Nat.add_zero] at this
          | brk s' => exact absurd h0 (runs_len h2 (by intro s' h; cases h))
          | cont s' => exact absurd h0 (runs_len h2 (by intro s' h; cases h))
          | thrown x s' => exact absurd h0 (runs_len h2 (by intro s' h; cases h))
        · exact hp.ctx.has (by omega) (by rw [len]; omega) hb')
    obtain ⟨q1, r1, s1⟩ := p1
    have p2 := sim hn h2 e pl (pos + len F e.need a) B lo q1
      ⟨hp.ctx.seqR, hf.2, hh.2, hp.need, hp.guarded, hp.inFin, by have := hp.loPos; omega,
        by rw [s1.queue]; exact hp.old,
        s1.mode (hp.mode.imp id (fun hc => by rw [Calm] at hc; exact hc.2))⟩
      (ha.mono (by omega) (by omega) (by
        intro s' hs b' hb' ht
        subst hs
        have := ha b' hb' ht
        rwa [e1]))
    rw [e1] at p2
    rw [len]
    exact p2.from r1 s1
  | _, .seq a b, _, r, .seqLeft h1 h2 => by
    intro e pl pos B lo q hp ha
    have hf := hp.fits; rw [Fits] at hf
    have hh := hp.honest; rw [Honest] at hh
    rw [len] at ha
    have p1 := sim hn h1 e pl pos B lo q
      ⟨hp.ctx.seqL, hf.1, hh.1, hp.need, hp.guarded, hp.inFin, hp.loPos, hp.old,
        hp.mode.imp id (fun hc => by rw [Calm] at hc; exact hc.1)⟩
      (ha.mono (Nat.le_refl _) (by omega) (by intro s' hs; exact absurd hs (h2 s')))
    exact p1.to (by intro s' q' hs; exact absurd hs (h2 s'))
  | _, .if_ c a b, _, r, .ifTrue h1 h2 h3 => by
    intro e pl pos B lo q hp ha
    have hf := hp.fits; rw [Fits] at hf
    have hh := hp.honest; rw [Honest] at hh
    have hc := hp.ctx.code; rw [compile] at hc
    have p1 := sim hn h3 e pl (pos + 2) B lo q
      ⟨hp.ctx.ifYes, hf.2.1, hh.1, hp.need, hp.guarded, hp.inFin, by have := hp.loPos; omega, hp.old,
        hp.mode.imp id (fun hc => by rw [Calm] at hc; exact hc.2.1)⟩
      (ha.mono (by omega) (by rw [len]; omega) (by
        intro s' hs b' hb' ht
        exact hp.ctx.has (by omega) (by rw [len]; omega) hb'))
    have j := hc.tail.tail.right _ (compile_length F e a _)
    have p2 := p1.to (nrm' := fun v' q' => .at_ (pos + len F e.need (.if_ c a b)) v' q') (by
      intro s' q' _ _
      have := Reach.jmp (M := M) (is_ := is_) (T := T) (v := s') (q := q') j.head
      have e1 : pos + 3 + len F e.need a + len F e.need b = pos + len F e.need (.if_ c a b) := by rw [len]; omega
      rwa [e1] at this)
    exact p2.from (Reach.true hc h1 h2) (Same.refl q)
  | _, .if_ c a b, _, r, .ifFalse h1 h2 h3 => by
    intro e pl pos B lo q hp ha
    have hf := hp.fits; rw [Fits] at hf
    have hh := hp.honest; rw [Honest] at hh
    have hc := hp.ctx.code; rw [compile] at hc
    have e1 : pos + 3 + len F e.need a + len F e.need b = pos + len F e.need (.if_ c a b) := by rw [len]; omega
    have p1 := sim hn h3 e pl (pos + 3 + len F e.need a) B lo q
      ⟨hp.ctx.ifNo, hf.2.2, hh.2, hp.need, hp.guarded, hp.inFin, by have := hp.loPos; omega, hp.old,
        hp.mode.imp id (fun hc => by rw [Calm] at hc; exact hc.2.2)⟩
      (ha.mono (by omega) (by rw [len]; omega) (by
        intro s' hs b' hb' ht
        subst hs
        rw [e1]
        exact ha b' hb' ht))
    rw [e1] at p1
    exact p1.from (Reach.false hc h1 h2) (Same.refl q)
  | _, .if_ c a b, _, _, .ifErr h => by
    intro e pl pos B lo q hp ha
    have hc := hp.ctx.code; rw [compile] at hc
    have hf := hp.fits; rw [Fits] at hf
    exact raiseAct hn hc.head h
      (hp.ctx.plain (Nat.le_refl _) (by rw [len]; omega) filt_if)
      (hp.guarded (hf.1.resolve_right (not_safe h)))
      (idle_of hp.mode (by rw [Calm]; exact fun hc => not_safe h hc.1))
  | _, .while_ c a, _, _, .whileEnd h1 h2 => by
    intro e pl pos B lo q hp ha
    have hc := hp.ctx.code; rw [compile] at hc
    refine ⟨q, ?_, Same.refl q⟩
    have e1 : pos + 3 + len F false a = pos + len F e.need (.while_ c a) := by rw [len]; omega
    have := Reach.false (is_ := is_) (T := T) (q := q) hc h1 h2
    rwa [e1] at this
  | _, .while_ c a, _, _, .whileErr h => by
    intro e pl pos B lo q hp ha
    have hc := hp.ctx.code; rw [compile] at hc
    have hf := hp.fits; rw [Fits] at hf
    exact raiseAct hn hc.head h
      (hp.ctx.plain (Nat.le_refl _) (by rw [len]; omega) filt_while)
      (hp.guarded (hf.1.resolve_right (not_safe h)))
      (idle_of hp.mode (by rw [Calm]; exact fun hc => not_safe h hc.1))
  | _, .while_ c a, _, _, .whileBrk h1 h2 h3 => by
    intro e pl pos B lo q hp ha
    have hf := hp.fits; rw [Fits] at hf
    have hh := hp.honest; rw [Honest] at hh
    have hc := hp.ctx.code; rw [compile] at hc
    have e1 : pos + 3 + len F false a = pos + len F e.need (.while_ c a) := by rw [len]; omega
    have h0 : fins B (pos + 3 + len F false a) = [] := fins_nil (by rw [e1]; exact ha)
    obtain ⟨_, q', p1, p2⟩ := sim hn h3 ⟨pos + 3 + len F false a, pos, false⟩ ⟨pl.guarded, pl.inFin, false, true⟩
      (pos + 2) B lo q
      ⟨hp.ctx.body, hf.2, hh, rfl, hp.guarded, hp.inFin, by have := hp.loPos; omega, hp.old,
        hp.mode.imp id (fun hc => by rw [Calm] at hc; exact hc.2)⟩
      (fun _ => JOk.of_nil h0 (Or.inr (by simp only; omega)))
    rw [jumpConf, if_pos h0, e1] at p1
    exact ⟨q', (Reach.true hc h1 h2).trans p1, p2⟩
  | _, .while_ c a, _, _, .whileLeft h1 h2 h3 => by
    intro e pl pos B lo q hp ha
    have hf := hp.fits; rw [Fits] at hf
    have hh := hp.honest; rw [Honest] at hh
    have hc := hp.ctx.code; rw [compile] at hc
    have p1 := sim hn h3 ⟨pos + 3 + len F false a, pos, false⟩ ⟨pl.guarded, pl.inFin, false, true⟩
      (pos + 2) B lo q
      ⟨hp.ctx.body, hf.2, hh, rfl, hp.guarded, hp.inFin, by have := hp.loPos; omega, hp.old,
        hp.mode.imp id (fun hc => by rw [Calm] at hc; exact hc.2)⟩ trivial
    have r1 := Reach.true (is_ := is_) (T := T) (q := q) hc h1 h2
    exact Post.from (tb := e.brk) (tc := e.cont) (loop := pl.inLoop)
      (nrm := fun v' q' => .at_ (pos + len F e.need (.while_ c a)) v' q') r1 (Same.refl q) p1
  | _, .while_ c a, v0, r', .whileGo (r := r) h1 h2 h3 h4 h5 => by
    intro e pl pos B lo q hp ha
    have hf := hp.fits; rw [Fits] at hf
    have hh := hp.honest; rw [Honest] at hh
    have hc := hp.ctx.code; rw [compile] at hc
    have hpos : ∀ b ∈ B, b.type = .finally_ → b.has pos = true :=
      fun b hb _ => hp.ctx.has (Nat.le_refl _) (by rw [len]; omega) hb
    have r1 := Reach.true (is_ := is_) (T := T) (q := q) hc h1 h2
    have p1 := sim hn h3 ⟨pos + 3 + len F false a, pos, false⟩ ⟨pl.guarded, pl.inFin, false, true⟩
      (pos + 2) B lo q
      ⟨hp.ctx.body, hf.2, hh, rfl, hp.guarded, hp.inFin, by have := hp.loPos; omega, hp.old,
        hp.mode.imp id (fun hc => by rw [Calm] at hc; exact hc.2)⟩ (by
        rcases h4 with h4 | h4
        · rw [h4]
          intro b hb _
          exact hp.ctx.has (by omega) (by rw [len]; simp only; omega) hb
        · rw [h4]
          intro _
          exact JOk.of_nil (fins_nil hpos) (Or.inl (by simp only; omega)))
    have r2 : ∃ q', Reach M is_ T C (.at_ pos v0 q) (.at_ pos r.state q') ∧ Same q q' := by
      rcases h4 with h4 | h4
      · rw [h4] at p1
        obtain ⟨q', p1, p2⟩ := p1
        refine ⟨q', (r1.trans p1).trans ?_, p2⟩
        have j := hc.tail.tail.right _ (compile_length F _ a _)
        exact Reach.jmp j.head
      · rw [h4] at p1
        obtain ⟨_, q', p1, p2⟩ := p1
        rw [jumpConf, if_pos (fins_nil hpos)] at p1
        exact ⟨q', r1.trans p1, p2⟩
    obtain ⟨q', r2, s2⟩ := r2
    have p3 := sim hn h5 e pl pos B lo q'
      ⟨hp.ctx, hp.fits, hp.honest, hp.need, hp.guarded, hp.inFin, hp.loPos, by rw [s2.queue]; exact hp.old,
        s2.mode hp.mode⟩ ha
    exact p3.from r2 s2
  | _, .brk, v, _, .brk => by
    intro e pl pos B lo q hp ha
    have hf := hp.fits; rw [Fits] at hf
    have hc := hp.ctx.code; rw [compile] at hc
    refine ⟨hf.1, q, exit_sim hn hc ?_ hp.old ?_ (ha hf.1), Same.refl q⟩
    · intro p h1 h2
      exact hp.ctx.plain h1 (by rw [len]; exact h2) (by rw [shape, emit]; rfl)
    · intro h; exact hp.inFin (hf.2 (by rw [hp.need]; exact h))
  | _, .cont, v, _, .cont => by
    intro e pl pos B lo q hp ha
    have hf := hp.fits; rw [Fits] at hf
    have hc := hp.ctx.code; rw [compile] at hc
    refine ⟨hf.1, q, exit_sim hn hc ?_ hp.old ?_ (ha hf.1), Same.refl q⟩
    · intro p h1 h2
      exact hp.ctx.plain h1 (by rw [len]; exact h2) (by rw [shape, emit]; rfl)
    · intro h; exact hp.inFin (hf.2 (by rw [hp.need]; exact h))
  | _, .thr a, _, _, .thr h => by
    intro e pl pos B lo q hp ha
    have hc := hp.ctx.code; rw [compile] at hc
    have hf := hp.fits; rw [Fits] at hf
    have hi := idle_of hp.mode (by rw [Calm]; exact fun h => h)
    obtain ⟨q', h1, h2, h3, h4⟩ := raise (M := M) (is_ := is_) hn
      (hp.ctx.plain (p := pos + 1) (by omega) (by rw [len]; omega) (by rw [shape, emit]; rfl)) (hp.guarded hf) hi
      _ _
    refine ⟨hi, q', (Reach.act hc.head h).trans ?_, h2, h3, h4⟩
    rw [← h1]
    exact Reach.step hc.tail.head
  | _, .thr a, _, _, .thrErr h => by
    intro e pl pos B lo q hp ha
    have hc := hp.ctx.code; rw [compile] at hc
    have hf := hp.fits; rw [Fits] at hf
    exact raiseAct hn hc.head h
      (hp.ctx.plain (Nat.le_refl _) (by rw [len]; omega) (by rw [shape, emit]; rfl))
      (hp.guarded hf)
      (idle_of hp.mode (by rw [Calm]; exact fun h => h))
  | _, .rethrow, _, _, .rethrow => by
    intro e pl pos B lo q hp ha
    have hf := hp.fits; rw [Fits] at hf
    exact hf.elim
  | _, .try_ body cs .none, _, r, .plain h => by
    intro e pl pos B lo q hp ha
    have p := simG hn h .none e pl pos B lo q hp ha
    refine Post.to ?_ p
    intro s' q' hs _
    subst hs
    rw [jumpConf, if_pos (fins_nil ?_)]
    · exact Reach.refl _
    · intro b hb ht
      exact ha b (by simpa only [finBlks, List.nil_append] using hb) ht
  | _, .try_ body cs (.some f), _, _, .fin (r := r) (s' := s') h hf => by
    intro e pl pos B lo q hp ha
    have hh := hp.honest; rw [Honest, HonestFin] at hh
    have hpass := hh.2.2.2.1 _ _ _ hf
    have hrun := finRun hp hpass (sim hn hf)
    have hend := hp.ctx.tryEnd hpass
    have hl := tryLen (F := F) (e := e) (pos := pos) body cs (.some f)
    have hlt := fPos_lt F e body cs (.some f) pos
    have hB : ∀ b ∈ B, b.start < fPos F e body cs (.some f) pos := fun b hb => outer_start hp hb
    have p := simG hn h (.some f) e pl pos B lo q hp (by cases r <;> exact ha)
    have ho : ∀ q', Same q q' → ∀ n ∈ q'.queue, n.block.start < fPos F e body cs (.some f) pos := by
      intro q' hs n hn'
      rw [hs.queue] at hn'
      have := hp.old n hn'
      have := hp.loPos
      omega
    simp only [finBlks, List.cons_append, List.nil_append] at p
    cases r with
    | normal s1 =>
      obtain ⟨q', r1, s1⟩ := p
      refine ⟨q', r1.trans ?_, s1⟩
      have := finJump (st := pos) (t := pos + len F e.need (.try_ body cs (.some f))) hrun hend (by omega) hB
        (ho q' s1)
      have h0 : fins B (pos + len F e.need (.try_ body cs (.some f))) = [] := fins_nil ha
      have e2 : jumpConf M B (pos + len F e.need (.try_ body cs (.some f))) s' q'
        = .at_ (pos + len F e.need (.try_ body cs (.some f))) s' q' := by rw [jumpConf, if_pos h0]
      rwa [e2] at this
    | brk s1 =>
      obtain ⟨hl', q', r1, s1⟩ := p
      refine ⟨hl', q', r1.trans ?_, s1⟩
      have hj := (ha hl').2.2
      exact finJump (st := pos) hrun hend (by omega) hB (ho q' s1)
    | cont s1 =>
      obtain ⟨hl', q', r1, s1⟩ := p
      refine ⟨hl', q', r1.trans ?_, s1⟩
      have hj := (ha hl').2.2
      exact finJump (st := pos) hrun hend (by omega) hB (ho q' s1)
    | thrown x s1 =>
      obtain ⟨hi, q', r1, h2, h3, h4⟩ := p
      obtain ⟨q'', r2, h5⟩ := finPend hrun hend hB h2 h3 h4
      exact ⟨hi, q'', r1.trans r2, h5⟩
  | _, .try_ body cs (.some f), _, _, .finLeft (r' := r') h hf hne => by
    intro e pl pos B lo q hp ha
    have hlt := fPos_lt F e body cs (.some f) pos
    have := sim hn hf e _ _ B _ ⟨⟨[], [], []⟩, [], [finNode ⟨.finally_, 0, 0, 0, 0⟩]⟩
      (preFin hp (by intro n hn'; cases hn')) (by
        cases r' with
        | normal s' => exact absurd rfl (hne s')
        | brk s' => intro h; cases h
        | cont s' => intro h; cases h
        | thrown x s' => trivial)
    cases r' with
    | normal s' => exact absurd rfl (hne s')
    | brk s' => exact absurd this.1 (by simp)
    | cont s' => exact absurd this.1 (by simp)
    | thrown x s' => exact absurd this.1.executing (by simp)
theorem simG (hn : Nested T) : ∀ {cur : Option Nat} {body : Stmt A} {cs : Catches A} {v : S} {r : Res S},
    Guarded M is_ cur body cs v r → ClaimG M is_ F T C body cs v r
  | _, body, cs, _, r, .whole h hr => by
    intro f e pl pos B lo q hp ha
    have hh := hp.honest; rw [Honest] at hh
    have hl := tryLen (F := F) (e := e) (pos := pos) body cs f
    have hlt := fPos_lt F e body cs f pos
    have hfc : fPos F e body cs f pos = pos + len F (needBody e.need cs f) body + (pass F body).toNat
      + lenCatches F (needCatch e.need f) cs := rfl
    have p := sim hn h _ _ pos _ lo q (preBody hp) (by
      cases r with
      | normal s' =>
        have hpass := hh.1 _ _ _ h
        rw [hpass] at hfc
        simp only [Bool.toNat_true] at hfc
        intro b hb ht
        rcases List.mem_append.mp hb with hb | hb
        · rw [catchBlks_type _ _ _ _ _ _ b hb] at ht; cases ht
        rcases List.mem_append.mp hb with hb | hb
        · exact finBlks_has hb (by omega) (by simp only; omega)
        · exact hp.ctx.has (by omega) (by simp only; omega) hb
      | brk s' =>
        intro hl'
        have := (ha hl').inner (f := f) (need' := needBody e.need cs f) (pos' := pos)
          (n' := len F (needBody e.need cs f) body) (fp := fPos F e body cs f pos) hp.loPos (by omega) (Nat.le_refl _)
          (by omega) (by simp only [needBody, Bool.or_eq_false_iff]; exact fun h => h.1)
        unfold JOk
        rw [fins_catch]
        exact this
      | cont s' =>
        intro hl'
        have := (ha hl').inner (f := f) (need' := needBody e.need cs f) (pos' := pos)
          (n' := len F (needBody e.need cs f) body) (fp := fPos F e body cs f pos) hp.loPos (by omega) (Nat.le_refl _)
          (by omega) (by simp only [needBody, Bool.or_eq_false_iff]; exact fun h => h.1)
        unfold JOk
        rw [fins_catch]
        exact this
      | thrown x s' => exact absurd rfl (hr x s'))
    have p' := p.blocks hr (fun t => fins_catch F _ _ _ _ t cs _)
    refine Post.to ?_ p'
    intro s' q' hs hsame
    subst hs
    have hpass := hh.1 _ _ _ h
    have ht := hp.ctx.tryTail
    rw [hpass] at ht hfc
    simp only [Bool.toNat_true] at hfc
    refine tail_sim hn ht ?_ hp.loPos (by rw [hsame.queue]; exact hp.old) (by omega) (fins_nil ha)
    rw [hp.ctx.tryCatch (Nat.le_refl _) (by omega),
      catches_filt_out _ _ cs _ _ _ _ (Nat.le_refl _) (Or.inl (by rw [cPos, hpass]; simp)), List.nil_append]
  | _, body, cs, _, _, .missed (x := x) h hx => by
    intro f e pl pos B lo q hp ha
    obtain ⟨hi, q', h1, h2, h3, h4⟩ := sim hn h _ _ pos _ lo q (preBody hp) trivial
    refine ⟨hi, q', h1, h2, h3, ?_⟩
    unfold Holds at h4 ⊢
    rwa [unwind_missed _ _ _ _ _ _ cs _ hx] at h4
  | _, body, cs, _, r, .caught (x := x) (s' := v1) (v := w) (h := g) h hx hg => by
    intro f e pl pos B lo q hp ha
    have hh := hp.honest; rw [Honest] at hh
    have hf := hp.fits; rw [Fits] at hf
    have hl := tryLen (F := F) (e := e) (pos := pos) body cs f
    have hlt := fPos_lt F e body cs f pos
    have hfc : fPos F e body cs f pos = cPos F e body cs f pos + lenCatches F (needCatch e.need f) cs := rfl
    have hcc : pos + len F (needBody e.need cs f) body ≤ cPos F e body cs f pos := by rw [cPos]; omega
    obtain ⟨hi, q', h1, h2, h3, h4⟩ := sim hn h _ _ pos _ lo q (preBody hp) trivial
    obtain ⟨k, ty, k1, k2, k3, k4, k5, k6, k7, k8, k9, k10, k11⟩ :=
      unwind_caught M is_ F C { e with need := needCatch e.need f } f.any (pos + len F e.need (.try_ body cs f)) pos
        (pos + len F (needBody e.need cs f) body) (is_ x) (finBlks pos f (fPos F e body cs f pos) ++ B) w g
        ⟨pl.guarded || f.any, pl.inFin || f.any, pl.crosses || f.any, pl.inLoop⟩ cs (cPos F e body cs f pos) hx
        hcc hp.ctx.tryClauses hf.2.1 hh.2.2.1
    unfold Holds at h4
    simp only at k1 h4
    rw [k1] at h4
    obtain ⟨n, n1, n2, n3⟩ := h4
    have e1 : resume M q' v1 = .at_ k (M.push x v1) { q' with queue := [] } := by
      unfold resume process
      rw [n1]
      simp only [List.map_nil, List.nil_append, n3]
      rfl
    rw [e1] at h1
    have hi2 : Idle { q' with queue := [] } := ⟨rfl, h2, n2, h3⟩
    have r2 : Reach M is_ T C (.at_ k (M.push x v1) { q' with queue := [] })
      (.at_ (k + 1) (M.store w (M.push x v1)) { q' with queue := [] }) := Reach.step k2
    simp only at k6 k7
    have hctx : Ctx F T C { e with need := needCatch e.need f } g (k + 1)
        (finBlks pos f (fPos F e body cs f pos) ++ B) := ⟨k3, by
      intro p p1 p2
      simp only at p2
      rw [hp.ctx.tryCatch (by omega) (by omega), k7 p p1 (by omega)]⟩
    have p := sim hn hg { e with need := needCatch e.need f }
      ⟨pl.guarded || f.any, pl.inFin || f.any, pl.crosses || f.any, pl.inLoop⟩ (k + 1)
      (finBlks pos f (fPos F e body cs f pos) ++ B) lo { q' with queue := [] }
      { ctx := hctx, fits := k8, honest := k10
        need := by rw [hp.need]; rfl
        guarded := by
          intro hg
          cases f with
          | some g => exact Or.inl (by simp [finBlks])
          | none =>
            simp only [Fin.any, Bool.or_false] at hg
            simpa only [finBlks, List.nil_append] using hp.guarded hg
        inFin := by
          intro hg
          cases f with
          | some g => exact ⟨⟨.finally_, pos, _, _, 0⟩, List.mem_cons_self, rfl⟩
          | none =>
            simp only [Fin.any, Bool.or_false] at hg
            obtain ⟨b, hb, ht⟩ := hp.inFin hg
            exact ⟨b, List.mem_append_right _ hb, ht⟩
        loPos := by have := hp.loPos; omega
        old := by intro n hn'; cases hn'
        mode := Or.inl hi2 } (by
      cases r with
      | normal s' =>
        have hpass := k9 _ _ _ hg
        rw [hpass] at k6
        simp only [Bool.toNat_true] at k6
        intro b hb ht
        rcases List.mem_append.mp hb with hb | hb
        · exact finBlks_has hb (by simp only; omega) (by simp only; omega)
        · exact hp.ctx.has (by simp only; omega) (by simp only; omega) hb
      | brk s' =>
        intro hl'
        exact (ha hl').inner (f := f) (need' := needCatch e.need f) (pos' := k + 1)
          (n' := len F (needCatch e.need f) g) (fp := fPos F e body cs f pos) hp.loPos (by omega) (by omega)
          (by omega) (by simp only [needCatch, Bool.or_eq_false_iff]; exact fun h => h)
      | cont s' =>
        intro hl'
        exact (ha hl').inner (f := f) (need' := needCatch e.need f) (pos' := k + 1)
          (n' := len F (needCatch e.need f) g) (fp := fPos F e body cs f pos) hp.loPos (by omega) (by omega)
          (by omega) (by simp only [needCatch, Bool.or_eq_false_iff]; exact fun h => h)
      | thrown x s' => trivial)
    refine Post.from (h1.trans r2) (Or.inr ⟨hi, hi2⟩) (Post.to ?_ p)
    intro s' q2 hs hsame
    subst hs
    have hpass := k9 _ _ _ hg
    rw [hpass] at k4 k6 k7
    simp only [Bool.toNat_true] at k6 k7
    refine tail_sim hn k4 ?_ hp.loPos (by rw [hsame.queue]; intro n hn'; cases hn') (by omega) (fins_nil ha)
    rw [hp.ctx.tryCatch (by simp only; omega) (by simp only; omega), k7 _ (by simp only; omega) (by simp only; omega),
      emit_filt_out _ _ _ (Or.inr (by rw [size_shape]; exact Nat.le_refl _)), List.nil_append]
end

end

end Verif.Try
