import Verif.Proof.Stmt

/-! Helper lemmas for `Verif.Props.Stmt`: the exit analysis is right for tidy statements. -/

namespace Verif.Stmt

variable {A S : Type}

/-- Number of cases. -/
def Cases.size : Cases A → Nat
  | .nil => 0
  | .cons _ _ rest => rest.size + 1

theorem index_lt {l : Option (BitVec 32)} : ∀ {cs : Cases A} {k : Nat},
    pickCase.index l cs = some k → k < cs.size
  | .cons labels body rest, k, h => by
    rw [pickCase.index] at h
    split at h
    · simp only [Option.some.injEq] at h; subst h; simp [Cases.size]
    · rw [Option.map_eq_some_iff] at h
      obtain ⟨j, hj, rfl⟩ := h
      have := index_lt hj
      simp only [Cases.size]; omega

theorem pickCase_lt {v : BitVec 32} {cs : Cases A} {k : Nat} (h : pickCase v cs = some k) :
    k < cs.size := by
  rw [pickCase, Option.or_eq_some_iff] at h
  rcases h with h | ⟨_, h⟩
  · exact index_lt h
  · exact index_lt h

theorem index_default {cs : Cases A} (h : cs.defaults = 0) :
    pickCase.index (none : Option (BitVec 32)) cs = none := by
  match cs with
  | .nil => rfl
  | .cons labels body rest =>
    simp only [Cases.defaults, Nat.add_eq_zero_iff, List.count_eq_zero] at h
    rw [pickCase.index, if_neg h.1, index_default h.2]
    rfl

theorem findCase_eq {v : BitVec 32} : ∀ {cs : Cases A} {k : Nat} {d : Option Nat}, cs.defaults ≤ 1 →
    findCase v cs k d =
      (((pickCase.index (some v) cs).or (pickCase.index none cs)).map (k + ·)).or d
  | .nil, k, d, _ => by
    rw [findCase, pickCase.index, pickCase.index]; simp
  | .cons labels body rest, k, d, h => by
    rw [findCase, pickCase.index, pickCase.index]
    simp only [Cases.defaults] at h
    by_cases h1 : some v ∈ labels
    · simp [h1]
    · have hd : rest.defaults ≤ 1 := by omega
      rw [if_neg (by simpa using h1), if_neg h1, findCase_eq hd]
      by_cases h2 : none ∈ labels
      · have h3 : rest.defaults = 0 := by
          have := List.count_pos_iff.2 h2
          omega
        rw [index_default h3, if_pos (by simpa using h2), if_pos h2]
        cases pickCase.index (some v) rest <;> simp
        omega
      · rw [if_neg (by simpa using h2), if_neg h2]
        cases pickCase.index (some v) rest <;> cases pickCase.index none rest <;> simp <;> omega

theorem findCase_pick {v : BitVec 32} {cs : Cases A} (h : cs.defaults ≤ 1) :
    findCase v cs 0 none = pickCase v cs := by
  rw [findCase_eq h, pickCase]
  simp

theorem unknownCases_brk (F : Folder A) (cs : Cases A) (d : Bool) (type : ET)
    (h : type.getLsbD 3 = true → type.getLsbD 1 = true) (h3 : (unknownCases F cs d type).getLsbD 3 = true) :
    (unknownCases F cs d type).getLsbD 1 = true := by
  match cs with
  | .nil =>
    rw [unknownCases] at h3 ⊢
    split at h3
    · rename_i hd; rw [if_pos hd]; exact h h3
    · rename_i hd; rw [if_neg hd]; simp [ET.pass]
  | .cons labels body rest =>
    rw [unknownCases] at h3 ⊢
    refine unknownCases_brk F rest _ _ ?_ h3
    intro h4
    split
    · simp [ET.pass]
    · rename_i h5
      rw [if_neg h5] at h4
      rw [has_brk] at h5
      simp only [BitVec.getLsbD_or, Bool.or_eq_true] at h4 ⊢
      rcases h4 with h4 | h4
      · exact .inl (h h4)
      · exact absurd h4 h5

/-- Some clause is for `System.Exception`. -/
def Catches.hasAll : Catches A → Bool
  | .nil => false
  | .cons t _ rest => t == 0 || rest.hasAll

theorem catchTypes_bit : ∀ (cs : Catches A) (et : ET) (k : Nat), k < 16 → k ≠ 5 →
    (catchTypes cs et).getLsbD k = et.getLsbD k
  | .nil, et, k, _, _ => by rw [catchTypes]
  | .cons t b rest, et, k, hk, h5 => by
    rw [catchTypes, catchTypes_bit rest _ k hk h5]
    split
    · have hp : ET.thr.getLsbD k = false := by
        have : ET.thr = BitVec.twoPow 16 5 := by decide
        rw [this, BitVec.getLsbD_twoPow]
        simp; omega
      rw [getLsbD_remove _ _ _ hk, hp]; simp
    · rfl

theorem catchTypes_none : ∀ (cs : Catches A) (et : ET), cs.hasAll = false → catchTypes cs et = et
  | .nil, et, _ => by rw [catchTypes]
  | .cons t b rest, et, h => by
    simp only [Catches.hasAll, Bool.or_eq_false_iff, beq_eq_false_iff_ne] at h
    rw [catchTypes, if_neg h.1, catchTypes_none rest _ h.2]

theorem endless_bit {et : ET} {k : Nat} (hk : k = 2 ∨ k = 5 ∨ k = 6) (h : et.getLsbD k = true) :
    (endless et).getLsbD k = true := by
  have hfree : et.has freeExitFlags = true := by
    simp only [ET.has, bne_iff_ne]
    intro h0
    have := congrArg (fun x => x.getLsbD k) h0
    have hf : freeExitFlags.getLsbD k = true := by rcases hk with rfl | rfl | rfl <;> decide
    simp [h, hf] at this
  rw [endless, hfree]
  simp only [Bool.not_true, Bool.false_eq_true, ↓reduceIte]
  rcases hk with rfl | rfl | rfl <;> rw [getLsbD_remove _ _ _ (by decide), h] <;> decide

theorem bit_mem {o : Out} (h1 : o ≠ .pass) (h2 : o ≠ .brk) (h3 : o ≠ .cont) :
    o.bit = 2 ∨ o.bit = 5 ∨ o.bit = 6 := by
  cases o <;> simp_all [Out.bit]

theorem remove_bc_bit {et : ET} {k : Nat} (hk : k = 1 ∨ k = 2 ∨ k = 5 ∨ k = 6)
    (h : et.getLsbD k = true) : (et.remove (ET.brk ||| ET.cont)).getLsbD k = true := by
  rcases hk with rfl | rfl | rfl | rfl <;> rw [getLsbD_remove _ _ _ (by decide), h] <;> decide

theorem admits_thr_raises {I : Interp A S} {et : ET} (h : I.Raises) : Admits I et .thr := .inr h

/-- `Admits` from the bit or from an exception of its own. -/
theorem admits_intro {I : Interp A S} {et : ET} {o : Out}
    (h : et.getLsbD o.bit = true ∨ (o = .thr ∧ I.Raises)) : Admits I et o := by
  rcases h with h | ⟨rfl, h⟩
  · exact admits_of_bit h
  · exact .inr h

theorem simple_admits {I : Interp A S} {o o' : Out} {e : List A} {s s' : S} {et : ET}
    (h : Stmt.run.simple I o e s = some (o', s')) (ho : Admits I et o) : Admits I et o' := by
  rw [Stmt.run.simple] at h
  split at h
  · simp only [Option.some.injEq, Prod.mk.injEq] at h
    rw [← h.1]; exact ho
  · rename_i h1
    simp only [Option.some.injEq, Prod.mk.injEq] at h
    rw [← h.1]; exact .inr (eval_raises h1)

/-- Rounds that test first and always go on. -/
theorem endless_admits {I : Interp A S} {test : S → Except S (Bool × S)} {body : S → Option (Out × S)}
    {after : S → Except S S} {et : ET} {n : Nat} {s s' : S} {o : Out}
    (ht : ∀ s, test s = .ok (true, s)) (ha : ∀ s s', after s = .error s' → I.Raises)
    (hb : ∀ s o s', body s = some (o, s') → Admits I et o)
    (htidy : tidyEndless et (endless et) = true)
    (h : rounds test body after n s = some (o, s')) : Admits I (endless et) o := by
  rcases rounds_out h with ⟨_, s1, s2, h1⟩ | ⟨rfl, s1, s2, h1⟩ | ⟨rfl, h1⟩ | ⟨hp, hb', hc, s1, s2, h1⟩
  · rw [ht] at h1; cases h1
  · have := hb _ _ _ h1
    simp only [Admits] at this
    show mayPass _ = true
    simpa [tidyEndless, this] using htidy
  · rcases h1 with ⟨s1, s2, h1⟩ | ⟨s1, s2, h1⟩
    · rw [ht] at h1; cases h1
    · exact .inr (ha _ _ h1)
  · rcases admits_bit (hb _ _ _ h1) hp with h2 | ⟨rfl, h2⟩
    · exact admits_of_bit (endless_bit (bit_mem hp hb' hc) h2)
    · exact .inr h2

/-- Rounds that test last and always go on. -/
theorem endlessDo_admits {I : Interp A S} {again : Bool} {test : S → Except S (Bool × S)}
    {body : S → Option (Out × S)} {et : ET} {n : Nat} {s s' : S} {o : Out}
    (ht : ∀ s, test s = .ok (again, s))
    (hb : ∀ s o s', body s = some (o, s') → Admits I et o)
    (htidy : tidyEndless et (endless et) = true)
    (h : roundsDo again test body n s = some (o, s')) : Admits I (endless et) o := by
  rcases roundsDo_out h with ⟨_, ⟨s1, s2, b, h1, h2⟩, _⟩ | ⟨rfl, s1, s2, h1⟩ | ⟨rfl, s1, s2, h1⟩ |
    ⟨hp, hb', hc, s1, s2, h1⟩
  · rw [ht] at h1
    simp only [Except.ok.injEq, Prod.mk.injEq] at h1
    exact absurd h1.1.symm h2
  · have := hb _ _ _ h1
    simp only [Admits] at this
    show mayPass _ = true
    simpa [tidyEndless, this] using htidy
  · rw [ht] at h1; cases h1
  · rcases admits_bit (hb _ _ _ h1) hp with h2 | ⟨rfl, h2⟩
    · exact admits_of_bit (endless_bit (bit_mem hp hb' hc) h2)
    · exact .inr h2

/-- Rounds that test first. -/
theorem rounds_admits {I : Interp A S} {test : S → Except S (Bool × S)} {body : S → Option (Out × S)}
    {after : S → Except S S} {et : ET} {n : Nat} {s s' : S} {o : Out}
    (ht : ∀ s s', test s = .error s' → I.Raises) (ha : ∀ s s', after s = .error s' → I.Raises)
    (hb : ∀ s o s', body s = some (o, s') → Admits I et o)
    (htidy : mayPass (et.remove (ET.brk ||| ET.cont)) = true)
    (h : rounds test body after n s = some (o, s')) : Admits I (et.remove (ET.brk ||| ET.cont)) o := by
  rcases rounds_out h with ⟨rfl, _⟩ | ⟨rfl, _⟩ | ⟨rfl, h1⟩ | ⟨hp, hb', hc, s1, s2, h1⟩
  · exact htidy
  · exact htidy
  · rcases h1 with ⟨s1, s2, h1⟩ | ⟨s1, s2, h1⟩
    · exact .inr (ht _ _ h1)
    · exact .inr (ha _ _ h1)
  · rcases admits_bit (hb _ _ _ h1) hp with h2 | ⟨rfl, h2⟩
    · exact admits_of_bit (remove_bc_bit (.inr (bit_mem hp hb' hc)) h2)
    · exact .inr h2

/-- Rounds that test last. -/
theorem roundsDo_admits {I : Interp A S} {again : Bool} {test : S → Except S (Bool × S)}
    {body : S → Option (Out × S)} {et r : ET} {n : Nat} {s s' : S} {o : Out}
    (ht : ∀ s s', test s = .error s' → I.Raises)
    (hb : ∀ s o s', body s = some (o, s') → Admits I et o)
    (htidy : tidyLast et r = true) (hin : inside (et.remove (ET.brk ||| ET.cont)) r = true)
    (h : roundsDo again test body n s = some (o, s')) : Admits I r o := by
  rcases roundsDo_out h with ⟨rfl, _, h1⟩ | ⟨rfl, s1, s2, h1⟩ | ⟨rfl, s1, s2, h1⟩ |
    ⟨hp, hb', hc, s1, s2, h1⟩
  · rcases h1 with ⟨s1, s2, h1⟩ | ⟨s1, s2, h1⟩
    · have := hb _ _ _ h1
      simp only [Admits] at this
      show mayPass _ = true
      show mayPass _ = true
      simpa [tidyLast, this] using htidy
    · have := hb _ _ _ h1
      simp only [Admits] at this
      show mayPass _ = true
      show mayPass _ = true
      simpa [tidyLast, this] using htidy
  · have := hb _ _ _ h1
    simp only [Admits] at this
    show mayPass _ = true
    simpa [tidyLast, this] using htidy
  · exact .inr (ht _ _ h1)
  · rcases admits_bit (hb _ _ _ h1) hp with h2 | ⟨rfl, h2⟩
    · exact admits_of_bit (inside_bit hin _ o.bit_lt (Out.bit_ne_one hp)
        (remove_bc_bit (.inr (bit_mem hp hb' hc)) h2))
    · exact .inr h2

theorem inside_refl (a : ET) : inside a a = true := by
  simp only [inside, beq_iff_eq]
  apply BitVec.eq_of_getLsbD_eq
  intro i hi
  simp only [BitVec.getLsbD_and, BitVec.getLsbD_not, hi, decide_true, Bool.true_and,
    BitVec.getLsbD_zero]
  cases a.getLsbD i <;> simp

theorem evalOpt_raises {I : Interp A S} {e : Option (List A)} {s s' : S}
    (h : I.evalOpt e s = .error s') : I.Raises := eval_raises h

theorem if_admits {I : Interp A S} {a b : ET} {o : Out} (h : Admits I a o ∨ Admits I b o) :
    Admits I (if (a = 0#16 ∨ b = 0#16) ∧ a ||| b ≠ 0#16 then a ||| b ||| ET.pass else a ||| b) o := by
  by_cases hp : o = .pass
  · subst hp
    have key : mayPass a = true ∨ mayPass b = true := h
    rw [mayPass_iff, mayPass_iff] at key
    show mayPass _ = true
    rw [mayPass_iff]
    split
    · left; simp [ET.pass]
    · rename_i hn
      rcases key with (h1 | h1) | (h1 | h1)
      · left; simp [h1]
      · right
        exact Classical.byContradiction fun h2 => hn ⟨.inl h1, h2⟩
      · left; simp [h1]
      · right
        exact Classical.byContradiction fun h2 => hn ⟨.inr h1, h2⟩
  · have key : (a ||| b).getLsbD o.bit = true ∨ (o = .thr ∧ I.Raises) := by
      rcases h with h | h
      · rcases admits_bit h hp with h | h
        · exact .inl (bit_or_left h)
        · exact .inr h
      · rcases admits_bit h hp with h | h
        · exact .inl (bit_or_right h)
        · exact .inr h
    apply admits_intro
    rcases key with key | key
    · left
      split
      · exact bit_or_left key
      · exact key
    · exact .inr key

mutual

theorem sound {F : Folder A} {I : Interp A S} (hF : Agrees F I) (t : Stmt A) (ht : tidy F t = true)
    (n : Nat) (s : S) (o : Out) (s' : S) (h : t.run I n s = some (o, s')) :
    Admits I (exitType F t) o := by
  match t with
  | .expr e => rw [Stmt.run] at h; exact simple_admits h (by rw [exitType]; exact (by decide : mayPass ET.pass = true))
  | .typeDef =>
    rw [Stmt.run] at h
    simp only [Option.some.injEq, Prod.mk.injEq] at h
    rw [← h.1]; exact (by decide : mayPass ET.none = true)
  | .decl inits =>
    rw [Stmt.run] at h
    refine simple_admits h ?_
    rw [exitType]
    show mayPass _ = true
    split <;> decide
  | .brk =>
    rw [Stmt.run] at h
    simp only [Option.some.injEq, Prod.mk.injEq] at h
    rw [← h.1]; exact (by decide : ET.brk.has ET.brk = true)
  | .cont =>
    rw [Stmt.run] at h
    simp only [Option.some.injEq, Prod.mk.injEq] at h
    rw [← h.1]; exact (by decide : ET.cont.has ET.cont = true)
  | .thr e => rw [Stmt.run] at h; exact simple_admits h (by rw [exitType]; exact .inl (by decide))
  | .goto_ l =>
    rw [Stmt.run] at h
    simp only [Option.some.injEq, Prod.mk.injEq] at h
    rw [← h.1]; exact (by decide : ET.goto_.has ET.goto_ = true)
  | .ret e => rw [Stmt.run] at h; exact simple_admits h (by decide : ET.ret.has ET.ret = true)
  | .empty =>
    rw [Stmt.run] at h
    simp only [Option.some.injEq, Prod.mk.injEq] at h
    rw [← h.1]; exact (by decide : mayPass ET.none = true)
  | .block body =>
    rw [Stmt.run] at h
    rw [tidy] at ht
    rw [exitType]
    have := sounds hF body ht ET.none n s o s' h
    by_cases hp : o = .pass
    · subst hp; exact this.2 rfl (by decide)
    · exact admits_intro (this.1 hp)
  | .doWhile c body =>
    rw [tidy, exitType] at ht
    rw [Stmt.run] at h
    rw [exitType]
    simp only [Bool.and_eq_true] at ht
    have hb := fun s o s' => sound hF body ht.1 n s o s'
    by_cases hc : F.cond c = some true ∨ c = none
    · rw [if_pos hc, if_pos hc] at ht
      rw [if_pos hc]
      exact endlessDo_admits (fun s => test_always hF hc s) hb ht.2 h
    · rw [if_neg hc, if_neg hc] at ht
      rw [if_neg hc]
      exact roundsDo_admits (fun _ _ h => test_raises h) hb ht.2 (inside_refl _) h
  | .loopUntil c body =>
    rw [tidy, exitType] at ht
    rw [Stmt.run.eq_def] at h
    dsimp only at h
    rw [exitType]
    simp only [Bool.and_eq_true] at ht
    have hb := fun s o s' => sound hF body ht.1 n s o s'
    by_cases hc : F.cond c = some false ∨ c = none
    · rw [if_pos hc, if_pos hc] at ht
      rw [if_pos hc]
      cases c with
      | none => exact endlessDo_admits (fun s => rfl) hb ht.2 h
      | some e =>
        have hc' : F.cond (some e) = some false := by simpa using hc
        exact endlessDo_admits (fun s => test_known hF hc' s) hb ht.2 h
    · rw [if_neg hc, if_neg hc] at ht
      rw [if_neg hc]
      simp only [Bool.and_eq_true] at ht
      cases c with
      | none => simp at hc
      | some e => exact roundsDo_admits (fun _ _ h => test_raises h) hb ht.2.1 ht.2.2 h
  | .while_ c body =>
    rw [tidy, exitType] at ht
    rw [Stmt.run] at h
    rw [exitType]
    by_cases h0 : F.cond c = some false
    · rw [if_pos h0]
      cases n with
      | zero => cases h
      | succ n =>
        rw [rounds, test_known hF h0] at h
        simp only [Option.some.injEq, Prod.mk.injEq] at h
        rw [← h.1]; exact (by decide : mayPass ET.none = true)
    · rw [if_neg h0] at ht
      rw [if_neg h0]
      simp only [h0, decide_false, Bool.false_or, Bool.and_eq_true] at ht
      have hb := fun s o s' => sound hF body ht.1 n s o s'
      by_cases hc : F.cond c = some true ∨ c = none
      · rw [if_pos hc, if_pos hc] at ht
        rw [if_pos hc]
        exact endless_admits (fun s => test_always hF hc s) (fun _ _ h => by cases h) hb ht.2 h
      · rw [if_neg hc, if_neg hc] at ht
        rw [if_neg hc]
        exact rounds_admits (fun _ _ h => test_raises h) (fun _ _ h => by cases h) hb ht.2 h
  | .for_ init c inc body =>
    rw [tidy, exitType] at ht
    rw [Stmt.run] at h
    rw [exitType]
    split at h
    · rename_i h1
      simp only [Option.some.injEq, Prod.mk.injEq] at h
      rw [← h.1]; exact .inr (eval_raises h1)
    · by_cases h0 : F.cond c = some false
      · rw [if_pos h0]
        cases n with
        | zero => cases h
        | succ n =>
          rw [rounds, test_known hF h0] at h
          simp only [Option.some.injEq, Prod.mk.injEq] at h
          rw [← h.1]; exact (by decide : mayPass ET.none = true)
      · rw [if_neg h0] at ht
        rw [if_neg h0]
        simp only [h0, decide_false, Bool.false_or, Bool.and_eq_true] at ht
        have hb := fun s o s' => sound hF body ht.1 n s o s'
        by_cases hc : F.cond c = some true ∨ c = none
        · rw [if_pos hc, if_pos hc] at ht
          rw [if_pos hc]
          exact endless_admits (fun s => test_always hF hc s) (fun _ _ h => evalOpt_raises h) hb ht.2 h
        · rw [if_neg hc, if_neg hc] at ht
          rw [if_neg hc]
          exact rounds_admits (fun _ _ h => test_raises h) (fun _ _ h => evalOpt_raises h) hb ht.2 h
  | .if_ c yes no =>
    rw [tidy] at ht
    rw [Stmt.run] at h
    rw [exitType]
    by_cases h1 : F.cond c = some true
    · rw [if_pos h1] at ht ⊢
      rw [test_known hF h1] at h
      exact sound hF yes ht n _ o s' h
    · rw [if_neg h1] at ht ⊢
      by_cases h0 : F.cond c = some false
      · rw [if_pos h0] at ht ⊢
        rw [test_known hF h0] at h
        exact sound hF no ht n _ o s' h
      · rw [if_neg h0] at ht ⊢
        simp only [Bool.and_eq_true] at ht
        split at h
        · rename_i h2
          simp only [Option.some.injEq, Prod.mk.injEq] at h
          rw [← h.1]; exact .inr (test_raises h2)
        · exact if_admits (.inl (sound hF yes ht.1 n _ o s' h))
        · exact if_admits (.inr (sound hF no ht.2 n _ o s' h))
  | .switch e cases =>
    rw [tidy, exitType] at ht
    rw [Stmt.run] at h
    rw [exitType]
    simp only [Bool.and_eq_true, decide_eq_true_eq] at ht
    obtain ⟨hdef, ht⟩ := ht
    cases hv : F.int e with
    | some v =>
      rw [hv] at ht
      obtain ⟨s1, he, hpop⟩ := hF.int e v hv s
      rw [he] at h
      simp only [hpop, ← findCase_pick hdef] at h
      simp only at ht ⊢
      cases hf : findCase v cases 0 none with
      | none =>
        rw [hf] at h
        simp only [Option.some.injEq, Prod.mk.injEq] at h
        rw [← h.1]; exact (by decide : mayPass ET.none = true)
      | some k =>
        rw [hf] at h ht
        simp only at h ht ⊢
        have hk : k < cases.size := pickCase_lt (by rw [← findCase_pick hdef]; exact hf)
        cases hr : cases.run I n k s with
        | none => rw [hr] at h; cases h
        | some p =>
          obtain ⟨o1, s2⟩ := p
          rw [hr] at h
          have key := soundKnown hF cases _ false ET.none k ht n s o1 s2 hr
          by_cases hb : o1 = .brk
          · subst hb
            simp only [leaveSwitch, Option.some.injEq, Prod.mk.injEq] at h
            rw [← h.1]; exact key.2.1 rfl
          · have h' : some (o1, s2) = some (o, s') := by
              rw [← h, leaveSwitch]
              intro s0 h0
              simp only [Option.some.injEq, Prod.mk.injEq] at h0
              exact hb h0.1
            simp only [Option.some.injEq, Prod.mk.injEq] at h'
            rw [← h'.1]
            by_cases hp : o1 = .pass
            · subst hp; exact key.2.2 rfl (.inl hk)
            · apply admits_intro
              rcases key.1 hp with h3 | h3
              · left
                rw [getLsbD_remove _ _ _ o1.bit_lt, h3]
                cases o1 <;> first | exact absurd rfl hb | exact absurd rfl hp | (simp only [Out.bit]; decide)
              · exact .inr h3
    | none =>
      rw [hv] at ht
      simp only at ht ⊢
      split at h
      · rename_i h2
        simp only [Option.some.injEq, Prod.mk.injEq] at h
        rw [← h.1]; exact .inr (eval_raises h2)
      · rename_i s1 he
        split at h
        · rename_i hpick
          simp only [Option.some.injEq, Prod.mk.injEq] at h
          rw [← h.1]
          show mayPass _ = true
          rw [mayPass_iff]
          left
          rw [getLsbD_remove _ _ _ (by decide)]
          have hnone : pickCase.index (none : Option (BitVec 32)) cases = none := by
            rw [pickCase, Option.or_eq_none_iff] at hpick
            exact hpick.2
          rw [unknownCases_noDefault F cases ET.none (fun _ _ => hnone) false rfl]
          rfl
        · rename_i k hpick
          have hk : k < cases.size := pickCase_lt hpick
          cases hr : cases.run I n k (I.popInt s1).2 with
          | none => rw [hr] at h; cases h
          | some p =>
            obtain ⟨o1, s2⟩ := p
            rw [hr] at h
            have key := soundCases hF cases _ false false ET.none k ht n _ o1 s2 hr
            by_cases hb : o1 = .brk
            · subst hb
              simp only [leaveSwitch, Option.some.injEq, Prod.mk.injEq] at h
              rw [← h.1]
              show mayPass _ = true
              rw [mayPass_iff]
              left
              rw [getLsbD_remove _ _ _ (by decide)]
              have h3 : (unknownCases F cases false ET.none).getLsbD 3 = true := by
                rcases key.1 (by intro h; cases h) with h3 | h3
                · exact h3
                · cases h3.1
              rw [unknownCases_brk F cases false ET.none (by intro h; simp [ET.none] at h) h3]
              rfl
            · have h' : some (o1, s2) = some (o, s') := by
                rw [← h, leaveSwitch]
                intro s0 h0
                simp only [Option.some.injEq, Prod.mk.injEq] at h0
                exact hb h0.1
              simp only [Option.some.injEq, Prod.mk.injEq] at h'
              rw [← h'.1]
              by_cases hp : o1 = .pass
              · subst hp; exact key.2 rfl (.inl hk)
              · apply admits_intro
                rcases key.1 hp with h3 | h3
                · left
                  rw [getLsbD_remove _ _ _ o1.bit_lt, h3]
                  cases o1 <;> first | exact absurd rfl hb | exact absurd rfl hp | (simp only [Out.bit]; decide)
                · exact .inr h3
  | .try_ body catches fin =>
    rw [tidy] at ht
    rw [Stmt.run] at h
    simp only [Bool.and_eq_true, Bool.or_eq_true, bne_iff_ne, Bool.not_eq_true'] at ht
    obtain ⟨htf, ht⟩ := ht
    have hfin := fun s o s' => sound hF fin htf n s o s'
    -- what the body and the catches do
    generalize hr : caught (catches.run I n) (body.run I n s) = r at h
    cases r with
    | none => cases h
    | some p =>
      obtain ⟨o1, s1⟩ := p
      rw [afterwards] at h
      by_cases hover : exitType F fin ≠ ET.none ∧ (exitType F fin).has ET.pass = false
      · rw [exitType]
        simp only [hover, and_self, ↓reduceIte, ne_eq, not_false_eq_true]
        split at h
        · rename_i s2 h2
          have := hfin _ _ _ h2
          simp only [Admits, mayPass, hover.2, Bool.false_or, beq_iff_eq] at this
          exact absurd this hover.1
        · exact hfin _ _ _ h
      · rcases ht with ht | ht
        · exact absurd ht hover
        · obtain ⟨⟨htb, hin⟩, htc⟩ := ht
          have hbody := fun s o s' => sound hF body htb n s o s'
          have heq : exitType F (.try_ body catches fin) =
              if (exitType F body).has ET.thr = false then exitType F body
              else catchTypes catches (exitType F body) := by
            rw [exitType]
            simp only
            rw [if_neg hover]
          rw [heq] at hin htc ⊢
          generalize hres : (if (exitType F body).has ET.thr = false then exitType F body
              else catchTypes catches (exitType F body)) = res at hin htc ⊢
          have hkeep : ∀ k, k < 16 → k ≠ 5 → (exitType F body).getLsbD k = true →
              res.getLsbD k = true := by
            intro k hk h5 hbit
            rw [← hres]
            split
            · exact hbit
            · rw [catchTypes_bit _ _ _ hk h5]; exact hbit
          have hmain : Admits I res o1 := by
            rw [caught.eq_def] at hr
            split at hr
            · rename_i s3 h3
              rcases soundCatches hF catches res htc n s3 o1 s1 hr with h4 | ⟨rfl, h4⟩
              · exact h4
              · rcases hbody _ _ _ h3 with h5 | h5
                · left
                  rw [← hres, if_neg (by simp [h5]), catchTypes_none _ _ h4]
                  exact h5
                · exact .inr h5
            · rename_i hne
              have h3 := hbody _ _ _ hr
              by_cases hp : o1 = .pass
              · subst hp
                have h3' := (mayPass_iff _).1 h3
                show mayPass _ = true
                rw [mayPass_iff]
                rcases h3' with h4 | h4
                · exact .inl (hkeep 1 (by decide) (by decide) h4)
                · right
                  rw [← hres, if_pos (by rw [h4]; decide)]
                  exact h4
              · rcases admits_bit h3 hp with h4 | h4
                · by_cases ho : o1 = .thr
                  · subst ho
                    exact absurd hr (hne _)
                  · exact admits_of_bit (hkeep _ o1.bit_lt
                      (by cases o1 <;> simp_all [Out.bit]) h4)
                · exact admits_intro (.inr h4)
          split at h
          · rename_i s2 h2
            simp only [Option.some.injEq, Prod.mk.injEq] at h
            rw [← h.1]; exact hmain
          · rename_i hne
            have h3 := hfin _ _ _ h
            by_cases hp : o = .pass
            · subst hp; exact absurd h (hne _)
            · rcases admits_bit h3 hp with h4 | h4
              · exact admits_of_bit (inside_bit hin _ o.bit_lt (Out.bit_ne_one hp) h4)
              · exact admits_intro (.inr h4)

theorem sounds {F : Folder A} {I : Interp A S} (hF : Agrees F I) (ss : Stmts A)
    (ht : tidys F ss = true) (type : ET) (n : Nat) (s : S) (o : Out) (s' : S)
    (h : ss.run I n s = some (o, s')) :
    (o ≠ .pass → (exitTypes F ss type).getLsbD o.bit = true ∨ (o = .thr ∧ I.Raises)) ∧
    (o = .pass → mayPass type = true → mayPass (exitTypes F ss type) = true) := by
  match ss with
  | .nil =>
    rw [Stmts.run] at h
    simp only [Option.some.injEq, Prod.mk.injEq] at h
    rw [← h.1]
    exact ⟨fun h => absurd rfl h, fun _ h => by rw [exitTypes]; exact h⟩
  | .cons t rest =>
    rw [Stmts.run] at h
    rw [tidys] at ht
    simp only [Bool.and_eq_true] at ht
    have hs := fun s o s' => sound hF t ht.1 n s o s'
    rw [exitTypes]
    split at h
    · rename_i s1 h1
      have hp := hs _ _ _ h1
      rw [if_neg (by intro hu; exact not_pass_of_unreached hu hp)]
      have := sounds hF rest ht.2 (type ||| exitType F t) n s1 o s' h
      exact ⟨this.1, fun ho hm => this.2 ho (mayPass_or hm hp)⟩
    · rename_i hne
      have hp := hs _ _ _ h
      have ho : o ≠ .pass := by rintro rfl; exact hne _ h
      refine ⟨fun _ => ?_, fun h => absurd h ho⟩
      rcases admits_bit hp ho with h1 | h1
      · left
        split
        · exact remove_pass_bit o.bit_lt (Out.bit_ne_one ho) (bit_or_right h1)
        · exact exitTypes_grow F rest _ _ o.bit_lt (Out.bit_ne_one ho) (bit_or_right h1)
      · exact .inr h1

theorem soundCase {F : Folder A} {I : Interp A S} (hF : Agrees F I) (ss : Stmts A)
    (ht : tidys F ss = true) (type : ET) (n : Nat) (s : S) (o : Out) (s' : S)
    (h : ss.run I n s = some (o, s')) :
    (o ≠ .pass → (caseType F ss type).getLsbD o.bit = true ∨ (o = .thr ∧ I.Raises)) ∧
    (o = .pass → mayPass type = true → mayPass (caseType F ss type) = true) := by
  match ss with
  | .nil =>
    rw [Stmts.run] at h
    simp only [Option.some.injEq, Prod.mk.injEq] at h
    rw [← h.1]
    exact ⟨fun h => absurd rfl h, fun _ h => by rw [caseType]; exact h⟩
  | .cons t rest =>
    rw [Stmts.run] at h
    rw [tidys] at ht
    simp only [Bool.and_eq_true] at ht
    have hs := fun s o s' => sound hF t ht.1 n s o s'
    rw [caseType]
    split at h
    · rename_i s1 h1
      have hp := hs _ _ _ h1
      rw [if_neg (by intro hu; exact not_pass_of_until hu hp)]
      have := soundCase hF rest ht.2 (type ||| exitType F t) n s1 o s' h
      exact ⟨this.1, fun ho hm => this.2 ho (mayPass_or hm hp)⟩
    · rename_i hne
      have hp := hs _ _ _ h
      have ho : o ≠ .pass := by rintro rfl; exact hne _ h
      refine ⟨fun _ => ?_, fun h => absurd h ho⟩
      rcases admits_bit hp ho with h1 | h1
      · left
        split
        · exact remove_pass_bit o.bit_lt (Out.bit_ne_one ho) (bit_or_right h1)
        · exact caseType_grow F rest _ _ o.bit_lt (Out.bit_ne_one ho) (bit_or_right h1)
      · exact .inr h1

theorem soundCases {F : Folder A} {I : Interp A S} (hF : Agrees F I) (cs : Cases A) (r : ET)
    (passing d : Bool) (type : ET) (k : Nat) (ht : tidyCases F r cs passing = true) (n : Nat) (s : S)
    (o : Out) (s' : S) (h : cs.run I n k s = some (o, s')) :
    (o ≠ .pass → (unknownCases F cs d type).getLsbD o.bit = true ∨ (o = .thr ∧ I.Raises)) ∧
    (o = .pass → (k < cs.size ∨ k = 0 ∧ passing = true) → mayPass r = true) := by
  match cs, k with
  | .nil, k =>
    rw [Cases.run] at h
    simp only [Option.some.injEq, Prod.mk.injEq] at h
    rw [← h.1]
    refine ⟨fun h => absurd rfl h, fun _ h => ?_⟩
    rw [tidyCases] at ht
    rcases h with h | h
    · exact absurd h (by simp [Cases.size])
    · simpa [h.2] using ht
  | .cons labels body rest, k + 1 =>
    rw [Cases.run] at h
    rw [tidyCases] at ht
    simp only [Bool.and_eq_true] at ht
    rw [unknownCases]
    have := soundCases hF rest r (mayPass (caseType F body ET.none)) (d || containsDefault labels)
      (if (caseType F body ET.none).has ET.brk = true then type ||| caseType F body ET.none ||| ET.pass
        else type ||| caseType F body ET.none) k ht.2 n s o s' h
    refine ⟨this.1, fun ho hk => ?_⟩
    rcases hk with hk | hk
    · simp only [Cases.size] at hk; exact this.2 ho (.inl (by omega))
    · omega
  | .cons labels body rest, 0 =>
    rw [Cases.run] at h
    rw [tidyCases] at ht
    simp only [Bool.and_eq_true] at ht
    rw [unknownCases]
    have hs := fun s o s' => soundCase hF body ht.1 ET.none n s o s'
    split at h
    · rename_i s1 h1
      have hp := (hs _ _ _ h1).2 rfl (by decide)
      have := soundCases hF rest r (mayPass (caseType F body ET.none)) (d || containsDefault labels)
        (if (caseType F body ET.none).has ET.brk = true then type ||| caseType F body ET.none ||| ET.pass
          else type ||| caseType F body ET.none) 0 ht.2 n s1 o s' h
      exact ⟨this.1, fun ho _ => this.2 ho (.inr ⟨rfl, hp⟩)⟩
    · rename_i hne
      have ho : o ≠ .pass := by rintro rfl; exact hne _ h
      refine ⟨fun _ => ?_, fun h => absurd h ho⟩
      rcases (hs _ _ _ h).1 ho with h1 | h1
      · left
        apply unknownCases_grow
        split
        · exact bit_or_left (bit_or_right h1)
        · exact bit_or_right h1
      · exact .inr h1

theorem soundKnown {F : Folder A} {I : Interp A S} (hF : Agrees F I) (cs : Cases A) (r : ET)
    (passing : Bool) (type : ET) (k : Nat) (ht : tidyKnown F r cs k passing = true) (n : Nat) (s : S)
    (o : Out) (s' : S) (h : cs.run I n k s = some (o, s')) :
    (o ≠ .pass → (knownCases F cs k type).getLsbD o.bit = true ∨ (o = .thr ∧ I.Raises)) ∧
    (o = .brk → mayPass r = true) ∧
    (o = .pass → (k < cs.size ∨ k = 0 ∧ passing = true) → mayPass r = true) := by
  match cs, k with
  | .nil, k =>
    rw [Cases.run] at h
    simp only [Option.some.injEq, Prod.mk.injEq] at h
    rw [← h.1]
    refine ⟨fun h => absurd rfl h, (fun h => by cases h), fun _ h => ?_⟩
    rw [tidyKnown] at ht
    rcases h with h | h
    · exact absurd h (by simp [Cases.size])
    · simpa [h.2] using ht
  | .cons labels body rest, k + 1 =>
    rw [Cases.run] at h
    rw [tidyKnown] at ht
    rw [knownCases]
    have := soundKnown hF rest r passing type k ht n s o s' h
    refine ⟨this.1, this.2.1, fun ho hk => this.2.2 ho ?_⟩
    rcases hk with hk | hk
    · left; simp only [Cases.size] at hk; omega
    · omega
  | .cons labels body rest, 0 =>
    rw [Cases.run] at h
    rw [tidyKnown] at ht
    simp only [Bool.and_eq_true, Bool.or_eq_true, Bool.not_eq_true'] at ht
    obtain ⟨⟨htb, hbrk⟩, htr⟩ := ht
    rw [knownCases]
    have hs := fun s o s' => soundCase hF body htb ET.none n s o s'
    split at h
    · rename_i s1 h1
      have hp : mayPass (caseType F body ET.none) = true := (hs _ _ _ h1).2 rfl (by decide)
      have hu : ¬ (caseType F body ET.none).hasOnly caseUntil = true := by
        intro hu
        exact not_pass_of_until (I := I) hu hp
      rw [if_neg hu]
      rcases htr with htr | htr
      · exact absurd htr hu
      · have := soundKnown hF rest r _ (type ||| caseType F body ET.none) 0 htr n s1 o s' h
        exact ⟨this.1, this.2.1, fun ho _ => this.2.2 ho (.inr ⟨rfl, hp⟩)⟩
    · rename_i hne
      have ho : o ≠ .pass := by rintro rfl; exact hne _ h
      have hbit := (hs _ _ _ h).1 ho
      refine ⟨fun _ => ?_, fun hb => ?_, fun h => absurd h ho⟩
      · rcases hbit with h1 | h1
        · left
          split
          · split
            · exact bit_or_left (bit_or_right h1)
            · exact remove_pass_bit o.bit_lt (Out.bit_ne_one ho) (bit_or_right h1)
          · exact knownCases_grow F rest 0 _ _ o.bit_lt (Out.bit_ne_one ho) (bit_or_right h1)
        · exact .inr h1
      · subst hb
        rcases hbit with h1 | h1
        · rcases hbrk with h2 | h2
          · rw [has_brk] at h2
            rw [Out.bit] at h1
            rw [h1] at h2; cases h2
          · exact h2
        · cases h1.1

theorem soundCatches {F : Folder A} {I : Interp A S} (hF : Agrees F I) (cs : Catches A) (r : ET)
    (ht : tidyCatches F r cs = true) (n : Nat) (s : S) (o : Out) (s' : S)
    (h : cs.run I n s = some (o, s')) : Admits I r o ∨ (o = .thr ∧ cs.hasAll = false) := by
  match cs with
  | .nil =>
    rw [Catches.run] at h
    simp only [Option.some.injEq, Prod.mk.injEq] at h
    exact .inr ⟨h.1.symm, rfl⟩
  | .cons type body rest =>
    rw [Catches.run] at h
    rw [tidyCatches] at ht
    simp only [Bool.and_eq_true, Bool.or_eq_true, Bool.not_eq_true'] at ht
    obtain ⟨⟨⟨htb, hin⟩, hpass⟩, htr⟩ := ht
    split at h
    · left
      have hs := sound hF body htb n s o s' h
      by_cases hp : o = .pass
      · subst hp
        rcases hpass with h1 | h1
        · rw [show mayPass (exitType F body) = true from hs] at h1; cases h1
        · exact h1
      · rcases admits_bit hs hp with h1 | h1
        · exact admits_of_bit (inside_bit hin _ o.bit_lt (Out.bit_ne_one hp) h1)
        · exact admits_intro (.inr h1)
    · rename_i hacc
      rcases soundCatches hF rest r htr n s o s' h with h1 | h1
      · exact .inl h1
      · right
        refine ⟨h1.1, ?_⟩
        rw [Catches.hasAll, h1.2]
        simp only [Bool.or_false, beq_eq_false_iff_ne]
        rintro rfl
        exact hacc (I.accepts_all s)

end

end Verif.Stmt
