import Verif.Spec.Stmt

/-! Helper lemmas for `Verif.Props.Stmt`: flags, and soundness of the exit analysis. -/

namespace Verif.Stmt

variable {A S : Type}

/-! ## Flags -/

theorem has_twoPow (a : ET) (k : Nat) (hk : k < 16) : a.has (BitVec.twoPow 16 k) = a.getLsbD k := by
  rw [ET.has, BitVec.and_twoPow]
  cases h : a.getLsbD k
  · simp
  · simp only [↓reduceIte, bne_iff_ne, ne_eq]
    intro h0
    have := congrArg (fun x => x.getLsbD k) h0
    simp [BitVec.getLsbD_twoPow, hk] at this

theorem has_pass (a : ET) : a.has ET.pass = a.getLsbD 1 := has_twoPow a 1 (by decide)
theorem has_ret (a : ET) : a.has ET.ret = a.getLsbD 2 := has_twoPow a 2 (by decide)
theorem has_brk (a : ET) : a.has ET.brk = a.getLsbD 3 := has_twoPow a 3 (by decide)
theorem has_cont (a : ET) : a.has ET.cont = a.getLsbD 4 := has_twoPow a 4 (by decide)
theorem has_thr (a : ET) : a.has ET.thr = a.getLsbD 5 := has_twoPow a 5 (by decide)
theorem has_goto (a : ET) : a.has ET.goto_ = a.getLsbD 6 := has_twoPow a 6 (by decide)

theorem getLsbD_remove (a f : ET) (k : Nat) (hk : k < 16) :
    (a.remove f).getLsbD k = (a.getLsbD k && !f.getLsbD k) := by
  simp [ET.remove, hk]

theorem hasOnly_bit {a f : ET} (h : a.hasOnly f = true) (k : Nat) (hk : k < 16)
    (hf : f.getLsbD k = false) : a.getLsbD k = false := by
  simp only [ET.hasOnly, Bool.and_eq_true, beq_iff_eq] at h
  have := congrArg (fun x => x.getLsbD k) h.2
  simpa only [BitVec.getLsbD_and, BitVec.getLsbD_not, hk, hf, decide_true, Bool.true_and,
    Bool.not_false, Bool.and_true, BitVec.getLsbD_zero] using this

theorem hasOnly_ne {a f : ET} (h : a.hasOnly f = true) : a ≠ 0#16 := by
  simp only [ET.hasOnly, Bool.and_eq_true, bne_iff_ne] at h
  exact h.1

theorem inside_bit {a b : ET} (h : inside a b = true) (k : Nat) (hk : k < 16) (h1 : k ≠ 1)
    (ha : a.getLsbD k = true) : b.getLsbD k = true := by
  simp only [inside, beq_iff_eq] at h
  have h0 := congrArg (fun x => x.getLsbD k) h
  have hp : ET.pass.getLsbD k = false := by
    have : ET.pass = BitVec.twoPow 16 1 := by decide
    rw [this, BitVec.getLsbD_twoPow]
    simp; omega
  simpa only [BitVec.getLsbD_and, BitVec.getLsbD_not, hk, ha, hp, decide_true, Bool.true_and,
    Bool.not_false, Bool.and_true, BitVec.getLsbD_zero, Bool.not_eq_false'] using h0

theorem mayPass_iff (a : ET) : mayPass a = true ↔ a.getLsbD 1 = true ∨ a = 0#16 := by
  simp [mayPass, has_pass, ET.none]

/-- The bit of a way out. -/
def Out.bit : Out → Nat
  | .pass => 1 | .ret => 2 | .brk => 3 | .cont => 4 | .thr => 5 | .goto_ _ => 6

theorem admits_of_bit {I : Interp A S} {et : ET} {o : Out} (h : et.getLsbD o.bit = true) :
    Admits I et o := by
  cases o <;> simp_all [Admits, Out.bit, mayPass, has_pass, has_ret, has_brk, has_cont, has_thr, has_goto]

theorem admits_bit {I : Interp A S} {et : ET} {o : Out} (h : Admits I et o) (hp : o ≠ .pass) :
    et.getLsbD o.bit = true ∨ (o = .thr ∧ I.Raises) := by
  cases o <;> simp_all [Admits, Out.bit, has_ret, has_brk, has_cont, has_thr, has_goto]

theorem Out.bit_lt (o : Out) : o.bit < 16 := by cases o <;> simp [Out.bit]

theorem Out.bit_ne_one {o : Out} (h : o ≠ .pass) : o.bit ≠ 1 := by
  cases o <;> simp_all [Out.bit]

theorem not_pass_of_unreached {I : Interp A S} {et : ET} (h : unreached et = true)
    (hp : Admits I et .pass) : False := by
  rcases (mayPass_iff et).1 hp with h1 | h1
  · rw [hasOnly_bit h 1 (by decide) (by decide)] at h1; cases h1
  · exact hasOnly_ne h h1

theorem not_pass_of_until {I : Interp A S} {et : ET} (h : et.hasOnly caseUntil = true)
    (hp : Admits I et .pass) : False := by
  rcases (mayPass_iff et).1 hp with h1 | h1
  · rw [hasOnly_bit h 1 (by decide) (by decide)] at h1; cases h1
  · exact hasOnly_ne h h1

theorem mayPass_or {a b : ET} (ha : mayPass a = true) (hb : mayPass b = true) :
    mayPass (a ||| b) = true := by
  rw [mayPass_iff] at *
  rcases ha with ha | ha
  · left; simp [ha]
  · subst ha
    rcases hb with hb | hb
    · left; simp [hb]
    · right; simp [hb]

theorem bit_or_left {a b : ET} {k : Nat} (h : a.getLsbD k = true) : (a ||| b).getLsbD k = true := by
  simp [h]

theorem bit_or_right {a b : ET} {k : Nat} (h : b.getLsbD k = true) : (a ||| b).getLsbD k = true := by
  simp [h]

/-! ## Growing of the variable `type` -/

theorem remove_pass_bit {a : ET} {k : Nat} (hk : k < 16) (h1 : k ≠ 1) (h : a.getLsbD k = true) :
    (a.remove ET.pass).getLsbD k = true := by
  have hp : ET.pass.getLsbD k = false := by
    have : ET.pass = BitVec.twoPow 16 1 := by decide
    rw [this, BitVec.getLsbD_twoPow]
    simp; omega
  rw [getLsbD_remove _ _ _ hk, h, hp]; rfl

theorem exitTypes_grow (F : Folder A) (ss : Stmts A) (type : ET) (k : Nat) (hk : k < 16) (h1 : k ≠ 1)
    (h : type.getLsbD k = true) : (exitTypes F ss type).getLsbD k = true := by
  match ss with
  | .nil => exact h
  | .cons s rest =>
    rw [exitTypes]
    split
    · exact remove_pass_bit hk h1 (bit_or_left h)
    · exact exitTypes_grow F rest _ k hk h1 (bit_or_left h)

theorem caseType_grow (F : Folder A) (ss : Stmts A) (type : ET) (k : Nat) (hk : k < 16) (h1 : k ≠ 1)
    (h : type.getLsbD k = true) : (caseType F ss type).getLsbD k = true := by
  match ss with
  | .nil => exact h
  | .cons s rest =>
    rw [caseType]
    split
    · exact remove_pass_bit hk h1 (bit_or_left h)
    · exact caseType_grow F rest _ k hk h1 (bit_or_left h)

theorem unknownCases_grow (F : Folder A) (cs : Cases A) (d : Bool) (type : ET) (k : Nat)
    (h : type.getLsbD k = true) : (unknownCases F cs d type).getLsbD k = true := by
  match cs with
  | .nil =>
    rw [unknownCases]
    split
    · exact h
    · exact bit_or_left h
  | .cons labels body rest =>
    rw [unknownCases]
    apply unknownCases_grow
    split
    · exact bit_or_left (bit_or_left h)
    · exact bit_or_left h

theorem knownCases_grow (F : Folder A) (cs : Cases A) (j : Nat) (type : ET) (k : Nat) (hk : k < 16)
    (h1 : k ≠ 1) (h : type.getLsbD k = true) : (knownCases F cs j type).getLsbD k = true := by
  match cs, j with
  | .nil, _ => rw [knownCases]; exact h
  | .cons _ _ rest, j + 1 => rw [knownCases]; exact knownCases_grow F rest j _ k hk h1 h
  | .cons _ body rest, 0 =>
    rw [knownCases]
    split
    · split
      · exact bit_or_left (bit_or_left h)
      · exact remove_pass_bit hk h1 (bit_or_left h)
    · exact knownCases_grow F rest 0 _ k hk h1 (bit_or_left h)

/-- With a `default` or without: the result of an unknown `switch` allows passing when there is no
`default`. -/
theorem unknownCases_noDefault (F : Folder A) (cs : Cases A) (type : ET)
    (h : ∀ d, d = false → pickCase.index (none : Option (BitVec 32)) cs = none) (d : Bool)
    (hd : d = false) : (unknownCases F cs d type).getLsbD 1 = true := by
  match cs with
  | .nil =>
    rw [unknownCases, hd]
    simp [ET.pass]
  | .cons labels body rest =>
    rw [unknownCases]
    have h' := h false rfl
    rw [pickCase.index] at h'
    split at h'
    · cases h'
    · rename_i hn
      apply unknownCases_noDefault
      · intro _ _
        simpa using h'
      · rw [hd, containsDefault]
        simpa using hn

/-! ## Evaluation -/

theorem eval_raises {I : Interp A S} : ∀ {e : List A} {s s' : S}, I.eval e s = .error s' → I.Raises
  | a :: as, s, s', h => by
    rw [Interp.eval] at h
    split at h
    · exact eval_raises h
    · rename_i s1 h1
      exact ⟨a, s, s1, h1⟩

theorem test_raises {I : Interp A S} {c : Option (List A)} {s s' : S} (h : I.test c s = .error s') :
    I.Raises := by
  cases c with
  | none => cases h
  | some e =>
    rw [Interp.test] at h
    split at h
    · cases h
    · exact eval_raises ‹_›

/-- What a folded condition does. -/
theorem test_known {F : Folder A} {I : Interp A S} (hF : Agrees F I) {c : Option (List A)} {b : Bool}
    (h : F.cond c = some b) (s : S) : I.test c s = .ok (b, s) := by
  cases c with
  | none => cases h
  | some e =>
    obtain ⟨s', h1, h2⟩ := hF.bool e b h s
    rw [Interp.test]
    simp only [h1, h2]

theorem test_always {F : Folder A} {I : Interp A S} (hF : Agrees F I) {c : Option (List A)}
    (h : F.cond c = some true ∨ c = none) (s : S) : I.test c s = .ok (true, s) := by
  rcases h with h | rfl
  · exact test_known hF h s
  · rfl

/-- How rounds that test first can end. -/
theorem rounds_out {test : S → Except S (Bool × S)} {body : S → Option (Out × S)}
    {after : S → Except S S} : ∀ {n : Nat} {s s' : S} {o : Out},
    rounds test body after n s = some (o, s') →
    (o = .pass ∧ ∃ s1 s2, test s1 = .ok (false, s2)) ∨
    (o = .pass ∧ ∃ s1 s2, body s1 = some (.brk, s2)) ∨
    (o = .thr ∧ ((∃ s1 s2, test s1 = .error s2) ∨ ∃ s1 s2, after s1 = .error s2)) ∨
    (o ≠ .pass ∧ o ≠ .brk ∧ o ≠ .cont ∧ ∃ s1 s2, body s1 = some (o, s2))
  | n + 1, s, s', o, h => by
    rw [rounds] at h
    split at h
    · rename_i s1 h1
      simp only [Option.some.injEq, Prod.mk.injEq] at h
      exact .inr (.inr (.inl ⟨h.1.symm, .inl ⟨_, _, h1⟩⟩))
    · rename_i s1 h1
      simp only [Option.some.injEq, Prod.mk.injEq] at h
      exact .inl ⟨h.1.symm, _, _, h1⟩
    · rename_i s1 h1
      split at h
      · cases h
      · rename_i s2 h2
        simp only [Option.some.injEq, Prod.mk.injEq] at h
        exact .inr (.inl ⟨h.1.symm, _, _, h2⟩)
      · split at h
        · rename_i s3 h3
          simp only [Option.some.injEq, Prod.mk.injEq] at h
          exact .inr (.inr (.inl ⟨h.1.symm, .inr ⟨_, _, h3⟩⟩))
        · exact rounds_out h
      · split at h
        · rename_i s3 h3
          simp only [Option.some.injEq, Prod.mk.injEq] at h
          exact .inr (.inr (.inl ⟨h.1.symm, .inr ⟨_, _, h3⟩⟩))
        · exact rounds_out h
      · rename_i o' s2 hb hp hc h2
        simp only [Option.some.injEq, Prod.mk.injEq] at h
        obtain ⟨rfl, rfl⟩ := h
        exact .inr (.inr (.inr ⟨hp, hb, hc, _, _, h2⟩))

/-- How rounds that test last can end. -/
theorem roundsDo_out {again : Bool} {test : S → Except S (Bool × S)} {body : S → Option (Out × S)} :
    ∀ {n : Nat} {s s' : S} {o : Out}, roundsDo again test body n s = some (o, s') →
    (o = .pass ∧ (∃ s1 s2 b, test s1 = .ok (b, s2) ∧ b ≠ again) ∧
      ((∃ s1 s2, body s1 = some (.pass, s2)) ∨ ∃ s1 s2, body s1 = some (.cont, s2))) ∨
    (o = .pass ∧ ∃ s1 s2, body s1 = some (.brk, s2)) ∨
    (o = .thr ∧ ∃ s1 s2, test s1 = .error s2) ∨
    (o ≠ .pass ∧ o ≠ .brk ∧ o ≠ .cont ∧ ∃ s1 s2, body s1 = some (o, s2))
  | n + 1, s, s', o, h => by
    rw [roundsDo] at h
    split at h
    · cases h
    · rename_i s1 h1
      simp only [Option.some.injEq, Prod.mk.injEq] at h
      exact .inr (.inl ⟨h.1.symm, _, _, h1⟩)
    · rename_i s1 h1
      split at h
      · rename_i s2 h2
        simp only [Option.some.injEq, Prod.mk.injEq] at h
        exact .inr (.inr (.inl ⟨h.1.symm, _, _, h2⟩))
      · rename_i b s2 h2
        split at h
        · exact roundsDo_out h
        · rename_i hne
          simp only [Option.some.injEq, Prod.mk.injEq] at h
          exact .inl ⟨h.1.symm, ⟨_, _, _, h2, hne⟩, .inl ⟨_, _, h1⟩⟩
    · rename_i s1 h1
      split at h
      · rename_i s2 h2
        simp only [Option.some.injEq, Prod.mk.injEq] at h
        exact .inr (.inr (.inl ⟨h.1.symm, _, _, h2⟩))
      · rename_i b s2 h2
        split at h
        · exact roundsDo_out h
        · rename_i hne
          simp only [Option.some.injEq, Prod.mk.injEq] at h
          exact .inl ⟨h.1.symm, ⟨_, _, _, h2, hne⟩, .inr ⟨_, _, h1⟩⟩
    · rename_i o' s2 hb hp hc h2
      simp only [Option.some.injEq, Prod.mk.injEq] at h
      obtain ⟨rfl, rfl⟩ := h
      exact .inr (.inr (.inr ⟨hp, hb, hc, _, _, h2⟩))

end Verif.Stmt
