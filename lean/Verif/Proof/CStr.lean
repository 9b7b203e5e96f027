import Verif.Spec.CStr
/-!
Helper lemmas for `Verif.Props.CStr`.
-/

namespace Verif.CStr

theorem signExt_ge (c : Ch) : (c.signExtend 64).toNat ≥ tableSize ↔ 127 ≤ c.toNat := by
  unfold tableSize
  rw [BitVec.toNat_signExtend, BitVec.toNat_setWidth, BitVec.msb_eq_decide]
  have := c.isLt
  by_cases h : 2 ^ 31 ≤ c.toNat
  · simp [h]; omega
  · simp [h]; omega

theorem hasFlag_iff (c : Ch) (flag : Nat) (P : Nat → Prop) [DecidablePred P]
    (h : ∀ n, n < 127 → ((flagsAt n &&& flag != 0) = decide (P n)))
    (hP : ∀ n, P n → n < 127) : hasFlag c flag = true ↔ P c.toNat := by
  unfold hasFlag
  have hg := signExt_ge c
  by_cases hc : 127 ≤ c.toNat
  · rw [if_pos (hg.2 hc)]
    constructor
    · intro h; cases h
    · intro hp; have := hP _ hp; omega
  · rw [if_neg (fun h' => hc (hg.1 h')), h _ (by omega)]
    simp

theorem tableIndex_eq (c : Ch) : tableIndex c =
    if c.toNat % 256 < 127 then some (c.toNat % 256) else none := by
  unfold tableIndex tableSize
  have := c.isLt
  simp only [BitVec.toNat_signExtend, BitVec.toNat_setWidth, BitVec.msb_eq_decide]
  by_cases h : 2 ^ 7 ≤ c.toNat % 2 ^ 8
  · rw [if_pos (by simp [h]), if_neg (by omega)]
  · by_cases h2 : c.toNat % 256 < 127
    · rw [if_neg (by simp [h]; omega), if_pos h2]
      simp [h]
      omega
    · rw [if_pos (by simp [h]; omega), if_neg h2]

theorem ch_ext {a b : Ch} (h : a.toNat = b.toNat) : a = b := BitVec.eq_of_toNat_eq h

/-- Table driven `to_upper` on 7-bit characters. -/
theorem toUpper_ascii {c : Ch} (h : Ascii c) : toUpper c = capital c := by
  unfold Ascii at h
  have hc : c.toNat % 256 = c.toNat := by omega
  unfold toUpper
  rw [tableIndex_eq, hc]
  unfold capital
  by_cases h1 : c.toNat < 127
  · simp only [h1, if_true]
    split
    · apply ch_ext
      have : (32#32).toNat = 32 := rfl
      rw [BitVec.toNat_ofNat, BitVec.toNat_sub]
      omega
    · apply ch_ext; simp
  · simp only [h1, if_false]
    rw [if_neg (by omega)]

theorem toLower_ascii {c : Ch} (h : Ascii c) : toLower c = small c := by
  unfold Ascii at h
  have hc : c.toNat % 256 = c.toNat := by omega
  unfold toLower
  rw [tableIndex_eq, hc]
  unfold small
  by_cases h1 : c.toNat < 127
  · simp only [h1, if_true]
    split
    · apply ch_ext
      have : (32#32).toNat = 32 := rfl
      rw [BitVec.toNat_ofNat, BitVec.toNat_add]
      omega
    · apply ch_ext; simp
  · simp only [h1, if_false]
    rw [if_neg (by omega)]

theorem capital_zero {c : Ch} : capital c = 0#32 ↔ c = 0#32 := by
  unfold capital
  split
  · rename_i h
    constructor
    · intro e
      have : (c - 32#32).toNat = 0 := by rw [e]; rfl
      rw [BitVec.toNat_sub] at this
      have h32 : (32#32).toNat = 32 := rfl
      omega
    · intro e; subst e; simp at h
  · rfl

theorem text_cons {c : Ch} {t : List Ch} : Text (c :: t) ↔ c ≠ 0#32 ∧ Text t := by
  unfold Text; simp

theorem not_slt_iff (a b : Ch) : a.slt b = true ↔ a.toInt < b.toInt := by
  simp [BitVec.slt]

/-- How an operation looks at characters: it compares their images under `f`, and `f` maps only NUL to NUL. -/
structure Sees (op : CharOp) (f : Ch → Ch) (P : Ch → Prop) : Prop where
  nul : P 0#32
  equals : ∀ a b, P a → P b → (op.equals a b = true ↔ f a = f b)
  greater : ∀ a b, P a → P b → (op.greater a b = true ↔ (f b).toInt < (f a).toInt)
  zero : ∀ a, P a → (f a = 0#32 ↔ a = 0#32)

theorem sees_plain : Sees charOp id (fun _ => True) where
  nul := trivial
  equals a b _ _ := by simp [charOp]
  greater a b _ _ := by simp [charOp, BitVec.slt]
  zero a _ := by simp

theorem sees_ignoreCase : Sees ignoreCaseOp capital Ascii where
  nul := by unfold Ascii; decide
  equals a b ha hb := by
    simp only [ignoreCaseOp, toUpper_ascii ha, toUpper_ascii hb, Bool.or_eq_true, decide_eq_true_eq]
    constructor
    · rintro (h | h)
      · rw [h]
      · exact h
    · exact Or.inr
  greater a b ha hb := by
    simp only [ignoreCaseOp, toUpper_ascii ha, toUpper_ascii hb]
    exact not_slt_iff _ _
  zero a _ := capital_zero

/-- `strcmp` compares the images of the texts, terminators included. -/
theorem strcmp_spec {op : CharOp} {f : Ch → Ch} {P : Ch → Prop} (hs : Sees op f P) (j k : List Ch) :
    ∀ {t u : List Ch}, Text t → Text u → (∀ c ∈ t, P c) → (∀ c ∈ u, P c) →
    ∃ o, strcmp op (asArray t j) (asArray u k) = some o ∧
      (o = .eq → t.map f = u.map f) ∧
      (o = .lt → DictLt (units (t.map f) ++ [0]) (units (u.map f) ++ [0])) ∧
      (o = .gt → DictLt (units (u.map f) ++ [0]) (units (t.map f) ++ [0]))
  | [], [], _, _, _, _ => by
    have h0 : op.equals 0#32 0#32 = true := (hs.equals _ _ hs.nul hs.nul).2 rfl
    refine ⟨.eq, ?_, ?_, ?_, ?_⟩
    · simp [asArray, strcmp, h0]
    · intro _; rfl
    · intro h; cases h
    · intro h; cases h
  | c :: t, [], ht, _, pt, _ => by
    have hc := (text_cons.1 ht).1
    have pc := pt c (by simp)
    have f0 : f 0#32 = 0#32 := (hs.zero _ hs.nul).2 rfl
    have hne : f c ≠ f 0#32 := by
      rw [f0]; intro h; exact hc ((hs.zero _ pc).1 h)
    have he : op.equals c 0#32 = false := by
      rw [Bool.eq_false_iff]; intro h; exact hne ((hs.equals _ _ pc hs.nul).1 h)
    have hg := hs.greater c 0#32 pc hs.nul
    have hi : (f c).toInt ≠ 0 := by
      intro h; apply hne; rw [f0]; exact BitVec.eq_of_toInt_eq (by simpa using h)
    rw [f0] at hg
    have z : (0#32).toInt = 0 := rfl
    rw [z] at hg
    refine ⟨if op.greater c 0#32 then .gt else .lt, ?_, ?_, ?_, ?_⟩
    · simp [asArray, strcmp, he]
    · split <;> intro h <;> cases h
    · intro h
      have : ¬ op.greater c 0#32 = true := by intro h'; rw [if_pos h'] at h; cases h
      rw [hg] at this
      exact .head _ _ _ _ (by omega)
    · intro h
      have : op.greater c 0#32 = true := by
        by_cases h' : op.greater c 0#32 = true
        · exact h'
        · rw [if_neg h'] at h; cases h
      exact .head _ _ _ _ (hg.1 this)
  | [], d :: u, _, hu, _, pu => by
    have hd := (text_cons.1 hu).1
    have pd := pu d (by simp)
    have f0 : f 0#32 = 0#32 := (hs.zero _ hs.nul).2 rfl
    have hne : f 0#32 ≠ f d := by
      rw [f0]; intro h; exact hd ((hs.zero _ pd).1 h.symm)
    have he : op.equals 0#32 d = false := by
      rw [Bool.eq_false_iff]; intro h; exact hne ((hs.equals _ _ hs.nul pd).1 h)
    have hg := hs.greater 0#32 d hs.nul pd
    have hi : (f d).toInt ≠ 0 := by
      intro h; apply hne; rw [f0]; exact (BitVec.eq_of_toInt_eq (by simpa using h)).symm
    rw [f0] at hg
    have z : (0#32).toInt = 0 := rfl
    rw [z] at hg
    refine ⟨if op.greater 0#32 d then .gt else .lt, ?_, ?_, ?_, ?_⟩
    · simp [asArray, strcmp, he]
    · split <;> intro h <;> cases h
    · intro h
      have : ¬ op.greater 0#32 d = true := by intro h'; rw [if_pos h'] at h; cases h
      rw [hg] at this
      exact .head _ _ _ _ (by omega)
    · intro h
      have : op.greater 0#32 d = true := by
        by_cases h' : op.greater 0#32 d = true
        · exact h'
        · rw [if_neg h'] at h; cases h
      exact .head _ _ _ _ (hg.1 this)
  | c :: t, d :: u, ht, hu, pt, pu => by
    obtain ⟨hc, ht'⟩ := text_cons.1 ht
    obtain ⟨hd, hu'⟩ := text_cons.1 hu
    have pc := pt c (by simp)
    have pd := pu d (by simp)
    by_cases he : op.equals c d = true
    · obtain ⟨o, h1, h2, h3, h4⟩ := strcmp_spec hs j k ht' hu'
        (fun x hx => pt x (by simp [hx])) (fun x hx => pu x (by simp [hx]))
      have hf := (hs.equals _ _ pc pd).1 he
      refine ⟨o, ?_, ?_, ?_, ?_⟩
      · simpa [asArray, strcmp, he, hc] using h1
      · intro h; simp [h2 h, hf]
      · intro h
        simp only [units, List.map_cons, hf, List.cons_append]
        exact .tail _ _ _ (h3 h)
      · intro h
        simp only [units, List.map_cons, hf, List.cons_append]
        exact .tail _ _ _ (h4 h)
    · have hne : f c ≠ f d := fun h => he ((hs.equals _ _ pc pd).2 h)
      have hi : (f c).toInt ≠ (f d).toInt := fun h => hne (BitVec.eq_of_toInt_eq h)
      have hg := hs.greater c d pc pd
      refine ⟨if op.greater c d then .gt else .lt, ?_, ?_, ?_, ?_⟩
      · simp [asArray, strcmp, he]
      · split <;> intro h <;> cases h
      · intro h
        have : ¬ op.greater c d = true := by intro h'; rw [if_pos h'] at h; cases h
        rw [hg] at this
        exact .head _ _ _ _ (by omega)
      · intro h
        have : op.greater c d = true := by
          by_cases h' : op.greater c d = true
          · exact h'
          · rw [if_neg h'] at h; cases h
        exact .head _ _ _ _ (hg.1 this)

theorem dictLt_irrefl : ∀ xs, ¬ DictLt xs xs := by
  intro xs h
  induction xs with
  | nil => cases h
  | cons a as ih =>
    cases h with
    | head _ _ _ _ h => omega
    | tail _ _ _ h => exact ih h

theorem dictLt_asymm {xs ys : List Int} (h : DictLt xs ys) : ¬ DictLt ys xs := by
  induction h with
  | nil b bs => intro h; cases h
  | head a as b bs h =>
    intro h'
    cases h' with
    | head _ _ _ _ h' => omega
    | tail _ _ _ h' => omega
  | tail a as bs h ih =>
    intro h'
    cases h' with
    | head _ _ _ _ h' => omega
    | tail _ _ _ h' => exact ih h'

/-- With positive items, a final 0 does not change the dictionary order. -/
theorem dictLt_snoc {xs ys : List Int} (hx : ∀ x ∈ xs, 0 < x) (hy : ∀ y ∈ ys, 0 < y)
    (h : DictLt (xs ++ [0]) (ys ++ [0])) : DictLt xs ys := by
  induction xs generalizing ys with
  | nil =>
    cases ys with
    | nil => exact absurd h (dictLt_irrefl _)
    | cons y ys => exact .nil _ _
  | cons x xs ih =>
    cases ys with
    | nil =>
      have := hx x (by simp)
      simp only [List.cons_append, List.nil_append] at h
      cases h with
      | head _ _ _ _ h => omega
      | tail _ _ _ h => omega
    | cons y ys =>
      simp only [List.cons_append] at h
      cases h with
      | head _ _ _ _ h => exact .head _ _ _ _ h
      | tail _ _ _ h =>
        exact .tail _ _ _ (ih (fun a ha => hx a (by simp [ha])) (fun a ha => hy a (by simp [ha])) h)

theorem strEquals_spec {op : CharOp} {f : Ch → Ch} {P : Ch → Prop} (hs : Sees op f P) (j k : List Ch) :
    ∀ {t w : List Ch}, Text t → Text w → (∀ c ∈ t, P c) → (∀ c ∈ w, P c) →
    ∃ r, strEquals op (asArray t j) (asArray w k) = some r ∧
      (r = .yes → w.map f <+: t.map f) ∧
      (r = .no → ¬ w.map f <+: t.map f) ∧
      (r = .nolonger → t.length < w.length)
  | t, [], _, _, _, _ => by
    refine ⟨.yes, ?_, ?_, ?_, ?_⟩
    · cases t <;> simp [asArray, strEquals]
    · intro _; simp
    · intro h; cases h
    · intro h; cases h
  | [], d :: w, _, hw, _, _ => by
    have hd := (text_cons.1 hw).1
    refine ⟨.nolonger, ?_, ?_, ?_, ?_⟩
    · simp [asArray, strEquals, hd]
    · intro h; cases h
    · intro h; cases h
    · intro _; simp
  | c :: t, d :: w, ht, hw, pt, pw => by
    obtain ⟨hc, ht'⟩ := text_cons.1 ht
    obtain ⟨hd, hw'⟩ := text_cons.1 hw
    have pc := pt c (by simp)
    have pd := pw d (by simp)
    by_cases he : op.equals c d = true
    · obtain ⟨r, h1, h2, h3, h4⟩ := strEquals_spec hs j k ht' hw'
        (fun x hx => pt x (by simp [hx])) (fun x hx => pw x (by simp [hx]))
      have hf := (hs.equals _ _ pc pd).1 he
      refine ⟨r, ?_, ?_, ?_, ?_⟩
      · simpa [asArray, strEquals, he, hc, hd] using h1
      · intro h
        simp only [List.map_cons, hf]
        exact List.cons_prefix_cons.2 ⟨rfl, h2 h⟩
      · intro h h'
        simp only [List.map_cons, hf] at h'
        exact h3 h (List.cons_prefix_cons.1 h').2
      · intro h
        have := h4 h
        simp; exact this
    · have hne : f c ≠ f d := fun h => he ((hs.equals _ _ pc pd).2 h)
      refine ⟨.no, ?_, ?_, ?_, ?_⟩
      · simp [asArray, strEquals, he, hc, hd]
      · intro h; cases h
      · intro _ h'
        exact hne (List.cons_prefix_cons.1 h').1.symm
      · intro h; cases h

/-- What the search loop reports: the first match, at or after the current position. -/
theorem strstrLoop_spec {op : CharOp} {f : Ch → Ch} {P : Ch → Prop} (hs : Sees op f P) (j k : List Ch)
    {d : Ch} {w : List Ch} (hw : Text (d :: w)) (pw : ∀ c ∈ d :: w, P c) :
    ∀ {t : List Ch} (pos : Nat), Text t → (∀ c ∈ t, P c) →
    ∃ r, strstrLoop op d (asArray w k) pos (asArray t j) = some r ∧
      (r = none → ∀ i, i ≤ t.length → ¬ (d :: w).map f <+: (t.drop i).map f) ∧
      (∀ p, r = some p → ∃ i, p = pos + i ∧ i ≤ t.length ∧ (d :: w).map f <+: (t.drop i).map f ∧
        ∀ i', i' < i → ¬ (d :: w).map f <+: (t.drop i').map f)
  | [], pos, _, _ => by
    refine ⟨none, ?_, ?_, ?_⟩
    · simp [asArray, strstrLoop]
    · intro _ i _ h; simp at h
    · intro p h; cases h
  | c :: t, pos, ht, pt => by
    obtain ⟨hc, ht'⟩ := text_cons.1 ht
    obtain ⟨hd, hw'⟩ := text_cons.1 hw
    have pc := pt c (by simp)
    have pd := pw d (by simp)
    have pt' : ∀ x ∈ t, P x := fun x hx => pt x (by simp [hx])
    have pw' : ∀ x ∈ w, P x := fun x hx => pw x (by simp [hx])
    obtain ⟨r, h1, h2, h3⟩ := strstrLoop_spec hs j k hw pw (t := t) (pos + 1) ht' pt'
    -- when there is no match here, the answer is that of the rest
    have step : ¬ (d :: w).map f <+: (c :: t).map f →
        (r = none → ∀ i, i ≤ (c :: t).length → ¬ (d :: w).map f <+: ((c :: t).drop i).map f) ∧
        (∀ p, r = some p → ∃ i, p = pos + i ∧ i ≤ (c :: t).length ∧
          (d :: w).map f <+: ((c :: t).drop i).map f ∧
          ∀ i', i' < i → ¬ (d :: w).map f <+: ((c :: t).drop i').map f) := by
      intro hn
      constructor
      · intro hr i hi
        cases i with
        | zero => exact hn
        | succ i => exact h2 hr i (by simp at hi; exact hi)
      · intro p hp
        obtain ⟨i, e, hi, hm, hf⟩ := h3 p hp
        refine ⟨i + 1, by omega, by simp; exact hi, hm, ?_⟩
        intro i' hi'
        cases i' with
        | zero => exact hn
        | succ i' => exact hf i' (by omega)
    by_cases he : op.equals c d = true
    · have hf := (hs.equals _ _ pc pd).1 he
      obtain ⟨q, g1, g2, g3, g4⟩ := strEquals_spec hs j k ht' hw' pt' pw'
      have unf : strstrLoop op d (asArray w k) pos (asArray (c :: t) j) =
          match strEquals op (asArray t j) (asArray w k) with
          | none => none
          | some .no => strstrLoop op d (asArray w k) (pos + 1) (asArray t j)
          | some .yes => some (some pos)
          | some .nolonger => some none := by
        show strstrLoop op d (asArray w k) pos (c :: asArray t j) = _
        rw [strstrLoop, if_neg hc, if_pos he]
        rfl
      rw [unf, g1]
      cases q with
      | yes =>
        refine ⟨some pos, rfl, ?_, ?_⟩
        · intro h; cases h
        · intro p h
          cases h
          refine ⟨0, rfl, by simp, ?_, ?_⟩
          · simp only [List.drop_zero, List.map_cons, hf]
            exact List.cons_prefix_cons.2 ⟨rfl, g2 rfl⟩
          · intro i' hi'; omega
      | no =>
        obtain ⟨s1, s2⟩ := step (by
          intro h; exact g3 rfl (List.cons_prefix_cons.1 h).2)
        exact ⟨r, h1, s1, s2⟩
      | nolonger =>
        refine ⟨none, rfl, ?_, ?_⟩
        · intro _ i _ h
          have hl := List.IsPrefix.length_le h
          have := g4 rfl
          simp at hl
          omega
        · intro p h; cases h
    · have hne : f c ≠ f d := fun h => he ((hs.equals _ _ pc pd).2 h)
      obtain ⟨s1, s2⟩ := step (by
        intro h; exact hne (List.cons_prefix_cons.1 h).1.symm)
      refine ⟨r, ?_, s1, s2⟩
      show strstrLoop op d (asArray w k) pos (c :: asArray t j) = _
      rw [strstrLoop, if_neg hc, if_neg he, h1]

theorem strchrLoop_spec {op : CharOp} {f : Ch → Ch} {P : Ch → Prop} (hs : Sees op f P) (j : List Ch)
    {d : Ch} (pd : P d) :
    ∀ {t : List Ch} (pos : Nat), Text t → (∀ c ∈ t, P c) →
    ∃ r, strchrLoop op d pos (asArray t j) = some r ∧
      (r = none → ∀ c ∈ t, f c ≠ f d) ∧
      (∀ p, r = some p → ∃ i, p = pos + i ∧ (∃ c, t[i]? = some c ∧ f c = f d) ∧
        ∀ (i' : Nat) c, i' < i → t[i']? = some c → f c ≠ f d)
  | [], pos, _, _ => by
    refine ⟨none, ?_, ?_, ?_⟩
    · simp [asArray, strchrLoop]
    · intro _ c hc; cases hc
    · intro p h; cases h
  | c :: t, pos, ht, pt => by
    obtain ⟨hc, ht'⟩ := text_cons.1 ht
    have pc := pt c (by simp)
    by_cases he : op.equals c d = true
    · refine ⟨some pos, ?_, ?_, ?_⟩
      · simp [asArray, strchrLoop, hc, he]
      · intro h; cases h
      · intro p h
        cases h
        exact ⟨0, rfl, ⟨c, rfl, (hs.equals _ _ pc pd).1 he⟩, fun i' _ h => by omega⟩
    · have hne : f c ≠ f d := fun h => he ((hs.equals _ _ pc pd).2 h)
      obtain ⟨r, h1, h2, h3⟩ := strchrLoop_spec hs j pd (t := t) (pos + 1) ht'
        (fun x hx => pt x (by simp [hx]))
      refine ⟨r, ?_, ?_, ?_⟩
      · show strchrLoop op d pos (c :: asArray t j) = _
        rw [strchrLoop, if_neg hc, if_neg he, h1]
      · intro h x hx
        rcases List.mem_cons.1 hx with rfl | hx
        · exact hne
        · exact h2 h x hx
      · intro p h
        obtain ⟨i, e, ⟨x, hx, hfx⟩, hmin⟩ := h3 p h
        refine ⟨i + 1, by omega, ⟨x, by simpa using hx, hfx⟩, ?_⟩
        intro i' y hi' hy
        cases i' with
        | zero => simp at hy; subst hy; exact hne
        | succ i' => exact hmin i' y (by omega) (by simpa using hy)

end Verif.CStr
