/-
  Repetition, and the change of the repetitions of a rule.
-/
import Verif.Spec.Gram

namespace Verif.Gram.Proof

open Verif.Gram Verif.Gram.Spec

/-! ## Words of a language one after the other -/

theorem Many.mono {M N : Lang} (h : ∀ w, M w → N w) {w : List Nat} (hw : Many M w) : Many N w := by
  induction hw with
  | nil => exact .nil
  | cons hu _ ih => exact .cons (h _ hu) ih

theorem Many.one {M : Lang} {w : List Nat} (h : M w) : Many M w := by
  have := Many.cons h (.nil : Many M [])
  simpa using this

theorem Many.append {M : Lang} {u v : List Nat} (hu : Many M u) (hv : Many M v) :
    Many M (u ++ v) := by
  induction hu with
  | nil => simpa using hv
  | cons h _ ih => rw [List.append_assoc]; exact .cons h ih

theorem Many.flat {M : Lang} {w : List Nat} (h : Many (Many M) w) : Many M w := by
  induction h with
  | nil => exact .nil
  | cons hu _ ih => exact Many.append hu ih

theorem repeated_mono {M N : Lang} (h : ∀ w, M w → N w) (r : Rep) {w : List Nat}
    (hw : repeated r M w) : repeated r N w := by
  cases r with
  | once => exact h _ hw
  | star => exact Many.mono h hw
  | plus =>
    obtain ⟨u, v, e, hu, hv⟩ := hw
    exact ⟨u, v, e, h _ hu, Many.mono h hv⟩
  | question =>
    rcases hw with hw | hw
    · exact .inl hw
    · exact .inr (h _ hw)

theorem repeated_many {M : Lang} (r : Rep) {w : List Nat} (hw : repeated r M w) : Many M w := by
  cases r with
  | once => exact Many.one hw
  | star => exact hw
  | plus =>
    obtain ⟨u, v, e, hu, hv⟩ := hw
    subst e
    exact .cons hu hv
  | question =>
    rcases hw with hw | hw
    · subst hw; exact .nil
    · exact Many.one hw

theorem plus_or_nil {M : Lang} {w : List Nat} (hw : Many M w) :
    w = [] ∨ repeated .plus M w := by
  cases hw with
  | nil => exact .inl rfl
  | cons hu hv => exact .inr ⟨_, _, rfl, hu, hv⟩

theorem repeated_one {M : Lang} (r : Rep) {w : List Nat} (hw : M w) : repeated r M w := by
  cases r with
  | once => exact hw
  | star => exact Many.one hw
  | plus => exact ⟨w, [], by simp, hw, .nil⟩
  | question => exact .inr hw

theorem repeated_opt {M : Lang} {r : Rep} (h : r.opt = true) : repeated r M [] := by
  cases r <;> simp [Rep.opt] at h
  · exact Many.nil
  · exact .inl rfl

/-- Two repetitions are one. -/
theorem repeated_combine (r1 r2 : Rep) (M : Lang) :
    repeated r1 (repeated r2 M) = repeated (combine r1 r2) M := by
  funext w
  apply propext
  have many : ∀ {w}, Many (repeated r2 M) w → Many M w := fun h =>
    Many.flat (Many.mono (fun _ => repeated_many r2) h)
  have star : ∀ {w}, Many M w → Many (repeated r2 M) w := fun h =>
    Many.mono (fun _ => repeated_one r2) h
  cases r1 with
  | once => cases r2 <;> simp [combine, repeated]
  | star => cases r2 <;> simp only [combine, repeated] <;> first
      | exact Iff.rfl
      | exact ⟨many, star⟩
  | question =>
    cases r2 with
    | once => simp [combine, repeated]
    | star =>
      simp only [combine, repeated]
      constructor
      · rintro (h | h)
        · subst h; exact .nil
        · exact h
      · exact .inr
    | plus =>
      simp only [combine]
      constructor
      · rintro (h | h)
        · subst h; exact Many.nil
        · exact repeated_many .plus h
      · intro h; exact plus_or_nil h
    | question =>
      simp only [combine, repeated]
      constructor
      · rintro (h | h)
        · exact .inl h
        · exact h
      · exact .inr
  | plus =>
    cases r2 with
    | once => simp [combine, repeated]
    | star =>
      simp only [combine]
      constructor
      · intro h; exact many (repeated_many .plus h)
      · intro h; exact repeated_one .plus h
    | plus =>
      simp only [combine]
      constructor
      · rintro ⟨u, v, e, ⟨a, b, e', ha, hb⟩, hv⟩
        subst e; subst e'
        exact ⟨a, b ++ v, by simp, ha, Many.append hb (many hv)⟩
      · intro h; exact repeated_one .plus h
    | question =>
      simp only [combine]
      constructor
      · intro h; exact many (repeated_many .plus h)
      · intro h
        cases h with
        | nil => exact ⟨[], [], rfl, .inl rfl, .nil⟩
        | cons hu hv => exact ⟨_, _, rfl, .inr hu, star hv⟩

theorem repeated_once (M : Lang) : repeated .once M = M := rfl

theorem combine_once (r : Rep) : combine .once r = r := by cases r <;> rfl

/-! ## More words for the rules, more words -/

mutual

theorem ofItem_mono {L L' : Nat → Lang} (h : ∀ r w, L r w → L' r w) :
    ∀ (i : Item) (w : List Nat), ofItem L i w → ofItem L' i w
  | .tok _ _, w, hw => by simpa only [ofItem] using hw
  | .ref x r, w, hw => by
    simp only [ofItem] at hw ⊢
    exact repeated_mono (h x) r hw
  | .group a r, w, hw => by
    simp only [ofItem] at hw ⊢
    exact repeated_mono (ofAlts_mono h a) r hw

theorem ofSeq_mono {L L' : Nat → Lang} (h : ∀ r w, L r w → L' r w) :
    ∀ (s : Seq) (w : List Nat), ofSeq L s w → ofSeq L' s w
  | .nil, w, hw => by simpa only [ofSeq] using hw
  | .cons i s, w, hw => by
    simp only [ofSeq] at hw ⊢
    obtain ⟨u, v, e, hu, hv⟩ := hw
    exact ⟨u, v, e, ofItem_mono h i u hu, ofSeq_mono h s v hv⟩

theorem ofAlts_mono {L L' : Nat → Lang} (h : ∀ r w, L r w → L' r w) :
    ∀ (a : Alts) (w : List Nat), ofAlts L a w → ofAlts L' a w
  | .nil, w, hw => by simp only [ofAlts] at hw
  | .cons s a, w, hw => by
    simp only [ofAlts] at hw ⊢
    rcases hw with hw | hw
    · exact .inl (ofSeq_mono h s w hw)
    · exact .inr (ofAlts_mono h a w hw)

end

/-! ## Groups with one element -/

theorem blank_full {a : Alts} (hf : FullAlts a) (h : a.blank = true) : a = .nil := by
  cases a with
  | nil => rfl
  | cons s a =>
    simp only [FullAlts] at hf
    cases s with
    | nil => exact absurd rfl hf.1
    | cons i s => simp [Alts.blank] at h

theorem single_full {a : Alts} (hf : FullAlts a) (h : a.single = true) :
    ∃ i, a = .cons (.cons i .nil) .nil := by
  cases a with
  | nil => simp [Alts.single] at h
  | cons s a =>
    simp only [FullAlts] at hf
    cases s with
    | nil => exact absurd rfl hf.1
    | cons i s =>
      cases s with
      | nil =>
        simp only [Alts.single] at h
        exact ⟨i, by rw [blank_full hf.2.2 h]⟩
      | cons j s => simp [Alts.single] at h

theorem ofAlts_single (L : Nat → Lang) (i : Item) :
    ofAlts L (.cons (.cons i .nil) .nil) = ofItem L i := by
  funext w
  simp [ofAlts, ofSeq]

theorem revSeq_single (outer : Rep) (i : Item) :
    revSeq outer (.cons i .nil) = .cons (revItem outer i) .nil := by
  cases i <;> simp [revSeq]

mutual

theorem ofItem_rev (L : Nat → Lang) (outer : Rep) :
    ∀ (i : Item), FullItem i → ofItem L (revItem outer i) = repeated outer (ofItem L i)
  | .tok t r, _ => by simp only [revItem, ofItem, repeated_combine]
  | .ref x r, _ => by simp only [revItem, ofItem, repeated_combine]
  | .group a r, hf => by
    by_cases hs : a.single = true
    · simp only [FullItem] at hf
      obtain ⟨j, rfl⟩ := single_full hf hs
      simp only [FullAlts, FullSeq] at hf
      simp only [revItem, hs, if_true, ofItem, revAlts, revSeq_single, ofAlts_single, repeated_once]
      rw [ofItem_rev L (combine outer r) j hf.2.1.1, repeated_combine]
    · simp only [revItem, hs, ofItem]
      simp only [FullItem] at hf
      rw [if_neg (by simp)]
      simp only [ofItem, ofAlts_rev L a hf, repeated_combine]

theorem ofSeq_rev (L : Nat → Lang) :
    ∀ (s : Seq), FullSeq s → ofSeq L (revSeq .once s) = ofSeq L s
  | .nil, _ => by simp only [revSeq]
  | .cons (.tok t r) s, hf => by
    simp only [FullSeq] at hf
    funext w
    simp only [revSeq, ofSeq, ofItem_rev L .once (.tok t r) hf.1, repeated]
  | .cons (.ref t r) s, hf => by
    simp only [FullSeq] at hf
    funext w
    simp only [revSeq, ofSeq, ofItem_rev L .once (.ref t r) hf.1, repeated]
  | .cons (.group t r) s, hf => by
    simp only [FullSeq] at hf
    funext w
    simp only [revSeq, ofSeq, ofItem_rev L .once (.group t r) hf.1, repeated,
      ofSeq_rev L s hf.2]

theorem ofAlts_rev (L : Nat → Lang) :
    ∀ (a : Alts), FullAlts a → ofAlts L (revAlts .once a) = ofAlts L a
  | .nil, _ => by simp only [revAlts]
  | .cons s a, hf => by
    simp only [FullAlts] at hf
    funext w
    simp only [revAlts, ofAlts, ofSeq_rev L s hf.2.1, ofAlts_rev L a hf.2.2]

end

/-- The changed rule means the same. -/
theorem ofAlts_revise (L : Nat → Lang) {a : Alts} (h : FullAlts a) :
    ofAlts L (revise a) = ofAlts L a := ofAlts_rev L a h

/-! ## The changed rule has something between all `|` too -/

mutual

theorem full_revItem (outer : Rep) : ∀ (i : Item), FullItem i → FullItem (revItem outer i)
  | .tok _ _, _ => by simp only [revItem, FullItem]
  | .ref _ _, _ => by simp only [revItem, FullItem]
  | .group a r, hf => by
    simp only [FullItem] at hf
    simp only [revItem]
    split <;> simp only [FullItem] <;> exact full_revAlts _ a hf

theorem full_revSeq (outer : Rep) : ∀ (s : Seq), FullSeq s → FullSeq (revSeq outer s)
  | .nil, _ => by simp only [revSeq, FullSeq]
  | .cons (.tok t r) s, hf => by
    simp only [FullSeq] at hf
    simp only [revSeq, FullSeq]
    exact ⟨full_revItem outer _ hf.1, hf.2⟩
  | .cons (.ref t r) s, hf => by
    simp only [FullSeq] at hf
    simp only [revSeq, FullSeq]
    exact ⟨full_revItem outer _ hf.1, hf.2⟩
  | .cons (.group t r) s, hf => by
    simp only [FullSeq] at hf
    simp only [revSeq, FullSeq]
    exact ⟨full_revItem outer _ hf.1, full_revSeq .once s hf.2⟩

theorem full_revAlts (outer : Rep) : ∀ (a : Alts), FullAlts a → FullAlts (revAlts outer a)
  | .nil, _ => by simp only [revAlts, FullAlts]
  | .cons s a, hf => by
    simp only [FullAlts] at hf
    simp only [revAlts, FullAlts]
    refine ⟨?_, full_revSeq outer s hf.2.1, full_revAlts outer a hf.2.2⟩
    cases s with
    | nil => exact absurd rfl hf.1
    | cons i s => cases i <;> simp [revSeq]

end

end Verif.Gram.Proof
