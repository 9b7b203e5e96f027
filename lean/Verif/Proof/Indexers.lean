import Verif.Proof.Overload2
import Verif.Spec.Indexers

/-! # Which indexer is found -/

namespace Verif.Indexers

open Verif.Overload (Ty Slot World AllFit Converts Above Reaches Height compareAll compareLoop unwalked unwalked_le unwalked_lt)

/-! ## Interfaces -/

/-- What a visit that finds nothing leaves behind. -/
structure Swept (W : World) (own : Ty → Res) (walked walked' : List Ty) : Prop where
  keeps : ∀ x ∈ walked, x ∈ walked'
  fresh : ∀ x ∈ walked', x ∉ walked → own x = .notFound ∧ ∀ s ∈ W.supers x, s ∈ walked'

theorem Swept.trans {W : World} {own : Ty → Res} {a b c : List Ty} (h : Swept W own a b) (k : Swept W own b c) :
    Swept W own a c := by
  refine ⟨fun x hx => k.keeps x (h.keeps x hx), ?_⟩
  intro x hx hna
  by_cases hb : x ∈ b
  · obtain ⟨h1, h2⟩ := h.fresh x hb hna
    exact ⟨h1, fun s hs => k.keeps s (h2 s hs)⟩
  · exact k.fresh x hx hb

theorem eachSuper_swept {W : World} {own : Ty → Res} {visit : Ty → List Ty → Res × List Ty}
    (hv : ∀ t walked walked', visit t walked = (.notFound, walked') → Swept W own walked walked' ∧ t ∈ walked') :
    ∀ (ss : List Ty) (walked walked' : List Ty), eachSuper visit ss walked = (.notFound, walked') →
      Swept W own walked walked' ∧ ∀ s ∈ ss, s ∈ walked'
  | [], walked, walked', h => by
    simp only [eachSuper, Prod.mk.injEq, true_and] at h
    subst h
    exact ⟨⟨fun _ h => h, fun x hx hn => absurd hx hn⟩, by simp⟩
  | s :: ss, walked, walked', h => by
    unfold eachSuper at h
    split at h
    · rename_i w he
      obtain ⟨h1, h2⟩ := hv s walked w he
      obtain ⟨k1, k2⟩ := eachSuper_swept hv ss w walked' h
      refine ⟨h1.trans k1, ?_⟩
      intro x hx
      rcases List.mem_cons.1 hx with rfl | hx
      · exact k1.keeps _ h2
      · exact k2 x hx
    · rename_i hne
      exact absurd h (hne walked')

theorem inInterface_swept (W : World) (own : Ty → Res) :
    ∀ (n : Nat) (t : Ty) (walked walked' : List Ty), inInterface W own n t walked = (.notFound, walked') →
      Swept W own walked walked' ∧ t ∈ walked'
  | 0, t, walked, walked', h => by simp [inInterface] at h
  | n + 1, t, walked, walked', h => by
    unfold inInterface at h
    by_cases hm : t ∈ walked
    · rw [if_pos hm] at h
      simp only [Prod.mk.injEq, true_and] at h
      subst h
      exact ⟨⟨fun _ h => h, fun x hx hn => absurd hx hn⟩, hm⟩
    · rw [if_neg hm] at h
      split at h
      · rename_i hnf
        obtain ⟨h1, h2⟩ := eachSuper_swept (inInterface_swept W own n) (W.supers t) (t :: walked) walked' h
        refine ⟨⟨fun x hx => h1.keeps x (List.mem_cons_of_mem _ hx), ?_⟩, h1.keeps t List.mem_cons_self⟩
        intro x hx hna
        by_cases hxt : x = t
        · subst hxt
          exact ⟨hnf, h2⟩
        · exact h1.fresh x hx (by simp [hxt, hna])
      · rename_i hne
        simp only [Prod.mk.injEq] at h
        exact absurd h.1 (by intro e; exact hne e)

theorem inInterface_notFound {W : World} {own : Ty → Res} {n : Nat} {t : Ty}
    (h : (inInterface W own n t []).1 = .notFound) {d : Ty} (hr : Reaches W t d) : own d = .notFound := by
  obtain ⟨h1, h2⟩ := inInterface_swept W own n t [] (inInterface W own n t []).2 (by rw [← h])
  have key : ∀ {a b : Ty}, Reaches W a b → a ∈ (inInterface W own n t []).2 → b ∈ (inInterface W own n t []).2 := by
    intro a b hab
    induction hab with
    | refl => exact id
    | step hs _ ih => intro ha; exact ih ((h1.fresh _ ha (by simp)).2 _ hs)
  exact (h1.fresh d (key hr h2) (by simp)).1

theorem eachSuper_other {W : World} {own : Ty → Res} {visit : Ty → List Ty → Res × List Ty} {r : Res} (hr : r ≠ .notFound)
    (hf : r ≠ .outOfFuel)
    (hv : ∀ t walked, (visit t walked).1 = r → ∃ d, Reaches W t d ∧ own d = r) :
    ∀ (ss : List Ty) (walked : List Ty), (eachSuper visit ss walked).1 = r →
      ∃ s ∈ ss, ∃ d, Reaches W s d ∧ own d = r
  | [], walked, h => by simp [eachSuper] at h; exact absurd h.symm hr
  | s :: ss, walked, h => by
    unfold eachSuper at h
    split at h
    · obtain ⟨x, hx, d, hd⟩ := eachSuper_other hr hf hv ss _ h
      exact ⟨x, List.mem_cons_of_mem _ hx, d, hd⟩
    · obtain ⟨d, hd⟩ := hv s walked h
      exact ⟨s, List.mem_cons_self, d, hd⟩

theorem inInterface_other (W : World) (own : Ty → Res) {r : Res} (hr : r ≠ .notFound) (hf : r ≠ .outOfFuel) :
    ∀ (n : Nat) (t : Ty) (walked : List Ty), (inInterface W own n t walked).1 = r →
      ∃ d, Reaches W t d ∧ own d = r
  | 0, t, walked, h => by simp [inInterface] at h; exact absurd h.symm hf
  | n + 1, t, walked, h => by
    unfold inInterface at h
    by_cases hm : t ∈ walked
    · rw [if_pos hm] at h; exact absurd h.symm hr
    · rw [if_neg hm] at h
      split at h
      · obtain ⟨s, hs, d, hd1, hd2⟩ := eachSuper_other hr hf (inInterface_other W own hr hf n) (W.supers t) _ h
        exact ⟨d, .step hs hd1, hd2⟩
      · exact ⟨t, .refl, h⟩

/-! ### Enough steps -/

theorem eachSuper_fuel {W : World} {own : Ty → Res} {L : List Ty} {visit : Ty → List Ty → Res × List Ty} {n : Nat}
    (hv : ∀ t walked, t ∈ L → (unwalked L walked).length < n → (visit t walked).1 ≠ .outOfFuel)
    (hs : ∀ t walked walked', visit t walked = (.notFound, walked') → Swept W own walked walked' ∧ t ∈ walked') :
    ∀ (ss : List Ty) (walked : List Ty), (∀ s ∈ ss, s ∈ L) → (unwalked L walked).length < n →
      (eachSuper visit ss walked).1 ≠ .outOfFuel
  | [], walked, _, _ => by simp [eachSuper]
  | s :: ss, walked, hL, hn => by
    unfold eachSuper
    split
    · rename_i w he
      refine eachSuper_fuel hv hs ss w (fun x hx => hL x (List.mem_cons_of_mem _ hx)) ?_
      have := unwalked_le (L := L) (hs s walked w he).1.keeps
      omega
    · exact hv s walked (hL s List.mem_cons_self) hn

theorem inInterface_fuel {W : World} {own : Ty → Res} {L : List Ty} (ho : ∀ d, own d ≠ .outOfFuel) (hL : ∀ x ∈ L, ∀ s ∈ W.supers x, s ∈ L) :
    ∀ (n : Nat) (t : Ty) (walked : List Ty), t ∈ L → (unwalked L walked).length < n →
      (inInterface W own n t walked).1 ≠ .outOfFuel
  | 0, t, walked, _, h => by omega
  | n + 1, t, walked, ht, h => by
    unfold inInterface
    by_cases hm : t ∈ walked
    · simp [hm]
    · rw [if_neg hm]
      split
      · refine eachSuper_fuel (n := n) (inInterface_fuel ho hL n) (inInterface_swept W own n) _ _ (hL t ht) ?_
        have := unwalked_lt ht hm
        omega
      · exact ho t


/-! ## One class -/

/-- The comparison for parameters without type parameters. -/
theorem compareAll_closed {W : World} (g : W.Good) {ps as : List Slot} (hc : ∀ p ∈ ps, p.2.closed = true)
    (hp : W.PlainCall ps as) (hl : ps.length = as.length) :
    ∃ r, (compareAll W false [] ps as).1 = r ∧ (r = .equals ∨ r = .matched ∨ r = .notMatch) ∧
      (r = .equals ↔ ps = as) ∧ (r ≠ .notMatch ↔ AllFit (Converts W) ps as) := by
  obtain ⟨r, e, h1, h2, h3⟩ := Verif.Overload.compareLoop_closed W false [] ps as .equals hl hc (Or.inl rfl)
  refine ⟨r, ?_, h1, by simpa using h2, h3.trans (Verif.Overload.allFit_congr g hp)⟩
  unfold compareAll
  rw [if_neg (by omega), e]

/-- One property: what the analyzer does with it. -/
theorem analyzeOne_ready {W : World} (g : W.Good) {as : List Slot} (s : Acc) {p : Property}
    (hc : ∀ l, IsIndexer p l → ∀ x ∈ l, x.2.closed = true) (hp : ∀ l, IsIndexer p l → W.PlainCall l as) :
    (Exact p as ∧ Applicable W p as ∧ analyzeOne W none as s p = some { s with equaled := some p }) ∨
    (¬ Exact p as ∧ Applicable W p as ∧ analyzeOne W none as s p = some { s with matched := s.matched ++ [p] }) ∨
    (¬ Exact p as ∧ ¬ Applicable W p as ∧ analyzeOne W none as s p = some s) := by
  have hno : (∀ l, ¬ IsIndexer p l) → analyzeOne W none as s p = some s →
      (¬ Exact p as ∧ ¬ Applicable W p as ∧ analyzeOne W none as s p = some s) :=
    fun h e => ⟨h as, fun ⟨l, hl, _⟩ => h l hl, e⟩
  by_cases ho : p.owner = none
  · cases hi : p.item with
    | false =>
      refine Or.inr (Or.inr (hno (fun l hl => by rw [hl.1] at hi; cases hi) ?_))
      unfold analyzeOne
      rw [if_neg (by simp [ho]), hi]
    | true =>
      cases hps : p.params with
      | none =>
        refine Or.inr (Or.inr (hno (fun l hl => by rw [hl.2.2] at hps; cases hps) ?_))
        unfold analyzeOne
        rw [if_neg (by simp [ho]), hi, hps]
      | some ps =>
        have hip : IsIndexer p ps := ⟨hi, ho, hps⟩
        have huniq : ∀ l, IsIndexer p l → l = ps := by
          intro l hl
          have := hl.2.2
          rw [hps] at this
          injection this with this
          exact this.symm
        have hex : Exact p as ↔ ps = as := ⟨fun h => (huniq as h).symm, fun h => h ▸ hip⟩
        have hap : Applicable W p as ↔ AllFit (Converts W) ps as :=
          ⟨fun ⟨l, h1, h2⟩ => by rw [huniq l h1] at h2; exact h2, fun h => ⟨ps, hip, h⟩⟩
        by_cases hl : ps.length = as.length
        · have hs : ∀ r, (compareAll W false [] ps as).1 = r → analyzeOne W none as s p = (match r with
              | .equals => some { s with equaled := some p }
              | .matched => some { s with matched := s.matched ++ [p] }
              | .notMatch => some s
              | _ => none) := by
            intro r e
            unfold analyzeOne
            rw [if_neg (by simp [ho]), hi, hps]
            dsimp only
            rw [if_neg (by omega), e]
            rfl
          obtain ⟨r, e, h1, h2, h3⟩ := compareAll_closed g (hc ps hip) (hp ps hip) hl
          have hs := hs r e
          rcases h1 with h | h | h
          · subst h
            exact Or.inl ⟨hex.2 (h2.1 rfl), hap.2 (h3.1 (by simp)), hs⟩
          · subst h
            exact Or.inr (Or.inl ⟨fun hh => by simpa using h2.2 (hex.1 hh), hap.2 (h3.1 (by simp)), hs⟩)
          · subst h
            exact Or.inr (Or.inr ⟨fun hh => by simpa using h2.2 (hex.1 hh), fun hh => h3.2 (hap.1 hh) rfl, hs⟩)
        · refine Or.inr (Or.inr ⟨fun hh => hl (by rw [hex.1 hh]), fun hh => hl (Verif.Overload.allFit_length (hap.1 hh)), ?_⟩)
          unfold analyzeOne
          rw [if_neg (by simp [ho]), hi, hps]
          dsimp only
          rw [if_pos hl]
  · refine Or.inr (Or.inr (hno (fun l hl => ho hl.2.1) ?_))
    unfold analyzeOne
    rw [if_pos ho]

/-- All properties of a class. -/
theorem analyze_ready {W : World} (g : W.Good) {as : List Slot} :
    ∀ (ps : List Property) (s : Acc), (∀ p ∈ ps, ∀ l, IsIndexer p l → ∀ x ∈ l, x.2.closed = true) →
      (∀ p ∈ ps, ∀ l, IsIndexer p l → W.PlainCall l as) → ps.Nodup →
      ∃ (e : Option Property) (l : List Property),
        analyze W none as ps s = some ⟨e.or s.equaled, s.matched ++ l⟩ ∧
        l.Nodup ∧ (∀ p, p ∈ l ↔ p ∈ ps ∧ Applicable W p as ∧ ¬ Exact p as) ∧
        (∀ p, e = some p → p ∈ ps ∧ Exact p as) ∧ (e = none → ∀ p ∈ ps, ¬ Exact p as)
  | [], s, _, _, _ => ⟨none, [], by simp [analyze], List.nodup_nil, by simp, by simp, by simp⟩
  | p :: ps, s, hc, hp, hn => by
    have hn' : p ∉ ps ∧ ps.Nodup := by simpa using hn
    have hc' := fun q (hq : q ∈ ps) => hc q (List.mem_cons_of_mem _ hq)
    have hp' := fun q (hq : q ∈ ps) => hp q (List.mem_cons_of_mem _ hq)
    rcases analyzeOne_ready g s (hc p List.mem_cons_self) (hp p List.mem_cons_self) with ⟨hx, ha, hs⟩ | ⟨hx, ha, hs⟩ | ⟨hx, ha, hs⟩
    · obtain ⟨e, l, h1, h2, h3, h4, h5⟩ := analyze_ready g ps { s with equaled := some p } hc' hp' hn'.2
      refine ⟨e.or (some p), l, ?_, h2, ?_, ?_, ?_⟩
      · rw [analyze, hs]
        dsimp only
        rw [h1]
        cases e <;> rfl
      · intro q
        rw [h3, List.mem_cons]
        constructor
        · rintro ⟨a, b⟩; exact ⟨Or.inr a, b⟩
        · rintro ⟨rfl | a, b⟩
          · exact absurd hx b.2
          · exact ⟨a, b⟩
      · intro q hq
        cases e with
        | none =>
          have hq : some p = some q := hq
          injection hq with hq
          subst hq
          exact ⟨List.mem_cons_self, hx⟩
        | some r =>
          have hq : some r = some q := hq
          obtain ⟨a, b⟩ := h4 q hq
          exact ⟨List.mem_cons_of_mem _ a, b⟩
      · intro he
        cases e <;> cases he
    · obtain ⟨e, l, h1, h2, h3, h4, h5⟩ := analyze_ready g ps { s with matched := s.matched ++ [p] } hc' hp' hn'.2
      refine ⟨e, p :: l, ?_, ?_, ?_, ?_, ?_⟩
      · rw [analyze, hs]
        dsimp only
        rw [h1]
        simp
      · exact List.nodup_cons.2 ⟨fun hm => hn'.1 ((h3 p).1 hm).1, h2⟩
      · intro q
        rw [List.mem_cons, h3, List.mem_cons]
        constructor
        · rintro (rfl | ⟨a, b⟩)
          · exact ⟨Or.inl rfl, ha, hx⟩
          · exact ⟨Or.inr a, b⟩
        · rintro ⟨rfl | a, b⟩
          · exact Or.inl rfl
          · exact Or.inr ⟨a, b⟩
      · intro q hq
        obtain ⟨a, b⟩ := h4 q hq
        exact ⟨List.mem_cons_of_mem _ a, b⟩
      · intro he q hq
        rcases List.mem_cons.1 hq with rfl | hq
        · exact hx
        · exact h5 he q hq
    · obtain ⟨e, l, h1, h2, h3, h4, h5⟩ := analyze_ready g ps s hc' hp' hn'.2
      refine ⟨e, l, ?_, h2, ?_, ?_, ?_⟩
      · rw [analyze, hs]
        dsimp only
        rw [h1]
      · intro q
        rw [h3, List.mem_cons]
        constructor
        · rintro ⟨a, b⟩; exact ⟨Or.inr a, b⟩
        · rintro ⟨rfl | a, b⟩
          · exact absurd b.1 ha
          · exact ⟨a, b⟩
      · intro q hq
        obtain ⟨a, b⟩ := h4 q hq
        exact ⟨List.mem_cons_of_mem _ a, b⟩
      · intro he q hq
        rcases List.mem_cons.1 hq with rfl | hq
        · exact hx
        · exact h5 he q hq

theorem inType_chosen {W : World} (g : W.Good) {as : List Slot} {ps : List Property} (h : Ready W as ps) :
    Chosen W as ps (inType W none false as ps) := by
  obtain ⟨e, l, h1, h2, h3, h4, h5⟩ := analyze_ready g ps ⟨none, []⟩ h.closed h.plain h.nodup
  unfold inType
  rw [h1]
  dsimp only
  unfold Acc.result
  cases e with
  | some p =>
    obtain ⟨a, b⟩ := h4 p rfl
    exact .exact a b
  | none =>
    have h5 := h5 rfl
    match l, h2, h3 with
    | [], _, h3 =>
      refine .nothing ?_
      intro p hp ha
      have := (h3 p).2 ⟨hp, ha, h5 p hp⟩
      cases this
    | [p], _, h3 =>
      have hm := (h3 p).1 (by simp)
      refine .only h5 hm.1 hm.2.1 ?_
      intro q hq ha
      have := (h3 q).2 ⟨hq, ha, h5 q hq⟩
      simpa using this
    | p :: q :: l, h2, h3 =>
      have hp := (h3 p).1 (by simp)
      have hq := (h3 q).1 (by simp)
      refine .ambiguous h5 hp.1 hq.1 ?_ hp.2.1 hq.2.1
      intro he
      subst he
      simp at h2

theorem applicable_of_exact {W : World} {p : Property} {as : List Slot} (h : Exact p as) : Applicable W p as := by
  refine ⟨as, h, ?_⟩
  clear h
  induction as with
  | nil => exact .nil
  | cons a as ih => exact .cons ⟨rfl, Or.inl rfl⟩ ih

/-- The rules have one answer. -/
theorem chosen_unique {W : World} {as : List Slot} {ps : List Property} (hd : Different ps) {x y : Res}
    (hx : Chosen W as ps x) (hy : Chosen W as ps y) : x = y := by
  cases hx with
  | exact h1 h2 =>
    cases hy with
    | exact k1 k2 => exact congrArg _ (hd _ h1 _ k1 as h2 k2)
    | only k1 => exact absurd h2 (k1 _ h1)
    | ambiguous k1 => exact absurd h2 (k1 _ h1)
    | nothing k => exact absurd (applicable_of_exact h2) (k _ h1)
  | only h1 h2 h3 h4 =>
    cases hy with
    | exact k1 k2 => exact absurd k2 (h1 _ k1)
    | only k1 k2 k3 k4 => exact congrArg _ (k4 _ h2 h3)
    | ambiguous k1 k2 k3 k4 k5 k6 => exact absurd ((h4 _ k2 k5).trans (h4 _ k3 k6).symm) k4
    | nothing k => exact absurd h3 (k _ h2)
  | ambiguous h1 h2 h3 h4 h5 h6 =>
    cases hy with
    | exact k1 k2 => exact absurd k2 (h1 _ k1)
    | only k1 k2 k3 k4 => exact absurd ((k4 _ h2 h5).trans (k4 _ h3 h6).symm) h4
    | ambiguous => rfl
    | nothing k => exact absurd h5 (k _ h2)
  | nothing h =>
    cases hy with
    | exact k1 k2 => exact absurd (applicable_of_exact k2) (h _ k1)
    | only k1 k2 k3 k4 => exact absurd k3 (h _ k2)
    | ambiguous k1 k2 k3 k4 k5 k6 => exact absurd k5 (h _ k2)
    | nothing => rfl

theorem inType_fuel (W : World) (o : Option Nat) (x : Bool) (as : List Slot) (ps : List Property) :
    inType W o x as ps ≠ .outOfFuel := by
  unfold inType
  split
  · unfold Acc.result
    split
    · simp
    · split
      · simp
      · split <;> simp
  · simp

/-! ## Base classes -/

theorem inBases_chosen {W : World} {props : Ty → List Property} {as : List Slot} {own : Ty → Res} :
    ∀ (k n : Nat) (o : Option Ty) (walked : List Ty), Height W o k → k < n →
      (∀ w ∈ walked, ∃ j, k < j ∧ Height W (some w) j) →
      (∀ t, Above W o t → Chosen W as (props t) (own t)) →
      ChosenUp W props as o (inBases W own n walked o) := by
  intro k
  induction k with
  | zero =>
    intro n o walked hh hn _ _
    cases hh
    cases n with
    | zero => omega
    | succ n => exact .top
  | succ k ih =>
    intro n o walked hh hn hw hr
    cases hh with
    | @step t _ hh =>
      cases n with
      | zero => omega
      | succ n =>
        have hnot : t ∉ walked := by
          intro hm
          obtain ⟨j, hj, hj'⟩ := hw t hm
          have := Verif.Overload.height_unique (.step hh) hj'
          omega
        have h1 := hr t .here
        unfold inBases
        rw [if_neg hnot]
        split
        · rename_i he
          rw [he] at h1
          refine .up h1 (ih n (W.baseOf t) (t :: walked) hh (by omega) ?_ (fun s hs => hr s (.up hs)))
          intro w hw'
          rcases List.mem_cons.1 hw' with rfl | hw'
          · exact ⟨k + 1, by omega, .step hh⟩
          · obtain ⟨j, hj, hj'⟩ := hw w hw'
            exact ⟨j, by omega, hj'⟩
        · rename_i he
          exact .here h1 he

theorem chosenUp_unique {W : World} {props : Ty → List Property} {as : List Slot} {o : Option Ty}
    (hd : ∀ t, Above W o t → Different (props t))
    {x y : Res} (hx : ChosenUp W props as o x) (hy : ChosenUp W props as o y) : x = y := by
  induction hx with
  | top => cases hy; rfl
  | here h1 h2 =>
    cases hy with
    | here k1 k2 => exact chosen_unique (hd _ .here) h1 k1
    | up k1 k2 => exact absurd (chosen_unique (hd _ .here) h1 k1) h2
  | up h1 _ ih =>
    cases hy with
    | here k1 k2 => exact absurd (chosen_unique (hd _ .here) k1 h1) k2
    | up k1 k2 => exact ih (fun t ht => hd t (.up ht)) k2

end Verif.Indexers
