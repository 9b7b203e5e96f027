import Verif.Spec.Pools

namespace Verif.Pools

theorem mem_insertSet (x a : Nat) : ∀ l : List Nat, x ∈ insertSet a l ↔ x = a ∨ x ∈ l
  | [] => by simp [insertSet]
  | b :: l => by
    unfold insertSet
    split
    · simp
    · split
      · rename_i h; subst h; simp
      · simp only [List.mem_cons, mem_insertSet x a l]
        constructor
        · rintro (h | h | h) <;> simp [h]
        · rintro (h | h | h) <;> simp [h]

theorem sorted_insertSet (a : Nat) : ∀ l : List Nat, l.Pairwise (· < ·) → (insertSet a l).Pairwise (· < ·)
  | [], _ => by simp [insertSet]
  | b :: l, h => by
    have h' := h
    rw [List.pairwise_cons] at h'
    unfold insertSet
    split
    · rename_i hab
      rw [List.pairwise_cons]
      refine ⟨fun x hx => ?_, h⟩
      rcases List.mem_cons.1 hx with rfl | hx
      · exact hab
      · exact Nat.lt_trans hab (h'.1 x hx)
    · split
      · exact h
      · rename_i h1 h2
        rw [List.pairwise_cons]
        refine ⟨fun x hx => ?_, sorted_insertSet a l h'.2⟩
        rcases (mem_insertSet x a l).1 hx with rfl | hx
        · omega
        · exact h'.1 x hx

theorem nodup_of_sorted {l : List Nat} (h : l.Pairwise (· < ·)) : l.Nodup :=
  List.Pairwise.imp (fun h => Nat.ne_of_lt h) h

/-- What holds of a pool and memory between calls. -/
structure Inv (p : Pool) (w : World) : Prop where
  sane : w.Sane
  sorted : p.objects.Pairwise (· < ·)
  mine : ∀ a ∈ p.objects, a ∈ w.built

theorem run_makes {pick : List Nat → Nat} (fresh : Fresh pick) :
    ∀ (calls : List Call) (p : Pool) (w : World), Inv p w → Makes calls →
      ∃ p' w' as, run pick calls p w = some (p', w', as) ∧ Inv p' w' ∧ Kept calls as w w' ∧
        ∀ a, a ∈ p'.objects ↔ a ∈ p.objects ∨ ObjectAt calls as a
  | [], p, w, I, _ => ⟨p, w, [], rfl, I, ⟨rfl, List.nodup_nil, by simp, by simp, by simp, by simp [ObjectAt]⟩,
      by simp [ObjectAt]⟩
  | c :: cs, p, w, I, M => by
    have hf : pick w.live ∉ w.live := fresh w.live
    have hnb : pick w.live ∉ w.built := fun h => hf (I.sane.held _ h)
    have M' : Makes cs := fun c hc => M c (List.mem_cons_of_mem _ hc)
    rcases M c List.mem_cons_self with rfl | rfl
    · have I1 : Inv ⟨insertSet (pick w.live) p.objects⟩
          ⟨pick w.live :: w.live, pick w.live :: w.built, w.log ++ [.made (pick w.live)]⟩ := by
        refine ⟨⟨List.nodup_cons.2 ⟨hf, I.sane.live⟩, List.nodup_cons.2 ⟨hnb, I.sane.built⟩, ?_⟩,
          sorted_insertSet _ _ I.sorted, ?_⟩
        · intro a ha
          rcases List.mem_cons.1 ha with rfl | ha
          · exact List.mem_cons_self
          · exact List.mem_cons_of_mem _ (I.sane.held a ha)
        · intro a ha
          rcases (mem_insertSet _ _ _).1 ha with rfl | ha
          · exact List.mem_cons_self
          · exact List.mem_cons_of_mem _ (I.mine a ha)
      obtain ⟨p', w', as, h1, h2, K, h3⟩ := run_makes fresh cs _ _ I1 M'
      refine ⟨p', w', pick w.live :: as, ?_, h2, ⟨?_, ?_, ?_, ?_, ?_, ?_⟩, ?_⟩
      · simp only [run, step, Pool.newObj, Pool.alloc, World.new]
        simp [h1]
      · simp [K.all]
      · exact List.nodup_cons.2 ⟨fun h => K.own _ h List.mem_cons_self, K.apart⟩
      · intro a ha
        rcases List.mem_cons.1 ha with rfl | ha
        · exact hf
        · exact fun h => K.own a ha (List.mem_cons_of_mem _ h)
      · rw [K.log]; simp [birth]
      · intro a
        rw [K.live a]
        simp only [List.mem_cons]
        constructor
        · rintro ((h | h) | h) <;> simp [h]
        · rintro (h | h | h) <;> simp [h]
      · intro a
        rw [K.built a]
        simp only [ObjectAt, List.zip_cons_cons, List.mem_cons, Prod.mk.injEq, true_and]
        constructor
        · rintro ((h | h) | h) <;> simp [h]
        · rintro (h | h | h) <;> simp [h]
      · intro a
        rw [h3 a]
        simp only [ObjectAt, List.zip_cons_cons, List.mem_cons, Prod.mk.injEq, true_and, mem_insertSet]
        constructor
        · rintro ((h | h) | h) <;> simp [h]
        · rintro (h | h | h) <;> simp [h]
    · have I1 : Inv p ⟨pick w.live :: w.live, w.built, w.log ++ [.given (pick w.live)]⟩ :=
        ⟨⟨List.nodup_cons.2 ⟨hf, I.sane.live⟩, I.sane.built,
          fun a ha => List.mem_cons_of_mem _ (I.sane.held a ha)⟩, I.sorted, I.mine⟩
      obtain ⟨p', w', as, h1, h2, K, h3⟩ := run_makes fresh cs _ _ I1 M'
      refine ⟨p', w', pick w.live :: as, ?_, h2, ⟨?_, ?_, ?_, ?_, ?_, ?_⟩, ?_⟩
      · simp only [run, step, Pool.newPlain, Pool.alloc, World.new]
        simp [h1]
      · simp [K.all]
      · exact List.nodup_cons.2 ⟨fun h => K.own _ h List.mem_cons_self, K.apart⟩
      · intro a ha
        rcases List.mem_cons.1 ha with rfl | ha
        · exact hf
        · exact fun h => K.own a ha (List.mem_cons_of_mem _ h)
      · rw [K.log]; simp [birth]
      · intro a
        rw [K.live a]
        simp only [List.mem_cons]
        constructor
        · rintro ((h | h) | h) <;> simp [h]
        · rintro (h | h | h) <;> simp [h]
      · intro a
        rw [K.built a]
        simp [ObjectAt]
      · intro a
        rw [h3 a]
        simp [ObjectAt]

/-- What the loop of the destructor logs. -/
def ends (l : List Nat) : List Event := l.flatMap fun a => [.gone a, .back a]

theorem closeList_ok : ∀ (l : List Nat) (w : World), l.Nodup → w.live.Nodup → w.built.Nodup →
    (∀ a ∈ l, a ∈ w.live) → (∀ a ∈ l, a ∈ w.built) →
    ∃ w', closeList l w = some w' ∧ w'.log = w.log ++ ends l ∧
      (∀ a, a ∈ w'.live ↔ a ∈ w.live ∧ a ∉ l) ∧ (∀ a, a ∈ w'.built ↔ a ∈ w.built ∧ a ∉ l)
  | [], w, _, _, _, _, _ => ⟨w, rfl, by simp [ends], by simp, by simp⟩
  | x :: l, w, hn, hl, hb, h1, h2 => by
    rw [List.nodup_cons] at hn
    have hx1 := h1 x List.mem_cons_self
    have hx2 := h2 x List.mem_cons_self
    obtain ⟨w', e, e1, e2, e3⟩ := closeList_ok l
      ⟨w.live.erase x, w.built.erase x, w.log ++ [.gone x] ++ [.back x]⟩ hn.2 (hl.erase x) (hb.erase x)
      (fun a ha => by
        have : a ≠ x := fun h => hn.1 (h ▸ ha)
        exact (List.mem_erase_of_ne this).2 (h1 a (List.mem_cons_of_mem _ ha)))
      (fun a ha => by
        have : a ≠ x := fun h => hn.1 (h ▸ ha)
        exact (List.mem_erase_of_ne this).2 (h2 a (List.mem_cons_of_mem _ ha)))
    refine ⟨w', ?_, ?_, ?_, ?_⟩
    · simp only [closeList, World.destroy, World.delete, hx2, if_true, Option.bind_eq_bind, Option.bind_some, hx1]
      exact e
    · rw [e1]; simp [ends]
    · intro a
      rw [e2 a]
      simp only [hl.mem_erase_iff, List.mem_cons, not_or]
      constructor
      · rintro ⟨⟨a1, a2⟩, a3⟩; exact ⟨a2, a1, a3⟩
      · rintro ⟨a2, a1, a3⟩; exact ⟨⟨a1, a2⟩, a3⟩
    · intro a
      rw [e3 a]
      simp only [hb.mem_erase_iff, List.mem_cons, not_or]
      constructor
      · rintro ⟨⟨a1, a2⟩, a3⟩; exact ⟨a2, a1, a3⟩
      · rintro ⟨a2, a1, a3⟩; exact ⟨⟨a1, a2⟩, a3⟩

theorem count_gone (a : Nat) : ∀ l : List Nat, (ends l).count (.gone a) = l.count a
  | [] => rfl
  | x :: l => by
    have : ends (x :: l) = .gone x :: .back x :: ends l := rfl
    rw [this, List.count_cons, List.count_cons, count_gone a l, List.count_cons]
    simp

theorem count_back (a : Nat) : ∀ l : List Nat, (ends l).count (.back a) = l.count a
  | [] => rfl
  | x :: l => by
    have : ends (x :: l) = .gone x :: .back x :: ends l := rfl
    rw [this, List.count_cons, List.count_cons, count_back a l, List.count_cons]
    simp

theorem ends_split {a : Nat} : ∀ {l : List Nat}, a ∈ l → ∃ l1 l2, ends l = l1 ++ .gone a :: .back a :: l2
  | x :: l, h => by
    have e : ends (x :: l) = .gone x :: .back x :: ends l := rfl
    rcases List.mem_cons.1 h with rfl | h
    · exact ⟨[], ends l, by simp [e]⟩
    · obtain ⟨l1, l2, e'⟩ := ends_split h
      exact ⟨.gone x :: .back x :: l1, l2, by simp [e, e']⟩

theorem mem_ends {e : Event} {l : List Nat} (h : e ∈ ends l) : ∃ a ∈ l, e = .gone a ∨ e = .back a := by
  unfold ends at h
  obtain ⟨a, ha, h⟩ := List.mem_flatMap.1 h
  exact ⟨a, ha, by simpa using h⟩

theorem count_one {a : Nat} : ∀ {l : List Nat}, l.Nodup → a ∈ l → l.count a = 1
  | x :: l, hn, h => by
    rw [List.nodup_cons] at hn
    rcases List.mem_cons.1 h with rfl | h
    · rw [List.count_cons_self, List.count_eq_zero.2 hn.1]
    · have : x ≠ a := fun e => hn.1 (e ▸ h)
      rw [List.count_cons_of_ne this, count_one hn.2 h]

theorem close_ends {calls : List Call} {p : Pool} {w0 w : World} {as : List Nat} (I : Inv p w)
    (K : Kept calls as w0 w) (S : w0.Sane)
    (ho : ∀ a, a ∈ p.objects ↔ ObjectAt calls as a) : ∃ w', p.close w = some w' ∧ Ended calls as w0 w w' := by
  obtain ⟨w', e, e1, e2, e3⟩ := closeList_ok p.objects w (nodup_of_sorted I.sorted) I.sane.live I.sane.built
    (fun a ha => I.sane.held a (I.mine a ha)) I.mine
  have mem : ∀ a, ObjectAt calls as a → a ∈ as := fun a h => (List.of_mem_zip h).2
  refine ⟨w', e, ⟨ends p.objects, e1, ?_, ?_⟩, ?_, ?_⟩
  · intro a ha
    have hm := (ho a).2 ha
    refine ⟨?_, ?_, ends_split hm⟩
    · rw [count_gone]; exact count_one (nodup_of_sorted I.sorted) hm
    · rw [count_back]; exact count_one (nodup_of_sorted I.sorted) hm
  · intro ev hev
    obtain ⟨a, ha, h⟩ := mem_ends hev
    exact ⟨a, (ho a).1 ha, h⟩
  · intro a
    rw [e2 a, K.live a, ho a]
    constructor
    · rintro ⟨h | h, h'⟩
      · exact .inl h
      · exact .inr ⟨h, h'⟩
    · rintro (h | ⟨h, h'⟩)
      · exact ⟨.inl h, fun h' => K.own a (mem a h') h⟩
      · exact ⟨.inr h, h'⟩
  · intro a
    rw [e3 a, K.built a, ho a]
    constructor
    · rintro ⟨h | h, h'⟩
      · exact h
      · exact absurd h h'
    · intro h
      exact ⟨.inl h, fun h' => K.own a (mem a h') (S.held a h)⟩

theorem free_none (p : Pool) (w : World) (a : Nat) : p.free w a = none := by
  unfold Pool.free
  by_cases h : a ∈ p.objects
  · have e : p.find a = .elem a := by simp [Pool.find, h]
    rw [e]
    dsimp only
    cases w.destroy a <;> rfl
  · have e : p.find a = .ending := by simp [Pool.find, h]
    rw [e]
    rfl

theorem default_sane {w w' : World} {a : Nat} (S : w.Sane) (h : defaultDelete w a = some w') :
    a ∈ w.built ∧ w' = ⟨w.live.erase a, w.built.erase a, w.log ++ [.gone a, .back a]⟩ ∧ w'.Sane := by
  unfold defaultDelete World.destroy World.delete at h
  by_cases hb : a ∈ w.built
  · have hl := S.held a hb
    simp [hb, hl] at h
    subst h
    refine ⟨hb, rfl, S.live.erase a, S.built.erase a, fun x hx => ?_⟩
    have := (S.built.mem_erase_iff).1 hx
    exact (List.mem_erase_of_ne this.1).2 (S.held x this.2)
  · simp [hb] at h

theorem default_balanced' {pick : List Nat → Nat} (fresh : Fresh pick) :
    ∀ (cs : List DCall) (w w' : World) (as : List Nat), w.Sane → defaultRun pick cs w = some (w', as) →
      w'.Sane ∧ Balanced w w'
  | [], w, w', as, S, h => by
    simp only [defaultRun, Option.some.injEq, Prod.mk.injEq] at h
    obtain ⟨rfl, _⟩ := h
    exact ⟨S, fun a => ⟨by omega, by omega⟩⟩
  | .new :: cs, w, w', as, S, h => by
    have hf : pick w.live ∉ w.live := fresh w.live
    have hnb : pick w.live ∉ w.built := fun h => hf (S.held _ h)
    simp only [defaultRun, defaultNew, World.new, Option.bind_eq_bind, Option.bind_eq_some_iff, Option.pure_def,
      Option.some.injEq, Prod.mk.injEq] at h
    obtain ⟨⟨w2, as'⟩, h, rfl, _⟩ := h
    have S1 : World.Sane ⟨pick w.live :: w.live, pick w.live :: w.built, w.log ++ [.made (pick w.live)]⟩ := by
      refine ⟨List.nodup_cons.2 ⟨hf, S.live⟩, List.nodup_cons.2 ⟨hnb, S.built⟩, fun a ha => ?_⟩
      rcases List.mem_cons.1 ha with rfl | ha
      · exact List.mem_cons_self
      · exact List.mem_cons_of_mem _ (S.held a ha)
    obtain ⟨S2, B⟩ := default_balanced' fresh cs _ _ _ S1 h
    refine ⟨S2, fun a => ?_⟩
    have := B a
    simp only [List.count_append, List.count_cons, List.count_nil, one, List.mem_cons] at this ⊢
    by_cases ha : a = pick w.live
    · subst ha
      simp [hnb] at this ⊢
      omega
    · have ha' : pick w.live ≠ a := fun h => ha h.symm
      simp [ha, ha'] at this ⊢
      omega
  | .delete x :: cs, w, w', as, S, h => by
    simp only [defaultRun, Option.bind_eq_bind, Option.bind_eq_some_iff] at h
    obtain ⟨w1, h1, h⟩ := h
    obtain ⟨hb, rfl, S1⟩ := default_sane S h1
    obtain ⟨S2, B⟩ := default_balanced' fresh cs _ _ _ S1 h
    refine ⟨S2, fun a => ?_⟩
    have := B a
    simp only [List.count_append, List.count_cons, List.count_nil, one, S.built.mem_erase_iff] at this ⊢
    by_cases ha : a = x
    · subst ha
      simp [hb] at this ⊢
      omega
    · have ha' : x ≠ a := fun h => ha h.symm
      simp [ha, ha'] at this ⊢
      omega

end Verif.Pools
