import Verif.Proof.Names

namespace Verif.Names

open Verif.Names.Spec

/-- No error. -/
def Fine (r : Res) : Prop := ∃ x, r = .ok x

theorem fine_alt {a b : Res} (ha : Fine a) (hb : Fine b) : Fine (alt a b) := by
  obtain ⟨x, rfl⟩ := ha
  cases x with
  | none => exact hb
  | some t => exact ⟨_, rfl⟩

theorem fine_first {α : Type} {f : α → Res} (l : List α) (h : ∀ a ∈ l, Fine (f a)) :
    Fine (first f l) := by
  induction l with
  | nil => exact ⟨_, rfl⟩
  | cons a l ih => exact fine_alt (h a (by simp)) (ih fun b hb => h b (List.mem_cons_of_mem _ hb))

theorem fine_getType (W : World) (hS : Solved W) (C : Context) (A ns u) (host : Ty)
    (hh : host = .null ∨ ∃ h, classOf host = some h) : Fine (getType W C A ns u host) := by
  have hg : ∃ o, getGeneral W (hostAssembly W A host) ns u (rawHost host) = .ok o := by
    rcases hh with rfl | ⟨h, hh⟩
    · exact ⟨_, rfl⟩
    · cases host <;> simp only [classOf, Option.some.injEq, reduceCtorEq] at hh
      · exact ⟨_, rfl⟩
      · exact ⟨_, rfl⟩
  obtain ⟨o, ho⟩ := hg
  unfold getType
  simp only [ho]
  cases (if u.count = 0 then C.typeDef.lookup u.name else none) with
  | some i => exact ⟨_, rfl⟩
  | none =>
    cases o with
    | some t => exact ⟨_, rfl⟩
    | none =>
      simp only
      cases ht : (W.tables (hostAssembly W A host)).typeDefs.lookup
          ⟨ns, u.name, u.count, hostId (rawHost host)⟩ with
      | none => exact ⟨_, rfl⟩
      | some z =>
        cases z with
        | some ty => exact ⟨_, rfl⟩
        | none => have := hS _ _ (mem_of_lookup ht); simp at this

theorem fine_nest (W : World) (hS : Solved W) (hN : Counted W) (hO : AliasesOutside W)
    (C : Context) (hC : C.typeDef = []) (A ns u) (host : Ty) (hf : Fits W A ns host) :
    Fine (nestOne W C A ns host u) := by
  have hh : ∃ h, classOf host = some h ∧ rawHost host = .gen h := by
    cases host with
    | gen h => exact ⟨h, rfl, rfl⟩
    | inst h a b => exact ⟨h, rfl, rfl⟩
    | null => cases hf
    | gparam _ => cases hf
    | dparam _ => cases hf
    | array _ _ => cases hf
  obtain ⟨h, hcl, hraw⟩ := hh
  have h0 : (if u.count = 0 then C.typeDef.lookup u.name else none) = none := by
    rw [hC]; simp
  unfold nestOne getType
  simp only [h0, hraw, getGeneral_gen, hostId]
  cases hl : look W (hostAssembly W A host) (outerNs W h) u (some h) with
  | some c =>
    simp only
    by_cases hn : u.count > 0
    · simp only [hn, if_true]; exact ⟨_, rfl⟩
    · simp only [if_neg hn]
      have hlen : (W.params c).length = u.count := by
        rcases (look_class ..).1 hl with hc | ⟨_, hc, _⟩
        · have := hN _ _ _ (mem_of_lookup hc)
          simp only [Option.some.injEq] at this; exact this.symm
        · have := hN _ _ _ (mem_of_lookup hc)
          simp at this
      repeat' split
      all_goals first
        | exact ⟨_, rfl⟩
        | (rename_i hne; exact absurd hlen hne)
  | none =>
    simp only
    cases ht : (W.tables (hostAssembly W A host)).typeDefs.lookup ⟨ns, u.name, u.count, some h⟩ with
    | none => exact ⟨_, rfl⟩
    | some z => have := hO _ _ (mem_of_lookup ht); simp at this

section
variable (W : World) (hW : WellFormed W) (hS : Solved W) (hN : Counted W) (hO : AliasesOutside W)
  (C : Context) (hC : C.typeDef = [])
include hW hS hN hO hC

theorem fine_down (A ns) (us : List NameUnit) : ∀ (t : Ty), Fits W A ns t →
    (∀ u ∈ us.dropLast, NoAlias W u.name) → Fine (down W C A ns t us) := by
  induction us with
  | nil => intro t _ _; exact ⟨_, rfl⟩
  | cons u us ih =>
    intro t hf hna
    unfold down
    obtain ⟨o, ho⟩ := fine_nest W hS hN hO C hC A ns u t hf
    rw [ho]
    cases o with
    | none => exact ⟨_, rfl⟩
    | some t1 =>
      simp only
      have hm := (exact_nest W hW C hC A ns u t hf).some ho
      cases us with
      | nil => exact ⟨_, rfl⟩
      | cons v vs =>
        have hu : NoAlias W u.name := hna u (by simp)
        exact ih t1 (member_fits hW hf hu ((hm t1).2 rfl))
          (fun w hw => hna w (by rw [List.dropLast_cons_cons]; exact List.mem_cons_of_mem _ hw))

theorem fine_outward (A ns) (u : NameUnit) (us : List NameUnit)
    (hna : ∀ v ∈ (u :: us).dropLast, NoAlias W v.name) (ts : List Ty) :
    (∀ t ∈ ts, Fits W A ns t) → Fine (outward W C A ns u us ts) := by
  induction ts with
  | nil => intro _; exact ⟨_, rfl⟩
  | cons t ts ih =>
    intro hf
    unfold outward
    obtain ⟨o, ho⟩ := fine_nest W hS hN hO C hC A ns u t (hf t (by simp))
    rw [ho]
    cases o with
    | none => exact ih fun t ht => hf t (List.mem_cons_of_mem _ ht)
    | some t1 =>
      simp only
      have hm := (exact_nest W hW C hC A ns u t (hf t (by simp))).some ho
      cases us with
      | nil => exact ⟨_, rfl⟩
      | cons v vs =>
        have hu : NoAlias W u.name := hna u (by simp)
        exact fine_down W hW hS hN hO C hC A ns (v :: vs) t1
          (member_fits hW (hf t (by simp)) hu ((hm t1).2 rfl))
          (fun w hw => hna w (by rw [List.dropLast_cons_cons]; exact List.mem_cons_of_mem _ hw))

theorem fine_findType (A : Nat) (us : List NameUnit) : ∀ (ns : Ns),
    (∀ u ∈ us.dropLast, NoAlias W u.name) → Fine (findType W C A ns us) := by
  induction us with
  | nil => intro ns _; exact ⟨_, rfl⟩
  | cons u us ih =>
    intro ns hna
    have htl : ∀ v ∈ us.dropLast, NoAlias W v.name := by
      intro v hv
      cases us with
      | nil => simp at hv
      | cons w ws => exact hna v (by rw [List.dropLast_cons_cons]; exact List.mem_cons_of_mem _ hv)
    unfold findType
    obtain ⟨o, ho⟩ := fine_getType W hS C A ns u .null (.inl rfl)
    rw [ho]
    simp only
    refine fine_alt ?_ ?_
    · cases us with
      | nil => exact ⟨_, rfl⟩
      | cons v vs =>
        cases o with
        | none => exact ⟨_, rfl⟩
        | some t0 =>
          have hu : NoAlias W u.name := hna u (by simp)
          have ht0 := ((exact_top W C hC A ns u).some ho t0).2 rfl
          obtain ⟨ha, hf⟩ := top_around hW hu ht0
          simp only [findNest, Option.getD_some, ha]
          exact fine_outward W hW hS hN hO C hC A ns v vs htl [t0]
            (by intro t ht; rw [List.mem_singleton] at ht; rw [ht]; exact hf)
    · split
      · exact ih _ htl
      · exact ⟨_, rfl⟩

theorem fine_searchType (A : Nat) (us : List NameUnit) : ∀ (ns : Ns),
    (∀ u ∈ us.dropLast, NoAlias W u.name) → Fine (searchType W C A ns us) := by
  induction us with
  | nil => intro ns _; exact ⟨_, rfl⟩
  | cons u us ih =>
    intro ns hna
    unfold searchType
    refine fine_alt (fine_findType W hW hS hN hO C hC A _ ns hna) ?_
    split
    · rename_i hc
      refine ih _ fun v hv => ?_
      cases us with
      | nil => exact absurd rfl hc.1
      | cons w ws => exact hna v (by rw [List.dropLast_cons_cons]; exact List.mem_cons_of_mem _ hv)
    · exact ⟨_, rfl⟩

theorem fine_global (us : List NameUnit) (hna : ∀ u ∈ us.dropLast, NoAlias W u.name) :
    Fine (searchGlobal W C us) := by
  unfold searchGlobal
  refine fine_alt (fine_searchType W hW hS hN hO C hC _ us [] hna) (fine_first _ ?_)
  intro i _
  unfold inImport
  split
  · cases i.loaded with
    | none => exact ⟨_, rfl⟩
    | some A =>
      exact fine_searchType W hW hS hN hO C hC A _ [] fun u hu => hna u (dropLast_drop_mem hu)
  · exact ⟨_, rfl⟩

theorem fine_using (us : List NameUnit) (hna : ∀ u ∈ us.dropLast, NoAlias W u.name) (v : Using)
    (hv : ∀ n ∈ v.ns, NoAlias W n) : Fine (inUsing W C us v) := by
  have hcomb : ∀ us : List NameUnit, (∀ u ∈ us.dropLast, NoAlias W u.name) →
      Fine (searchGlobal W C (v.ns.map (⟨·, .nil⟩) ++ us)) := by
    intro us hna
    refine fine_global W hW hS hN hO C hC _ ?_
    intro u hu
    rcases dropLast_append_mem hu with hu | hu
    · obtain ⟨n, hn, rfl⟩ := List.mem_map.1 hu
      exact hv n hn
    · exact hna u hu
  unfold inUsing
  cases v.alias_ with
  | none => exact hcomb us hna
  | some a =>
    cases us with
    | nil => exact ⟨_, rfl⟩
    | cons u us =>
      cases us with
      | nil => exact ⟨_, rfl⟩
      | cons u' us =>
        simp only
        split
        · exact hcomb _ fun w hw => hna w (by
            rw [List.dropLast_cons_cons]; exact List.mem_cons_of_mem _ hw)
        · exact ⟨_, rfl⟩

theorem fine_upward (us : List NameUnit) (hna : ∀ u ∈ us.dropLast, NoAlias W u.name) (n : Nat) :
    ∀ ns : Ns, Fine (upward W C us n ns) := by
  induction n with
  | zero => intro ns; exact fine_findType W hW hS hN hO C hC _ us ns hna
  | succ n ih => intro ns; exact fine_alt (fine_findType W hW hS hN hO C hC _ us ns hna) (ih _)

theorem fine_resolve (hP : Placed W C) (g : Global) (us : List NameUnit)
    (hna : AliasLast W C us) : Fine (resolve W C g us) := by
  unfold resolve
  cases ofParam W C us with
  | some p => exact ⟨_, rfl⟩
  | none =>
    have hG := fine_global W hW hS hN hO C hC us hna.1
    cases g with
    | global => exact hG
    | root => exact fine_alt (fine_findType W hW hS hN hO C hC _ us [] hna.1) hG
    | default_ =>
      refine fine_alt ?_ (fine_alt (fine_upward W hW hS hN hO C hC us hna.1 _ _)
        (fine_alt hG (fine_first _ fun v hv =>
          fine_using W hW hS hN hO C hC us hna.1 v (hna.2 v hv))))
      cases ht : C.type with
      | none => exact ⟨_, rfl⟩
      | some t =>
        cases us with
        | nil => exact ⟨_, rfl⟩
        | cons u us =>
          refine fine_outward W hW hS hN hO C hC C.self C.ns u us hna.1 _ ?_
          intro s hs
          rcases List.mem_cons.1 hs with rfl | hs
          · exact hP t ht
          · obtain ⟨h, hh, rfl⟩ := List.mem_map.1 hs
            have := hosts_all hW _ t rfl h hh
            exact ⟨this.1.trans (hP t ht).1, this.2.trans (hP t ht).2⟩

end

end Verif.Names
