import Verif.Spec.Names

namespace Verif.Names

open Verif.Names.Spec

/-- A result says exactly what the relation says, unless it is an error. -/
def Exact (r : Res) (P : Ty → Prop) : Prop := ∀ x, r = .ok x → ∀ t, P t ↔ x = some t

theorem Exact.none {r : Res} {P : Ty → Prop} (h : Exact r P) (hr : r = .ok none) (t : Ty) :
    ¬ P t := by
  intro hp; have := (h _ hr t).1 hp; cases this

theorem Exact.some {r : Res} {P : Ty → Prop} (h : Exact r P) {x : Ty} (hr : r = .ok (some x))
    (t : Ty) : P t ↔ t = x := by
  rw [h _ hr t]; constructor
  · intro h; cases h; rfl
  · intro h; rw [h]

theorem exact_congr {r : Res} {P Q : Ty → Prop} (h : Exact r P) (hpq : ∀ t, P t ↔ Q t) :
    Exact r Q := fun x hx t => (hpq t).symm.trans (h x hx t)

theorem exact_none (P : Ty → Prop) (h : ∀ t, ¬ P t) : Exact (.ok none) P := by
  intro x hx t; cases hx
  exact ⟨fun hp => absurd hp (h t), fun h => by cases h⟩

theorem exact_alt {a b : Res} {P Q : Ty → Prop} (ha : Exact a P) (hb : Exact b Q) :
    Exact (alt a b) fun t => P t ∨ ((∀ t', ¬ P t') ∧ Q t) := by
  intro x hx t
  show (P t ∨ ((∀ t', ¬ P t') ∧ Q t)) ↔ x = some t
  cases a with
  | error e => simp only [alt] at hx; cases hx
  | ok o =>
    cases o with
    | some y =>
      simp only [alt] at hx; cases hx
      have hy := ha.some rfl
      rw [hy t]
      constructor
      · rintro (h | ⟨h, _⟩)
        · rw [h]
        · exact absurd ((hy y).2 rfl) (h y)
      · intro h; cases h; exact .inl rfl
    | none =>
      simp only [alt] at hx
      have hn := ha.none rfl
      rw [← hb x hx t]
      exact ⟨fun h => h.elim (fun h => absurd h (hn t)) (·.2), fun h => .inr ⟨hn, h⟩⟩

/-! ## Facts about well-formed tables -/

theorem mem_of_lookup {α β : Type} [BEq α] [LawfulBEq α] {l : List (α × β)} {a : α} {b : β}
    (h : l.lookup a = some b) : (a, b) ∈ l := by
  induction l with
  | nil => cases h
  | cons e l ih =>
    obtain ⟨k, v⟩ := e
    rw [List.lookup_cons] at h
    cases hk : a == k with
    | true =>
      rw [hk] at h; cases h
      rw [eq_of_beq hk]; exact List.mem_cons_self
    | false => rw [hk] at h; exact List.mem_cons_of_mem _ (ih h)

theorem count_nil {u : NameUnit} : u.count = 0 ↔ u.args = .nil := by
  unfold NameUnit.count
  cases u.args with
  | nil => simp [Tys.length]
  | cons t l => simp [Tys.length]

theorem class_wf {W : World} (hW : WellFormed W) {A ns h u x} (hc : Class W A ns h u x) :
    W.assembly x = A ∧ (W.hosts x).head? = h ∧ outerNs W x = ns := by
  rcases hc with hc | ⟨_, hc, _⟩
  · obtain ⟨h1, h2, h3⟩ := hW.tables _ _ _ (mem_of_lookup hc)
    exact ⟨h1, h2.symm, h3.symm⟩
  · obtain ⟨h1, h2, h3⟩ := hW.tables _ _ _ (mem_of_lookup hc)
    exact ⟨h1, h2.symm, h3.symm⟩

theorem hosts_outer {W : World} (hW : WellFormed W) {x h : Id} (hx : (W.hosts x).head? = some h) :
    W.assembly x = W.assembly h ∧ outerNs W x = outerNs W h := by
  cases hl : W.hosts x with
  | nil => rw [hl] at hx; cases hx
  | cons a tl =>
    rw [hl] at hx; cases hx
    obtain ⟨h1, h2⟩ := hW.hosts _ _ _ hl
    refine ⟨h2, ?_⟩
    unfold outerNs
    rw [hl, h1]
    cases hh : W.hosts h with
    | nil => rfl
    | cons b l =>
      rw [List.getLast?_cons_cons]
      cases hg : (b :: l).getLast? with
      | none => simp at hg
      | some z => rfl

/-! ## Lookups -/

def look (W : World) (A : Nat) (ns : Ns) (u : NameUnit) (h : Option Id) : Option Id :=
  match (W.tables A).types.lookup ⟨ns, u.name, some u.count, h⟩ with
  | some t => some t
  | none =>
    match (W.tables A).types.lookup ⟨ns, u.name, none, h⟩ with
    | some t => if 0 < (W.params t).length ∧ (W.params t).length - 1 ≤ u.count
        then some t else none
    | none => none

theorem look_class (W : World) (A ns u h x) : look W A ns u h = some x ↔ Class W A ns h u x := by
  unfold look Class
  cases h1 : (W.tables A).types.lookup ⟨ns, u.name, some u.count, h⟩ with
  | some t => simp
  | none =>
    cases h2 : (W.tables A).types.lookup ⟨ns, u.name, none, h⟩ with
    | none => simp
    | some t =>
      simp only [reduceCtorEq, false_or, true_and, Option.some.injEq]
      constructor
      · intro h
        split at h
        · rename_i hp; cases h; exact ⟨rfl, hp.1, hp.2⟩
        · cases h
      · rintro ⟨rfl, hp1, hp2⟩
        rw [if_pos ⟨hp1, hp2⟩]

theorem look_none (W : World) (A ns u h) : look W A ns u h = none ↔ ∀ x, ¬ Class W A ns h u x := by
  constructor
  · intro hn x hc
    rw [← look_class] at hc; rw [hn] at hc; cases hc
  · intro hn
    cases hl : look W A ns u h with
    | none => rfl
    | some x => exact absurd ((look_class ..).1 hl) (hn x)

theorem getGeneral_null (W : World) (A ns u) :
    getGeneral W A ns u .null = .ok (look W A ns u none) := rfl

theorem getGeneral_gen (W : World) (A ns u h) :
    getGeneral W A ns u (.gen h) = .ok (look W A (outerNs W h) u (some h)) := rfl

theorem exact_top (W : World) (C : Context) (hC : C.typeDef = []) (A ns u) :
    Exact (getType W C A ns u .null) (Top W A ns u) := by
  intro x hx t
  have h0 : (if u.count = 0 then C.typeDef.lookup u.name else none) = none := by
    rw [hC]; simp
  unfold getType at hx
  simp only [h0, hostAssembly, rawHost, getGeneral_null, hostId] at hx
  unfold Top
  cases hl : look W A ns u none with
  | some c =>
    rw [hl] at hx
    simp only [Except.ok.injEq] at hx
    have hc := (look_class ..).1 hl
    have huniq : ∀ y, Class W A ns none u y ↔ y = c := by
      intro y; rw [← look_class, hl]; exact ⟨fun h => by cases h; rfl, fun h => by rw [h]⟩
    have he : (if u.count > 0 then Ty.inst c u.args .null else .gen c) =
        if u.args = .nil then Ty.gen c else .inst c u.args .null := by
      by_cases hn : u.args = .nil
      · rw [if_pos hn, if_neg]; rw [← count_nil] at hn; omega
      · rw [if_neg hn, if_pos]; rw [← count_nil] at hn; omega
    rw [he] at hx
    constructor
    · rintro (⟨y, hy, rfl⟩ | ⟨h, _⟩)
      · rw [(huniq y).1 hy, hx]
      · exact absurd hc (h c)
    · intro h; rw [← hx] at h; cases h
      exact .inl ⟨c, hc, rfl⟩
  | none =>
    rw [hl] at hx
    have hn := (look_none ..).1 hl
    simp only at hx
    cases ht : (W.tables A).typeDefs.lookup ⟨ns, u.name, u.count, none⟩ with
    | none =>
      rw [ht] at hx; cases hx
      constructor
      · rintro (⟨y, hy, _⟩ | ⟨_, ty, hy, _⟩)
        · exact absurd hy (hn y)
        · unfold Alias at hy; rw [ht] at hy; cases hy
      · intro h; cases h
    | some o =>
      rw [ht] at hx
      cases o with
      | none => cases hx
      | some ty =>
        simp only [Except.ok.injEq] at hx
        constructor
        · rintro (⟨y, hy, _⟩ | ⟨_, ty', hy, rfl, hnn⟩)
          · exact absurd hy (hn y)
          · unfold Alias at hy; rw [ht] at hy; cases hy
            rw [← hx, ofPointer, if_neg hnn]
        · intro h
          rw [← hx, ofPointer] at h
          split at h
          · cases h
          · rename_i hnn; cases h
            exact .inr ⟨hn, ty, ht, rfl, hnn⟩

/-- A class, or instance of one, the tables of which are looked into. -/
def Fits (W : World) (A : Nat) (ns : Ns) : Ty → Prop
  | .gen h => W.assembly h = A ∧ outerNs W h = ns
  | .inst h _ _ => outerNs W h = ns
  | _ => False

theorem exact_nest (W : World) (hW : WellFormed W) (C : Context) (hC : C.typeDef = [])
    (A ns u) (host : Ty) (hf : Fits W A ns host) :
    Exact (nestOne W C A ns host u) (Member W host u) := by
  have hh : ∃ h, classOf host = some h ∧ rawHost host = .gen h ∧
      hostAssembly W A host = W.assembly h ∧ outerNs W h = ns := by
    cases host with
    | gen h => exact ⟨h, rfl, rfl, hf.1.symm, hf.2⟩
    | inst h a b => exact ⟨h, rfl, rfl, rfl, hf⟩
    | null => cases hf
    | gparam _ => cases hf
    | dparam _ => cases hf
    | array _ _ => cases hf
  obtain ⟨h, hcl, hraw, hasm, hns⟩ := hh
  intro x hx t
  have h0 : (if u.count = 0 then C.typeDef.lookup u.name else none) = none := by
    rw [hC]; simp
  unfold nestOne getType at hx
  simp only [h0, hraw, hasm, getGeneral_gen, hostId, hns] at hx
  have hM : Member W host u t ↔
      ((∃ x, Class W (W.assembly h) ns (some h) u x ∧ t = within host u x) ∨
     ((∀ x, ¬ Class W (W.assembly h) ns (some h) u x) ∧
      ∃ ty, Alias W (W.assembly h) ns (some h) u ty ∧
        match expand W u.args host ty with
        | .gen x => t = if (W.hosts x).head? = some h then within host u x else .gen x
        | t' => t = t' ∧ t ≠ .null)) := by
    unfold Member
    constructor
    · rintro ⟨h', e, hr⟩
      rw [hcl] at e; cases e; rw [hns] at hr; exact hr
    · intro hr; exact ⟨h, hcl, by rw [hns]; exact hr⟩
  rw [hM]
  -- what the last step makes of a class
  have hlast : ∀ c x', (if (isInst host || decide (u.count > 0)) ∧ (W.hosts c).head? = some h
        ∧ (W.hosts c).head?.isSome then
      if (W.params c).length = u.count then (.ok (some (.inst c u.args host)) : Res)
      else .error .undefined
    else .ok (some (.gen c))) = .ok x' →
      x' = some (if (W.hosts c).head? = some h then within host u c else .gen c) := by
    intro c x' hx'
    by_cases hch : (W.hosts c).head? = some h
    · rw [if_pos hch]
      unfold within
      by_cases hg : u.args = .nil ∧ isInst host = false
      · rw [if_pos hg]
        rw [if_neg] at hx'
        · cases hx'; rfl
        · rintro ⟨hb, _⟩
          have := count_nil.2 hg.1
          rw [hg.2, this] at hb; simp at hb
      · rw [if_neg hg]
        rw [if_pos] at hx'
        · split at hx'
          · cases hx'; rfl
          · cases hx'
        · refine ⟨?_, hch, by rw [hch]; rfl⟩
          by_cases hi : isInst host = true
          · rw [hi]; rfl
          · have : u.args ≠ .nil := fun hn => hg ⟨hn, by simpa using hi⟩
            rw [Ne, ← count_nil] at this
            simp; omega
    · rw [if_neg hch]
      rw [if_neg] at hx'
      · cases hx'; rfl
      · rintro ⟨_, hb, _⟩; exact hch hb
  cases hl : look W (W.assembly h) ns u (some h) with
  | some c =>
    rw [hl] at hx
    have hc := (look_class ..).1 hl
    have huniq : ∀ y, Class W (W.assembly h) ns (some h) u y ↔ y = c := by
      intro y; rw [← look_class, hl]; exact ⟨fun h => by cases h; rfl, fun h => by rw [h]⟩
    have hch := (class_wf hW hc).2.1
    have hx' : x = some (within host u c) := by
      by_cases hn : u.count > 0
      · simp only [hn, if_true] at hx
        cases hx
        unfold within
        rw [if_neg]
        rintro ⟨e, _⟩
        rw [← count_nil] at e; omega
      · simp only [if_neg hn] at hx
        have := hlast c x hx
        rw [this, if_pos hch]
    rw [hx']
    constructor
    · rintro (⟨y, hy, rfl⟩ | ⟨hno, _⟩)
      · rw [(huniq y).1 hy]
      · exact absurd hc (hno c)
    · intro e; cases e; exact .inl ⟨c, hc, rfl⟩
  | none =>
    rw [hl] at hx
    have hn := (look_none ..).1 hl
    simp only at hx
    cases ht : (W.tables (W.assembly h)).typeDefs.lookup ⟨ns, u.name, u.count, some h⟩ with
    | none =>
      rw [ht] at hx; cases hx
      constructor
      · rintro (⟨y, hy, _⟩ | ⟨_, ty, hy, _⟩)
        · exact absurd hy (hn y)
        · unfold Alias at hy; rw [ht] at hy; cases hy
      · intro e; cases e
    | some o =>
      rw [ht] at hx
      cases o with
      | none => cases hx
      | some ty =>
        simp only at hx
        have key : ∀ P : Ty → Prop,
            (∀ t, P t ↔ match expand W u.args host ty with
              | .gen x => t = if (W.hosts x).head? = some h then within host u x else .gen x
              | t' => t = t' ∧ t ≠ .null) → (P t ↔ x = some t) := by
          intro P hP
          rw [hP]
          cases he : expand W u.args host ty with
          | gen c =>
            rw [he] at hx
            have := hlast c x hx
            rw [this]
            simp only [Option.some.injEq]
            exact eq_comm
          | null =>
            rw [he] at hx; cases hx
            constructor
            · rintro ⟨h1, h2⟩; exact absurd h1 h2
            · intro h; cases h
          | inst a b c =>
            rw [he] at hx; cases hx
            constructor
            · rintro ⟨h1, h2⟩; rw [h1]
            · intro h; cases h; exact ⟨rfl, by simp⟩
          | gparam a =>
            rw [he] at hx; cases hx
            constructor
            · rintro ⟨h1, h2⟩; rw [h1]
            · intro h; cases h; exact ⟨rfl, by simp⟩
          | dparam a =>
            rw [he] at hx; cases hx
            constructor
            · rintro ⟨h1, h2⟩; rw [h1]
            · intro h; cases h; exact ⟨rfl, by simp⟩
          | array a b =>
            rw [he] at hx; cases hx
            constructor
            · rintro ⟨h1, h2⟩; rw [h1]
            · intro h; cases h; exact ⟨rfl, by simp⟩
        apply key
        intro t
        constructor
        · rintro (⟨y, hy, _⟩ | ⟨_, ty', hy, hm⟩)
          · exact absurd hy (hn y)
          · unfold Alias at hy; rw [ht] at hy; cases hy; exact hm
        · intro hm
          exact .inr ⟨hn, ty, ht, hm⟩

theorem alias_not {W : World} {A ns h} {u : NameUnit} {ty} (hn : NoAlias W u.name) :
    ¬ Alias W A ns h u ty := by
  intro ha
  exact hn A _ (mem_of_lookup ha) rfl

theorem member_fits {W : World} (hW : WellFormed W) {A ns host u t} (hf : Fits W A ns host)
    (hn : NoAlias W u.name) (hm : Member W host u t) : Fits W A ns t := by
  obtain ⟨h, hcl, ⟨x, hx, rfl⟩ | ⟨_, ty, ha, _⟩⟩ := hm
  · obtain ⟨h1, h2, h3⟩ := class_wf hW hx
    have hns : outerNs W h = ns := by
      cases host <;> simp only [classOf, Option.some.injEq, reduceCtorEq] at hcl
      · subst hcl; exact hf.2
      · subst hcl; exact hf
    unfold within
    split
    · rename_i hg
      refine ⟨?_, h3.trans hns⟩
      cases host <;> simp only [classOf, Option.some.injEq, reduceCtorEq] at hcl
      · subst hcl; exact h1.trans hf.1
      · simp [isInst] at hg
    · exact h3.trans hns
  · exact absurd ha (alias_not hn)

theorem exact_down (W : World) (hW : WellFormed W) (C : Context) (hC : C.typeDef = [])
    (A ns) (us : List NameUnit) : ∀ (t : Ty), Fits W A ns t →
    (∀ u ∈ us.dropLast, NoAlias W u.name) →
    Exact (down W C A ns t us) (Inside W t us) := by
  induction us with
  | nil =>
    intro t _ _ x hx r
    cases hx
    simp only [Inside, Option.some.injEq]; exact eq_comm
  | cons u us ih =>
    intro t hf hna x hx r
    have hone := exact_nest W hW C hC A ns u t hf
    unfold down at hx
    cases hz : nestOne W C A ns t u with
    | error e => rw [hz] at hx; cases hx
    | ok o =>
      rw [hz] at hx
      cases o with
      | none =>
        cases hx
        constructor
        · rintro ⟨t', hm, _⟩; exact absurd hm (hone.none hz t')
        · intro h; cases h
      | some t1 =>
        simp only at hx
        have hm := hone.some hz
        have hgo : Inside W t (u :: us) r ↔ Inside W t1 us r := by
          constructor
          · rintro ⟨t', h1, h2⟩; rw [(hm t').1 h1] at h2; exact h2
          · intro h; exact ⟨t1, (hm t1).2 rfl, h⟩
        rw [hgo]
        cases us with
        | nil => cases hx; simp only [Inside, Option.some.injEq]; exact eq_comm
        | cons v vs =>
          have hu : NoAlias W u.name := hna u (by simp)
          exact ih t1 (member_fits hW hf hu ((hm t1).2 rfl))
            (fun w hw => hna w (by rw [List.dropLast_cons_cons]; exact List.mem_cons_of_mem _ hw))
            x hx r

theorem exact_outward (W : World) (hW : WellFormed W) (C : Context) (hC : C.typeDef = [])
    (A ns) (u : NameUnit) (us : List NameUnit) (hna : ∀ v ∈ (u :: us).dropLast, NoAlias W v.name)
    (ts : List Ty) : (∀ t ∈ ts, Fits W A ns t) →
    Exact (outward W C A ns u us ts) fun r => ∃ inner t outer t1, ts = inner ++ t :: outer ∧
      (∀ t' ∈ inner, ∀ r', ¬ Member W t' u r') ∧ Member W t u t1 ∧ Inside W t1 us r := by
  induction ts with
  | nil =>
    intro _ x hx r
    cases hx
    constructor
    · rintro ⟨i, t, o, t1, h, _⟩; simp at h
    · intro h; cases h
  | cons t ts ih =>
    intro hf x hx r
    have hone := exact_nest W hW C hC A ns u t (hf t (by simp))
    unfold outward at hx
    cases hz : nestOne W C A ns t u with
    | error e => rw [hz] at hx; cases hx
    | ok o =>
      rw [hz] at hx
      cases o with
      | none =>
        simp only at hx
        rw [← ih (fun t ht => hf t (List.mem_cons_of_mem _ ht)) x hx r]
        constructor
        · rintro ⟨i, t', o, t1, he, h1, h2, h3⟩
          cases i with
          | nil =>
            simp only [List.nil_append, List.cons.injEq] at he
            rw [he.1] at hone hz
            exact absurd h2 (hone.none hz t1)
          | cons a i =>
            simp only [List.cons_append, List.cons.injEq] at he
            exact ⟨i, t', o, t1, he.2, fun z hz => h1 z (List.mem_cons_of_mem _ hz), h2, h3⟩
        · rintro ⟨i, t', o, t1, he, h1, h2, h3⟩
          refine ⟨t :: i, t', o, t1, by rw [he]; rfl, ?_, h2, h3⟩
          intro z hz' r'
          rcases List.mem_cons.1 hz' with rfl | hz'
          · exact hone.none hz r'
          · exact h1 z hz' r'
      | some t1 =>
        simp only at hx
        have hm := hone.some hz
        have hgo : (∃ inner t0 outer t2, t :: ts = inner ++ t0 :: outer ∧
            (∀ t' ∈ inner, ∀ r', ¬ Member W t' u r') ∧ Member W t0 u t2 ∧ Inside W t2 us r) ↔
            Inside W t1 us r := by
          constructor
          · rintro ⟨i, t', o, t2, he, h1, h2, h3⟩
            cases i with
            | nil =>
              simp only [List.nil_append, List.cons.injEq] at he
              rw [← he.1] at h2; rw [(hm t2).1 h2] at h3; exact h3
            | cons a i =>
              simp only [List.cons_append, List.cons.injEq] at he
              exact absurd ((hm t1).2 rfl) (h1 t (by rw [he.1]; simp) t1)
          · intro h
            exact ⟨[], t, ts, t1, rfl, by simp, (hm t1).2 rfl, h⟩
        refine Iff.trans hgo ?_
        cases us with
        | nil => cases hx; simp only [Inside, Option.some.injEq]; exact eq_comm
        | cons v vs =>
          have hu : NoAlias W u.name := hna u (by simp)
          exact exact_down W hW C hC A ns (v :: vs) t1
            (member_fits hW (hf t (by simp)) hu ((hm t1).2 rfl))
            (fun w hw => hna w (by rw [List.dropLast_cons_cons]; exact List.mem_cons_of_mem _ hw))
            x hx r

/-! ## Namespaces -/

theorem reading_zero (W : World) (A ns u us t) :
    Reading W A ns (u :: us) 0 t ↔ ∃ t0, Top W A ns u t0 ∧ Inside W t0 us t := by
  constructor
  · rintro ⟨pre, v, post, t0, he, hl, h1, h2⟩
    obtain rfl := List.length_eq_zero_iff.1 hl
    simp only [List.map_nil, List.nil_append, List.cons.injEq] at he
    obtain ⟨rfl, rfl⟩ := he
    rw [List.append_nil] at h1
    exact ⟨t0, h1, h2⟩
  · rintro ⟨t0, h1, h2⟩
    exact ⟨[], u, us, t0, rfl, rfl, by rw [List.append_nil]; exact h1, h2⟩

theorem reading_succ (W : World) (A ns u us k t) :
    Reading W A ns (u :: us) (k + 1) t ↔ u.args = .nil ∧ Reading W A (ns ++ [u.name]) us k t := by
  constructor
  · rintro ⟨pre, v, post, t0, he, hl, h1, h2⟩
    cases pre with
    | nil => cases hl
    | cons n pre =>
      simp only [List.map_cons, List.cons_append, List.cons.injEq] at he
      obtain ⟨rfl, rfl⟩ := he
      refine ⟨rfl, pre, v, post, t0, rfl, by simpa using hl, ?_, h2⟩
      rw [List.append_assoc]; exact h1
  · rintro ⟨hn, pre, v, post, t0, rfl, hl, h1, h2⟩
    refine ⟨u.name :: pre, v, post, t0, ?_, by simpa using hl, ?_, h2⟩
    · obtain ⟨n, a⟩ := u
      simp only at hn; subst hn; rfl
    · rw [List.append_assoc] at h1; exact h1

theorem reading_nil (W : World) (A ns k t) : ¬ Reading W A ns [] k t := by
  rintro ⟨pre, v, post, t0, he, _⟩
  have := congrArg List.length he
  simp at this

theorem answer_nil (W : World) (A ns t) : ¬ Answer W (.namespace_ A ns []) t := by
  rintro ⟨k, h, _⟩; exact reading_nil _ _ _ _ _ h

theorem answer_cons (W : World) (A ns u us t) :
    Answer W (.namespace_ A ns (u :: us)) t ↔ Reading W A ns (u :: us) 0 t ∨
      ((∀ t', ¬ Reading W A ns (u :: us) 0 t') ∧ (u.args = .nil ∧
        Answer W (.namespace_ A (ns ++ [u.name]) us) t)) := by
  constructor
  · rintro ⟨k, hk, hm⟩
    cases k with
    | zero => exact .inl hk
    | succ k =>
      obtain ⟨hn, hr⟩ := (reading_succ ..).1 hk
      refine .inr ⟨hm 0 (by omega), hn, k, hr, ?_⟩
      intro j hj t' hr'
      exact hm (j + 1) (by omega) t' ((reading_succ ..).2 ⟨hn, hr'⟩)
  · rintro (h | ⟨h0, hn, k, hk, hm⟩)
    · exact ⟨0, h, fun j hj => by omega⟩
    · refine ⟨k + 1, (reading_succ ..).2 ⟨hn, hk⟩, ?_⟩
      intro j hj t' hr
      cases j with
      | zero => exact h0 t' hr
      | succ j => exact hm j (by omega) t' ((reading_succ ..).1 hr).2

theorem top_nonnull {W : World} {A ns u t} (h : Top W A ns u t) : t ≠ .null := by
  rcases h with ⟨x, _, rfl⟩ | ⟨_, ty, _, _, h⟩
  · split <;> simp
  · exact h

theorem top_around {W : World} (hW : WellFormed W) {A ns u t} (hn : NoAlias W u.name)
    (h : Top W A ns u t) : around W t = [t] ∧ Fits W A ns t := by
  rcases h with ⟨x, hx, rfl⟩ | ⟨_, ty, ha, _⟩
  · obtain ⟨h1, h2, h3⟩ := class_wf hW hx
    split
    · refine ⟨?_, h1, h3⟩
      rw [List.head?_eq_none_iff] at h2
      simp [around, h2]
    · exact ⟨rfl, h3⟩
  · exact absurd ha (alias_not hn)

theorem exact_findType (W : World) (hW : WellFormed W) (C : Context) (hC : C.typeDef = [])
    (A : Nat) (us : List NameUnit) : ∀ (ns : Ns), (∀ u ∈ us.dropLast, NoAlias W u.name) →
    Exact (findType W C A ns us) (Answer W (.namespace_ A ns us)) := by
  induction us with
  | nil => intro ns _; exact exact_none _ (answer_nil W A ns)
  | cons u us ih =>
    intro ns hna
    have htl : ∀ v ∈ us.dropLast, NoAlias W v.name := by
      intro v hv
      cases us with
      | nil => simp at hv
      | cons w ws => exact hna v (by rw [List.dropLast_cons_cons]; exact List.mem_cons_of_mem _ hv)
    have htop := exact_top W C hC A ns u
    unfold findType
    cases hz : getType W C A ns u .null with
    | error e => intro x hx; cases hx
    | ok o =>
      simp only
      have hsnd : Exact (if u.count = 0 then findType W C A (ns ++ [u.name]) us else .ok none)
          (fun t => u.args = .nil ∧ Answer W (.namespace_ A (ns ++ [u.name]) us) t) := by
        by_cases hc : u.count = 0
        · rw [if_pos hc]
          exact exact_congr (ih _ htl) fun t => ⟨fun h => ⟨count_nil.1 hc, h⟩, (·.2)⟩
        · rw [if_neg hc]
          exact exact_none _ fun t h => hc (count_nil.2 h.1)
      have hfst : Exact (findNest W C A ns (o.getD .null) us)
          (fun t => Reading W A ns (u :: us) 0 t) := by
        cases o with
        | none =>
          have hn : ∀ t, ¬ Reading W A ns (u :: us) 0 t := by
            intro t h
            obtain ⟨t0, h1, _⟩ := (reading_zero ..).1 h
            exact htop.none hz t0 h1
          cases us with
          | nil => exact exact_none _ hn
          | cons v vs => exact exact_none _ hn
        | some t0 =>
          have ht0 := htop.some hz
          have hin : ∀ t, Reading W A ns (u :: us) 0 t ↔ Inside W t0 us t := by
            intro t
            rw [reading_zero]
            constructor
            · rintro ⟨t1, h1, h2⟩; rw [(ht0 t1).1 h1] at h2; exact h2
            · intro h; exact ⟨t0, (ht0 t0).2 rfl, h⟩
          refine exact_congr ?_ fun t => (hin t).symm
          cases us with
          | nil =>
            intro x hx t
            simp only [findNest, Option.getD_some, if_neg (top_nonnull ((ht0 t0).2 rfl)),
              Except.ok.injEq] at hx
            rw [← hx]; simp only [Inside, Option.some.injEq]; exact eq_comm
          | cons v vs =>
            have hu : NoAlias W u.name := hna u (by simp)
            obtain ⟨ha, hf⟩ := top_around hW hu ((ht0 t0).2 rfl)
            have ho := exact_outward W hW C hC A ns v vs htl [t0]
              (by intro t ht; rw [List.mem_singleton] at ht; rw [ht]; exact hf)
            simp only [findNest, Option.getD_some, ha]
            refine exact_congr ho fun t => ?_
            constructor
            · rintro ⟨i, t', o, t1, he, _, h2, h3⟩
              cases i with
              | nil =>
                simp only [List.nil_append, List.cons.injEq] at he
                rw [← he.1] at h2
                exact ⟨t1, h2, h3⟩
              | cons a i =>
                have := congrArg List.length he
                simp at this
            · rintro ⟨t1, h2, h3⟩
              exact ⟨[], t0, [], t1, rfl, by simp, h2, h3⟩
      exact exact_congr (exact_alt hfst hsnd) fun t => (answer_cons ..).symm

theorem exact_searchType (W : World) (hW : WellFormed W) (C : Context) (hC : C.typeDef = [])
    (A : Nat) (us : List NameUnit) : ∀ (ns : Ns), (∀ u ∈ us.dropLast, NoAlias W u.name) →
    Exact (searchType W C A ns us) (Answer W (.namespace_ A ns us)) := by
  induction us with
  | nil => intro ns _; exact exact_none _ (answer_nil W A ns)
  | cons u us ih =>
    intro ns hna
    have htl : ∀ v ∈ us.dropLast, NoAlias W v.name := by
      intro v hv
      cases us with
      | nil => simp at hv
      | cons w ws => exact hna v (by rw [List.dropLast_cons_cons]; exact List.mem_cons_of_mem _ hv)
    have h1 := exact_findType W hW C hC A (u :: us) ns hna
    have h2 : Exact (if us ≠ [] ∧ u.isGeneric = false then searchType W C A (ns ++ [u.name]) us
        else .ok none) (fun t => us ≠ [] ∧ u.isGeneric = false ∧
          Answer W (.namespace_ A (ns ++ [u.name]) us) t) := by
      by_cases hc : us ≠ [] ∧ u.isGeneric = false
      · rw [if_pos hc]
        exact exact_congr (ih _ htl) fun t => ⟨fun h => ⟨hc.1, hc.2, h⟩, fun h => h.2.2⟩
      · rw [if_neg hc]
        exact exact_none _ fun t h => hc ⟨h.1, h.2.1⟩
    unfold searchType
    refine exact_congr (exact_alt h1 h2) fun t => ⟨?_, .inl⟩
    rintro (h | ⟨hn, _, hg, ha⟩)
    · exact h
    · have hnil : u.args = .nil := by
        rw [← count_nil]; simpa [NameUnit.isGeneric] using hg
      exact (answer_cons ..).2 (.inr ⟨fun t' hr => hn t' ((answer_cons ..).2 (.inl hr)), hnil, ha⟩)

/-! ## Lists of places -/

/-- What the first place says that says anything. -/
def FirstOf (W : World) (ps : List Place) (t : Ty) : Prop :=
  ∃ before p after, ps = before ++ p :: after ∧ Answer W p t ∧
    ∀ q ∈ before, ∀ t', ¬ Answer W q t'

theorem firstOf_nil (W : World) (t : Ty) : ¬ FirstOf W [] t := by
  rintro ⟨b, p, a, h, _⟩; simp at h

theorem firstOf_cons (W : World) (p : Place) (ps : List Place) (t : Ty) :
    FirstOf W (p :: ps) t ↔ Answer W p t ∨ ((∀ t', ¬ Answer W p t') ∧ FirstOf W ps t) := by
  constructor
  · rintro ⟨b, q, a, h, h1, h2⟩
    cases b with
    | nil => simp only [List.nil_append, List.cons.injEq] at h; rw [h.1]; exact .inl h1
    | cons x b =>
      simp only [List.cons_append, List.cons.injEq] at h
      rw [h.1]
      exact .inr ⟨h2 x (by simp), b, q, a, h.2, h1, fun q hq => h2 q (List.mem_cons_of_mem _ hq)⟩
  · rintro (h | ⟨h0, b, q, a, h, h1, h2⟩)
    · exact ⟨[], p, ps, rfl, h, by simp⟩
    · refine ⟨p :: b, q, a, by rw [h]; rfl, h1, ?_⟩
      intro z hz
      rcases List.mem_cons.1 hz with rfl | hz
      · exact h0
      · exact h2 z hz

theorem firstOf_append (W : World) (ps qs : List Place) (t : Ty) :
    FirstOf W (ps ++ qs) t ↔ FirstOf W ps t ∨ ((∀ t', ¬ FirstOf W ps t') ∧ FirstOf W qs t) := by
  induction ps with
  | nil =>
    rw [List.nil_append]
    exact ⟨fun h => .inr ⟨firstOf_nil W, h⟩, fun h => h.elim (fun h => absurd h (firstOf_nil W t)) (·.2)⟩
  | cons p ps ih =>
    rw [List.cons_append, firstOf_cons, firstOf_cons, ih]
    constructor
    · rintro (h | ⟨h0, h | ⟨h1, h2⟩⟩)
      · exact .inl (.inl h)
      · exact .inl (.inr ⟨h0, h⟩)
      · refine .inr ⟨?_, h2⟩
        intro t' ht'
        rcases (firstOf_cons ..).1 ht' with h | ⟨_, h⟩
        · exact h0 t' h
        · exact h1 t' h
    · rintro ((h | ⟨h0, h⟩) | ⟨h1, h2⟩)
      · exact .inl h
      · exact .inr ⟨h0, .inl h⟩
      · exact .inr ⟨fun t' h => h1 t' ((firstOf_cons ..).2 (.inl h)), .inr ⟨fun t' h =>
          h1 t' ((firstOf_cons ..).2 (.inr ⟨fun t2 h2' => h1 t2 ((firstOf_cons ..).2 (.inl h2')), h⟩)), h2⟩⟩

theorem firstOf_one (W : World) (p : Place) (t : Ty) : FirstOf W [p] t ↔ Answer W p t := by
  rw [firstOf_cons]
  exact ⟨fun h => h.elim id fun h => absurd h.2 (firstOf_nil W t), .inl⟩

theorem exact_append {a b : Res} {W : World} {ps qs : List Place} (ha : Exact a (FirstOf W ps))
    (hb : Exact b (FirstOf W qs)) : Exact (alt a b) (FirstOf W (ps ++ qs)) :=
  exact_congr (exact_alt ha hb) fun t => (firstOf_append W ps qs t).symm

theorem exact_nil (W : World) : Exact (.ok none) (FirstOf W []) :=
  exact_none _ (firstOf_nil W)

theorem exact_place {r : Res} {W : World} {p : Place} (h : Exact r (Answer W p)) :
    Exact r (FirstOf W [p]) :=
  exact_congr h fun t => (firstOf_one W p t).symm

theorem exact_first {α : Type} {W : World} {f : α → Res} {g : α → List Place} (l : List α)
    (h : ∀ a ∈ l, Exact (f a) (FirstOf W (g a))) : Exact (first f l) (FirstOf W (l.flatMap g)) := by
  induction l with
  | nil => exact exact_nil W
  | cons a l ih =>
    rw [List.flatMap_cons]
    exact exact_append (h a (by simp)) (ih fun b hb => h b (List.mem_cons_of_mem _ hb))

/-! ## Imports and usings -/

theorem startsWith_iff (ns : List Name) (us : List NameUnit) :
    startsWith ns us = true ↔ us.take ns.length = ns.map plain ∧ ns.length < us.length := by
  induction ns generalizing us with
  | nil => cases us <;> simp [startsWith]
  | cons n ns ih =>
    cases us with
    | nil => simp [startsWith]
    | cons u us =>
      have hu : (u.isGeneric = false ∧ u.name = n) ↔ u = plain n := by
        have : u.isGeneric = false ↔ u.args = .nil := by
          rw [← count_nil]; simp [NameUnit.isGeneric]
        rw [this]
        obtain ⟨m, a⟩ := u
        simp only [plain, NameUnit.mk.injEq]
        exact and_comm
      simp only [startsWith, Bool.and_eq_true, Bool.not_eq_true', beq_iff_eq, ih, List.length_cons,
        List.take_succ_cons, List.map_cons, List.cons.injEq, hu, Nat.add_lt_add_iff_right]
      exact and_assoc.symm

theorem plain_iff (u : NameUnit) (n : Name) :
    (!u.isGeneric && u.name == n) = true ↔ u = plain n := by
  have : u.isGeneric = false ↔ u.args = .nil := by
    rw [← count_nil]; simp [NameUnit.isGeneric]
  rw [Bool.and_eq_true, Bool.not_eq_true', this, beq_iff_eq]
  obtain ⟨m, a⟩ := u
  simp only [plain, NameUnit.mk.injEq]
  exact and_comm

theorem import_after (i : Import) (us : List NameUnit) :
    (0 < importPrefix i us → afterImport i us = some (us.drop (importPrefix i us))) ∧
    (¬ 0 < importPrefix i us → afterImport i us = none) := by
  cases us with
  | nil =>
    refine ⟨fun h => by simp [importPrefix] at h, fun _ => ?_⟩
    unfold afterImport
    cases i.alias_ <;> simp
  | cons u us =>
    unfold importPrefix afterImport
    cases i.alias_ with
    | some a =>
      simp only
      by_cases hu : u = plain a
      · rw [if_pos ((plain_iff u a).2 hu), if_pos hu]; simp
      · rw [if_neg (fun h => hu ((plain_iff u a).1 h)), if_neg hu]; simp
    | none =>
      simp only
      by_cases hs : startsWith i.assembly (u :: us) = true
      · rw [if_pos hs]
        obtain ⟨h1, h2⟩ := (startsWith_iff ..).1 hs
        constructor
        · intro hp
          rw [if_pos ⟨fun e => by rw [e] at hp; simp at hp, h1, h2⟩]
        · intro hp
          rw [if_neg]
          rintro ⟨he, _⟩
          exact hp (List.length_pos_iff.2 he)
      · rw [if_neg hs]
        refine ⟨fun h => absurd h (by omega), fun _ => ?_⟩
        rw [if_neg]
        rintro ⟨_, h1, h2⟩
        exact hs ((startsWith_iff ..).2 ⟨h1, h2⟩)

theorem dropLast_drop_mem {α : Type} {l : List α} {n : Nat} {a : α}
    (h : a ∈ (l.drop n).dropLast) : a ∈ l.dropLast := by
  induction l generalizing n with
  | nil => simp at h
  | cons x l ih =>
    cases n with
    | zero => exact h
    | succ n =>
      rw [List.drop_succ_cons] at h
      have := ih h
      cases l with
      | nil => simp at this
      | cons y l => rw [List.dropLast_cons_cons]; exact List.mem_cons_of_mem _ this

theorem filterMap_flatMap {α β : Type} (f : α → Option β) (l : List α) :
    l.filterMap f = l.flatMap fun a => (f a).toList := by
  induction l with
  | nil => rfl
  | cons a l ih =>
    rw [List.flatMap_cons, List.filterMap_cons, ← ih]
    cases f a <;> rfl

theorem exact_global (W : World) (hW : WellFormed W) (C : Context) (hC : C.typeDef = [])
    (us : List NameUnit) (hna : ∀ u ∈ us.dropLast, NoAlias W u.name) :
    Exact (searchGlobal W C us) (FirstOf W (everywhere C us)) := by
  unfold searchGlobal everywhere
  rw [← List.singleton_append, filterMap_flatMap]
  refine exact_append (exact_place (exact_searchType W hW C hC _ us [] hna)) (exact_first _ ?_)
  intro i _
  unfold inImport
  obtain ⟨h1, h2⟩ := import_after i us
  by_cases hp : 0 < importPrefix i us
  · rw [if_pos hp, h1 hp]
    cases i.loaded with
    | none => exact exact_nil W
    | some A =>
      exact exact_place (exact_searchType W hW C hC A _ [] fun u hu => hna u (dropLast_drop_mem hu))
  · rw [if_neg hp, h2 hp]
    exact exact_nil W

theorem dropLast_append_mem {α : Type} {k l : List α} {a : α}
    (h : a ∈ (k ++ l).dropLast) : a ∈ k ∨ a ∈ l.dropLast := by
  cases l with
  | nil => rw [List.append_nil] at h; exact .inl (List.dropLast_subset _ h)
  | cons x l =>
    rw [List.dropLast_append_of_ne_nil (by simp)] at h
    exact List.mem_append.1 h

theorem exact_using (W : World) (hW : WellFormed W) (C : Context) (hC : C.typeDef = [])
    (us : List NameUnit) (hna : ∀ u ∈ us.dropLast, NoAlias W u.name) (v : Using)
    (hv : ∀ n ∈ v.ns, NoAlias W n) :
    Exact (inUsing W C us v) (FirstOf W (match byUsing v us with
      | none => []
      | some us => everywhere C us)) := by
  have hcomb : ∀ us : List NameUnit, (∀ u ∈ us.dropLast, NoAlias W u.name) →
      Exact (searchGlobal W C (v.ns.map (⟨·, .nil⟩) ++ us))
        (FirstOf W (everywhere C (v.ns.map plain ++ us))) := by
    intro us hna
    refine exact_global W hW C hC _ ?_
    intro u hu
    rcases dropLast_append_mem hu with hu | hu
    · obtain ⟨n, hn, rfl⟩ := List.mem_map.1 hu
      exact hv n hn
    · exact hna u hu
  unfold inUsing byUsing
  cases v.alias_ with
  | none => exact hcomb us hna
  | some a =>
    cases us with
    | nil => exact exact_nil W
    | cons u us =>
      cases us with
      | nil => exact exact_nil W
      | cons u' us =>
        simp only
        by_cases hu : u = plain a
        · rw [if_pos ((plain_iff u a).2 hu), if_pos hu]
          exact hcomb _ fun w hw => hna w (by
            rw [List.dropLast_cons_cons]; exact List.mem_cons_of_mem _ hw)
        · rw [if_neg (fun h => hu ((plain_iff u a).1 h)), if_neg hu]
          exact exact_nil W

/-! ## The whole -/

theorem enclosing_cons (ns : Ns) (h : ns ≠ []) : enclosing ns = ns :: enclosing ns.dropLast := by
  unfold enclosing
  have hl : 0 < ns.length := List.length_pos_iff.2 h
  rw [List.range_succ_eq_map, List.map_cons, List.map_map]
  congr 1
  · simp
  · rw [List.length_dropLast, show ns.length - 1 + 1 = ns.length by omega]
    apply List.map_congr_left
    intro i hi
    rw [List.mem_range] at hi
    simp only [Function.comp]
    rw [List.dropLast_eq_take, List.take_take]
    congr 1
    omega

theorem exact_upward (W : World) (hW : WellFormed W) (C : Context) (hC : C.typeDef = [])
    (us : List NameUnit) (hna : ∀ u ∈ us.dropLast, NoAlias W u.name) (n : Nat) :
    ∀ ns : Ns, ns.length = n →
    Exact (upward W C us n ns) (FirstOf W ((enclosing ns).map (.namespace_ C.self · us))) := by
  induction n with
  | zero =>
    intro ns hn
    obtain rfl := List.length_eq_zero_iff.1 hn
    exact exact_place (exact_findType W hW C hC C.self us [] hna)
  | succ n ih =>
    intro ns hn
    rw [enclosing_cons ns (by intro e; rw [e] at hn; simp at hn), List.map_cons,
      ← List.singleton_append]
    exact exact_append (exact_place (exact_findType W hW C hC C.self us ns hna))
      (ih _ (by rw [List.length_dropLast]; omega))

theorem hosts_all {W : World} (hW : WellFormed W) (l : List Id) : ∀ t, W.hosts t = l →
    ∀ h ∈ l, W.assembly h = W.assembly t ∧ outerNs W h = outerNs W t := by
  induction l with
  | nil => intro t _ h hh; simp at hh
  | cons a l ih =>
    intro t ht h hh
    obtain ⟨h1, h2⟩ := hW.hosts _ _ _ ht
    have ho := hosts_outer hW (x := t) (h := a) (by rw [ht]; rfl)
    rcases List.mem_cons.1 hh with rfl | hh
    · exact ⟨ho.1.symm, ho.2.symm⟩
    · have := ih a h1.symm h hh
      exact ⟨this.1.trans ho.1.symm, this.2.trans ho.2.symm⟩

theorem exact_classes (W : World) (hW : WellFormed W) (C : Context) (hC : C.typeDef = [])
    (us : List NameUnit) (hna : ∀ u ∈ us.dropLast, NoAlias W u.name) (hus : us ≠ []) (t : Id)
    (ht : W.assembly t = C.self ∧ outerNs W t = C.ns) :
    Exact (findNest W C C.self C.ns (.gen t) us) (Answer W (.classes (t :: W.hosts t) us)) := by
  cases us with
  | nil => exact absurd rfl hus
  | cons u us =>
    have hf : ∀ s ∈ Ty.gen t :: (W.hosts t).map Ty.gen, Fits W C.self C.ns s := by
      intro s hs
      rcases List.mem_cons.1 hs with rfl | hs
      · exact ht
      · obtain ⟨h, hh, rfl⟩ := List.mem_map.1 hs
        have := hosts_all hW _ t rfl h hh
        exact ⟨this.1.trans ht.1, this.2.trans ht.2⟩
    refine exact_congr (exact_outward W hW C hC C.self C.ns u us hna _ hf) fun r => ?_
    constructor
    · rintro ⟨i, s, o, t1, he, h1, h2, h3⟩
      have he : (t :: W.hosts t).map Ty.gen = i ++ s :: o := he
      obtain ⟨i', r', e1, e2, e3⟩ := List.map_eq_append_iff.1 he
      obtain ⟨s', o', e4, e5, e6⟩ := List.map_eq_cons_iff.1 e3
      subst e2; subst e5
      refine ⟨i', s', o', u, us, t1, by rw [e1, e4], rfl, ?_, h2, h3⟩
      intro h' hh'
      exact h1 _ (List.mem_map_of_mem hh')
    · rintro ⟨i, h, o, u', post, t1, he, hu, h1, h2, h3⟩
      cases hu
      refine ⟨i.map .gen, .gen h, o.map .gen, t1, ?_, ?_, h2, h3⟩
      · show (t :: W.hosts t).map Ty.gen = _
        rw [he, List.map_append, List.map_cons]
      · intro s hs
        obtain ⟨h', hh', rfl⟩ := List.mem_map.1 hs
        exact h1 h' hh'

theorem lookup_flatMap {α : Type} (l : List α) (f : α → List (Name × Id)) (n : Name) :
    (l.flatMap f).lookup n = l.findSome? fun a => (f a).lookup n := by
  induction l with
  | nil => rfl
  | cons a l ih =>
    rw [List.flatMap_cons, List.lookup_append, List.findSome?_cons, ih]
    cases (f a).lookup n <;> rfl

theorem param_eq (W : World) (C : Context) (us : List NameUnit) :
    ofParam W C us = asParam W C us := by
  cases us with
  | nil => rfl
  | cons u us =>
    cases us with
    | cons v vs => rfl
    | nil =>
      simp only [ofParam, asParam]
      have hg : (u.isGeneric = true) ↔ ¬ u.args = .nil := by
        rw [← count_nil]; simp [NameUnit.isGeneric]
      by_cases hn : u.args = .nil
      · rw [if_neg (by rw [hg]; simpa using hn), if_pos hn]
        unfold typeParams
        rw [List.lookup_append]
        cases C.methodParams.lookup u.name with
        | some p => rfl
        | none =>
          cases C.type with
          | none => rfl
          | some t => simp only [Option.none_or]; rw [lookup_flatMap]
      · rw [if_pos (hg.2 hn), if_neg hn]

theorem exact_resolve (W : World) (hW : WellFormed W) (C : Context) (hC : C.typeDef = [])
    (hP : Placed W C) (g : Global) (us : List NameUnit) (hus : us ≠ []) (hna : AliasLast W C us) :
    Exact (resolve W C g us) (Meaning W C g us) := by
  unfold resolve
  rw [param_eq]
  have hm : ∀ t, Meaning W C g us t ↔ match asParam W C us with
      | some p => t = .gparam p
      | none => FirstOf W (places W C us g) t := by
    intro t; unfold Meaning FirstOf; cases asParam W C us <;> rfl
  refine exact_congr (P := fun t => match asParam W C us with
      | some p => t = .gparam p
      | none => FirstOf W (places W C us g) t) ?_ fun t => (hm t).symm
  cases asParam W C us with
  | some p =>
    intro x hx t; cases hx
    simp only [Option.some.injEq]; exact eq_comm
  | none =>
    cases g with
    | global => exact exact_global W hW C hC us hna.1
    | root =>
      show Exact _ (FirstOf W (_ :: _))
      rw [← List.singleton_append]
      exact exact_append (exact_place (exact_findType W hW C hC _ us [] hna.1))
        (exact_global W hW C hC us hna.1)
    | default_ =>
      simp only [places]
      rw [List.append_assoc, List.append_assoc]
      refine exact_append ?_ (exact_append (exact_upward W hW C hC us hna.1 _ _ rfl)
        (exact_append (exact_global W hW C hC us hna.1)
          (exact_first _ fun v hv => exact_using W hW C hC us hna.1 v (hna.2 v hv))))
      cases ht : C.type with
      | none => exact exact_nil W
      | some t => exact exact_place (exact_classes W hW C hC us hna.1 hus t (hP t ht))

end Verif.Names
