import Verif.Spec.Dispatch

/-! # C43: kinds of calls; C71: virtual calls; C72: interface calls; C73: casts and type tests -/

namespace Verif.Dispatch.Props

/-! ## C43 -/

/-- **C43**.  A call to a method that is neither `extern` nor `static` is dispatched by the object's type
exactly when the method is a member of an interface, or when the class is not sealed and the compiler
would accept an override of the method. -/
theorem virtual_iff_overridable (m : Decl) :
    callType m true = .virtual_ ↔ m.ext = false ∧ m.static_ = false ∧
      (m.hostInterface = true ∨
        (m.hostSealed = false ∧ ∃ o : Decl, o.over = true ∧ acceptModifiers o (some m) = true)) := by
  obtain ⟨ext, st, v, o, a, s, hi, hs⟩ := m
  have key : (∃ d : Decl, d.over = true ∧ acceptModifiers d (some ⟨ext, st, v, o, a, s, hi, hs⟩) = true) ↔
      ((v || o || a) && !s) = true := by
    constructor
    · rintro ⟨d, hd, h⟩
      simp only [acceptModifiers, hd, ↓reduceIte, Bool.and_eq_true] at h
      simp only [Bool.and_eq_true]
      exact ⟨h.1.2.1, h.1.2.2⟩
    · intro h
      refine ⟨⟨false, false, false, true, false, false, false, false⟩, rfl, ?_⟩
      simp only [acceptModifiers, ↓reduceIte, h]
      rfl
  simp only [key]
  clear key
  revert ext st v o a s hi hs
  decide

/-- **C43**.  A direct call is written only where a dispatched call would run the same method: when the
compiler writes one, no class below - if each of its members was accepted - overrides the target.  (A
sealed class is taken to have no classes below it; the compiler does not check this.) -/
theorem direct_not_overridden (m : Decl) (h : callType m true = .instance_)
    (ds : List (Option Decl)) (hl : Legal ds (some m)) (hs : m.hostSealed = true → ds = []) : ¬ Overridden ds := by
  induction ds with
  | nil => exact id
  | cons d ds ih =>
    have hs' : m.hostSealed = false := by
      cases hh : m.hostSealed with
      | false => rfl
      | true => exact absurd (hs hh) (by simp)
    obtain ⟨h1, h2⟩ := hl
    rintro (ho | ⟨hn, o, rfl, hov⟩)
    · exact ih h2 (by simp [hs']) ho
    · have hf : ds.find? (·.isSome) = none := by
        rw [List.find?_eq_none]
        intro x hx
        rw [hn x hx]
        simp
      have hacc := h1 o rfl
      rw [hf] at hacc
      simp only [Option.getD_none, acceptModifiers, hov, ↓reduceIte, Bool.and_eq_true, Bool.not_eq_true'] at hacc
      obtain ⟨⟨_, hv, hse⟩, _⟩ := hacc
      simp only [callType, hv, hse, hs'] at h
      revert h
      cases m.ext <;> cases m.static_ <;> cases m.hostInterface <;> simp

/-- **C43 refuted** below a sealed class: nothing refuses a class derived from it, and the override in such
a class is accepted, but the call is direct. -/
theorem sealed_class_refuted :
    callType ⟨false, false, true, false, false, false, false, true⟩ true = .instance_ ∧
    Legal [some ⟨false, false, false, true, false, false, false, false⟩]
      (some ⟨false, false, true, false, false, false, false, true⟩) ∧
    Overridden [some ⟨false, false, false, true, false, false, false, false⟩] := by
  refine ⟨by decide, ⟨?_, trivial⟩, Or.inr ⟨(by intro x hx; cases hx), _, rfl, rfl⟩⟩
  intro m hm; cases hm; decide

/-- A call on `base` is never dispatched. -/
theorem base_call_direct (m : Decl) : writtenCall m true ≠ .virtual_ := by
  rw [writtenCall]
  simp only [Bool.true_and, decide_eq_true_eq]
  split
  · simp
  · assumption

/-- A plain virtual method; the same, sealed. -/
example : callType ⟨false, false, true, false, false, false, false, false⟩ true = .virtual_ := by decide
example : callType ⟨false, false, false, true, false, true, false, false⟩ true = .instance_ := by decide
/-- An override below a virtual method is legal. -/
example : Legal [none, some ⟨false, false, false, true, false, true, false, false⟩]
    (some ⟨false, false, true, false, false, false, false, false⟩) := by
  refine ⟨(by intro m hm; cases hm), ?_, trivial⟩
  intro m hm; cases hm; decide

/-! ## Helper lemmas for C71 -/

/-- The prototypes of the places of the table. -/
def slots : List Class → List Nat
  | [] => []
  | c :: bases => slots bases ++ (c.methods.filter (·.virt)).map (·.proto)

theorem slots_declared : ∀ {chain : List Class} {p : Nat}, p ∈ slots chain →
    ∃ b ∈ chain, ∃ m ∈ b.methods, m.virt = true ∧ m.proto = p
  | [], p, h => by cases h
  | c :: bases, p, h => by
    rw [slots, List.mem_append] at h
    rcases h with h | h
    · obtain ⟨b, hb, h⟩ := slots_declared h
      exact ⟨b, List.mem_cons_of_mem _ hb, h⟩
    · rw [List.mem_map] at h
      obtain ⟨m, hm, rfl⟩ := h
      rw [List.mem_filter] at hm
      exact ⟨c, List.mem_cons_self, m, hm.1, hm.2, rfl⟩

theorem slots_of_declared : ∀ {chain : List Class} {b : Class} {m : Method}, b ∈ chain → m ∈ b.methods →
    m.virt = true → m.proto ∈ slots chain
  | [], b, m, hb, _, _ => by cases hb
  | c :: bases, b, m, hb, hm, hv => by
    rw [slots, List.mem_append]
    rw [List.mem_cons] at hb
    rcases hb with rfl | hb
    · exact Or.inr (List.mem_map.mpr ⟨m, List.mem_filter.mpr ⟨hm, hv⟩, rfl⟩)
    · exact Or.inl (slots_of_declared hb hm hv)

/-- The inherited places are not declared anew, except to override. -/
theorem slots_fresh {c : Class} {bases : List Class} (ht : Tidy (c :: bases)) {p : Nat} (hp : p ∈ slots bases)
    {m : Method} (hm : m ∈ c.methods) (he : m.proto = p) : m.over = true := by
  cases h : m.over with
  | true => rfl
  | false =>
    obtain ⟨b, hb, m', hm', _, hp'⟩ := slots_declared hp
    exact absurd (List.mem_map.mpr ⟨m', hm', hp'.trans he.symm⟩) (ht.2.2.1 m hm h b hb)

theorem slots_nodup : ∀ {chain : List Class}, Tidy chain → (slots chain).Nodup
  | [], _ => List.nodup_nil
  | c :: bases, ht => by
    rw [slots, List.nodup_append]
    refine ⟨slots_nodup ht.2.2.2.2, ?_, ?_⟩
    · exact (List.filter_sublist.map _).nodup ht.1
    · intro a ha b hb hab
      subst hab
      rw [List.mem_map] at hb
      obtain ⟨m, hm, he⟩ := hb
      rw [List.mem_filter] at hm
      have := slots_fresh ht ha hm.1 he
      rw [ht.2.1 m hm.1 hm.2] at this
      cases this

/-- The entries of methods, numbered from `i`. -/
def entries (c : Class) : Nat → List Method → List Entry
  | _, [] => []
  | i, m :: ms => c.entry i m :: entries c (i + 1) ms

theorem entries_proto (c : Class) : ∀ i ms, (entries c i ms).map (·.proto) = ms.map (·.proto)
  | _, [] => rfl
  | i, m :: ms => by simp [entries, entries_proto c (i + 1) ms, Class.entry]

theorem mem_entries {c : Class} : ∀ {i ms e}, e ∈ entries c i ms → ∃ k m, ms[k]? = some m ∧ e = c.entry (i + k) m
  | _, [], _, h => by cases h
  | i, m :: ms, e, h => by
    rw [entries, List.mem_cons] at h
    rcases h with rfl | h
    · exact ⟨0, m, rfl, rfl⟩
    · obtain ⟨k, m', h1, h2⟩ := mem_entries h
      exact ⟨k + 1, m', by simpa using h1, by rw [h2]; congr 1; omega⟩

theorem addMethods_virt (c : Class) : ∀ vs ms i v, (∀ m ∈ vs, m.virt = true) →
    addMethods c i (vs ++ ms) v = addMethods c (i + vs.length) ms (v ++ entries c i vs)
  | [], ms, i, v, _ => by simp [entries]
  | m :: vs, ms, i, v, h => by
    rw [List.cons_append, addMethods, if_pos (h m List.mem_cons_self),
      addMethods_virt c vs ms (i + 1) _ (fun x hx => h x (List.mem_cons_of_mem _ hx))]
    simp only [entries, List.length_cons, List.append_assoc, List.singleton_append]
    congr 1
    omega

theorem addMethods_rest (c : Class) (ms : List Method) (i : Nat) (v : List Entry)
    (h : ∀ m ∈ ms, m.virt = false ∧ m.over = false) : addMethods c i ms v = some v := by
  cases ms with
  | nil => rfl
  | cons m ms =>
    have := h m List.mem_cons_self
    simp [addMethods, this.1, this.2]

theorem replaceFirst_spec (e : Entry) : ∀ v : List Entry, (v.map (·.proto)).Nodup → e.proto ∈ v.map (·.proto) →
    replaceFirst e v = some (v.map (fun x => if x.proto = e.proto then e else x))
  | [], _, h => by cases h
  | x :: v, hn, h => by
    rw [List.map_cons, List.nodup_cons] at hn
    rw [replaceFirst]
    by_cases hx : x.proto = e.proto
    · rw [if_pos hx, List.map_cons, if_pos hx]
      congr 2
      have : v.map (fun x => if x.proto = e.proto then e else x) = v.map id := by
        apply List.map_congr_left
        intro y hy
        rw [if_neg]
        · rfl
        · intro he
          exact hn.1 (List.mem_map.mpr ⟨y, hy, he.trans hx.symm⟩)
      rw [this, List.map_id]
    · rw [if_neg hx, List.map_cons, if_neg hx]
      rw [List.map_cons, List.mem_cons] at h
      rcases h with h | h
      · exact absurd h.symm hx
      · rw [replaceFirst_spec e v hn.2 h]
        rfl

theorem addMethods_over (c : Class) : ∀ os rest i v, (∀ m ∈ os, m.virt = false ∧ m.over = true) →
    (∀ m ∈ rest, m.virt = false ∧ m.over = false) → (v.map (·.proto)).Nodup → (os.map (·.proto)).Nodup →
    (∀ m ∈ os, m.proto ∈ v.map (·.proto)) →
    ∃ v', addMethods c i (os ++ rest) v = some v' ∧ v'.map (·.proto) = v.map (·.proto) ∧
      ∀ e ∈ v', (∃ k m, os[k]? = some m ∧ e = c.entry (i + k) m) ∨ (e ∈ v ∧ e.proto ∉ os.map (·.proto))
  | [], rest, i, v, _, hr, _, _, _ => ⟨v, addMethods_rest c rest i v hr, rfl, fun e he => Or.inr ⟨he, by simp⟩⟩
  | m :: os, rest, i, v, ho, hr, hv, hd, hm => by
    have h1 := ho m List.mem_cons_self
    have hp := hm m List.mem_cons_self
    rw [List.map_cons, List.nodup_cons] at hd
    have hrep := replaceFirst_spec (c.entry i m) v hv hp
    have hpro : (v.map (fun x => if x.proto = (c.entry i m).proto then c.entry i m else x)).map (·.proto) =
        v.map (·.proto) := by
      rw [List.map_map]
      apply List.map_congr_left
      intro x _
      simp only [Function.comp]
      split
      · rename_i e; exact e.symm
      · rfl
    obtain ⟨v', e1, e2, e3⟩ := addMethods_over c os rest (i + 1)
      (v.map (fun x => if x.proto = (c.entry i m).proto then c.entry i m else x))
      (fun x hx => ho x (List.mem_cons_of_mem _ hx)) hr (by rw [hpro]; exact hv) hd.2
      (fun x hx => by rw [hpro]; exact hm x (List.mem_cons_of_mem _ hx))
    refine ⟨v', ?_, e2.trans hpro, ?_⟩
    · rw [List.cons_append, addMethods, if_neg (by simp [h1.1]), if_pos h1.2, hrep]
      exact e1
    · intro e he
      rcases e3 e he with ⟨k, m', hk, rfl⟩ | ⟨he, hn⟩
      · exact Or.inl ⟨k + 1, m', by simpa using hk, by congr 1; omega⟩
      · rw [List.mem_map] at he
        obtain ⟨x, hx, hxe⟩ := he
        by_cases hxp : x.proto = (c.entry i m).proto
        · rw [if_pos hxp] at hxe
          exact Or.inl ⟨0, m, rfl, hxe.symm⟩
        · rw [if_neg hxp] at hxe
          subst hxe
          refine Or.inr ⟨hx, ?_⟩
          rw [List.map_cons, List.mem_cons]
          rintro (h | h)
          · exact hxp h
          · exact hn h

/-- The method with this prototype in the last class that declares one. -/
def latest (p : Nat) : List Class → Option Entry
  | [] => none
  | c :: bases =>
    match declared c p with
    | some (i, m) => some (c.entry i m)
    | none => latest p bases

theorem declared_of_get {c : Class} (hn : (c.methods.map (·.proto)).Nodup) {i : Nat} {m : Method}
    (h : c.methods[i]? = some m) : declared c m.proto = some (i, m) := by
  rw [declared]
  have key : ∀ (l : List Method) (k i : Nat), (l.map (·.proto)).Nodup → l[i]? = some m →
      (l.zipIdx k).find? (fun x => decide (x.1.proto = m.proto)) = some (m, k + i) := by
    intro l
    induction l with
    | nil => intro k i _ h; cases h
    | cons a l ih =>
      intro k i hn h
      rw [List.map_cons, List.nodup_cons] at hn
      rw [List.zipIdx_cons, List.find?_cons]
      cases i with
      | zero =>
        cases h
        simp
      | succ i =>
        have hl : l[i]? = some m := by simpa using h
        have hne : a.proto ≠ m.proto := by
          intro e
          exact hn.1 (List.mem_map.mpr ⟨m, List.mem_of_getElem? hl, e.symm⟩)
        simp only [hne, decide_false]
        rw [ih (k + 1) i hn.2 hl]
        congr 2
        omega
  rw [key c.methods 0 i hn h]
  simp

theorem declared_none {c : Class} {p : Nat} (h : p ∉ c.methods.map (·.proto)) : declared c p = none := by
  rw [declared, Option.map_eq_none_iff, List.find?_eq_none]
  intro x hx
  rw [decide_eq_true_eq]
  intro e
  exact h (List.mem_map.mpr ⟨x.1, List.mem_zipIdx hx |>.2.2 ▸ List.getElem_mem _, e⟩)

theorem declared_some {c : Class} {p i : Nat} {m : Method} (h : declared c p = some (i, m)) :
    c.methods[i]? = some m ∧ m.proto = p := by
  rw [declared, Option.map_eq_some_iff] at h
  obtain ⟨x, hx, he⟩ := h
  simp only [Prod.mk.injEq] at he
  obtain ⟨rfl, rfl⟩ := he
  refine ⟨?_, by have := List.find?_some hx; simpa using this⟩
  have := List.mem_of_find?_eq_some hx
  exact List.mk_mem_zipIdx_iff_getElem?.mp this

theorem ordered_slots {c : Class} {vs os rest : List Method} (h : c.methods = vs ++ (os ++ rest))
    (h1 : ∀ m ∈ vs, m.virt = true) (h2 : ∀ m ∈ os, m.virt = false ∧ m.over = true)
    (h3 : ∀ m ∈ rest, m.virt = false ∧ m.over = false) :
    c.methods.filter (·.virt) = vs ∧ c.methods.takeWhile (·.virt) = vs := by
  rw [h]
  constructor
  · rw [List.filter_append, List.filter_append, List.filter_eq_self.mpr h1,
      List.filter_eq_nil_iff.mpr (fun a ha => by simp [(h2 a ha).1]),
      List.filter_eq_nil_iff.mpr (fun a ha => by simp [(h3 a ha).1])]
    simp
  · rw [List.takeWhile_append_of_pos h1]
    have : (os ++ rest).takeWhile (·.virt) = [] := by
      cases hos : os ++ rest with
      | nil => rfl
      | cons a l =>
        have ha : a ∈ os ++ rest := by rw [hos]; exact List.mem_cons_self
        rw [List.mem_append] at ha
        have hv : a.virt = false := by
          rcases ha with ha | ha
          · exact (h2 a ha).1
          · exact (h3 a ha).1
        simp [hv]
    rw [this, List.append_nil]

theorem slots_length : ∀ {chain : List Class}, (∀ c ∈ chain, Ordered c) → (slots chain).length = virtualCount chain
  | [], _ => rfl
  | c :: bases, h => by
    obtain ⟨vs, os, rest, e, h1, h2, h3⟩ := h c List.mem_cons_self
    obtain ⟨f1, f2⟩ := ordered_slots e h1 h2 h3
    rw [slots, virtualCount, ownVirtuals, f1, f2, List.length_append, List.length_map,
      slots_length (fun x hx => h x (List.mem_cons_of_mem _ hx))]
    omega

/-- The table has a place for each virtual method, in order, with the last method for it. -/
theorem vtable_spec : ∀ {chain : List Class}, (∀ c ∈ chain, Ordered c) → Tidy chain →
    ∃ v, vtable chain = some v ∧ v.map (·.proto) = slots chain ∧ ∀ e ∈ v, latest e.proto chain = some e
  | [], _, _ => ⟨[], rfl, rfl, fun e he => by cases he⟩
  | c :: bases, ho, ht => by
    obtain ⟨vs, os, rest, e, h1, h2, h3⟩ := ho c List.mem_cons_self
    obtain ⟨f1, f2⟩ := ordered_slots e h1 h2 h3
    obtain ⟨v, g1, g2, g3⟩ := vtable_spec (fun x hx => ho x (List.mem_cons_of_mem _ hx)) ht.2.2.2.2
    have hslots : slots (c :: bases) = slots bases ++ vs.map (·.proto) := by rw [slots, f1]
    have hpro : (v ++ entries c 0 vs).map (·.proto) = slots (c :: bases) := by
      rw [List.map_append, g2, entries_proto, hslots]
    have hmem : ∀ m ∈ os, m ∈ c.methods := fun m hm => by
      rw [e]; exact List.mem_append_right _ (List.mem_append_left _ hm)
    obtain ⟨v', k1, k2, k3⟩ := addMethods_over c os rest vs.length (v ++ entries c 0 vs) h2 h3
      (by rw [hpro]; exact slots_nodup ht)
      (by
        have := ht.1
        rw [e, List.map_append, List.map_append, List.nodup_append] at this
        have := this.2.1
        rw [List.nodup_append] at this
        exact this.1)
      (by
        intro m hm
        rw [hpro, hslots]
        apply List.mem_append_left
        obtain ⟨b, hb, m', hm', hv, hp⟩ := ht.2.2.2.1 m (hmem m hm) (h2 m hm).2
        exact hp ▸ slots_of_declared hb hm' hv)
    refine ⟨v', ?_, k2.trans hpro, ?_⟩
    · rw [vtable, g1]
      simp only
      rw [e, addMethods_virt c vs (os ++ rest) 0 v h1, Nat.zero_add]
      exact k1
    · intro x hx
      rw [latest]
      have hget : ∀ i m, c.methods[i]? = some m → x = c.entry i m → declared c x.proto = some (i, m) := by
        intro i m hi hxe
        rw [hxe]
        exact declared_of_get ht.1 hi
      rcases k3 x hx with ⟨k, m, hk, hxe⟩ | ⟨hxv, hn⟩
      · have hi : c.methods[vs.length + k]? = some m := by
          rw [e, List.getElem?_append_right (by omega), Nat.add_sub_cancel_left, List.getElem?_append_left]
          · exact hk
          · exact (List.getElem?_eq_some_iff.mp hk).1
        rw [hget _ m hi hxe]
        simp only
        rw [hxe]
      · rw [List.mem_append] at hxv
        rcases hxv with hxv | hxv
        · have hp : x.proto ∈ slots bases := g2 ▸ List.mem_map.mpr ⟨x, hxv, rfl⟩
          rw [declared_none]
          · exact g3 x hxv
          · intro hc
            rw [List.mem_map] at hc
            obtain ⟨m, hm, hme⟩ := hc
            have hov := slots_fresh ht hp hm hme
            rw [e, List.mem_append, List.mem_append] at hm
            rcases hm with hm | hm | hm
            · have := ht.2.1 m (by rw [e]; exact List.mem_append_left _ hm) (h1 m hm)
              rw [hov] at this; cases this
            · exact hn (List.mem_map.mpr ⟨m, hm, hme⟩)
            · rw [(h3 m hm).2] at hov; cases hov
        · obtain ⟨k, m, hk, hxe⟩ := mem_entries hxv
          have hi : c.methods[k]? = some m := by
            rw [e, List.getElem?_append_left]
            · exact hk
            · exact (List.getElem?_eq_some_iff.mp hk).1
          rw [Nat.zero_add] at hxe
          rw [hget _ m hi hxe]
          simp only
          rw [hxe]

theorem findIdx_declared (c : Class) (p : Nat) :
    c.methods.findIdx? (fun m => decide (m.proto = p)) = (declared c p).map (·.1) := by
  rw [declared]
  have key : ∀ (l : List Method) (k : Nat), (l.findIdx? (fun m => decide (m.proto = p))).map (k + ·) =
      (((l.zipIdx k).find? (fun x => decide (x.1.proto = p))).map (fun x => (x.2, x.1))).map (·.1) := by
    intro l
    induction l with
    | nil => intro k; simp
    | cons a l ih =>
      intro k
      rw [List.findIdx?_cons, List.zipIdx_cons, List.find?_cons]
      by_cases h : a.proto = p
      · simp [h]
      · simp only [h, decide_false, Bool.false_eq_true, ↓reduceIte]
        rw [← ih (k + 1), Option.map_map]
        congr 1
        funext x
        simp; omega
  have := key c.methods 0
  simpa using this

/-- The place of a virtual method. -/
theorem virt_slot {c : Class} {bases : List Class} (ho : ∀ x ∈ c :: bases, Ordered x) {i : Nat} {m : Method}
    (hi : c.methods[i]? = some m) (hv : m.virt = true) :
    (slots (c :: bases))[i + virtualCount bases]? = some m.proto := by
  obtain ⟨vs, os, rest, e, h1, h2, h3⟩ := ho c List.mem_cons_self
  obtain ⟨f1, f2⟩ := ordered_slots e h1 h2 h3
  have hlt : i < vs.length := by
    rcases Nat.lt_or_ge i vs.length with h | h
    · exact h
    · exfalso
      rw [e, List.getElem?_append_right h] at hi
      have := List.mem_of_getElem? hi
      rw [List.mem_append] at this
      rcases this with h | h
      · rw [(h2 m h).1] at hv; cases hv
      · rw [(h3 m h).1] at hv; cases hv
  have hi' : vs[i]? = some m := by
    rw [e, List.getElem?_append_left hlt] at hi
    exact hi
  have hl := slots_length (fun x hx => ho x (List.mem_cons_of_mem _ hx))
  rw [slots, f1, List.getElem?_append_right (by omega), hl, Nat.add_sub_cancel, List.getElem?_map, hi']
  rfl

theorem searchOffset_spec (cur p : Nat) : ∀ {chain : List Class}, (∀ c ∈ chain, Ordered c) → Tidy chain →
    (∀ c ∈ chain, c.assembly = cur) → p ∈ slots chain →
    ∃ k, searchOffset cur p chain = some k ∧ (slots chain)[k]? = some p
  | [], _, _, _, hp => by cases hp
  | c :: bases, ho, ht, ha, hp => by
    rw [searchOffset, findIdx_declared]
    have hrec : p ∈ slots bases → ∃ k, searchOffset cur p bases = some k ∧ (slots (c :: bases))[k]? = some p := by
      intro hp
      obtain ⟨k, h1, h2⟩ := searchOffset_spec cur p (fun x hx => ho x (List.mem_cons_of_mem _ hx)) ht.2.2.2.2
        (fun x hx => ha x (List.mem_cons_of_mem _ hx)) hp
      refine ⟨k, h1, ?_⟩
      rw [slots, List.getElem?_append_left]
      · exact h2
      · exact (List.getElem?_eq_some_iff.mp h2).1
    cases hd : declared c p with
    | none =>
      simp only [Option.map_none]
      apply hrec
      rw [slots, List.mem_append] at hp
      rcases hp with hp | hp
      · exact hp
      · exfalso
        rw [List.mem_map] at hp
        obtain ⟨m, hm, he⟩ := hp
        rw [List.mem_filter] at hm
        obtain ⟨i, hi⟩ := List.getElem?_of_mem hm.1
        have := declared_of_get ht.1 hi
        rw [he, hd] at this
        cases this
    | some x =>
      obtain ⟨j, m⟩ := x
      obtain ⟨hj, he⟩ := declared_some hd
      simp only [Option.map_some, hj]
      rw [if_neg (by simp [ha c List.mem_cons_self])]
      by_cases hv : m.virt = true
      · rw [if_pos hv]
        exact ⟨_, rfl, he ▸ virt_slot ho hj hv⟩
      · rw [if_neg hv]
        have hmem := List.mem_of_getElem? hj
        by_cases hov : m.over = true
        · rw [if_pos hov]
          apply hrec
          obtain ⟨b, hb, m', hm', hv', hp'⟩ := ht.2.2.2.1 m hmem hov
          exact (hp'.trans he) ▸ slots_of_declared hb hm' hv'
        · exfalso
          rw [slots, List.mem_append] at hp
          rcases hp with hp | hp
          · exact hov (slots_fresh ht hp hmem he)
          · rw [List.mem_map] at hp
            obtain ⟨m', hm', he'⟩ := hp
            rw [List.mem_filter] at hm'
            obtain ⟨i, hi⟩ := List.getElem?_of_mem hm'.1
            have h1 := declared_of_get ht.1 hi
            rw [he', hd] at h1
            cases h1
            exact hv hm'.2

theorem slots_prefix (ds chain : List Class) : ∃ t, slots (ds ++ chain) = slots chain ++ t := by
  induction ds with
  | nil => exact ⟨[], by simp⟩
  | cons d ds ih =>
    obtain ⟨t, h⟩ := ih
    rw [List.cons_append, slots, h]
    exact ⟨_, List.append_assoc _ _ _⟩

theorem slotImpl_latest {p : Nat} {e : Entry} {chain : List Class} (hp : p ∈ slots chain)
    (he : latest p chain = some e) : ∀ ds, Tidy (ds ++ chain) →
    (slotImpl p e ds).2 = true ∧ latest p (ds ++ chain) = some (slotImpl p e ds).1
  | [], _ => ⟨rfl, he⟩
  | d :: ds, ht => by
    obtain ⟨h1, h2⟩ := slotImpl_latest hp he ds ht.2.2.2.2
    rw [slotImpl]
    simp only [h1, ↓reduceIte]
    rw [List.cons_append, latest]
    cases hd : declared d p with
    | none => exact ⟨h1, h2⟩
    | some x =>
      obtain ⟨i, m⟩ := x
      obtain ⟨hi, hpm⟩ := declared_some hd
      have hov : m.over = true := by
        refine slots_fresh ht ?_ (List.mem_of_getElem? hi) hpm
        obtain ⟨t, hs⟩ := slots_prefix ds chain
        change p ∈ slots (ds ++ chain)
        rw [hs]
        exact List.mem_append_left _ hp
      simp only [hov, ↓reduceIte, and_self]

/-! ## C71 -/

/-- **C71**.  A virtual call runs the method of the most derived class that overrides the target - for
every class of the object below the target's class, when each class has its virtual methods before its
overriding ones, no class hides an inherited method, and - if the target is itself an override - all is
in one assembly.  (Missing, and false: the cases of the three refutations below.) -/
theorem virtual_call_partial (cur : Nat) (ds : List Class) (c : Class) (bases : List Class)
    (ho : ∀ x ∈ ds ++ c :: bases, Ordered x) (ht : Tidy (ds ++ c :: bases))
    (i : Nat) (m : Method) (hi : c.methods[i]? = some m) (hc : Callable cur (c :: bases) m) :
    ∃ k, offsetIn cur (c :: bases) i = some k ∧
      virtualCall (ds ++ c :: bases) k = some (slotImpl m.proto (c.entry i m) ds).1 ∧
      (slotImpl m.proto (c.entry i m) ds).2 = true := by
  have tidySuffix : ∀ ds : List Class, Tidy (ds ++ c :: bases) → Tidy (c :: bases) := by
    intro ds
    induction ds with
    | nil => exact id
    | cons d ds ih => intro h; exact ih h.2.2.2.2
  have ht' : Tidy (c :: bases) := tidySuffix ds ht
  have ho' : ∀ x ∈ c :: bases, Ordered x := fun x hx => ho x (List.mem_append_right _ hx)
  have hoff : ∃ k, offsetIn cur (c :: bases) i = some k ∧ (slots (c :: bases))[k]? = some m.proto := by
    rw [offsetIn, hi]
    simp only
    by_cases hv : m.virt = true
    · rw [if_pos hv]
      exact ⟨_, rfl, virt_slot ho' hi hv⟩
    · rw [if_neg hv]
      rcases hc with h | ⟨hov, ha⟩
      · exact absurd h hv
      · rw [if_pos hov, if_neg (by simp [ha c List.mem_cons_self])]
        obtain ⟨b, hb, m', hm', hv', hp'⟩ := ht'.2.2.2.1 m (List.mem_of_getElem? hi) hov
        obtain ⟨k, h1, h2⟩ := searchOffset_spec cur m.proto (fun x hx => ho' x (List.mem_cons_of_mem _ hx))
          ht'.2.2.2.2 (fun x hx => ha x (List.mem_cons_of_mem _ hx)) (hp' ▸ slots_of_declared hb hm' hv')
        refine ⟨k, h1, ?_⟩
        rw [slots, List.getElem?_append_left]
        · exact h2
        · exact (List.getElem?_eq_some_iff.mp h2).1
  obtain ⟨k, hk1, hk2⟩ := hoff
  have hp : m.proto ∈ slots (c :: bases) := List.mem_of_getElem? hk2
  have hlat : latest m.proto (c :: bases) = some (c.entry i m) := by
    rw [latest, declared_of_get ht'.1 hi]
  obtain ⟨s1, s2⟩ := slotImpl_latest hp hlat ds ht
  refine ⟨k, hk1, ?_, s1⟩
  obtain ⟨v, v1, v2, v3⟩ := vtable_spec ho ht
  obtain ⟨t, hpre⟩ := slots_prefix ds (c :: bases)
  have hvk : (v.map (·.proto))[k]? = some m.proto := by
    rw [v2, hpre, List.getElem?_append_left]
    · exact hk2
    · exact (List.getElem?_eq_some_iff.mp hk2).1
  rw [List.getElem?_map, Option.map_eq_some_iff] at hvk
  obtain ⟨e, he, hep⟩ := hvk
  have := v3 e (List.mem_of_getElem? he)
  rw [hep, s2] at this
  cases this
  rw [virtualCall, v1]
  exact he

/-- `class A { virtual f; }`. -/
def exA : Class := ⟨0, 0, [⟨1, true, false, none⟩]⟩
/-- `class B : A { override f; virtual g; }`, in this order. -/
def exB : Class := ⟨0, 1, [⟨1, false, true, none⟩, ⟨2, true, false, none⟩]⟩
/-- `class C : B { virtual h; }`. -/
def exC : Class := ⟨0, 3, [⟨3, true, false, none⟩]⟩

/-- **C71 refuted** when an overriding method comes before a virtual one in its class: the call of `h` on
an object of class `C` runs `g` of class `B`, and the call of `g` runs `h`. -/
theorem override_before_virtual_refuted :
    (offsetIn 0 [exC, exB, exA] 0).bind (virtualCall [exC, exB, exA]) = some ⟨2, 0, 2⟩ ∧
    (offsetIn 0 [exB, exA] 1).bind (virtualCall [exC, exB, exA]) = some ⟨3, 0, 3⟩ := by decide

/-- `class B : A { new virtual f; }` and `class C : B { override f; }`. -/
def exB' : Class := ⟨0, 1, [⟨1, true, false, none⟩]⟩
def exC' : Class := ⟨0, 2, [⟨1, false, true, none⟩]⟩

/-- **C71 refuted** when a class hides an inherited virtual method with a new one: the override in `C` is
put in the place of the method of `A`, which it does not override; the call of the method of `B` does not
run it. -/
theorem hidden_method_refuted :
    (offsetIn 0 [exA] 0).bind (virtualCall [exC', exB', exA]) = some ⟨1, 0, 2⟩ ∧
    slotImpl 1 (exA.entry 0 ⟨1, true, false, none⟩) [exC', exB'] = (⟨1, 0, 0⟩, false) ∧
    (offsetIn 0 [exB', exA] 0).bind (virtualCall [exC', exB', exA]) = some ⟨1, 0, 1⟩ ∧
    slotImpl 1 (exB'.entry 0 ⟨1, true, false, none⟩) [exC'] = (⟨1, 0, 2⟩, true) := by decide

/-- **C71 refuted** across assemblies: the offset of an overriding method whose base class is in another
assembly is looked up with a row number of the other assembly. -/
theorem override_across_assemblies_refuted :
    offsetIn 1 [⟨1, 0, [⟨1, false, true, none⟩]⟩, exA] 0 = none := by decide

/-- The classes `A { virtual f; virtual g; }`, `B : A { virtual h; override f; plain k; }` and
`C : B { override g; override f; }` are such that the theorem speaks of them. -/
def okA : Class := ⟨0, 0, [⟨1, true, false, none⟩, ⟨2, true, false, none⟩]⟩
def okB : Class := ⟨0, 2, [⟨3, true, false, none⟩, ⟨1, false, true, none⟩, ⟨4, false, false, none⟩]⟩
def okC : Class := ⟨0, 5, [⟨2, false, true, none⟩, ⟨1, false, true, none⟩]⟩

example : ∀ x ∈ [okC] ++ okB :: [okA], Ordered x := by
  intro x hx
  simp only [List.cons_append, List.nil_append, List.mem_cons, List.not_mem_nil, or_false] at hx
  rcases hx with rfl | rfl | rfl
  · exact ⟨[], okC.methods, [], by decide, by decide, by decide, by decide⟩
  · exact ⟨[⟨3, true, false, none⟩], [⟨1, false, true, none⟩], [⟨4, false, false, none⟩], by decide, by decide,
      by decide, by decide⟩
  · exact ⟨okA.methods, [], [], by decide, by decide, by decide, by decide⟩
example : Tidy ([okC] ++ okB :: [okA]) := by
  simp only [List.cons_append, List.nil_append, Tidy, okA, okB, okC]
  simp
example : Callable 0 (okB :: [okA]) ⟨1, false, true, none⟩ := Or.inr (by decide)
/-- The call of `f` of class `B`, on an object of class `C`. -/
example : (offsetIn 0 [okB, okA] 1).bind (virtualCall [okC, okB, okA]) = some ⟨1, 0, 6⟩ := by decide

/-! ## C72 -/

/-- A method implements the interface's method: it has its prototype, and is no explicit implementation
of another interface. -/
def Implements (iface p : Nat) (m : Method) : Prop := m.proto = p ∧ (m.owner = none ∨ m.owner = some iface)

theorem searchImpl_spec (c : Class) (iface p : Nat) : ∀ ms i acc,
    (∃ k m, ms[k]? = some m ∧ Implements iface p m ∧
      ((∃ x ∈ ms, x.proto = p ∧ x.owner = some iface) → m.owner = some iface) ∧
      searchImpl c iface p i ms acc = some ⟨c.entry (i + k) m, m.virt, m.owner⟩) ∨
    ((∀ m ∈ ms, ¬ Implements iface p m) ∧ searchImpl c iface p i ms acc = acc)
  | [], i, acc => Or.inr ⟨(by intro m hm; cases hm), rfl⟩
  | m :: ms, i, acc => by
    have lift : ∀ {acc'}, (¬ (m.proto = p ∧ m.owner = some iface)) →
        (∃ k m', ms[k]? = some m' ∧ Implements iface p m' ∧
          ((∃ x ∈ ms, x.proto = p ∧ x.owner = some iface) → m'.owner = some iface) ∧
          searchImpl c iface p (i + 1) ms acc' = some ⟨c.entry (i + 1 + k) m', m'.virt, m'.owner⟩) →
        ∃ k m', (m :: ms)[k]? = some m' ∧ Implements iface p m' ∧
          ((∃ x ∈ m :: ms, x.proto = p ∧ x.owner = some iface) → m'.owner = some iface) ∧
          searchImpl c iface p (i + 1) ms acc' = some ⟨c.entry (i + k) m', m'.virt, m'.owner⟩ := by
      rintro acc' hm ⟨k, m', h1, h2, h4, h3⟩
      refine ⟨k + 1, m', by simpa using h1, h2, ?_, ?_⟩
      · rintro ⟨x, hx, hx'⟩
        rw [List.mem_cons] at hx
        rcases hx with rfl | hx
        · exact absurd hx' hm
        · exact h4 ⟨x, hx, hx'⟩
      · rw [h3, show i + 1 + k = i + (k + 1) by omega]
    rw [searchImpl]
    by_cases hp : m.proto ≠ p
    · rw [if_pos hp]
      rcases searchImpl_spec c iface p ms (i + 1) acc with h | ⟨h1, h2⟩
      · exact Or.inl (lift (fun h => hp h.1) h)
      · refine Or.inr ⟨?_, h2⟩
        intro x hx
        rw [List.mem_cons] at hx
        rcases hx with rfl | hx
        · intro h; exact hp h.1
        · exact h1 x hx
    · rw [if_neg hp]
      have hp' : m.proto = p := by
        cases Nat.decEq m.proto p with
        | isTrue h => exact h
        | isFalse h => exact absurd h hp
      cases hown : m.owner with
      | none =>
        simp only
        rcases searchImpl_spec c iface p ms (i + 1) (some ⟨c.entry i m, m.virt, none⟩) with h | ⟨h1, h2⟩
        · exact Or.inl (lift (fun h => by rw [hown] at h; cases h.2) h)
        · refine Or.inl ⟨0, m, rfl, ⟨hp', Or.inl hown⟩, ?_, by rw [h2, hown]; rfl⟩
          rintro ⟨x, hx, hx'⟩
          rw [List.mem_cons] at hx
          rcases hx with rfl | hx
          · exact hx'.2
          · exact absurd ⟨hx'.1, Or.inr hx'.2⟩ (h1 x hx)
      | some o =>
        simp only
        by_cases ho : o ≠ iface
        · rw [if_pos ho]
          rcases searchImpl_spec c iface p ms (i + 1) acc with h | ⟨h1, h2⟩
          · exact Or.inl (lift (fun h => by rw [hown] at h; cases h.2; exact ho rfl) h)
          · refine Or.inr ⟨?_, h2⟩
            intro x hx
            rw [List.mem_cons] at hx
            rcases hx with rfl | hx
            · rintro ⟨_, h | h⟩
              · rw [hown] at h; cases h
              · rw [hown] at h; cases h; exact ho rfl
            · exact h1 x hx
        · rw [if_neg ho]
          have ho' : o = iface := by
            cases Nat.decEq o iface with
            | isTrue h => exact h
            | isFalse h => exact absurd h ho
          have hm : m.owner = some iface := by rw [hown, ho']
          exact Or.inl ⟨0, m, rfl, ⟨hp', Or.inr hm⟩, fun _ => hm, by rw [hown]; rfl⟩

/-- **C72**, when the object's class is the one that has the interface.  The table has for a method of the
interface a method of the nearest class, from the object's class upwards, that implements it - the explicit
implementation, if that class has one; if no class
implements it, the class is refused.  (Missing, and false: classes derived from the one with the
interface, see `inherited_override_refuted`.) -/
theorem interface_call_partial (iface p : Nat) (chain : List Class) :
    match interfaceEntry iface p [] chain none with
    | some e => ∃ ds c bases k m, chain = ds ++ c :: bases ∧ (∀ d ∈ ds, ∀ x ∈ d.methods, ¬ Implements iface p x) ∧
        c.methods[k]? = some m ∧ Implements iface p m ∧
        ((∃ x ∈ c.methods, x.proto = p ∧ x.owner = some iface) → m.owner = some iface) ∧ e.entry = c.entry k m
    | none => ∀ d ∈ chain, ∀ x ∈ d.methods, ¬ Implements iface p x := by
  have hred : interfaceEntry iface p [] chain none = buildInterface iface p none chain := by
    rw [interfaceEntry]
    cases buildInterface iface p none chain with
    | none => rfl
    | some e => simp [overrideLoop]
  rw [hred]
  clear hred
  induction chain with
  | nil =>
    simp only [buildInterface]
    intro d hd; cases hd
  | cons c bases ih =>
    rw [buildInterface]
    rcases searchImpl_spec c iface p c.methods 0 none with ⟨k, m, h1, h2, h4, h3⟩ | ⟨h1, h2⟩
    · rw [h3]
      exact ⟨[], c, bases, k, m, rfl, (by intro d hd; cases hd), h1, h2, h4, by rw [Nat.zero_add]⟩
    · rw [h2]
      simp only
      cases hb : buildInterface iface p none bases with
      | none =>
        rw [hb] at ih
        simp only at ih ⊢
        intro d hd
        rw [List.mem_cons] at hd
        rcases hd with rfl | hd
        · exact h1
        · exact ih d hd
      | some e =>
        rw [hb] at ih
        simp only at ih ⊢
        obtain ⟨ds, c', bases', k, m, e1, e2, e3, e4, e5⟩ := ih
        refine ⟨c :: ds, c', bases', k, m, by rw [e1]; rfl, ?_, e3, e4, e5⟩
        intro d hd
        rw [List.mem_cons] at hd
        rcases hd with rfl | hd
        · exact h1
        · exact e2 d hd

/-- **C72 refuted**: `A` has the interface and a virtual method for it, `B : A` overrides the method, and
`C : B` does not declare it.  For an object of class `C` a call through the interface runs the method of
`A`, though a virtual call runs that of `B`. -/
theorem inherited_override_refuted :
    (interfaceEntry 9 1 [exC, ⟨0, 1, [⟨1, false, true, none⟩]⟩] [exA] none).map (·.entry) = some ⟨1, 0, 0⟩ ∧
    slotImpl 1 (exA.entry 0 ⟨1, true, false, none⟩) [exC, ⟨0, 1, [⟨1, false, true, none⟩]⟩] = (⟨1, 0, 1⟩, true) := by
  decide

/-- **C72 refuted**: `B : A` has the interface and implements it with an override of a virtual method of
`A`; an override in `C : B` is not run through the interface. -/
theorem override_implements_refuted :
    (interfaceEntry 9 1 [⟨0, 2, [⟨1, false, true, none⟩]⟩] [⟨0, 1, [⟨1, false, true, none⟩]⟩, exA] none).map (·.entry) =
      some ⟨1, 0, 1⟩ ∧
    slotImpl 1 (⟨1, 0, 1⟩ : Entry) [⟨0, 2, [⟨1, false, true, none⟩]⟩] = (⟨1, 0, 2⟩, true) := by
  decide

/-- When the object's class itself overrides the method, the interface runs the override. -/
theorem leaf_override (iface p : Nat) (d : Class) (ds chain : List Class) (e : IEntry) (j : Nat) (m : Method)
    (hb : buildInterface iface p none chain = some e) (hv : e.virt = true) (hown : e.owner = none)
    (hj : d.methods.findIdx? (fun m => decide (m.owner = none ∧ m.proto = p)) = some j)
    (hm : d.methods[j]? = some m) (hov : m.over = true) :
    (interfaceEntry iface p (d :: ds) chain none).map (·.entry) = some (d.entry j m) := by
  have h : interfaceEntry iface p (d :: ds) chain none = some (overrideLoop p e (d :: ds)) := by
    simp [interfaceEntry, hb, hv, hown]
  rw [h, overrideLoop, hj]
  simp only [hm, hov, ↓reduceIte, Option.map_some]

/-- An explicit implementation is chosen before a method with the same prototype. -/
example : (interfaceEntry 9 1 [] [⟨0, 0, [⟨1, false, false, some 9⟩, ⟨1, false, false, none⟩]⟩] none).map (·.entry) =
    some ⟨1, 0, 0⟩ := by decide

/-! ## C73 -/

mutual
theorem mem_all : ∀ (i : Iface) (t : Nat), t ∈ i.all ↔ i.Extends t
  | .mk i supers, t => by
    simp only [Iface.all, Iface.Extends, List.mem_append, List.mem_singleton]
    rw [mem_alls supers t]
    exact Or.comm
theorem mem_alls : ∀ (is : List Iface) (t : Nat), t ∈ Iface.alls is ↔ Iface.SomeExtends is t
  | [], t => by simp [Iface.alls, Iface.SomeExtends]
  | i :: is, t => by
    simp only [Iface.alls, Iface.SomeExtends, List.mem_append]
    rw [mem_all i t, mem_alls is t]
end

theorem mem_interfacesOf (i : Nat) : ∀ chain, i ∈ interfacesOf chain ↔ ∃ c ∈ chain, Iface.SomeExtends c.ifaces i
  | [] => by simp [interfacesOf]
  | c :: bases => by
    simp only [interfacesOf, List.mem_append, mem_interfacesOf i bases, mem_alls, List.mem_cons, exists_eq_or_imp]
    exact Or.comm

/-- **C73**, for a class that has an interface, or a target that is a class.  Whatever tests were made
before, a test says that an object is of the target type exactly when its class is, or derives from, that
class, or has, or inherits, that interface; and the table stays as good as it was.  (Missing: tests for an
interface on objects whose class has none, see `no_interface_refuted`.) -/
theorem type_test_partial (chain : List Cls) (t : ITable) (ht : TableOf chain t) (target : Target)
    (hi : ∀ i, target = .iface i → t.types ≠ []) (hne : chain ≠ []) :
    ∃ b t', castTest chain t target = some (b, t') ∧ (b = true ↔ IsOf chain target) ∧ TableOf chain t' ∧
      t'.types = t.types := by
  cases target with
  | cls i =>
    cases chain with
    | nil => exact absurd rfl hne
    | cons c bases =>
      refine ⟨_, t, rfl, ?_, ht, rfl⟩
      simp only [Bool.or_eq_true, decide_eq_true_eq, IsOf, List.mem_cons, exists_eq_or_imp, List.mem_map]
  | iface i =>
    have hn := hi i rfl
    have hr := ht.2 hn
    have hmem : i ∈ t.types ↔ IsOf chain (.iface i) := by
      rw [ht.1 i, mem_interfacesOf]; rfl
    have hget : t.types[t.recently]? = some t.types[t.recently] := List.getElem?_eq_getElem hr
    simp only [castTest, trySearch, hget]
    by_cases h1 : t.types[t.recently] = i
    · rw [if_pos h1]
      refine ⟨true, t, rfl, ?_, ht, rfl⟩
      simp only [true_iff]
      rw [← hmem, ← h1]
      exact List.getElem_mem hr
    · rw [if_neg h1, if_neg hn]
      cases hf : t.types.findIdx? (fun x => decide (x = i)) with
      | none =>
        refine ⟨false, t, rfl, ?_, ht, rfl⟩
        rw [← hmem]
        simp only [Bool.false_eq_true, false_iff]
        intro h
        rw [List.findIdx?_eq_none_iff] at hf
        have := hf i h
        simp at this
      | some j =>
        rw [List.findIdx?_eq_some_iff_getElem] at hf
        obtain ⟨hj, h2, _⟩ := hf
        refine ⟨true, { t with recently := j }, rfl, ?_, ⟨ht.1, fun _ => hj⟩, rfl⟩
        rw [← hmem]
        simp only [true_iff]
        have : t.types[j] = i := by simpa using h2
        exact this ▸ List.getElem_mem hj

/-- **C73 refuted**: a test for an interface on an object whose class has no interface reads an interface
of the table, which has none. -/
theorem no_interface_refuted (chain : List Cls) (r i : Nat) : castTest chain ⟨[], r⟩ (.iface i) = none := rfl

/-- **C73**.  A cast leaves a null reference as it is; of an object of the type it leaves the object, of
another one it raises an exception; `is` gives the answer of the test, false for null; `as` leaves the
object or null. -/
theorem casts (obj : Option Nat) (test : Bool) :
    castDefault obj test = (if obj = none ∨ test = true then .value obj else .invalidCast) ∧
    castIs obj test = .bool (obj.isSome && test) ∧
    castAs obj test = .value (if test then obj else none) := by
  cases obj <;> cases test <;> simp [castDefault, castIs, castAs]

/-- A class with an interface that extends another one. -/
example : TableOf [⟨1, []⟩, ⟨0, [.mk 7 [.mk 8 []]]⟩] ⟨[7, 8], 1⟩ := by
  refine ⟨?_, by decide⟩
  intro i
  simp only [interfacesOf, Iface.alls, Iface.all, List.append_nil, List.nil_append, List.mem_append, List.mem_singleton,
    List.mem_cons, List.not_mem_nil, or_false]
  exact Or.comm
example : (castTest [⟨1, []⟩, ⟨0, [.mk 7 [.mk 8 []]]⟩] ⟨[7, 8], 1⟩ (.iface 7)) = some (true, ⟨[7, 8], 0⟩) := by decide
example : (castTest [⟨1, []⟩, ⟨0, [.mk 7 [.mk 8 []]]⟩] ⟨[7, 8], 1⟩ (.cls 0)).map (·.1) = some true := by decide

end Verif.Dispatch.Props
