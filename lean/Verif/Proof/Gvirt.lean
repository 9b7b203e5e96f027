import Verif.Spec.Gvirt

/-! # Proofs: virtual methods of generic classes -/

namespace Verif.Gvirt

def Entry.key (e : Entry) : Key := e.method.key

theorem entry_key (c : Class) (i : Nat) (m : Method) : (c.entry i m).key = m.key := rfl

/-! ## The table, with the prototypes compared as they are -/

def replaceK (e : Entry) : List Entry → Option (List Entry)
  | [] => none
  | x :: rest => if x.key = e.key then some (e :: rest) else (replaceK e rest).map (x :: ·)

def addK (c : Class) : Nat → List Method → List Entry → Option (List Entry)
  | _, [], v => some v
  | i, m :: ms, v =>
    if m.virt then addK c (i + 1) ms (v ++ [c.entry i m])
    else if m.over then
      match replaceK (c.entry i m) v with
      | none => none
      | some v' => addK c (i + 1) ms v'
    else some v

def tableK : List Class → Option (List Entry)
  | [] => some []
  | c :: bases =>
    match tableK bases with
    | none => none
    | some v => addK c 0 c.methods v



/-- The prototypes of the places of the table. -/
def slots : List Class → List Key
  | [] => []
  | c :: bases => slots bases ++ (c.methods.filter (·.virt)).map (·.key)

theorem slots_declared : ∀ {chain : List Class} {p : Key}, p ∈ slots chain →
    ∃ b ∈ chain, ∃ m ∈ b.methods, m.virt = true ∧ m.key = p
  | [], p, h => by cases h
  | c :: bases, p, h => by
    rw [slots, List.mem_append] at h
    rcases h with h | h
    · obtain ⟨b, hb, h⟩ := slots_declared h
      exact ⟨b, List.mem_cons_of_mem _ hb, h⟩
    · rw [List.mem_map] at h
      obtain ⟨m, hm, rfl⟩ := h
      rw [List.mem_filter] at hm
      exact ⟨c, List.mem_cons_self, m, hm.1, hm.2, rfl⟩

theorem slots_of_declared : ∀ {chain : List Class} {b : Class} {m : Method}, b ∈ chain → m ∈ b.methods →
    m.virt = true → m.key ∈ slots chain
  | [], b, m, hb, _, _ => by cases hb
  | c :: bases, b, m, hb, hm, hv => by
    rw [slots, List.mem_append]
    rw [List.mem_cons] at hb
    rcases hb with rfl | hb
    · exact Or.inr (List.mem_map.mpr ⟨m, List.mem_filter.mpr ⟨hm, hv⟩, rfl⟩)
    · exact Or.inl (slots_of_declared hb hm hv)

/-- The inherited places are not declared anew, except to override. -/
theorem slots_fresh {c : Class} {bases : List Class} (ht : Tidy (c :: bases)) {p : Key} (hp : p ∈ slots bases)
    {m : Method} (hm : m ∈ c.methods) (he : m.key = p) : m.over = true := by
  cases h : m.over with
  | true => rfl
  | false =>
    obtain ⟨b, hb, m', hm', _, hp'⟩ := slots_declared hp
    exact absurd (List.mem_map.mpr ⟨m', hm', hp'.trans he.symm⟩) (ht.2.2.1 m hm h b hb)

theorem slots_nodup : ∀ {chain : List Class}, Tidy chain → (slots chain).Nodup
  | [], _ => List.nodup_nil
  | c :: bases, ht => by
    rw [slots, List.nodup_append]
    refine ⟨slots_nodup ht.2.2.2.2, ?_, ?_⟩
    · exact (List.filter_sublist.map _).nodup ht.1
    · intro a ha b hb hab
      subst hab
      rw [List.mem_map] at hb
      obtain ⟨m, hm, he⟩ := hb
      rw [List.mem_filter] at hm
      have := slots_fresh ht ha hm.1 he
      rw [ht.2.1 m hm.1 hm.2] at this
      cases this

/-- The entries of methods, numbered from `i`. -/
def entries (c : Class) : Nat → List Method → List Entry
  | _, [] => []
  | i, m :: ms => c.entry i m :: entries c (i + 1) ms

theorem entries_key (c : Class) : ∀ i ms, (entries c i ms).map (·.key) = ms.map (·.key)
  | _, [] => rfl
  | i, m :: ms => by simp [entries, entries_key c (i + 1) ms, entry_key]

theorem mem_entries {c : Class} : ∀ {i ms e}, e ∈ entries c i ms → ∃ k m, ms[k]? = some m ∧ e = c.entry (i + k) m
  | _, [], _, h => by cases h
  | i, m :: ms, e, h => by
    rw [entries, List.mem_cons] at h
    rcases h with rfl | h
    · exact ⟨0, m, rfl, rfl⟩
    · obtain ⟨k, m', h1, h2⟩ := mem_entries h
      exact ⟨k + 1, m', by simpa using h1, by rw [h2]; congr 1; omega⟩

theorem addK_virt (c : Class) : ∀ vs ms i v, (∀ m ∈ vs, m.virt = true) →
    addK c i (vs ++ ms) v = addK c (i + vs.length) ms (v ++ entries c i vs)
  | [], ms, i, v, _ => by simp [entries]
  | m :: vs, ms, i, v, h => by
    rw [List.cons_append, addK, if_pos (h m List.mem_cons_self),
      addK_virt c vs ms (i + 1) _ (fun x hx => h x (List.mem_cons_of_mem _ hx))]
    simp only [entries, List.length_cons, List.append_assoc, List.singleton_append]
    congr 1
    omega

theorem addK_rest (c : Class) (ms : List Method) (i : Nat) (v : List Entry)
    (h : ∀ m ∈ ms, m.virt = false ∧ m.over = false) : addK c i ms v = some v := by
  cases ms with
  | nil => rfl
  | cons m ms =>
    have := h m List.mem_cons_self
    simp [addK, this.1, this.2]

theorem replaceK_spec (e : Entry) : ∀ v : List Entry, (v.map (·.key)).Nodup → e.key ∈ v.map (·.key) →
    replaceK e v = some (v.map (fun x => if x.key = e.key then e else x))
  | [], _, h => by cases h
  | x :: v, hn, h => by
    rw [List.map_cons, List.nodup_cons] at hn
    rw [replaceK]
    by_cases hx : x.key = e.key
    · rw [if_pos hx, List.map_cons, if_pos hx]
      congr 2
      have : v.map (fun x => if x.key = e.key then e else x) = v.map id := by
        apply List.map_congr_left
        intro y hy
        rw [if_neg]
        · rfl
        · intro he
          exact hn.1 (List.mem_map.mpr ⟨y, hy, he.trans hx.symm⟩)
      rw [this, List.map_id]
    · rw [if_neg hx, List.map_cons, if_neg hx]
      rw [List.map_cons, List.mem_cons] at h
      rcases h with h | h
      · exact absurd h.symm hx
      · rw [replaceK_spec e v hn.2 h]
        rfl

theorem addK_over (c : Class) : ∀ os rest i v, (∀ m ∈ os, m.virt = false ∧ m.over = true) →
    (∀ m ∈ rest, m.virt = false ∧ m.over = false) → (v.map (·.key)).Nodup → (os.map (·.key)).Nodup →
    (∀ m ∈ os, m.key ∈ v.map (·.key)) →
    ∃ v', addK c i (os ++ rest) v = some v' ∧ v'.map (·.key) = v.map (·.key) ∧
      ∀ e ∈ v', (∃ k m, os[k]? = some m ∧ e = c.entry (i + k) m) ∨ (e ∈ v ∧ e.key ∉ os.map (·.key))
  | [], rest, i, v, _, hr, _, _, _ => ⟨v, addK_rest c rest i v hr, rfl, fun e he => Or.inr ⟨he, by simp⟩⟩
  | m :: os, rest, i, v, ho, hr, hv, hd, hm => by
    have h1 := ho m List.mem_cons_self
    have hp := hm m List.mem_cons_self
    rw [List.map_cons, List.nodup_cons] at hd
    have hrep := replaceK_spec (c.entry i m) v hv hp
    have hpro : (v.map (fun x => if x.key = (c.entry i m).key then c.entry i m else x)).map (·.key) =
        v.map (·.key) := by
      rw [List.map_map]
      apply List.map_congr_left
      intro x _
      simp only [Function.comp]
      split
      · rename_i e; exact e.symm
      · rfl
    obtain ⟨v', e1, e2, e3⟩ := addK_over c os rest (i + 1)
      (v.map (fun x => if x.key = (c.entry i m).key then c.entry i m else x))
      (fun x hx => ho x (List.mem_cons_of_mem _ hx)) hr (by rw [hpro]; exact hv) hd.2
      (fun x hx => by rw [hpro]; exact hm x (List.mem_cons_of_mem _ hx))
    refine ⟨v', ?_, e2.trans hpro, ?_⟩
    · rw [List.cons_append, addK, if_neg (by simp [h1.1]), if_pos h1.2, hrep]
      exact e1
    · intro e he
      rcases e3 e he with ⟨k, m', hk, rfl⟩ | ⟨he, hn⟩
      · exact Or.inl ⟨k + 1, m', by simpa using hk, by congr 1; omega⟩
      · rw [List.mem_map] at he
        obtain ⟨x, hx, hxe⟩ := he
        by_cases hxp : x.key = (c.entry i m).key
        · rw [if_pos hxp] at hxe
          exact Or.inl ⟨0, m, rfl, hxe.symm⟩
        · rw [if_neg hxp] at hxe
          subst hxe
          refine Or.inr ⟨hx, ?_⟩
          rw [List.map_cons, List.mem_cons]
          rintro (h | h)
          · exact hxp h
          · exact hn h

theorem declared_of_get {c : Class} (hn : (c.methods.map (·.key)).Nodup) {i : Nat} {m : Method}
    (h : c.methods[i]? = some m) : declared c m.key = some (i, m) := by
  rw [declared]
  have key : ∀ (l : List Method) (k i : Nat), (l.map (·.key)).Nodup → l[i]? = some m →
      (l.zipIdx k).find? (fun x => decide (x.1.key = m.key)) = some (m, k + i) := by
    intro l
    induction l with
    | nil => intro k i _ h; cases h
    | cons a l ih =>
      intro k i hn h
      rw [List.map_cons, List.nodup_cons] at hn
      rw [List.zipIdx_cons, List.find?_cons]
      cases i with
      | zero =>
        cases h
        simp
      | succ i =>
        have hl : l[i]? = some m := by simpa using h
        have hne : a.key ≠ m.key := by
          intro e
          exact hn.1 (List.mem_map.mpr ⟨m, List.mem_of_getElem? hl, e.symm⟩)
        simp only [hne, decide_false]
        rw [ih (k + 1) i hn.2 hl]
        congr 2
        omega
  rw [key c.methods 0 i hn h]
  simp

theorem declared_none {c : Class} {p : Key} (h : p ∉ c.methods.map (·.key)) : declared c p = none := by
  rw [declared, Option.map_eq_none_iff, List.find?_eq_none]
  intro x hx
  rw [decide_eq_true_eq]
  intro e
  exact h (List.mem_map.mpr ⟨x.1, List.mem_zipIdx hx |>.2.2 ▸ List.getElem_mem _, e⟩)

theorem declared_some {c : Class} {p : Key} {i : Nat} {m : Method} (h : declared c p = some (i, m)) :
    c.methods[i]? = some m ∧ m.key = p := by
  rw [declared, Option.map_eq_some_iff] at h
  obtain ⟨x, hx, he⟩ := h
  simp only [Prod.mk.injEq] at he
  obtain ⟨rfl, rfl⟩ := he
  refine ⟨?_, by have := List.find?_some hx; simpa using this⟩
  have := List.mem_of_find?_eq_some hx
  exact List.mk_mem_zipIdx_iff_getElem?.mp this

theorem ordered_slots {c : Class} {vs os rest : List Method} (h : c.methods = vs ++ (os ++ rest))
    (h1 : ∀ m ∈ vs, m.virt = true) (h2 : ∀ m ∈ os, m.virt = false ∧ m.over = true)
    (h3 : ∀ m ∈ rest, m.virt = false ∧ m.over = false) :
    c.methods.filter (·.virt) = vs ∧ c.methods.takeWhile (·.virt) = vs := by
  rw [h]
  constructor
  · rw [List.filter_append, List.filter_append, List.filter_eq_self.mpr h1,
      List.filter_eq_nil_iff.mpr (fun a ha => by simp [(h2 a ha).1]),
      List.filter_eq_nil_iff.mpr (fun a ha => by simp [(h3 a ha).1])]
    simp
  · rw [List.takeWhile_append_of_pos h1]
    have : (os ++ rest).takeWhile (·.virt) = [] := by
      cases hos : os ++ rest with
      | nil => rfl
      | cons a l =>
        have ha : a ∈ os ++ rest := by rw [hos]; exact List.mem_cons_self
        rw [List.mem_append] at ha
        have hv : a.virt = false := by
          rcases ha with ha | ha
          · exact (h2 a ha).1
          · exact (h3 a ha).1
        simp [hv]
    rw [this, List.append_nil]

theorem slots_length : ∀ {chain : List Class}, (∀ c ∈ chain, Ordered c) → (slots chain).length = virtualCount chain
  | [], _ => rfl
  | c :: bases, h => by
    obtain ⟨vs, os, rest, e, h1, h2, h3⟩ := h c List.mem_cons_self
    obtain ⟨f1, f2⟩ := ordered_slots e h1 h2 h3
    rw [slots, virtualCount, f1, f2, List.length_append, List.length_map,
      slots_length (fun x hx => h x (List.mem_cons_of_mem _ hx))]
    omega

/-- The table has a place for each virtual method, in order, with the last method for it. -/
theorem tableK_spec : ∀ {chain : List Class}, (∀ c ∈ chain, Ordered c) → Tidy chain →
    ∃ v, tableK chain = some v ∧ v.map (·.key) = slots chain ∧ ∀ e ∈ v, nearest e.key chain = some e
  | [], _, _ => ⟨[], rfl, rfl, fun e he => by cases he⟩
  | c :: bases, ho, ht => by
    obtain ⟨vs, os, rest, e, h1, h2, h3⟩ := ho c List.mem_cons_self
    obtain ⟨f1, f2⟩ := ordered_slots e h1 h2 h3
    obtain ⟨v, g1, g2, g3⟩ := tableK_spec (fun x hx => ho x (List.mem_cons_of_mem _ hx)) ht.2.2.2.2
    have hslots : slots (c :: bases) = slots bases ++ vs.map (·.key) := by rw [slots, f1]
    have hpro : (v ++ entries c 0 vs).map (·.key) = slots (c :: bases) := by
      rw [List.map_append, g2, entries_key, hslots]
    have hmem : ∀ m ∈ os, m ∈ c.methods := fun m hm => by
      rw [e]; exact List.mem_append_right _ (List.mem_append_left _ hm)
    obtain ⟨v', k1, k2, k3⟩ := addK_over c os rest vs.length (v ++ entries c 0 vs) h2 h3
      (by rw [hpro]; exact slots_nodup ht)
      (by
        have := ht.1
        rw [e, List.map_append, List.map_append, List.nodup_append] at this
        have := this.2.1
        rw [List.nodup_append] at this
        exact this.1)
      (by
        intro m hm
        rw [hpro, hslots]
        apply List.mem_append_left
        obtain ⟨b, hb, m', hm', hv, hp⟩ := ht.2.2.2.1 m (hmem m hm) (h2 m hm).2
        exact hp ▸ slots_of_declared hb hm' hv)
    refine ⟨v', ?_, k2.trans hpro, ?_⟩
    · rw [tableK, g1]
      simp only
      rw [e, addK_virt c vs (os ++ rest) 0 v h1, Nat.zero_add]
      exact k1
    · intro x hx
      rw [nearest]
      have hget : ∀ i m, c.methods[i]? = some m → x = c.entry i m → declared c x.key = some (i, m) := by
        intro i m hi hxe
        rw [hxe]
        exact declared_of_get ht.1 hi
      rcases k3 x hx with ⟨k, m, hk, hxe⟩ | ⟨hxv, hn⟩
      · have hi : c.methods[vs.length + k]? = some m := by
          rw [e, List.getElem?_append_right (by omega), Nat.add_sub_cancel_left, List.getElem?_append_left]
          · exact hk
          · exact (List.getElem?_eq_some_iff.mp hk).1
        rw [hget _ m hi hxe]
        simp only
        rw [hxe]
        rfl
      · rw [List.mem_append] at hxv
        rcases hxv with hxv | hxv
        · have hp : x.key ∈ slots bases := g2 ▸ List.mem_map.mpr ⟨x, hxv, rfl⟩
          rw [declared_none]
          · exact g3 x hxv
          · intro hc
            rw [List.mem_map] at hc
            obtain ⟨m, hm, hme⟩ := hc
            have hov := slots_fresh ht hp hm hme
            rw [e, List.mem_append, List.mem_append] at hm
            rcases hm with hm | hm | hm
            · have := ht.2.1 m (by rw [e]; exact List.mem_append_left _ hm) (h1 m hm)
              rw [hov] at this; cases this
            · exact hn (List.mem_map.mpr ⟨m, hm, hme⟩)
            · rw [(h3 m hm).2] at hov; cases hov
        · obtain ⟨k, m, hk, hxe⟩ := mem_entries hxv
          have hi : c.methods[k]? = some m := by
            rw [e, List.getElem?_append_left]
            · exact hk
            · exact (List.getElem?_eq_some_iff.mp hk).1
          rw [Nat.zero_add] at hxe
          rw [hget _ m hi hxe]
          simp only
          rw [hxe]
          rfl

/-- The place of a virtual method. -/
theorem virt_slot {c : Class} {bases : List Class} (ho : ∀ x ∈ c :: bases, Ordered x) {i : Nat} {m : Method}
    (hi : c.methods[i]? = some m) (hv : m.virt = true) :
    (slots (c :: bases))[i + virtualCount bases]? = some m.key := by
  obtain ⟨vs, os, rest, e, h1, h2, h3⟩ := ho c List.mem_cons_self
  obtain ⟨f1, f2⟩ := ordered_slots e h1 h2 h3
  have hlt : i < vs.length := by
    rcases Nat.lt_or_ge i vs.length with h | h
    · exact h
    · exfalso
      rw [e, List.getElem?_append_right h] at hi
      have := List.mem_of_getElem? hi
      rw [List.mem_append] at this
      rcases this with h | h
      · rw [(h2 m h).1] at hv; cases hv
      · rw [(h3 m h).1] at hv; cases hv
  have hi' : vs[i]? = some m := by
    rw [e, List.getElem?_append_left hlt] at hi
    exact hi
  have hl := slots_length (fun x hx => ho x (List.mem_cons_of_mem _ hx))
  rw [slots, f1, List.getElem?_append_right (by omega), hl, Nat.add_sub_cancel, List.getElem?_map, hi']
  rfl

theorem slots_prefix (ds chain : List Class) : ∃ t, slots (ds ++ chain) = slots chain ++ t := by
  induction ds with
  | nil => exact ⟨[], by simp⟩
  | cons d ds ih =>
    obtain ⟨t, h⟩ := ih
    rw [List.cons_append, slots, h]
    exact ⟨_, List.append_assoc _ _ _⟩

/-! ## Methods without type parameters -/

theorem getType_closed (e : Option Env) : ∀ {t : Ty}, t.Closed → getType e t = some (some t)
  | .param _, h => h.elim
  | .cls _, _ => by cases e <;> rfl
  | .app f a, h => by
    have h1 := getType_closed e h.1
    have h2 := getType_closed e h.2
    cases e <;> simp only [getType, h1, h2]

/-- The prototype of a method without type parameters. -/
def protoOf (m : Method) : Prototype := ⟨m.name, m.typeParams, some m.ret, m.params.map (fun p => (p.1, some p.2))⟩

theorem protoParams_plain (e : Option Env) : ∀ {ps : List (Nat × Ty)}, (∀ p ∈ ps, p.2.Closed) →
    protoParams e ps = some (ps.map (fun p => (p.1, some p.2)))
  | [], _ => rfl
  | (k, t) :: ps, h => by
    rw [protoParams, getType_closed e (h (k, t) List.mem_cons_self)]
    simp only
    rw [protoParams_plain e (fun p hp => h p (List.mem_cons_of_mem _ hp))]
    rfl

theorem getPrototype_plain (e : Option Env) {m : Method} (h : m.Plain) : getPrototype e m = some (protoOf m) := by
  rw [getPrototype, protoParams_plain e h.2]
  simp only
  rw [getType_closed e h.1]
  rfl

theorem compareParams_plain (e : Option Env) : ∀ {ps qs : List (Nat × Ty)}, (∀ p ∈ ps, p.2.Closed) → ps.length = qs.length →
    compareParams e ps (qs.map (fun p => (p.1, some p.2))) = some (decide (ps = qs))
  | [], [], _, _ => rfl
  | [], _ :: _, _, h => by simp at h
  | _ :: _, [], _, h => by simp at h
  | (k, t) :: ps, (k', t') :: qs, h, hl => by
    rw [List.map_cons, compareParams, getType_closed e (h (k, t) List.mem_cons_self)]
    simp only
    rw [compareParams_plain e (fun p hp => h p (List.mem_cons_of_mem _ hp)) (by simpa using hl)]
    by_cases hk : k = k'
    · by_cases ht : t = t'
      · subst hk ht
        simp
      · simp [hk, ht]
    · simp [hk]

theorem compare_plain (e : Option Env) {m m' : Method} (h : m.Plain) :
    compareTo e m (protoOf m') = some (decide (m.key = m'.key)) := by
  rw [compareTo, protoOf]
  simp only [List.length_map]
  by_cases h1 : m.name = m'.name
  · by_cases h2 : m'.typeParams = m.typeParams
    · by_cases h3 : m'.params.length = m.params.length
      · rw [if_neg (by simp [h1]), if_neg (by simp [h2]), if_neg (by simp [h3]), getType_closed e h.1]
        simp only
        by_cases h4 : m'.ret = m.ret
        · rw [if_neg (by simp [h4]), compareParams_plain e h.2 h3.symm]
          simp [Method.key, h1, h2, h4]
        · rw [if_pos (by simp [h4])]
          have : m.key ≠ m'.key := by
            intro hk
            simp only [Method.key, Prod.mk.injEq] at hk
            exact h4 hk.2.2.1.symm
          simp [this]
      · rw [if_neg (by simp [h1]), if_neg (by simp [h2]), if_pos (by simp [h3])]
        have : m.key ≠ m'.key := by
          intro hk
          simp only [Method.key, Prod.mk.injEq] at hk
          exact h3 (by rw [hk.2.2.2])
        simp [this]
    · rw [if_neg (by simp [h1]), if_pos (by simp [h2])]
      have : m.key ≠ m'.key := by
        intro hk
        simp only [Method.key, Prod.mk.injEq] at hk
        exact h2 hk.2.1.symm
      simp [this]
  · rw [if_pos h1]
    have : m.key ≠ m'.key := by
      intro hk
      simp only [Method.key, Prod.mk.injEq] at hk
      exact h1 hk.1
    simp [this]

theorem replaceFirst_plain (e : Entry) : ∀ {v r : List Entry}, (∀ x ∈ v, x.method.Plain) → replaceK e v = some r →
    replaceFirst (protoOf e.method) e v = .ok r
  | [], _, _, h => by cases h
  | x :: v, r, hp, h => by
    rw [replaceK] at h
    rw [replaceFirst, compare_plain none (hp x List.mem_cons_self)]
    by_cases hx : x.key = e.key
    · rw [if_pos hx] at h
      cases h
      have hx' : x.method.key = e.method.key := hx
      simp [hx']
    · rw [if_neg hx, Option.map_eq_some_iff] at h
      obtain ⟨r', h1, h2⟩ := h
      subst h2
      have hx' : ¬ x.method.key = e.method.key := hx
      have := replaceFirst_plain e (fun y hy => hp y (List.mem_cons_of_mem _ hy)) h1
      simp [hx', this]

theorem replaceK_mem (e : Entry) : ∀ {v r : List Entry}, replaceK e v = some r → ∀ x ∈ r, x = e ∨ x ∈ v
  | [], _, h => by cases h
  | y :: v, r, h => by
    rw [replaceK] at h
    intro x hx
    by_cases hy : y.key = e.key
    · rw [if_pos hy] at h
      cases h
      rw [List.mem_cons] at hx
      rcases hx with hx | hx
      · exact Or.inl hx
      · exact Or.inr (List.mem_cons_of_mem _ hx)
    · rw [if_neg hy, Option.map_eq_some_iff] at h
      obtain ⟨r', h1, h2⟩ := h
      subst h2
      rw [List.mem_cons] at hx
      rcases hx with hx | hx
      · exact Or.inr (hx ▸ List.mem_cons_self)
      · rcases replaceK_mem e h1 x hx with h | h
        · exact Or.inl h
        · exact Or.inr (List.mem_cons_of_mem _ h)

theorem addMethods_plain (e : Option Env) (c : Class) : ∀ {ms : List Method} {i : Nat} {v r : List Entry},
    (∀ m ∈ ms, m.Plain) → (∀ x ∈ v, x.method.Plain) → addK c i ms v = some r →
    addMethods e c i ms v = .ok r ∧ ∀ x ∈ r, x.method.Plain
  | [], i, v, r, _, hv, h => by
    cases h
    exact ⟨rfl, hv⟩
  | m :: ms, i, v, r, hm, hv, h => by
    have hms : ∀ x ∈ ms, x.Plain := fun x hx => hm x (List.mem_cons_of_mem _ hx)
    have hm0 := hm m List.mem_cons_self
    rw [addK] at h
    rw [addMethods]
    by_cases h1 : m.virt = true
    · rw [if_pos h1] at h ⊢
      refine addMethods_plain e c hms ?_ h
      intro x hx
      rw [List.mem_append, List.mem_singleton] at hx
      rcases hx with hx | hx
      · exact hv x hx
      · rw [hx]; exact hm0
    · rw [if_neg h1] at h ⊢
      by_cases h2 : m.over = true
      · rw [if_pos h2] at h ⊢
        cases hr : replaceK (c.entry i m) v with
        | none => rw [hr] at h; cases h
        | some v' =>
          rw [hr] at h
          have hrep := replaceFirst_plain (c.entry i m) hv hr
          have hrep' : replaceFirst (protoOf m) (c.entry i m) v = .ok v' := hrep
          rw [getPrototype_plain e hm0]
          simp only [hrep']
          refine addMethods_plain e c hms ?_ h
          intro x hx
          rcases replaceK_mem _ hr x hx with hx | hx
          · rw [hx]; exact hm0
          · exact hv x hx
      · rw [if_neg h2] at h ⊢
        cases h
        exact ⟨rfl, hv⟩

theorem vfunctions_plain (e : Option Env) : ∀ {chain : List Class} {r : List Entry}, (∀ c ∈ chain, ∀ m ∈ c.methods, m.Plain) →
    tableK chain = some r → vfunctions e chain = .ok r ∧ ∀ x ∈ r, x.method.Plain
  | [], r, _, h => by
    cases h
    exact ⟨rfl, fun x hx => by cases hx⟩
  | c :: bases, r, hp, h => by
    rw [tableK] at h
    cases hb : tableK bases with
    | none => rw [hb] at h; cases h
    | some v =>
      rw [hb] at h
      obtain ⟨h1, h2⟩ := vfunctions_plain e (fun x hx => hp x (List.mem_cons_of_mem _ hx)) hb
      rw [vfunctions, h1]
      exact addMethods_plain e c (hp c List.mem_cons_self) h2 h

theorem table_plain (args : List Ty) {chain : List Class} {r : List Entry} (hp : ∀ c ∈ chain, ∀ m ∈ c.methods, m.Plain)
    (h : tableK chain = some r) : table args chain = .ok r := by
  cases chain with
  | nil => cases h; rfl
  | cons c bases => exact (vfunctions_plain (managerOf c args) hp h).1

/-! ## Places -/

theorem findMethod_plain {m0 : Method} : ∀ {ms : List Method} {i j : Nat}, (∀ m ∈ ms, m.Plain) →
    findMethod (protoOf m0) i ms = .ok j → ∃ k m, j = i + k ∧ ms[k]? = some m ∧ m.key = m0.key
  | [], i, j, _, h => by cases h
  | m :: ms, i, j, hp, h => by
    rw [findMethod, compare_plain none (hp m List.mem_cons_self)] at h
    by_cases hk : m.key = m0.key
    · simp only [hk, decide_true] at h
      cases h
      exact ⟨0, m, rfl, rfl, hk⟩
    · simp only [hk, decide_false] at h
      obtain ⟨k, m', h1, h2, h3⟩ := findMethod_plain (fun x hx => hp x (List.mem_cons_of_mem _ hx)) h
      exact ⟨k + 1, m', by omega, by simpa using h2, h3⟩

theorem slots_cons {c : Class} {bases : List Class} {k : Nat} {p : Key} (h : (slots bases)[k]? = some p) :
    (slots (c :: bases))[k]? = some p := by
  rw [slots, List.getElem?_append_left]
  · exact h
  · exact (List.getElem?_eq_some_iff.mp h).1

theorem searchOffset_sound (caller : Option Env) : ∀ {chain : List Class} {m0 : Method} {k : Nat},
    (∀ c ∈ chain, Ordered c) → (∀ c ∈ chain, ∀ m ∈ c.methods, m.Plain) →
    searchOffset caller (protoOf m0) chain = .ok k → (slots chain)[k]? = some m0.key
  | [], _, _, _, _, h => by cases h
  | b :: bases, m0, k, ho, hp, h => by
    have ho' : ∀ c ∈ bases, Ordered c := fun x hx => ho x (List.mem_cons_of_mem _ hx)
    have hp' : ∀ c ∈ bases, ∀ m ∈ c.methods, m.Plain := fun x hx => hp x (List.mem_cons_of_mem _ hx)
    rw [searchOffset] at h
    by_cases hg : b.generic = true
    · rw [if_pos hg] at h
      exact slots_cons (searchOffset_sound caller ho' hp' h)
    · rw [if_neg hg] at h
      cases hf : findMethod (protoOf m0) 0 b.methods with
      | crash => simp only [hf] at h; cases h
      | notFound =>
        simp only [hf] at h
        exact slots_cons (searchOffset_sound caller ho' hp' h)
      | ok j =>
        obtain ⟨i, m, h1, h2, h3⟩ := findMethod_plain (hp b List.mem_cons_self) hf
        have hj : b.methods[j]? = some m := by rw [h1, Nat.zero_add]; exact h2
        simp only [hf, hj] at h
        by_cases hv : m.virt = true
        · rw [if_pos hv] at h
          cases h
          rw [← h3]
          exact virt_slot ho hj hv
        · rw [if_neg hv] at h
          by_cases hov : m.over = true
          · rw [if_pos hov, getPrototype_plain caller (hp b List.mem_cons_self m (List.mem_of_getElem? hj))] at h
            rw [← h3]
            exact slots_cons (searchOffset_sound caller ho' hp' h)
          · rw [if_neg hov] at h
            cases h

theorem offset_sound (caller : Option Env) {c : Class} {bases : List Class} {i k : Nat} {m : Method}
    (ho : ∀ x ∈ c :: bases, Ordered x) (hp : ∀ x ∈ c :: bases, ∀ m ∈ x.methods, m.Plain) (hi : c.methods[i]? = some m)
    (h : offset caller (c :: bases) i = .ok k) : (slots (c :: bases))[k]? = some m.key := by
  rw [offset, hi] at h
  simp only at h
  by_cases hv : m.virt = true
  · rw [if_pos hv] at h
    by_cases hb : baseKnown c = true
    · rw [if_pos hb] at h
      cases h
      exact virt_slot ho hi hv
    · rw [if_neg hb] at h
      cases h
  · rw [if_neg hv] at h
    by_cases hov : m.over = true
    · rw [if_pos hov, getPrototype_plain caller (hp c List.mem_cons_self m (List.mem_of_getElem? hi))] at h
      simp only at h
      by_cases hb : baseKnown c = true
      · rw [if_pos hb] at h
        exact slots_cons (searchOffset_sound caller (fun x hx => ho x (List.mem_cons_of_mem _ hx))
          (fun x hx => hp x (List.mem_cons_of_mem _ hx)) h)
      · rw [if_neg hb] at h
        cases h
    · rw [if_neg hov] at h
      cases h

theorem findMethod_total {m0 : Method} : ∀ {ms : List Method} (i : Nat), (∀ m ∈ ms, m.Plain) →
    (findMethod (protoOf m0) i ms = .notFound ∧ m0.key ∉ ms.map (·.key)) ∨ ∃ j, findMethod (protoOf m0) i ms = .ok j
  | [], i, _ => Or.inl ⟨rfl, by simp⟩
  | m :: ms, i, hp => by
    rw [findMethod, compare_plain none (hp m List.mem_cons_self)]
    by_cases hk : m.key = m0.key
    · simp only [hk, decide_true]
      exact Or.inr ⟨i, rfl⟩
    · simp only [hk, decide_false]
      rcases findMethod_total (m0 := m0) (i + 1) (fun x hx => hp x (List.mem_cons_of_mem _ hx)) with ⟨h1, h2⟩ | h
      · refine Or.inl ⟨h1, ?_⟩
        rw [List.map_cons, List.mem_cons]
        rintro (h | h)
        · exact hk h.symm
        · exact h2 h
      · exact Or.inr h

theorem searchOffset_total (caller : Option Env) : ∀ {chain : List Class} {m0 : Method},
    (∀ c ∈ chain, c.generic = false) → Tidy chain → (∀ c ∈ chain, ∀ m ∈ c.methods, m.Plain) → m0.key ∈ slots chain →
    ∃ k, searchOffset caller (protoOf m0) chain = .ok k
  | [], _, _, _, _, h => by cases h
  | b :: bases, m0, hg, ht, hp, hm => by
    have again : ∀ m1 : Method, m1.key ∈ slots bases → ∃ k, searchOffset caller (protoOf m1) bases = .ok k := fun m1 h1 =>
      searchOffset_total caller (fun x hx => hg x (List.mem_cons_of_mem _ hx)) ht.2.2.2.2
        (fun x hx => hp x (List.mem_cons_of_mem _ hx)) h1
    rw [searchOffset, if_neg (by simp [hg b List.mem_cons_self])]
    rcases findMethod_total (m0 := m0) 0 (hp b List.mem_cons_self) with ⟨h1, h2⟩ | ⟨j, h1⟩
    · rw [h1]
      apply again
      rw [slots, List.mem_append] at hm
      rcases hm with hm | hm
      · exact hm
      · rw [List.mem_map] at hm
        obtain ⟨m, hm, he⟩ := hm
        exact absurd (List.mem_map.mpr ⟨m, (List.mem_filter.mp hm).1, he⟩) h2
    · obtain ⟨i, m, g1, g2, g3⟩ := findMethod_plain (hp b List.mem_cons_self) h1
      have hj : b.methods[j]? = some m := by rw [g1, Nat.zero_add]; exact g2
      have hmem := List.mem_of_getElem? hj
      simp only [h1, hj]
      by_cases hv : m.virt = true
      · rw [if_pos hv]
        exact ⟨_, rfl⟩
      · rw [if_neg hv]
        by_cases hov : m.over = true
        · rw [if_pos hov, getPrototype_plain caller (hp b List.mem_cons_self m hmem)]
          apply again
          obtain ⟨b', hb', m', hm', hv', hp'⟩ := ht.2.2.2.1 m hmem hov
          exact hp' ▸ slots_of_declared hb' hm' hv'
        · exfalso
          rw [slots, List.mem_append] at hm
          rcases hm with hm | hm
          · exact hov (slots_fresh ht hm hmem g3)
          · rw [List.mem_map] at hm
            obtain ⟨m', hm', he'⟩ := hm
            rw [List.mem_filter] at hm'
            obtain ⟨n, hn⟩ := List.getElem?_of_mem hm'.1
            have d1 := declared_of_get ht.1 hn
            have d2 := declared_of_get ht.1 hj
            rw [he', ← g3, d2] at d1
            cases d1
            exact hv hm'.2

theorem tidy_suffix {chain : List Class} : ∀ ds : List Class, Tidy (ds ++ chain) → Tidy chain
  | [], h => h
  | _ :: ds, h => tidy_suffix ds h.2.2.2.2

theorem baseKnown_closed {c : Class} (h : ∀ t ∈ c.baseArgs, t.Closed) : baseKnown c = true := by
  rw [baseKnown, List.all_eq_true]
  intro t ht
  rw [getType_closed none (h t ht)]

/-- What is at the place of a method, in the table of a class below. -/
theorem call_sound (caller : Option Env) (args : List Ty) (ds : List Class) {c : Class} {bases : List Class} {i k : Nat} {m : Method}
    (ho : ∀ x ∈ ds ++ c :: bases, Ordered x) (ht : Tidy (ds ++ c :: bases))
    (hp : ∀ x ∈ ds ++ c :: bases, ∀ m ∈ x.methods, m.Plain) (hi : c.methods[i]? = some m)
    (h : offset caller (c :: bases) i = .ok k) :
    ∃ e, call caller (c :: bases) i args (ds ++ c :: bases) = .ok e ∧ nearest m.key (ds ++ c :: bases) = some e := by
  have hs := offset_sound caller (fun x hx => ho x (List.mem_append_right _ hx)) (fun x hx => hp x (List.mem_append_right _ hx)) hi h
  obtain ⟨v, v1, v2, v3⟩ := tableK_spec ho ht
  obtain ⟨t, hpre⟩ := slots_prefix ds (c :: bases)
  have hvk : (v.map (·.key))[k]? = some m.key := by
    rw [v2, hpre, List.getElem?_append_left]
    · exact hs
    · exact (List.getElem?_eq_some_iff.mp hs).1
  rw [List.getElem?_map, Option.map_eq_some_iff] at hvk
  obtain ⟨e, he, hep⟩ := hvk
  refine ⟨e, ?_, ?_⟩
  · rw [call, table_plain args hp v1, h]
    simp only [he]
  · rw [← hep]
    exact v3 e (List.mem_of_getElem? he)

/-- In generic classes nothing is found. -/
theorem searchOffset_generic (caller : Option Env) (p : Prototype) : ∀ {chain : List Class}, (∀ c ∈ chain, c.generic = true) →
    searchOffset caller p chain = .notFound
  | [], _ => rfl
  | b :: bases, h => by
    rw [searchOffset, if_pos (h b List.mem_cons_self)]
    exact searchOffset_generic caller p (fun x hx => h x (List.mem_cons_of_mem _ hx))

end Verif.Gvirt
