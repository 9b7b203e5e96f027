import Verif.Spec.Init

/-!
# Shapes and their check
-/

namespace Verif.Init

variable {A : Type}

/-- The product of lengths. -/
def prodN : List Nat → Nat
  | [] => 1
  | n :: ns => n * prodN ns

/-- The place of an index. -/
def placeN : List Nat → List Nat → Nat
  | _ :: ns, k :: ks => k * prodN ns + placeN ns ks
  | _, _ => 0

/-- Indices within lengths. -/
def InN : List Nat → List Nat → Prop
  | [], [] => True
  | n :: ns, k :: ks => k < n ∧ InN ns ks
  | _, _ => False

theorem placeN_lt : ∀ (ns ks : List Nat), InN ns ks → placeN ns ks < prodN ns
  | [], [], _ => by simp [placeN, prodN]
  | n :: ns, k :: ks, h => by
    have := placeN_lt ns ks h.2
    simp only [placeN, prodN]
    have h1 : (k + 1) * prodN ns ≤ n * prodN ns := Nat.mul_le_mul_right _ h.1
    rw [Nat.add_mul, Nat.one_mul] at h1
    omega
  | [], _ :: _, h => h.elim
  | _ :: _, [], h => h.elim

theorem toList_length : ∀ (i : Inits A), i.toList.length = i.size
  | .one _ => rfl
  | .more _ r => by simp [Inits.toList, Inits.size, toList_length r]

mutual

theorem each_elem : ∀ (e : Elem A) (ns : List Nat), Cell₁ ns e →
    e.each.length = prodN ns ∧ ∀ ks, InN ns ks → e.each[placeN ns ks]? = e.at ks
  | .expr e, _, .expr _ => by
    refine ⟨rfl, fun ks h => ?_⟩
    cases ks with
    | nil => rfl
    | cons => exact h.elim
  | .init i, _, .init n ns _ (.mk _ _ _ hs hr) => by
    have ih := each_rows i ns hr
    refine ⟨by rw [Elem.each, ih.1, hs, prodN], fun ks h => ?_⟩
    cases ks with
    | nil => exact h.elim
    | cons k ks =>
      have := ih.2 k ks (hs ▸ h.1) h.2
      rw [Elem.each, placeN, this, Elem.at]
      cases i.toList[k]? <;> rfl

theorem each_rows : ∀ (i : Inits A) (ns : List Nat), Rows ns i →
    i.each.length = i.size * prodN ns ∧ ∀ k ks, k < i.size → InN ns ks →
      i.each[k * prodN ns + placeN ns ks]? = (i.toList[k]?).bind (·.at ks)
  | .one e, ns, .one _ _ h => by
    have ih := each_elem e ns h
    refine ⟨by rw [Inits.each, ih.1, Inits.size, Nat.one_mul], fun k ks hk hks => ?_⟩
    have : k = 0 := by rw [Inits.size] at hk; omega
    subst this
    rw [Inits.each, Nat.zero_mul, Nat.zero_add, ih.2 ks hks]; rfl
  | .more e r, ns, .more _ _ _ h hr => by
    have ih := each_elem e ns h
    have ir := each_rows r ns hr
    refine ⟨by rw [Inits.each, List.length_append, ih.1, ir.1, Inits.size, Nat.add_mul, Nat.one_mul, Nat.add_comm],
      fun k ks hk hks => ?_⟩
    have hl := placeN_lt ns ks hks
    cases k with
    | zero =>
      rw [Inits.each, Nat.zero_mul, Nat.zero_add, List.getElem?_append_left (by omega), ih.2 ks hks]; rfl
    | succ k =>
      rw [Inits.each, List.getElem?_append_right (by rw [ih.1, Nat.add_mul, Nat.one_mul]; omega), ih.1]
      have : (k + 1) * prodN ns + placeN ns ks - prodN ns = k * prodN ns + placeN ns ks := by
        rw [Nat.add_mul, Nat.one_mul]; omega
      rw [this, ir.2 k ks (by rw [Inits.size] at hk; omega) hks]; rfl

end

/-- The table has the lengths, from a depth on. -/
def Agrees (dims : List Dim) : Nat → List Nat → Prop
  | _, [] => True
  | d, n :: ns => dims[d]? = some ⟨some n, some (!ns.isEmpty)⟩ ∧ Agrees dims (d + 1) ns

/-- What is known stays. -/
def Keeps (dims dims' : List Dim) : Prop :=
  dims'.length = dims.length ∧
    ∀ (k n : Nat) (t : Bool), dims[k]? = some (⟨some n, some t⟩ : Dim) → dims'[k]? = some ⟨some n, some t⟩

theorem Keeps.refl (dims : List Dim) : Keeps dims dims := ⟨rfl, fun _ _ _ h => h⟩

theorem Keeps.trans {a b c : List Dim} (h : Keeps a b) (h' : Keeps b c) : Keeps a c :=
  ⟨h'.1.trans h.1, fun k n t hk => h'.2 k n t (h.2 k n t hk)⟩

theorem Agrees.mono {a b : List Dim} (h : Keeps a b) : ∀ (d : Nat) (ns : List Nat), Agrees a d ns → Agrees b d ns
  | _, [], _ => trivial
  | d, _ :: ns, hn => ⟨h.2 _ _ _ hn.1, Agrees.mono h (d + 1) ns hn.2⟩

theorem Agrees.unique {a : List Dim} : ∀ (ns ms : List Nat) (d : Nat), Agrees a d ns → Agrees a d ms →
    ns.isEmpty = ms.isEmpty → ns = ms
  | [], [], _, _, _, _ => rfl
  | n :: ns, m :: ms, d, h, h', _ => by
    have e := h.1.symm.trans h'.1
    rw [Option.some.injEq, Dim.mk.injEq, Option.some.injEq, Option.some.injEq] at e
    have e2 : ns.isEmpty = ms.isEmpty := by
      have := e.2
      cases hns : ns.isEmpty <;> cases hms : ms.isEmpty <;> simp_all
    rw [e.1, Agrees.unique ns ms (d + 1) h.2 h'.2 e2]
  | [], _ :: _, _, _, _, h => by simp at h
  | _ :: _, [], _, _, _, h => by simp at h

theorem Agrees.bound {a : List Dim} : ∀ (ns : List Nat) (d : Nat), Agrees a d ns → ns ≠ [] →
    d + ns.length ≤ a.length
  | [n], d, h, _ => by
    have := (List.getElem?_eq_some_iff.mp h.1).1
    simp; omega
  | n :: m :: ns, d, h, _ => by
    have := Agrees.bound (m :: ns) (d + 1) h.2 (by simp)
    simp only [List.length_cons] at this ⊢; omega

theorem enter_ok {dims dims' : List Dim} {depth size : Nat} {first t : Bool}
    (h : enter dims depth size first = .ok (dims', t)) :
    t = first ∧ dims'[depth]? = some ⟨some size, some first⟩ ∧ Keeps dims dims' := by
  rw [enter] at h
  split at h
  · exact nomatch h
  · rename_i d hd
    split at h
    · exact nomatch h
    · rename_i h1
      split at h
      · exact nomatch h
      · rename_i h2
        split at h
        · exact nomatch h
        · simp only [Except.ok.injEq, Prod.mk.injEq] at h
          have hlt := (List.getElem?_eq_some_iff.mp hd).1
          obtain ⟨rfl, rfl⟩ := h
          refine ⟨rfl, by simp [hlt], by simp, fun k n t hk => ?_⟩
          by_cases hkd : depth = k
          · subst hkd
            rw [hd, Option.some.injEq] at hk
            subst hk
            simp at h1 h2
            simp [hlt, h1, h2]
          · rw [List.getElem?_set_ne hkd]; exact hk

mutual

theorem check_sound_elem : ∀ (e : Elem A) (t : Bool) (d : Nat) (dims dims' : List Dim),
    e.check t d dims = .ok dims' →
    ∃ ns, Cell₁ ns e ∧ ns.isEmpty = !t ∧ Agrees dims' (d + 1) ns ∧ Keeps dims dims'
  | .expr e, t, d, dims, dims', h => by
    rw [Elem.check] at h
    split at h
    · rename_i ht
      subst ht
      rw [Except.ok.injEq] at h
      subst h
      exact ⟨[], .expr e, rfl, trivial, .refl _⟩
    · exact nomatch h
  | .init i, t, d, dims, dims', h => by
    rw [Elem.check] at h
    split at h
    · rename_i ht
      subst ht
      split at h
      · exact nomatch h
      · rename_i dims1 t1 he
        obtain ⟨rfl, h2, h3⟩ := enter_ok he
        obtain ⟨ns, hr, hns, ha, hle⟩ := check_sound_rows i _ _ _ _ h
        refine ⟨i.size :: ns, .init _ _ _ (.mk _ _ _ rfl hr), rfl, ⟨?_, ha⟩, h3.trans hle⟩
        rw [hle.2 _ _ _ h2, hns, Bool.not_not]
    · exact nomatch h

theorem check_sound_rows : ∀ (i : Inits A) (t : Bool) (d : Nat) (dims dims' : List Dim),
    i.checkAll t d dims = .ok dims' →
    ∃ ns, Rows ns i ∧ ns.isEmpty = !t ∧ Agrees dims' (d + 1) ns ∧ Keeps dims dims'
  | .one e, t, d, dims, dims', h => by
    rw [Inits.checkAll] at h
    obtain ⟨ns, h1, h2⟩ := check_sound_elem e t d dims dims' h
    exact ⟨ns, .one _ _ h1, h2⟩
  | .more e r, t, d, dims, dims', h => by
    rw [Inits.checkAll] at h
    split at h
    · exact nomatch h
    · rename_i dims1 he
      obtain ⟨ns, h1, h2, h3, h4⟩ := check_sound_elem e t d dims dims1 he
      obtain ⟨ms, g1, g2, g3, g4⟩ := check_sound_rows r t d dims1 dims' h
      have : ns = ms := Agrees.unique ns ms _ (h3.mono g4) g3 (h2.trans g2.symm)
      subst this
      exact ⟨ns, .more _ _ _ h1 g1, g2, g3, h4.trans g4⟩

end

/-- The table has the lengths, or knows nothing. -/
def Compat (dims : List Dim) : Nat → List Nat → Prop
  | _, [] => True
  | d, n :: ns => (dims[d]? = some ⟨none, none⟩ ∨ dims[d]? = some ⟨some n, some (!ns.isEmpty)⟩) ∧
      Compat dims (d + 1) ns

theorem Compat.set {dims : List Dim} {x : Dim} : ∀ (ns : List Nat) (d k : Nat), k < d → Compat dims d ns →
    Compat (dims.set k x) d ns
  | [], _, _, _, _ => trivial
  | n :: ns, d, k, hk, h => by
    refine ⟨?_, Compat.set ns (d + 1) k (by omega) h.2⟩
    rw [List.getElem?_set_ne (by omega)]; exact h.1

theorem head_rows {ns : List Nat} {i : Inits A} (h : Rows ns i) : i.head.isInit = !ns.isEmpty := by
  cases h with
  | one _ e h => cases h <;> rfl
  | more _ e r h _ => cases h <;> rfl

theorem enter_complete {dims : List Dim} {d n : Nat} {f : Bool} (hl : dims.length = maxDimension)
    (h : dims[d]? = some ⟨none, none⟩ ∨ dims[d]? = some ⟨some n, some f⟩) :
    enter dims d n f = .ok (dims.set d ⟨some n, some f⟩, f) := by
  rw [enter]
  have hlt : d < dims.length := by
    rcases h with h | h <;> exact (List.getElem?_eq_some_iff.mp h).1
  have : ¬ (d + 1 > maxDimension) := by rw [hl] at hlt; omega
  rcases h with h | h <;> simp [h, this]

mutual

theorem check_complete_elem : ∀ (e : Elem A) (ns : List Nat), Cell₁ ns e → ∀ (d : Nat) (dims : List Dim),
    dims.length = maxDimension → Compat dims (d + 1) ns →
    ∃ dims', e.check (!ns.isEmpty) d dims = .ok dims' ∧ Compat dims' (d + 1) ns
  | .expr e, _, .expr _, d, dims, _, _ => ⟨dims, rfl, trivial⟩
  | .init i, _, .init n ns _ (.mk _ _ _ hs hr), d, dims, hl, hc => by
    subst hs
    have he := enter_complete hl hc.1
    obtain ⟨dims', h1, h2⟩ := check_complete_rows i ns hr (d + 1) _ (by simpa using hl)
      (Compat.set (x := ⟨some i.size, some (!ns.isEmpty)⟩) ns (d + 2) (d + 1) (by omega) hc.2)
    refine ⟨dims', ?_, ?_, h2⟩
    · rw [Elem.check, head_rows hr, he]
      exact h1
    · obtain ⟨_, _, _, _, hle⟩ := check_sound_rows i _ _ _ _ h1
      have hlt : d + 1 < dims.length := by
        rcases hc.1 with h | h <;> exact (List.getElem?_eq_some_iff.mp h).1
      exact .inr (hle.2 _ _ _ (by simp [hlt]))

theorem check_complete_rows : ∀ (i : Inits A) (ns : List Nat), Rows ns i → ∀ (d : Nat) (dims : List Dim),
    dims.length = maxDimension → Compat dims (d + 1) ns →
    ∃ dims', i.checkAll (!ns.isEmpty) d dims = .ok dims' ∧ Compat dims' (d + 1) ns
  | .one e, ns, .one _ _ h, d, dims, hl, hc => check_complete_elem e ns h d dims hl hc
  | .more e r, ns, .more _ _ _ h hr, d, dims, hl, hc => by
    obtain ⟨dims1, h1, h2⟩ := check_complete_elem e ns h d dims hl hc
    obtain ⟨_, _, _, _, hle⟩ := check_sound_elem e _ _ _ _ h1
    obtain ⟨dims', g1, g2⟩ := check_complete_rows r ns hr d dims1 (hle.1.trans hl) h2
    exact ⟨dims', by rw [Inits.checkAll, h1]; exact g1, g2⟩

end

theorem compat_new : ∀ (ns : List Nat) (d : Nat), d + ns.length ≤ maxDimension →
    Compat (List.replicate maxDimension ⟨none, none⟩) d ns
  | [], _, _ => trivial
  | n :: ns, d, h => by
    simp only [List.length_cons] at h
    refine ⟨.inl ?_, compat_new ns (d + 1) (by omega)⟩
    rw [List.getElem?_replicate, if_pos (by omega)]

/-- The check finds out about the shape. -/
theorem check_iff (i : Inits A) : i.check = .ok () ↔ ∃ ns, Shaped ns i ∧ ns.length ≤ maxDimension := by
  constructor
  · intro h
    rw [Inits.check] at h
    split at h
    · exact nomatch h
    · rename_i dims t he
      split at h
      · exact nomatch h
      · rename_i dims' hc
        obtain ⟨rfl, h2, h3⟩ := enter_ok he
        obtain ⟨ns, hr, hns, ha, hle⟩ := check_sound_rows i _ _ _ _ hc
        have hag : Agrees dims' 0 (i.size :: ns) :=
          ⟨by rw [hle.2 _ _ _ h2, hns, Bool.not_not], ha⟩
        refine ⟨i.size :: ns, .mk _ _ _ rfl hr, ?_⟩
        have := hag.bound _ _ (by simp)
        have hl := (h3.trans hle).1
        rw [List.length_replicate] at hl
        omega
  · rintro ⟨_, ⟨n, ns, _, hs, hr⟩, hl⟩
    subst hs
    have hc := compat_new (i.size :: ns) 0 (by omega)
    have he := enter_complete (by simp) hc.1
    obtain ⟨dims', h1, _⟩ := check_complete_rows i ns hr 0 _ (by simp)
      (Compat.set (x := ⟨some i.size, some (!ns.isEmpty)⟩) ns 1 0 (by omega) hc.2)
    rw [Inits.check, head_rows hr, he]
    simp only [h1]

/-- Without a length before, the lengths are those of the shape. -/
theorem getLength_shaped : ∀ (ns : List Nat) (i : Inits A), Shaped ns i → ∀ d, getLength d i = ns[d]?
  | _, i, .mk n [] _ hs hr, d => by
    subst hs
    cases d with
    | zero => rfl
    | succ d =>
      have := head_rows hr
      rw [getLength]
      cases hh : i.head with
      | expr => simp
      | init j => rw [hh] at this; exact nomatch this
  | _, i, .mk n (m :: ns) _ hs hr, d => by
    subst hs
    cases d with
    | zero => rfl
    | succ d =>
      rw [getLength, List.getElem?_cons_succ]
      cases hr with
      | one _ e h =>
        cases h with
        | init _ _ j hj => exact getLength_shaped (m :: ns) j hj d
      | more _ e r h _ =>
        cases h with
        | init _ _ j hj => exact getLength_shaped (m :: ns) j hj d

end Verif.Init
