import Verif.Proof.Decl

/-! # Lemmas on members that are declared twice and on modifiers -/

namespace Verif.Decl

open Spec

theorem searchIn_some (m : Member) (f : Member → Found Unit) :
    ∀ (xs : List Member) (x : Member), searchIn m f xs = .some x →
      x ∈ xs ∧ x.id ≠ m.id ∧ x.owner = m.owner ∧ f x = .some () ∧
      ∃ pre post, xs = pre ++ x :: post ∧ ∀ y ∈ pre, y.id ≠ m.id
  | [], x, h => by simp [searchIn] at h
  | y :: ys, x, h => by
    unfold searchIn at h
    by_cases hid : y.id = m.id
    · simp [hid] at h
    · rw [if_neg (by simpa using hid)] at h
      have go : searchIn m f ys = .some x → _ := searchIn_some m f ys x
      have lift : searchIn m f ys = .some x →
          x ∈ y :: ys ∧ x.id ≠ m.id ∧ x.owner = m.owner ∧ f x = .some () ∧
          ∃ pre post, y :: ys = pre ++ x :: post ∧ ∀ z ∈ pre, z.id ≠ m.id := fun h => by
        obtain ⟨h1, h2, h3, h4, pre, post, h5, h6⟩ := go h
        exact ⟨by simp [h1], h2, h3, h4, y :: pre, post, by simp [h5], fun z hz => by
          rcases List.mem_cons.1 hz with rfl | hz
          · exact hid
          · exact h6 z hz⟩
      by_cases ho : y.owner = m.owner
      · rw [if_neg (by simpa using ho)] at h
        cases hf : f y with
        | some u =>
          rw [hf] at h
          simp only [Found.some.injEq] at h
          subst h
          exact ⟨by simp, hid, ho, hf, [], ys, by simp, by simp⟩
        | none =>
          rw [hf] at h
          exact lift h
        | undefined => simp [hf] at h
      · rw [if_pos (by simpa using ho)] at h
        exact lift h

theorem searchIn_none (m : Member) (f : Member → Found Unit) :
    ∀ (pre : List Member) (x : Member) (post : List Member), (∀ y ∈ pre, y.id ≠ m.id) →
      x.id ≠ m.id → x.owner = m.owner → f x = .some () → searchIn m f (pre ++ x :: post) ≠ .none
  | [], x, post, _, hid, ho, hf => by
    simp [searchIn, hid, ho, hf]
  | y :: pre, x, post, hp, hid, ho, hf => by
    have ih := searchIn_none m f pre x post (fun z hz => hp z (by simp [hz])) hid ho hf
    simp only [List.cons_append]
    unfold searchIn
    rw [if_neg (by simpa using hp y (by simp))]
    split
    · exact ih
    · cases f y with
      | some u => simp
      | none => exact ih
      | undefined => simp

theorem searchIn_undefined (m : Member) (f : Member → Found Unit) (hf : ∀ x, f x ≠ .undefined) :
    ∀ xs, searchIn m f xs ≠ .undefined
  | [] => by simp [searchIn]
  | y :: ys => by
    have ih := searchIn_undefined m f hf ys
    unfold searchIn
    split
    · simp
    · split
      · exact ih
      · cases h : f y with
        | some u => simp
        | none => simpa using ih
        | undefined => exact absurd h (hf y)

theorem orElse_some {a b : Found Member} {x : Member} (h : orElse a b = .some x) :
    a = .some x ∨ (a = .none ∧ b = .some x) := by
  cases a with
  | none => exact Or.inr ⟨rfl, h⟩
  | some y => exact Or.inl h
  | undefined => simp [orElse] at h

theorem orElse_none {a b : Found Member} (h : orElse a b = .none) : a = .none ∧ b = .none := by
  cases a with
  | none => exact ⟨rfl, h⟩
  | some y => simp [orElse] at h
  | undefined => simp [orElse] at h

theorem orElse_undefined {a b : Found Member} (ha : a ≠ .undefined) (hb : b ≠ .undefined) :
    orElse a b ≠ .undefined := by
  cases a with
  | none => exact hb
  | some y => simp [orElse]
  | undefined => exact absurd rfl ha

theorem visible_mem {ms : List Member} {k : Kind} {n : Nat} {x : Member} (h : x ∈ visible ms k n) :
    x ∈ ms ∧ x.kind = k ∧ x.name = n := by
  simp [visible] at h
  exact ⟨h.1, h.2.1.1, h.2.1.2⟩

theorem filter_split {α : Type} (p : α → Bool) :
    ∀ (ms : List α) (pre : List α) (x : α) (post : List α), ms.filter p = pre ++ x :: post →
      ∃ pre' post', ms = pre' ++ x :: post' ∧ pre = pre'.filter p ∧ post = post'.filter p
  | [], pre, x, post, h => by simp at h
  | m :: ms, pre, x, post, h => by
    by_cases hm : p m = true
    · rw [List.filter_cons_of_pos hm] at h
      cases pre with
      | nil =>
        simp at h
        exact ⟨[], ms, by simp [h.1], by simp, h.2.symm⟩
      | cons y pre =>
        simp at h
        obtain ⟨p', q', h1, h2, h3⟩ := filter_split p ms pre x post h.2
        refine ⟨m :: p', q', by simp [h1], ?_, h3⟩
        rw [List.filter_cons_of_pos hm, h.1, h2]
    · rw [List.filter_cons_of_neg hm] at h
      obtain ⟨p', q', h1, h2, h3⟩ := filter_split p ms pre x post h
      exact ⟨m :: p', q', by simp [h1], by rw [List.filter_cons_of_neg hm, h2], h3⟩

/-- The members in front of `b`. -/
theorem search_none (ms pre : List Member) (a b : Member) (post : List Member) (k : Kind)
    (f : Member → Found Unit) (h : ms = pre ++ a :: post) (hpre : ∀ y ∈ pre, y.id ≠ b.id)
    (hid : a.id ≠ b.id) (hk : a.kind = k) (hn : a.name = b.name) (ho : a.owner = b.owner)
    (hm : k = .method → a.owner = none) (hf : f a = .some ()) : search ms b k f ≠ .none := by
  unfold search visible
  rw [h, List.filter_append]
  have hkeep : (a.kind == k && a.name == b.name && (k != .method || a.owner == none)) = true := by
    simp only [Bool.and_eq_true, Bool.or_eq_true, beq_iff_eq, bne_iff_ne]
    refine ⟨⟨hk, hn⟩, ?_⟩
    by_cases hkm : k = .method
    · exact Or.inr (hm hkm)
    · exact Or.inl hkm
  rw [List.filter_cons_of_pos (p := fun m : Member => m.kind == k && m.name == b.name && (k != .method || m.owner == none)) hkeep]
  exact searchIn_none b f _ a _ (fun y hy => hpre y (List.mem_filter.1 hy).1) hid ho hf

theorem typeEq_refl_rename (a b : Nat) (t : Ty) (h : Plain t ∨ ∃ i, t = .param a i) :
    typeEq (rename a b t) t = .some () := by
  rcases h with h | ⟨i, rfl⟩
  · have : rename a b t = t := by
      induction t with
      | base n => rfl
      | param o i => exact absurd h (by simp [Plain])
      | inst g t ih => simp only [rename]; rw [ih h]
    rw [this]
    cases t with
    | base n => simp [typeEq]
    | param o i => exact absurd h (by simp [Plain])
    | inst g t => simp [typeEq]
  · simp [rename, typeEq]

theorem typesEq_of_rename (a b : Nat) :
    ∀ (as bs : List (Ty × Nat)), (∀ x ∈ as, Plain x.1 ∨ ∃ i, x.1 = .param a i) →
      as.map (fun x => rename a b x.1) = bs.map (·.1) → typesEq bs as = .some ()
  | [], [], _, _ => rfl
  | [], _ :: _, _, h => by simp at h
  | _ :: _, [], _, h => by simp at h
  | x :: as, y :: bs, hp, h => by
    simp only [List.map_cons, List.cons.injEq] at h
    unfold typesEq
    rw [← h.1, typeEq_refl_rename a b x.1 (hp x (by simp))]
    exact typesEq_of_rename a b as bs (fun z hz => hp z (by simp [hz])) h.2

theorem plain_rename (a b : Nat) : ∀ t, Plain t → rename a b t = t
  | .base _, _ => rfl
  | .param _ _, h => absurd h (by simp [Plain])
  | .inst g t, h => by simp only [rename]; rw [plain_rename a b t h]

/-- Types the comparison takes for the same are the same, when every parameter belongs to its own
method. -/
theorem typesEq_same (a b : Nat) :
    ∀ (as bs : List (Ty × Nat)), (∀ x ∈ as, Plain x.1 ∨ ∃ i, x.1 = .param a i) →
      (∀ x ∈ bs, Plain x.1 ∨ ∃ i, x.1 = .param b i) → as.length = bs.length →
      typesEq bs as = .some () → as.map (fun x => rename a b x.1) = bs.map (·.1)
  | [], [], _, _, _, _ => rfl
  | [], _ :: _, _, _, hl, _ => by simp at hl
  | _ :: _, [], _, _, hl, _ => by simp at hl
  | x :: as, y :: bs, hp, hq, hl, h => by
    unfold typesEq at h
    cases he : typeEq y.1 x.1 with
    | none => simp [he] at h
    | undefined => simp [he] at h
    | some u =>
      rw [he] at h
      simp only [List.map_cons, List.cons.injEq]
      refine ⟨?_, typesEq_same a b as bs (fun z hz => hp z (by simp [hz]))
        (fun z hz => hq z (by simp [hz])) (by simpa using hl) h⟩
      rcases hp x (by simp) with hx | ⟨i, hx⟩
      · rw [plain_rename a b _ hx]
        rcases hq y (by simp) with hy | ⟨j, hy⟩
        · cases hyt : y.1 with
          | base n =>
            rw [hyt] at he
            simp only [typeEq] at he
            split at he
            · next h => exact h.symm
            · simp at he
          | param o i => rw [hyt] at hy; exact absurd hy (by simp [Plain])
          | inst g t =>
            rw [hyt] at he
            simp only [typeEq] at he
            split at he
            · next h => exact h.symm
            · simp at he
        · rw [hy] at he
          cases hxt : x.1 with
          | base n => rw [hxt] at he; simp [typeEq] at he
          | param o i => rw [hxt] at hx; exact absurd hx (by simp [Plain])
          | inst g t => rw [hxt] at he; simp [typeEq] at he
      · rw [hx] at he ⊢
        rcases hq y (by simp) with hy | ⟨j, hy⟩
        · cases hyt : y.1 with
          | base n => rw [hyt] at he; simp [typeEq] at he
          | param o i => rw [hyt] at hy; exact absurd hy (by simp [Plain])
          | inst g t => rw [hyt] at he; simp [typeEq] at he
        · rw [hy] at he ⊢
          simp only [typeEq] at he
          split at he
          · next h => simp [rename, h]
          · simp at he

theorem methodEq_of_same (a b : Member) (ha : OwnParams a) (h : SameSignature a b) :
    methodEq b a = .some () := by
  have hl : b.params.length = a.params.length := by
    have := congrArg List.length h.2
    simpa using this.symm
  unfold methodEq
  rw [if_neg (by simpa using hl), if_neg (by simpa using h.1.symm)]
  exact typesEq_of_rename a.id b.id _ _ ha h.2

theorem same_of_methodEq (a b : Member) (ha : OwnParams a) (hb : OwnParams b)
    (h : methodEq b a = .some ()) : SameSignature a b := by
  unfold methodEq at h
  split at h
  · simp at h
  · next hl =>
    split at h
    · simp at h
    · next hg =>
      exact ⟨by omega,
        typesEq_same a.id b.id _ _ ha hb (by omega) h⟩

theorem search_some {ms : List Member} {m x : Member} {k : Kind} {f : Member → Found Unit}
    (h : search ms m k f = .some x) :
    x ∈ ms ∧ x.kind = k ∧ x.name = m.name ∧ x.id ≠ m.id ∧ x.owner = m.owner ∧ f x = .some () ∧
      ∃ pre post, ms = pre ++ x :: post ∧ ∀ y ∈ pre, y ≠ m ∨ m.kind ≠ k ∨ (k = .method ∧ m.owner ≠ none) := by
  have h' := searchIn_some m f _ x h
  obtain ⟨h1, h2, h3, h4, pre, post, h5, h6⟩ := h'
  obtain ⟨hm, hk, hn⟩ := visible_mem h1
  refine ⟨hm, hk, hn, h2, h3, h4, ?_⟩
  obtain ⟨pre', post', h7, h8, _⟩ := filter_split _ _ _ _ _ (show visible ms k m.name = pre ++ x :: post from h5)
  refine ⟨pre', post', h7, fun y hy => ?_⟩
  by_cases hym : y = m
  · right
    by_cases hmk : m.kind = k
    · right
      by_cases hv : k = .method ∧ m.owner ≠ none
      · exact hv
      · exfalso
        have : y ∈ pre := by
          rw [h8]
          refine List.mem_filter.2 ⟨hy, ?_⟩
          subst hym
          simp only [hmk, beq_self_eq_true, Bool.and_self, Bool.true_and, Bool.or_eq_true,
            bne_iff_ne, beq_iff_eq]
          by_cases hkm : k = .method
          · refine Or.inr (Classical.byContradiction fun hc => hv ⟨hkm, hc⟩)
          · exact Or.inl hkm
        exact h6 y this (by rw [hym])
    · exact Or.inl hmk
  · exact Or.inl hym

/-! ## Modifiers -/

theorem isVirtual_iff (m : Member) : isVirtual m = true ↔ VirtualLike m := by
  simp [isVirtual, VirtualLike, or_assoc]

theorem checkInterface_iff (m : Member) : checkInterface m = none ↔ InterfaceRules m := by
  unfold checkInterface
  constructor
  · intro h
    split at h
    · simp at h
    · next h1 =>
      split at h
      · simp at h
      · next h2 =>
        split at h
        · simp at h
        · next h3 =>
          simp only [Bool.or_eq_true, not_or, Bool.not_eq_true] at h2
          obtain ⟨⟨⟨⟨⟨⟨⟨a, b⟩, c⟩, d⟩, e⟩, f⟩, g⟩, i⟩ := h2
          exact
            { noField := by simpa using h1
              noVirtual := a, noStatic := b, noAbstract := c, noSealed := d, noConst := e
              noReadonly := f, noExtern := g
              noAccess := by simpa using i
              noBody := fun hk => by
                cases hb : m.body with
                | false => rfl
                | true =>
                  exfalso
                  apply h3
                  rcases hk with hk | hk <;> simp [hk, hb] }
  · intro h
    rw [if_neg (by simpa using h.noField), if_neg (by
      simp [h.noVirtual, h.noStatic, h.noAbstract, h.noSealed, h.noConst, h.noReadonly, h.noExtern,
        h.noAccess]), if_neg (by
      intro hc
      simp only [Bool.and_eq_true, Bool.or_eq_true, beq_iff_eq] at hc
      have := h.noBody hc.1
      simp [this] at hc)]

theorem checkOverride_iff (m : Member) (bm : Option Member) : checkOverride m bm = none ↔
    (m.mods.virtual_ = false ∧ m.mods.new_ = false) ∧
      ∃ b, bm = some b ∧ VirtualLike b ∧ b.mods.sealed_ = false ∧ b.ty = m.ty := by
  unfold checkOverride
  cases bm with
  | none => simp; split <;> simp
  | some b =>
    have hv := isVirtual_iff b
    cases h1 : m.mods.virtual_ <;> cases h2 : m.mods.new_ <;> simp
    cases h3 : isVirtual b <;> cases h4 : b.mods.sealed_ <;> simp [h3] at hv <;> simp [hv]

theorem checkVirtual_iff (ds : Decls) (t : Decl) (m : Member) (bm : Option Member) :
    checkVirtual ds t m bm = none ↔ MethodRules ds t m bm := by
  have hv := isVirtual_iff m
  have ho := checkOverride_iff m bm
  have hp : isPrivate ds m = true ↔ accessOf ds m = .private_ := by simp [isPrivate]
  unfold checkVirtual
  constructor
  · intro h
    split at h
    · simp at h
    next h1 =>
    split at h
    · simp at h
    next h2 =>
    cases hov : (if m.mods.override_ then checkOverride m bm else none) with
    | some r => simp [hov] at h
    | none =>
      rw [hov] at h
      simp only at h
      split at h
      · simp at h
      next h3 =>
      split at h
      · simp at h
      next h4 =>
      split at h
      · simp at h
      next h5 =>
      have hext : m.mods.extern_ = true → m.kind = .method ∧ m.mods.static_ = true ∧ m.body = false := by
        intro he
        rw [if_pos he] at h
        split at h
        · simp at h
        next h6 =>
        split at h
        · simp at h
        next h7 =>
        split at h
        · simp at h
        next h8 =>
        exact ⟨by simpa using h6, by simpa using h7, by simpa using h8⟩
      simp only [Bool.or_eq_true, not_or, Bool.not_eq_true] at h5
      have hover : m.mods.override_ = true → _ := fun ht => by
        rw [if_pos ht] at hov
        exact ho.1 hov
      exact
        { notPrivate := fun hl hpv => h1 (by simp [hv.2 hl, hp.2 hpv])
          notStatic := fun hl => by
            cases hs : m.mods.static_ with
            | false => rfl
            | true => exact absurd (by simp [hv.2 hl, hs]) h2
          overrideAlone := fun ht => (hover ht).1
          overrides := fun ht => (hover ht).2
          abstractHome := fun ha => by
            cases hs : t.abstract_ with
            | true => rfl
            | false => exact absurd (by simp [ha, hs]) h3
          sealedOverride := fun ha => by
            cases hs : m.mods.override_ with
            | true => rfl
            | false => exact absurd (by simp [ha, hs]) h4
          noReadonly := h5.1, noConst := h5.2
          externMethod := hext }
  · intro h
    rw [if_neg (by
      intro hc
      simp only [Bool.and_eq_true] at hc
      exact h.notPrivate (hv.1 hc.1) (hp.1 hc.2)), if_neg (by
      intro hc
      simp only [Bool.and_eq_true] at hc
      simp [h.notStatic (hv.1 hc.1)] at hc)]
    have hov : (if m.mods.override_ then checkOverride m bm else none) = none := by
      by_cases ht : m.mods.override_ = true
      · rw [if_pos ht]
        exact ho.2 ⟨h.overrideAlone ht, h.overrides ht⟩
      · rw [if_neg ht]
    rw [hov]
    simp only
    rw [if_neg (by
      intro hc
      simp only [Bool.and_eq_true] at hc
      simp [h.abstractHome hc.1] at hc), if_neg (by
      intro hc
      simp only [Bool.and_eq_true] at hc
      simp [h.sealedOverride hc.1] at hc), if_neg (by simp [h.noReadonly, h.noConst])]
    by_cases he : m.mods.extern_ = true
    · have hx := h.externMethod he
      simp [he, hx]
    · rw [if_neg he]

theorem checkField_iff (m : Member) : checkField m = none ↔ FieldRules m := by
  unfold checkField
  constructor
  · intro h
    split at h
    · simp at h
    next h1 =>
    split at h
    · simp at h
    next h2 =>
    simp only [Bool.or_eq_true, not_or, Bool.not_eq_true] at h1
    obtain ⟨⟨⟨⟨a, b⟩, c⟩, d⟩, e⟩ := h1
    refine { noVirtual := a, noAbstract := b, noOverride := c, noExtern := d, noSealed := e
             typeDef := fun hk => ?_ }
    simp only [hk, beq_self_eq_true, Bool.true_and, Bool.or_eq_true, not_or, Bool.not_eq_true] at h2
    exact ⟨h2.1.1, h2.1.2, h2.2⟩
  · intro h
    rw [if_neg (by simp [h.noVirtual, h.noAbstract, h.noOverride, h.noExtern, h.noSealed])]
    rw [if_neg]
    intro hc
    simp only [Bool.and_eq_true, beq_iff_eq] at hc
    have := h.typeDef hc.1
    simp [this] at hc

theorem checkHiding_iff (ds : Decls) (m : Member) (bm : Option Member) :
    checkHiding ds m bm = none ↔ SameAccess ds m bm := by
  unfold checkHiding SameAccess
  cases bm with
  | none => simp
  | some b =>
    have hv := isVirtual_iff b
    simp only [Option.some.injEq, forall_eq']
    constructor
    · intro h hk hb ho hpb hpm
      apply Classical.byContradiction
      intro hne
      rw [if_pos] at h
      · simp at h
      · have : (m.mods.override_ || m.mods.new_) = true := by simpa using ho
        simp [isPrivate, hpb, hpm, hk, hv.2 hb, this, hne]
    · intro h
      rw [if_neg]
      intro hc
      simp only [Bool.and_eq_true, Bool.not_eq_true', bne_iff_ne, beq_iff_eq, Bool.or_eq_true,
        isPrivate, beq_eq_false_iff_ne] at hc
      obtain ⟨⟨⟨⟨⟨h1, h2⟩, h3⟩, h4⟩, h5⟩, h6⟩ := hc
      exact h6 (h h3 (hv.1 h4) h5 h1 h2)

end Verif.Decl
