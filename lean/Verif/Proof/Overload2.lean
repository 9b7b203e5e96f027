import Verif.Proof.Overload

/-! # Calls through interfaces, and of methods with type parameters -/

namespace Verif.Overload

/-! ## Interfaces -/

/-- What a visit that finds nothing leaves behind. -/
structure Swept (W : World) (q : Query) (walked walked' : List Ty) : Prop where
  keeps : ∀ x ∈ walked, x ∈ walked'
  fresh : ∀ x ∈ walked', x ∉ walked → inType W q x = .notFound ∧ ∀ s ∈ W.supers x, s ∈ walked'

theorem Swept.trans {W : World} {q : Query} {a b c : List Ty} (h : Swept W q a b) (k : Swept W q b c) :
    Swept W q a c := by
  refine ⟨fun x hx => k.keeps x (h.keeps x hx), ?_⟩
  intro x hx hna
  by_cases hb : x ∈ b
  · obtain ⟨h1, h2⟩ := h.fresh x hb hna
    exact ⟨h1, fun s hs => k.keeps s (h2 s hs)⟩
  · exact k.fresh x hx hb

theorem eachSuper_swept {W : World} {q : Query} {visit : Ty → List Ty → Res × List Ty}
    (hv : ∀ t walked walked', visit t walked = (.notFound, walked') → Swept W q walked walked' ∧ t ∈ walked') :
    ∀ (ss : List Ty) (walked walked' : List Ty), eachSuper visit ss walked = (.notFound, walked') →
      Swept W q walked walked' ∧ ∀ s ∈ ss, s ∈ walked'
  | [], walked, walked', h => by
    simp only [eachSuper, Prod.mk.injEq, true_and] at h
    subst h
    exact ⟨⟨fun _ h => h, fun x hx hn => absurd hx hn⟩, by simp⟩
  | s :: ss, walked, walked', h => by
    unfold eachSuper at h
    split at h
    · rename_i w he
      obtain ⟨h1, h2⟩ := hv s walked w he
      obtain ⟨k1, k2⟩ := eachSuper_swept hv ss w walked' h
      refine ⟨h1.trans k1, ?_⟩
      intro x hx
      rcases List.mem_cons.1 hx with rfl | hx
      · exact k1.keeps _ h2
      · exact k2 x hx
    · rename_i hne
      exact absurd h (hne walked')

theorem inInterface_swept (W : World) (q : Query) :
    ∀ (n : Nat) (t : Ty) (walked walked' : List Ty), inInterface W q n t walked = (.notFound, walked') →
      Swept W q walked walked' ∧ t ∈ walked'
  | 0, t, walked, walked', h => by simp [inInterface] at h
  | n + 1, t, walked, walked', h => by
    unfold inInterface at h
    by_cases hm : t ∈ walked
    · rw [if_pos hm] at h
      simp only [Prod.mk.injEq, true_and] at h
      subst h
      exact ⟨⟨fun _ h => h, fun x hx hn => absurd hx hn⟩, hm⟩
    · rw [if_neg hm] at h
      split at h
      · rename_i hnf
        obtain ⟨h1, h2⟩ := eachSuper_swept (inInterface_swept W q n) (W.supers t) (t :: walked) walked' h
        refine ⟨⟨fun x hx => h1.keeps x (List.mem_cons_of_mem _ hx), ?_⟩, h1.keeps t List.mem_cons_self⟩
        intro x hx hna
        by_cases hxt : x = t
        · subst hxt
          exact ⟨hnf, h2⟩
        · exact h1.fresh x hx (by simp [hxt, hna])
      · rename_i hne
        simp only [Prod.mk.injEq] at h
        exact absurd h.1 (by intro e; exact hne e)

theorem inInterface_notFound {W : World} {q : Query} {n : Nat} {t : Ty}
    (h : (inInterface W q n t []).1 = .notFound) {d : Ty} (hr : Reaches W t d) : inType W q d = .notFound := by
  obtain ⟨h1, h2⟩ := inInterface_swept W q n t [] (inInterface W q n t []).2 (by rw [← h])
  have key : ∀ {a b : Ty}, Reaches W a b → a ∈ (inInterface W q n t []).2 → b ∈ (inInterface W q n t []).2 := by
    intro a b hab
    induction hab with
    | refl => exact id
    | step hs _ ih => intro ha; exact ih ((h1.fresh _ ha (by simp)).2 _ hs)
  exact (h1.fresh d (key hr h2) (by simp)).1

theorem eachSuper_other {W : World} {q : Query} {visit : Ty → List Ty → Res × List Ty} {r : Res} (hr : r ≠ .notFound)
    (hf : r ≠ .outOfFuel)
    (hv : ∀ t walked, (visit t walked).1 = r → ∃ d, Reaches W t d ∧ inType W q d = r) :
    ∀ (ss : List Ty) (walked : List Ty), (eachSuper visit ss walked).1 = r →
      ∃ s ∈ ss, ∃ d, Reaches W s d ∧ inType W q d = r
  | [], walked, h => by simp [eachSuper] at h; exact absurd h.symm hr
  | s :: ss, walked, h => by
    unfold eachSuper at h
    split at h
    · obtain ⟨x, hx, d, hd⟩ := eachSuper_other hr hf hv ss _ h
      exact ⟨x, List.mem_cons_of_mem _ hx, d, hd⟩
    · obtain ⟨d, hd⟩ := hv s walked h
      exact ⟨s, List.mem_cons_self, d, hd⟩

theorem inInterface_other (W : World) (q : Query) {r : Res} (hr : r ≠ .notFound) (hf : r ≠ .outOfFuel) :
    ∀ (n : Nat) (t : Ty) (walked : List Ty), (inInterface W q n t walked).1 = r →
      ∃ d, Reaches W t d ∧ inType W q d = r
  | 0, t, walked, h => by simp [inInterface] at h; exact absurd h.symm hf
  | n + 1, t, walked, h => by
    unfold inInterface at h
    by_cases hm : t ∈ walked
    · rw [if_pos hm] at h; exact absurd h.symm hr
    · rw [if_neg hm] at h
      split at h
      · obtain ⟨s, hs, d, hd1, hd2⟩ := eachSuper_other hr hf (inInterface_other W q hr hf n) (W.supers t) _ h
        exact ⟨d, .step hs hd1, hd2⟩
      · exact ⟨t, .refl, h⟩

/-! ### Enough steps -/

/-- The types of `L` that are not walked yet. -/
def unwalked (L walked : List Ty) : List Ty := L.filter fun x => decide (x ∉ walked)

theorem unwalked_le {L a b : List Ty} (h : ∀ x ∈ a, x ∈ b) : (unwalked L b).length ≤ (unwalked L a).length := by
  unfold unwalked
  induction L with
  | nil => simp
  | cons x L ih =>
    by_cases hb : x ∈ b
    · by_cases ha : x ∈ a
      · simpa [List.filter_cons, ha, hb] using ih
      · simp only [List.filter_cons, ha, hb, not_true_eq_false, decide_false, not_false_eq_true, decide_true,
          if_true, Bool.false_eq_true, if_false, List.length_cons]
        omega
    · have ha : x ∉ a := fun h' => hb (h x h')
      simpa [List.filter_cons, ha, hb] using ih

theorem unwalked_lt {L walked : List Ty} {t : Ty} (hL : t ∈ L) (ht : t ∉ walked) :
    (unwalked L (t :: walked)).length < (unwalked L walked).length := by
  unfold unwalked
  induction L with
  | nil => cases hL
  | cons x L ih =>
    have hle := unwalked_le (L := L) (a := walked) (b := t :: walked) (fun y hy => List.mem_cons_of_mem _ hy)
    unfold unwalked at hle
    by_cases hx : x = t
    · subst hx
      rw [List.filter_cons_of_neg (by simp), List.filter_cons_of_pos (by simpa using ht)]
      simp only [List.length_cons]
      omega
    · have hL' : t ∈ L := by
        rcases List.mem_cons.1 hL with h | h
        · exact absurd h.symm hx
        · exact h
      have := ih hL'
      by_cases hw : x ∈ walked
      · rw [List.filter_cons_of_neg (by simp [hw]), List.filter_cons_of_neg (by simp [hw])]
        exact this
      · rw [List.filter_cons_of_pos (by simp [hw, hx]), List.filter_cons_of_pos (by simp [hw])]
        simp only [List.length_cons]
        omega

theorem eachSuper_fuel {W : World} {q : Query} {L : List Ty} {visit : Ty → List Ty → Res × List Ty} {n : Nat}
    (hv : ∀ t walked, t ∈ L → (unwalked L walked).length < n → (visit t walked).1 ≠ .outOfFuel)
    (hs : ∀ t walked walked', visit t walked = (.notFound, walked') → Swept W q walked walked' ∧ t ∈ walked') :
    ∀ (ss : List Ty) (walked : List Ty), (∀ s ∈ ss, s ∈ L) → (unwalked L walked).length < n →
      (eachSuper visit ss walked).1 ≠ .outOfFuel
  | [], walked, _, _ => by simp [eachSuper]
  | s :: ss, walked, hL, hn => by
    unfold eachSuper
    split
    · rename_i w he
      refine eachSuper_fuel hv hs ss w (fun x hx => hL x (List.mem_cons_of_mem _ hx)) ?_
      have := unwalked_le (L := L) (hs s walked w he).1.keeps
      omega
    · exact hv s walked (hL s List.mem_cons_self) hn

theorem inInterface_fuel {W : World} {q : Query} {L : List Ty} (hL : ∀ x ∈ L, ∀ s ∈ W.supers x, s ∈ L) :
    ∀ (n : Nat) (t : Ty) (walked : List Ty), t ∈ L → (unwalked L walked).length < n →
      (inInterface W q n t walked).1 ≠ .outOfFuel
  | 0, t, walked, _, h => by omega
  | n + 1, t, walked, ht, h => by
    unfold inInterface
    by_cases hm : t ∈ walked
    · simp [hm]
    · rw [if_neg hm]
      split
      · refine eachSuper_fuel (n := n) (inInterface_fuel hL n) (inInterface_swept W q n) _ _ (hL t ht) ?_
        have := unwalked_lt ht hm
        omega
      · rename_i hne
        intro he
        unfold inType Acc.result at he
        revert he
        dsimp only
        split
        · simp
        · split
          · simp
          · split
            · simp
            · simp
            · split <;> simp

/-! ## Type parameters -/

/-- `b` knows at least what `a` knows. -/
def Env.Le (a b : Env) : Prop := ∀ n t, a.lookup n = some t → b.lookup n = some t

theorem Env.Le.refl (a : Env) : Env.Le a a := fun _ _ h => h
theorem Env.Le.trans {a b c : Env} (h : Env.Le a b) (k : Env.Le b c) : Env.Le a c := fun n t hn => k n t (h n t hn)

mutual
/-- All type parameters of the type are known. -/
def Ty.known (σ : Env) : Ty → Prop
  | .param n => ∃ t, σ.lookup n = some t
  | .gen _ args => args.known σ
  | .arr e _ => e.known σ
  | .null => True
  | .base _ => True
/-- All type parameters of the types are known. -/
def Tys.known (σ : Env) : Tys → Prop
  | .nil => True
  | .cons t ts => t.known σ ∧ ts.known σ
end

mutual
theorem Ty.subst_le {a b : Env} (h : Env.Le a b) : (t : Ty) → t.known a → t.subst b = t.subst a ∧ t.known b
  | .null, _ => ⟨rfl, trivial⟩
  | .base _, _ => ⟨rfl, trivial⟩
  | .param n, ⟨t, ht⟩ => by
    have := h n t ht
    exact ⟨by simp [Ty.subst, ht, this], ⟨t, this⟩⟩
  | .arr e d, hk => by
    have := Ty.subst_le h e hk
    exact ⟨by simp [Ty.subst, this.1], this.2⟩
  | .gen t as, hk => by
    have := Tys.subst_le h as hk
    exact ⟨by simp [Ty.subst, this.1], this.2⟩
theorem Tys.subst_le {a b : Env} (h : Env.Le a b) : (ts : Tys) → ts.known a → ts.subst b = ts.subst a ∧ ts.known b
  | .nil, _ => ⟨rfl, trivial⟩
  | .cons t ts, hk => by
    have h1 := Ty.subst_le h t hk.1
    have h2 := Tys.subst_le h ts hk.2
    exact ⟨by simp [Tys.subst, h1.1, h2.1], ⟨h1.2, h2.2⟩⟩
end

mutual
theorem Ty.closed_subst (σ : Env) : (t : Ty) → t.over [] = true → t.subst σ = t ∧ t.known σ
  | .null, _ => ⟨rfl, trivial⟩
  | .base _, _ => ⟨rfl, trivial⟩
  | .param n, h => by simp [Ty.over] at h
  | .arr e d, h => by
    have := Ty.closed_subst σ e (by simpa [Ty.over] using h)
    exact ⟨by simp [Ty.subst, this.1], this.2⟩
  | .gen t as, h => by
    have := Tys.closed_subst σ as (by simpa [Ty.over] using h)
    exact ⟨by simp [Ty.subst, this.1], this.2⟩
theorem Tys.closed_subst (σ : Env) : (ts : Tys) → ts.over [] = true → ts.subst σ = ts ∧ ts.known σ
  | .nil, _ => ⟨rfl, trivial⟩
  | .cons t ts, h => by
    simp only [Tys.over, Bool.and_eq_true] at h
    have h1 := Ty.closed_subst σ t h.1
    have h2 := Tys.closed_subst σ ts h.2
    exact ⟨by simp [Tys.subst, h1.1, h2.1], ⟨h1.2, h2.2⟩⟩
end

mutual
theorem Ty.onlyParams_over : (t : Ty) → t.onlyParams = true → t.isParam = false → t.hasParams = false → t.over [] = true
  | .null, h, _, _ => by simp [Ty.onlyParams] at h
  | .base _, h, _, _ => by simp [Ty.onlyParams] at h
  | .param n, _, h, _ => by simp [Ty.isParam] at h
  | .arr _ _, h, _, _ => by simp [Ty.onlyParams] at h
  | .gen t as, h, _, h' => by
    simpa [Ty.over] using Tys.onlyParams_over as (by simpa [Ty.onlyParams] using h) (by simpa [Ty.hasParams] using h')
theorem Tys.onlyParams_over : (ts : Tys) → ts.onlyParams = true → ts.hasParams = false → ts.over [] = true
  | .nil, _, _ => rfl
  | .cons t ts, h, h' => by
    simp only [Tys.onlyParams, Bool.and_eq_true] at h
    simp only [Tys.hasParams, Bool.or_eq_false_iff] at h'
    simp only [Tys.over, Bool.and_eq_true]
    exact ⟨Ty.onlyParams_over t h.1 h'.1.1 h'.1.2, Tys.onlyParams_over ts h.2 h'.2⟩
end

theorem lookup_append_left {a b : Env} {n : Nat} {t : Ty} (h : a.lookup n = some t) : (a ++ b).lookup n = some t := by
  induction a with
  | nil => simp at h
  | cons x a ih =>
    obtain ⟨k, u⟩ := x
    simp only [List.cons_append, List.lookup_cons] at h ⊢
    split <;> simp_all

theorem lookup_append_right {a b : Env} {n : Nat} (h : a.lookup n = none) : (a ++ b).lookup n = b.lookup n := by
  induction a with
  | nil => rfl
  | cons x a ih =>
    obtain ⟨k, u⟩ := x
    simp only [List.cons_append, List.lookup_cons] at h ⊢
    split
    · rename_i hk; rw [hk] at h; simp at h
    · rename_i hk; rw [hk] at h; exact ih h

/-- The names that a type adds are new. -/
def Fresh (env map : Env) : Prop := ∀ n t, env.lookup n = some t → map.lookup n = none

theorem le_append {env map : Env} (h : Fresh env map) : Env.Le env (map ++ env) := by
  intro n t hn
  rw [lookup_append_right (h n t hn)]; exact hn

theorem le_append_cons {env map map' : Env} (h : Env.Le map map') (hf' : Fresh env map') :
    Env.Le (map ++ env) (map' ++ env) := by
  intro n t hn
  cases hm : map.lookup n with
  | some u =>
    rw [lookup_append_left hm] at hn
    injection hn with hn
    subst hn
    exact lookup_append_left (h n _ hm)
  | none =>
    rw [lookup_append_right hm] at hn
    rw [lookup_append_right (hf' n t hn)]; exact hn

mutual
theorem determineTy_sound (env : Env) :
    (p a : Ty) → (map map' : Env) → p.onlyParams = true → Fresh env map → determineTy env p a map = some map' →
      Env.Le map map' ∧ Fresh env map' ∧ p.subst (map' ++ env) = a ∧ p.known (map' ++ env)
  | .null, _, _, _, h, _, _ => by simp [Ty.onlyParams] at h
  | .base _, _, _, _, h, _, _ => by simp [Ty.onlyParams] at h
  | .arr _ _, _, _, _, h, _, _ => by simp [Ty.onlyParams] at h
  | .param n, a, map, map', _, hf, h => by
    unfold determineTy at h
    split at h
    · rename_i t he
      split at h
      · injection h with h
        subst h
        rename_i hta
        subst hta
        have := le_append hf n t he
        exact ⟨.refl _, hf, by simp [Ty.subst, this], ⟨t, this⟩⟩
      · cases h
    · rename_i t he hm
      split at h
      · injection h with h
        subst h
        rename_i hta
        subst hta
        have := lookup_append_left (b := env) hm
        exact ⟨.refl _, hf, by simp [Ty.subst, this], ⟨t, this⟩⟩
      · cases h
    · rename_i he hm
      injection h with h
      subst h
      have h1 : ((n, a) :: map).lookup n = some a := by simp
      refine ⟨?_, ?_, ?_, ?_⟩
      · intro k t hk
        rw [List.lookup_cons]
        split
        · rename_i hkn
          have : k = n := by simpa using hkn
          subst this
          rw [hm] at hk; cases hk
        · exact hk
      · intro k t hk
        rw [List.lookup_cons]
        split
        · rename_i hkn
          have : k = n := by simpa using hkn
          subst this
          rw [he] at hk; cases hk
        · exact hf k t hk
      · simp [Ty.subst]
      · exact ⟨a, by simp⟩
  | .gen t ps, a, map, map', ho, hf, h => by
    cases a with
    | gen t' as =>
      simp only [determineTy] at h
      split at h
      · rename_i ht
        subst ht
        obtain ⟨h1, h2, h3, h4⟩ := determineTys_sound env ps as map map' (by simpa [Ty.onlyParams] using ho) hf h
        exact ⟨h1, h2, by simp [Ty.subst, h3], h4⟩
      · cases h
    | null => simp [determineTy] at h
    | base c => simp [determineTy] at h
    | param n => simp [determineTy] at h
    | arr e d => simp [determineTy] at h
theorem determineTys_sound (env : Env) :
    (ps as : Tys) → (map map' : Env) → ps.onlyParams = true → Fresh env map → determineTys env ps as map = some map' →
      Env.Le map map' ∧ Fresh env map' ∧ ps.subst (map' ++ env) = as ∧ ps.known (map' ++ env)
  | .nil, .nil, map, map', _, hf, h => by
    simp only [determineTys, Option.some.injEq] at h
    subst h
    exact ⟨.refl _, hf, rfl, trivial⟩
  | .nil, .cons _ _, _, _, _, _, h => by simp [determineTys] at h
  | .cons _ _, .nil, _, _, _, _, h => by simp [determineTys] at h
  | .cons p ps, .cons a as, map, map', ho, hf, h => by
    simp only [Tys.onlyParams, Bool.and_eq_true] at ho
    unfold determineTys at h
    split at h
    · rename_i m1 he
      obtain ⟨h1, h2, h3, h4⟩ := determineTy_sound env p a map m1 ho.1 hf he
      obtain ⟨k1, k2, k3, k4⟩ := determineTys_sound env ps as m1 map' ho.2 h2 h
      obtain ⟨e1, e2⟩ := Ty.subst_le (le_append_cons k1 k2) p h4
      exact ⟨h1.trans k1, k2, by simp [Tys.subst, e1, h3, k3], ⟨e2, k4⟩⟩
    · cases h
end

/-- The argument type is not the bare template of the parameter type, or derived from it. -/
def NotRaw (W : World) (p a : Ty) : Prop :=
  ∀ t ps c, p = .gen t ps → a = .base c → compat W (.base c) (.base t) = false

theorem notRaw_of {W : World} (g : W.Good) {p a : Ty} (h : Instantiated W p a) : NotRaw W p a := by
  intro t ps c hp ha
  obtain ⟨h1, h2, h3⟩ := h t ps c hp ha
  have h4 : W.sup (.base c) (.base t) = false := by
    cases hs : W.sup (.base c) (.base t) with
    | false => rfl
    | true => exact absurd ((g.sup_iff _ _).1 hs) h3
  have hm : W.isMobject (.base t) = true := by simp [World.isMobject, World.vtype, h1]
  simp [compat, Ty.isNull, h2, hm, h4]

theorem candidates_mem {W : World} {env : Env} {t : Nat} {ps : Tys} {a s : Ty} {map : Env}
    (h : (s, map) ∈ candidates W env t ps a) :
    ∃ as, s = .gen t as ∧ determineTys env ps as [] = some map := by
  unfold candidates at h
  rw [List.mem_filterMap] at h
  obtain ⟨x, _, hx⟩ := h
  cases x with
  | gen t' as =>
    simp only at hx
    split at hx
    · rename_i ht
      subst ht
      split at hx
      · rename_i m hm
        simp only [Option.some.injEq, Prod.mk.injEq] at hx
        obtain ⟨rfl, rfl⟩ := hx
        exact ⟨as, rfl, hm⟩
      · cases hx
    · cases hx
  | _ => simp at hx

/-- A parameter after inference, and what is known then. -/
theorem toReal_sound {W : World} {env : Env} {p a : Ty} (hi : Inferable p) (hr : NotRaw W p a) :
    (∀ t env', toReal W false env p a = .type t env' → Env.Le env env' ∧ p.subst env' = t ∧ p.known env') ∧
    (∀ r env', toReal W false env p a = .decided r env' →
      (r = .auto ∧ Env.Le env env' ∧ p.subst env' = a ∧ p.known env') ∨ (r = .autoFailed ∧ env' = env)) := by
  rcases hi with hc | ho
  · rw [toReal_closed W false env hc]
    have hk := fun σ => Ty.closed_subst σ p hc
    constructor
    · intro t env' h
      injection h with h1 h2
      subst h1 h2
      exact ⟨.refl _, (hk _).1, (hk _).2⟩
    · intro r env' h; cases h
  · cases p with
    | null => simp [Ty.onlyParams] at ho
    | base c => simp [Ty.onlyParams] at ho
    | arr e d => simp [Ty.onlyParams] at ho
    | param n =>
      cases hl : env.lookup n with
      | some u =>
        simp only [toReal, hl]
        constructor
        · intro t env' h
          injection h with h1 h2
          subst h1 h2
          exact ⟨.refl _, by simp [Ty.subst, hl], ⟨u, hl⟩⟩
        · intro r env' h; cases h
      | none =>
        simp only [toReal, hl]
        constructor
        · intro t env' h; cases h
        · intro r env' h
          injection h with h1 h2
          subst h1 h2
          refine Or.inl ⟨rfl, ?_, by simp [Ty.subst], ⟨a, by simp⟩⟩
          intro k t hk
          rw [List.lookup_cons]
          split
          · rename_i hkn
            have : k = n := by simpa using hkn
            subst this
            rw [hl] at hk; cases hk
          · exact hk
    | gen t ps =>
      have ho' : ps.onlyParams = true := by simpa [Ty.onlyParams] using ho
      unfold toReal
      by_cases hp : ps.hasParams = true
      · have hraw : isRaw W a t = false := by
          cases a with
          | base c => exact hr t ps c rfl rfl
          | _ => rfl
        simp only [hp, if_true, hraw, Bool.false_eq_true, if_false]
        cases hc : candidates W env t ps a with
        | nil =>
          exact ⟨fun _ _ h => (by cases h), fun r env' h => (by
            injection h with h1 h2
            exact Or.inr ⟨h1.symm, h2.symm⟩)⟩
        | cons x xs =>
        obtain ⟨s, map⟩ := x
        cases xs with
        | nil =>
          obtain ⟨as, rfl, hd⟩ := candidates_mem (by rw [hc]; simp : (s, map) ∈ candidates W env t ps a)
          obtain ⟨_, h2, h3, h4⟩ := determineTys_sound env ps as [] map ho' (by intro _ _ _; rfl) hd
          constructor
          · intro u env' h
            injection h with h1 h2'
            subst h1 h2'
            exact ⟨le_append h2, by simp [Ty.subst, h3], h4⟩
          · intro r env' h; cases h
        | cons y ys =>
          constructor
          · intro u env' h; cases h
          · intro r env' h
            injection h with h1 h2
            exact Or.inr ⟨h1.symm, h2.symm⟩
      · have hp' : ps.hasParams = false := by simpa using hp
        have hc := Tys.onlyParams_over ps ho' hp'
        simp only [hp', Bool.false_eq_true, if_false]
        constructor
        · intro u env' h
          injection h with h1 h2
          subst h1 h2
          have := Tys.closed_subst env ps hc
          exact ⟨.refl _, by simp [Ty.subst, this.1], this.2⟩
        · intro r env' h; cases h

/-- The conversions of the compiler. -/
abbrev ByTest (W : World) : Ty → Ty → Prop := fun x y => compat W x y = true

/-- The parameters with the type parameters replaced. -/
def substAll (σ : Env) (ps : List Slot) : List Slot := ps.map fun p => (p.1, p.2.subst σ)

theorem compareArg_sound {W : World} {env : Env} {p a : Slot} (hi : Inferable p.2) (hr : NotRaw W p.2 a.2)
    {r : Compare} {env' : Env} (h : compareArg W false env p a = (r, env')) :
    r = .notMatch ∨ r = .autoFailed ∨
      ((r = .equals ∨ r = .matched ∨ r = .auto) ∧ Env.Le env env' ∧ p.2.known env' ∧
        Fits (ByTest W) (p.1, p.2.subst env') a) := by
  obtain ⟨ht, hd⟩ := toReal_sound (W := W) (env := env) hi hr
  unfold compareArg at h
  by_cases h1 : p.1 = a.1
  · simp only [h1, ne_eq, not_true_eq_false, if_false] at h
    cases hreal : toReal W false env p.2 a.2 with
    | decided r' e' =>
      rw [hreal] at h
      simp only [Prod.mk.injEq] at h
      obtain ⟨rfl, rfl⟩ := h
      rcases hd _ _ hreal with ⟨hr', hle, hs, hk⟩ | ⟨hr', _⟩
      · exact Or.inr (Or.inr ⟨Or.inr (Or.inr hr'), hle, hk, h1, Or.inl hs⟩)
      · exact Or.inr (Or.inl hr')
    | type t e' =>
      rw [hreal] at h
      obtain ⟨hle, hs, hk⟩ := ht _ _ hreal
      simp only at h
      by_cases hta : t = a.2
      · rw [if_pos hta] at h
        simp only [Prod.mk.injEq] at h
        obtain ⟨rfl, rfl⟩ := h
        exact Or.inr (Or.inr ⟨Or.inl rfl, hle, hk, h1, Or.inl (hs.trans hta)⟩)
      · rw [if_neg hta] at h
        by_cases hrf : a.1 = .ref
        · rw [if_pos hrf] at h
          simp only [Prod.mk.injEq] at h
          exact Or.inl h.1.symm
        · rw [if_neg hrf] at h
          by_cases ho : a.1 = .out
          · rw [if_pos ho] at h
            split at h
            · rename_i hcp
              simp only [Prod.mk.injEq] at h
              obtain ⟨rfl, rfl⟩ := h
              exact Or.inr (Or.inr ⟨Or.inr (Or.inl rfl), hle, hk, h1,
                Or.inr (Or.inl ⟨h1.trans ho, by simpa [ByTest, hs] using hcp⟩)⟩)
            · simp only [Prod.mk.injEq] at h
              exact Or.inl h.1.symm
          · rw [if_neg ho] at h
            split at h
            · rename_i hcp
              simp only [Prod.mk.injEq] at h
              obtain ⟨rfl, rfl⟩ := h
              exact Or.inr (Or.inr ⟨Or.inr (Or.inl rfl), hle, hk, h1,
                Or.inr (Or.inr ⟨by rw [h1]; exact hrf, by rw [h1]; exact ho, by simpa [ByTest, hs] using hcp⟩)⟩)
            · simp only [Prod.mk.injEq] at h
              exact Or.inl h.1.symm
  · simp only [ne_eq, h1, not_false_eq_true, if_true, Prod.mk.injEq] at h
    exact Or.inl h.1.symm

theorem compareLoop_sound {W : World} :
    ∀ (ps as : List Slot) (env : Env) (r : Compare), ps.length = as.length → (∀ p ∈ ps, Inferable p.2) →
      (∀ p ∈ ps, ∀ a ∈ as, NotRaw W p.2 a.2) → (r = .equals ∨ r = .matched ∨ r = .auto) →
      ∀ r' env', compareLoop W false env ps as r = (r', env') → r' = .notMatch ∨
        ((r' = .equals ∨ r' = .matched ∨ r' = .auto) ∧ Env.Le env env' ∧ (∀ p ∈ ps, p.2.known env') ∧
          AllFit (ByTest W) (substAll env' ps) as)
  | [], [], env, r, _, _, _, hr, r', env', h => by
    simp only [compareLoop, Prod.mk.injEq] at h
    obtain ⟨rfl, rfl⟩ := h
    exact Or.inr ⟨hr, .refl _, by simp, .nil⟩
  | [], _ :: _, _, _, hl, _, _, _, _, _, _ => by simp at hl
  | _ :: _, [], _, _, hl, _, _, _, _, _, _ => by simp at hl
  | p :: ps, a :: as, env, r, hl, hi, hn, hr, r', env', h => by
    have hl' : ps.length = as.length := by simpa using hl
    have hi' : ∀ p ∈ ps, Inferable p.2 := fun q hq => hi q (List.mem_cons_of_mem _ hq)
    have hn' : ∀ p ∈ ps, ∀ a ∈ as, NotRaw W p.2 a.2 :=
      fun q hq b hb => hn q (List.mem_cons_of_mem _ hq) b (List.mem_cons_of_mem _ hb)
    have go : ∀ (e1 : Env) (r1 : Compare), (r1 = .equals ∨ r1 = .matched ∨ r1 = .auto) → Env.Le env e1 →
        p.2.known e1 → Fits (ByTest W) (p.1, p.2.subst e1) a → compareLoop W false e1 ps as r1 = (r', env') →
        r' = .notMatch ∨ ((r' = .equals ∨ r' = .matched ∨ r' = .auto) ∧ Env.Le env env' ∧
          (∀ q ∈ p :: ps, q.2.known env') ∧ AllFit (ByTest W) (substAll env' (p :: ps)) (a :: as)) := by
      intro e1 r1 hr1 hle hk hf hc
      rcases compareLoop_sound ps as e1 r1 hl' hi' hn' hr1 r' env' hc with h | ⟨h1, h2, h3, h4⟩
      · exact Or.inl h
      · have hs := Ty.subst_le h2 p.2 hk
        refine Or.inr ⟨h1, hle.trans h2, ?_, ?_⟩
        · intro q hq
          rcases List.mem_cons.1 hq with rfl | hq
          · exact hs.2
          · exact h3 q hq
        · refine .cons ?_ h4
          show Fits (ByTest W) (p.1, p.2.subst env') a
          rw [hs.1]; exact hf
    unfold compareLoop at h
    cases hca : compareArg W false env p a with
    | mk r1 e1 =>
      rw [hca] at h
      rcases compareArg_sound (hi p List.mem_cons_self) (hn p List.mem_cons_self a List.mem_cons_self) hca with
        rfl | rfl | ⟨hr1, hle, hk, hf⟩
      · simp only [Prod.mk.injEq] at h; exact Or.inl h.1.symm
      · simp only [Prod.mk.injEq] at h; exact Or.inl h.1.symm
      · rcases hr1 with rfl | rfl | rfl
        · exact go e1 r hr hle hk hf h
        · exact go e1 _ (by split <;> simp) hle hk hf h
        · exact go e1 .auto (by simp) hle hk hf h

theorem gather_lookup {env : Env} : ∀ {ns : List Nat} {ts : List Ty}, gather env ns = some ts →
    ns.length = ts.length ∧ ∀ n ∈ ns, (ns.zip ts).lookup n = env.lookup n ∧ ∃ t, env.lookup n = some t
  | [], ts, h => by
    simp only [gather, Option.some.injEq] at h
    subst h
    simp
  | n :: ns, ts, h => by
    unfold gather at h
    split at h
    · rename_i t ts' h1 h2
      injection h with h
      subst h
      obtain ⟨k1, k2⟩ := gather_lookup h2
      refine ⟨by simp [k1], ?_⟩
      intro x hx
      simp only [List.zip_cons_cons, List.lookup_cons]
      by_cases hxn : x = n
      · subst hxn
        simp [h1]
      · have : (x == n) = false := by simpa using hxn
        rw [this]
        rcases List.mem_cons.1 hx with h | h
        · exact absurd h hxn
        · exact k2 x h
    · cases h

mutual
theorem Ty.subst_over {σ τ : Env} {ns : List Nat} (h : ∀ n ∈ ns, σ.lookup n = τ.lookup n) :
    (t : Ty) → t.over ns = true → t.subst σ = t.subst τ
  | .null, _ => rfl
  | .base _, _ => rfl
  | .param n, ho => by
    have : n ∈ ns := by simpa [Ty.over] using ho
    simp [Ty.subst, h n this]
  | .arr e d, ho => by simp [Ty.subst, Ty.subst_over h e (by simpa [Ty.over] using ho)]
  | .gen t as, ho => by simp [Ty.subst, Tys.subst_over h as (by simpa [Ty.over] using ho)]
theorem Tys.subst_over {σ τ : Env} {ns : List Nat} (h : ∀ n ∈ ns, σ.lookup n = τ.lookup n) :
    (ts : Tys) → ts.over ns = true → ts.subst σ = ts.subst τ
  | .nil, _ => rfl
  | .cons t ts, ho => by
    simp only [Tys.over, Bool.and_eq_true] at ho
    simp [Tys.subst, Ty.subst_over h t ho.1, Tys.subst_over h ts ho.2]
end

/-- Inferred type arguments make the method applicable. -/
theorem infer_sound {W : World} {m : Method} {as : List Slot} {r : Compare} {ts : List Ty}
    (hg : m.gparams ≠ []) (ha : as ≠ []) (hi : ∀ p ∈ m.params, Inferable p.2)
    (hov : ∀ p ∈ m.params, p.2.over m.gparams = true)
    (hn : ∀ p ∈ m.params, ∀ a ∈ as, NotRaw W p.2 a.2)
    (h : compareMethod W m none (some as) = (r, ts)) (hr : r = .equals ∨ r = .matched ∨ r = .auto) :
    ts.length = m.gparams.length ∧ AllFit (ByTest W) (m.at ts) as := by
  unfold compareMethod at h
  have h0 : ¬ as.length = 0 := by simpa using ha
  have hgl : m.gparams.length > 0 := by
    cases hh : m.gparams with
    | nil => exact absurd hh hg
    | cons _ _ => simp
  simp only [h0, if_false] at h
  by_cases hl : as.length = m.params.length
  · simp only [hl, ne_eq, not_true_eq_false, if_false, hgl, if_true] at h
    cases hca : compareAll W false [] m.params as with
    | mk r1 e1 =>
      rw [hca] at h
      simp only at h
      cases hga : gather e1 m.gparams with
      | none =>
        rw [hga] at h
        simp only [Prod.mk.injEq] at h
        obtain ⟨rfl, _⟩ := h
        simp at hr
      | some us =>
        rw [hga] at h
        simp only [Prod.mk.injEq] at h
        obtain ⟨rfl, rfl⟩ := h
        obtain ⟨k1, k2⟩ := gather_lookup hga
        simp only [compareAll, hl, ne_eq, not_true_eq_false, if_false] at hca
        rcases compareLoop_sound m.params as [] .equals hl.symm hi hn (Or.inl rfl) _ _ hca with h | ⟨_, _, _, h4⟩
        · subst h; simp at hr
        · refine ⟨k1.symm, ?_⟩
          have : m.at us = substAll e1 m.params := by
            unfold Method.at substAll
            apply List.map_congr_left
            intro p hp
            rw [Ty.subst_over (fun n hn' => (k2 n hn').1) p.2 (hov p hp)]
          rw [this]; exact h4
  · simp only [hl, ne_eq, not_false_eq_true, if_true, Prod.mk.injEq] at h
    obtain ⟨rfl, _⟩ := h
    simp at hr

/-! ## Given type arguments -/

mutual
theorem fillTy_subst {env : Env} : (t : Ty) → t.arraysClosed = true → ∀ u, fillTy env t = some u → t.subst env = u
  | .null, _, u, h => by simpa [fillTy, Ty.subst] using h
  | .base c, _, u, h => by simpa [fillTy, Ty.subst] using h
  | .param n, _, u, h => by
    simp only [fillTy] at h
    simp [Ty.subst, h]
  | .arr e d, ha, u, h => by
    simp only [fillTy, Option.some.injEq] at h
    subst h
    exact (Ty.closed_subst env (.arr e d) (by simpa [Ty.over, Ty.arraysClosed] using ha)).1
  | .gen t as, ha, u, h => by
    simp only [fillTy] at h
    split at h
    · rename_i us hu
      injection h with h
      subst h
      simp [Ty.subst, fillTys_subst as (by simpa [Ty.arraysClosed] using ha) us hu]
    · cases h
theorem fillTys_subst {env : Env} : (ts : Tys) → ts.arraysClosed = true → ∀ us, fillTys env ts = some us → ts.subst env = us
  | .nil, _, us, h => by simpa [fillTys, Tys.subst] using h
  | .cons t ts, ha, us, h => by
    simp only [Tys.arraysClosed, Bool.and_eq_true] at ha
    simp only [fillTys] at h
    split at h
    · rename_i u us' h1 h2
      injection h with h
      subst h
      simp [Tys.subst, fillTy_subst t ha.1 u h1, fillTys_subst ts ha.2 us' h2]
    · cases h
end

mutual
theorem Ty.noParams_closed : (t : Ty) → t.arraysClosed = true → t.isParam = false → t.hasParams = false → t.over [] = true
  | .null, _, _, _ => rfl
  | .base _, _, _, _ => rfl
  | .param n, _, h, _ => by simp [Ty.isParam] at h
  | .arr e d, h, _, _ => by simpa [Ty.over, Ty.arraysClosed] using h
  | .gen t as, h, _, h' => by
    simpa [Ty.over] using Tys.noParams_closed as (by simpa [Ty.arraysClosed] using h) (by simpa [Ty.hasParams] using h')
theorem Tys.noParams_closed : (ts : Tys) → ts.arraysClosed = true → ts.hasParams = false → ts.over [] = true
  | .nil, _, _ => rfl
  | .cons t ts, h, h' => by
    simp only [Tys.arraysClosed, Bool.and_eq_true] at h
    simp only [Tys.hasParams, Bool.or_eq_false_iff] at h'
    simp only [Tys.over, Bool.and_eq_true]
    exact ⟨Ty.noParams_closed t h.1 h'.1.1 h'.1.2, Tys.noParams_closed ts h.2 h'.2⟩
end

theorem zip_lookup : ∀ {ns : List Nat} {ts : List Ty}, ns.length = ts.length → ∀ n ∈ ns, ∃ t, (ns.zip ts).lookup n = some t
  | [], _, _, _, h => by cases h
  | n :: ns, [], h, _, _ => by simp at h
  | n :: ns, t :: ts, h, x, hx => by
    simp only [List.zip_cons_cons, List.lookup_cons]
    by_cases hxn : x = n
    · exact ⟨t, by simp [hxn]⟩
    · have : (x == n) = false := by simpa using hxn
      rw [this]
      rcases List.mem_cons.1 hx with h' | h'
      · exact absurd h' hxn
      · exact zip_lookup (by simpa using h) x h'

/-- With type arguments the parameter is compared with its replaced type. -/
theorem toReal_given {W : World} {ns : List Nat} {ts : List Ty} (hl : ns.length = ts.length) {p a : Ty}
    (hov : p.over ns = true) (har : p.arraysClosed = true) (hr : NotRaw W p a) :
    (∃ env', toReal W true (ns.zip ts) p a = .type (p.subst (ns.zip ts)) env' ∧ env' = ns.zip ts) ∨
    (∃ env', toReal W true (ns.zip ts) p a = .decided .crash env') := by
  cases p with
  | null => exact Or.inl ⟨_, rfl, rfl⟩
  | base c => exact Or.inl ⟨_, rfl, rfl⟩
  | arr e d =>
    have := (Ty.closed_subst (ns.zip ts) (.arr e d) (by simpa [Ty.over, Ty.arraysClosed] using har)).1
    exact Or.inl ⟨_, by rw [this]; rfl, rfl⟩
  | param n =>
    obtain ⟨t, ht⟩ := zip_lookup hl n (by simpa [Ty.over] using hov)
    exact Or.inl ⟨_, by simp [toReal, ht, Ty.subst], rfl⟩
  | gen t ps =>
    have har' : ps.arraysClosed = true := by simpa [Ty.arraysClosed] using har
    unfold toReal
    by_cases hp : ps.hasParams = true
    · have hraw : isRaw W a t = false := by
        cases a with
        | base c => exact hr t ps c rfl rfl
        | _ => rfl
      simp only [hp, if_true, hraw, Bool.false_eq_true, if_false]
      cases hf : fillTys (ns.zip ts) ps with
      | some us => exact Or.inl ⟨_, by simp [Ty.subst, fillTys_subst ps har' us hf], rfl⟩
      | none => exact Or.inr ⟨_, rfl⟩
    · have hp' : ps.hasParams = false := by simpa using hp
      have := (Tys.closed_subst (ns.zip ts) ps (Tys.noParams_closed ps har' hp')).1
      exact Or.inl ⟨_, by simp [hp', Ty.subst, this], rfl⟩

theorem compareLoop_given {W : World} {ns : List Nat} {ts : List Ty} (hlz : ns.length = ts.length) :
    ∀ (ps as : List Slot) (r : Compare), ps.length = as.length → (∀ p ∈ ps, p.2.over ns = true) →
      (∀ p ∈ ps, p.2.arraysClosed = true) → (∀ p ∈ ps, ∀ a ∈ as, NotRaw W p.2 a.2) →
      (r = .equals ∨ r = .matched) →
      ∀ r' env', compareLoop W true (ns.zip ts) ps as r = (r', env') → r' = .notMatch ∨ r' = .crash ∨
        ((r' = .equals ∨ r' = .matched) ∧ AllFit (ByTest W) (substAll (ns.zip ts) ps) as)
  | [], [], r, _, _, _, _, hr, r', env', h => by
    simp only [compareLoop, Prod.mk.injEq] at h
    obtain ⟨rfl, rfl⟩ := h
    exact Or.inr (Or.inr ⟨hr, .nil⟩)
  | [], _ :: _, _, hl, _, _, _, _, _, _, _ => by simp at hl
  | _ :: _, [], _, hl, _, _, _, _, _, _, _ => by simp at hl
  | p :: ps, a :: as, r, hl, hov, har, hn, hr, r', env', h => by
    have hl' : ps.length = as.length := by simpa using hl
    have ih := fun (r : Compare) (hr : r = .equals ∨ r = .matched) h => compareLoop_given (W := W) hlz ps as r hl' (fun q hq => hov q (List.mem_cons_of_mem _ hq))
      (fun q hq => har q (List.mem_cons_of_mem _ hq))
      (fun q hq b hb => hn q (List.mem_cons_of_mem _ hq) b (List.mem_cons_of_mem _ hb)) hr r' env' h
    have hp := toReal_given (W := W) (a := a.2) hlz (hov p List.mem_cons_self) (har p List.mem_cons_self)
      (hn p List.mem_cons_self a List.mem_cons_self)
    have fin : ∀ (r1 : Compare), (r1 = .equals ∨ r1 = .matched) → Fits (ByTest W) (p.1, p.2.subst (ns.zip ts)) a →
        compareLoop W true (ns.zip ts) ps as r1 = (r', env') → r' = .notMatch ∨ r' = .crash ∨
        ((r' = .equals ∨ r' = .matched) ∧ AllFit (ByTest W) (substAll (ns.zip ts) (p :: ps)) (a :: as)) := by
      intro r1 hr1 hf hc
      rcases ih r1 hr1 hc with h | h | ⟨h1, h2⟩
      · exact Or.inl h
      · exact Or.inr (Or.inl h)
      · exact Or.inr (Or.inr ⟨h1, .cons hf h2⟩)
    unfold compareLoop compareArg at h
    by_cases h1 : p.1 = a.1
    · simp only [h1, ne_eq, not_true_eq_false, if_false] at h
      rcases hp with ⟨e', hp, rfl⟩ | ⟨e', hp⟩
      · rw [hp] at h
        simp only at h
        by_cases hta : p.2.subst (ns.zip ts) = a.2
        · rw [if_pos hta] at h
          exact fin r hr ⟨h1, Or.inl hta⟩ h
        · rw [if_neg hta] at h
          by_cases hrf : a.1 = .ref
          · rw [if_pos hrf] at h
            simp only [Prod.mk.injEq] at h
            exact Or.inl h.1.symm
          · rw [if_neg hrf] at h
            have hm : (if r = Compare.auto then Compare.auto else .matched) = .matched := by
              rcases hr with h | h <;> simp [h]
            by_cases ho : a.1 = .out
            · rw [if_pos ho] at h
              cases hcp : compat W (p.2.subst (ns.zip ts)) a.2 with
              | true =>
                rw [hcp] at h
                simp only [if_true, hm] at h
                exact fin .matched (Or.inr rfl) ⟨h1, Or.inr (Or.inl ⟨h1.trans ho, hcp⟩)⟩ h
              | false =>
                rw [hcp] at h
                simp only [Bool.false_eq_true, if_false, Prod.mk.injEq] at h
                exact Or.inl h.1.symm
            · rw [if_neg ho] at h
              cases hcp : compat W a.2 (p.2.subst (ns.zip ts)) with
              | true =>
                rw [hcp] at h
                simp only [if_true, hm] at h
                exact fin .matched (Or.inr rfl)
                  ⟨h1, Or.inr (Or.inr ⟨by rw [h1]; exact hrf, by rw [h1]; exact ho, hcp⟩)⟩ h
              | false =>
                rw [hcp] at h
                simp only [Bool.false_eq_true, if_false, Prod.mk.injEq] at h
                exact Or.inl h.1.symm
      · rw [hp] at h
        simp only [Prod.mk.injEq] at h
        exact Or.inr (Or.inl h.1.symm)
    · simp only [ne_eq, h1, not_false_eq_true, if_true, Prod.mk.injEq] at h
      exact Or.inl h.1.symm

/-- Type arguments of the call make the method applicable. -/
theorem given_sound {W : World} {m : Method} {as : List Slot} {ga : List Ty} {r : Compare} {ts : List Ty}
    (hl : m.gparams.length = ga.length)
    (hov : ∀ p ∈ m.params, p.2.over m.gparams = true) (har : ∀ p ∈ m.params, p.2.arraysClosed = true)
    (hn : ∀ p ∈ m.params, ∀ a ∈ as, NotRaw W p.2 a.2)
    (h : compareMethod W m (some ga) (some as) = (r, ts)) (hr : r = .equals ∨ r = .matched ∨ r = .auto) :
    AllFit (ByTest W) (m.at ga) as := by
  unfold compareMethod at h
  by_cases h0 : as.length = 0
  · have : as = [] := List.eq_nil_of_length_eq_zero h0
    subst this
    cases hps : m.params with
    | nil => unfold Method.at; rw [hps]; exact .nil
    | cons p ps =>
      simp [hps] at h
      rw [← h.1] at hr; simp at hr
  · simp only [h0, if_false] at h
    by_cases hla : as.length = m.params.length
    · simp only [hla, ne_eq, not_true_eq_false, if_false, hl, Prod.mk.injEq] at h
      obtain ⟨h, _⟩ := h
      simp only [compareAll, hla, ne_eq, not_true_eq_false, if_false] at h
      rcases compareLoop_given hl m.params as .equals hla.symm hov har hn (Or.inl rfl) r _ (by rw [← h]) with
        h | h | ⟨_, h⟩
      · subst h; simp at hr
      · subst h; simp at hr
      · exact h
    · simp only [hla, ne_eq, not_false_eq_true, if_true, Prod.mk.injEq] at h
      rw [← h.1] at hr; simp at hr

/-! ## From the lookup back to the comparison -/

/-- What the lookup took was accepted by the comparison. -/
def Accepted (W : World) (q : Query) (p : Pick) : Prop :=
  ∃ r, compareMethod W p.method q.gargs q.args = (r, p.types) ∧
    (r = .equals ∨ r = .auto ∨ r = .matched ∨ r = .sameName)

theorem fold_accepted {W : World} {q : Query} {P : Pick → Prop} :
    ∀ (ms : List Method) (s : Acc), (∀ m ∈ ms, ∀ ts, Accepted W q ⟨m, ts⟩ → P ⟨m, ts⟩) →
      (∀ p, s.equaled = some p → P p) → (∀ p ∈ s.matched, P p) →
      (∀ p, (ms.foldl (analyzeOne W q) s).equaled = some p → P p) ∧
        (∀ p ∈ (ms.foldl (analyzeOne W q) s).matched, P p)
  | [], s, _, h1, h2 => ⟨h1, h2⟩
  | m :: ms, s, h, h1, h2 => by
    rw [List.foldl_cons]
    have hm := h m List.mem_cons_self
    refine fold_accepted ms _ (fun x hx => h x (List.mem_cons_of_mem _ hx)) ?_ ?_
    · intro p hp
      unfold analyzeOne at hp
      split at hp
      · rename_i ts he
        simp only [Option.some.injEq] at hp
        subst hp
        exact hm ts ⟨_, he, by simp⟩
      · rename_i ts he
        simp only [Option.some.injEq] at hp
        subst hp
        exact hm ts ⟨_, he, by simp⟩
      all_goals exact h1 p hp
    · intro p hp
      unfold analyzeOne at hp
      split at hp
      · exact h2 p hp
      · exact h2 p hp
      · rename_i ts he
        rcases List.mem_append.1 hp with hp | hp
        · exact h2 p hp
        · simp only [List.mem_singleton] at hp
          subst hp
          exact hm ts ⟨_, he, by simp⟩
      · rename_i ts he
        rcases List.mem_append.1 hp with hp | hp
        · exact h2 p hp
        · simp only [List.mem_singleton] at hp
          subst hp
          exact hm ts ⟨_, he, by simp⟩
      all_goals exact h2 p hp

theorem result_found {s : Acc} {p : Pick} (h : s.result = .found p) : s.equaled = some p ∨ p ∈ s.matched := by
  unfold Acc.result at h
  split at h
  · cases h
  · split at h
    · rename_i e
      injection h with h
      subst h
      exact Or.inl e
    · split at h
      · cases h
      · rename_i e
        injection h with h
        subst h
        exact Or.inr (by rw [e]; simp)
      · split at h <;> cases h

/-- The method found in a type by a query for a name is one of its methods with this name. -/
theorem inType_found {W : World} {q : Query} (hq : q.trait = .normal) {t : Ty} {p : Pick} (h : inType W q t = .found p) :
    p.method ∈ W.methods t ∧ p.method.name = q.name ∧ Accepted W q p ∧
      (∀ ga, q.gargs = some ga → ga ≠ [] → p.method.gparams.length = ga.length) := by
  have key : ∀ (ms : List Method) (s : Acc),
      (∀ m ∈ ms, m ∈ W.methods t ∧ m.name = q.name ∧
        (∀ ga, q.gargs = some ga → ga ≠ [] → m.gparams.length = ga.length)) →
      (∀ p, s.equaled = some p → p.method ∈ W.methods t ∧ p.method.name = q.name ∧ Accepted W q p ∧
        (∀ ga, q.gargs = some ga → ga ≠ [] → p.method.gparams.length = ga.length)) →
      (∀ p ∈ s.matched, p.method ∈ W.methods t ∧ p.method.name = q.name ∧ Accepted W q p ∧
        (∀ ga, q.gargs = some ga → ga ≠ [] → p.method.gparams.length = ga.length)) →
      _ := fun ms s h1 h2 h3 => fold_accepted (W := W) (q := q)
        (P := fun p => p.method ∈ W.methods t ∧ p.method.name = q.name ∧ Accepted W q p ∧
          (∀ ga, q.gargs = some ga → ga ≠ [] → p.method.gparams.length = ga.length)) ms s
        (fun m hm ts ha => ⟨(h1 m hm).1, (h1 m hm).2.1, ha, (h1 m hm).2.2⟩) h2 h3
  have hfirst : ∀ m ∈ firstRound q (W.methods t), m ∈ W.methods t ∧ m.name = q.name ∧
      (∀ ga, q.gargs = some ga → ga ≠ [] → m.gparams.length = ga.length) := by
    intro m hm
    unfold firstRound at hm
    rw [hq] at hm
    simp only [List.mem_filter, Bool.and_eq_true, beq_iff_eq] at hm
    refine ⟨hm.1, hm.2.1, ?_⟩
    intro ga hga _
    have := hm.2.2
    rw [hga] at this
    simpa using this
  have h1 := key (firstRound q (W.methods t)) ⟨none, [], [], false⟩ hfirst (by simp) (by simp)
  unfold inType analyze at h
  dsimp only at h
  split at h
  · rename_i hc
    simp only [Bool.and_eq_true, decide_eq_true_eq] at hc
    have hsecond : ∀ m ∈ secondRound q (W.methods t), m ∈ W.methods t ∧ m.name = q.name ∧
        (∀ ga, q.gargs = some ga → ga ≠ [] → m.gparams.length = ga.length) := by
      intro m hm
      unfold secondRound at hm
      simp only [List.mem_filter, Bool.and_eq_true, beq_iff_eq] at hm
      refine ⟨hm.1, hm.2.1, ?_⟩
      intro ga hga hne
      have := hc.2
      rw [hga] at this
      simp at this
      exact absurd this hne
    have h2 := key (secondRound q (W.methods t)) _ hsecond h1.1 h1.2
    rcases result_found h with e | e
    · exact h2.1 p e
    · exact h2.2 p e
  · rcases result_found h with e | e
    · exact h1.1 p e
    · exact h1.2 p e

theorem inBases_found {W : World} {q : Query} {p : Pick} :
    ∀ (n : Nat) (walked : List Ty) (o : Option Ty), inBases W q n walked o = .found p →
      ∃ d, Above W o d ∧ inType W q d = .found p
  | 0, _, _, h => by simp [inBases] at h
  | _ + 1, _, none, h => by simp [inBases] at h
  | n + 1, walked, some t, h => by
    unfold inBases at h
    split at h
    · cases h
    · split at h
      · obtain ⟨d, h1, h2⟩ := inBases_found n _ _ h
        exact ⟨d, .up h1, h2⟩
      · exact ⟨t, .here, h⟩

theorem getMember_found {W : World} {q : Query} {p : Pick} {n : Nat} {t : Ty} (h : getMember W q n t = .found p) :
    ∃ d, Sees W t d ∧ inType W q d = .found p := by
  unfold getMember at h
  by_cases hi : W.iface t = true
  · rw [if_pos hi] at h
    obtain ⟨d, h1, h2⟩ := inInterface_other W q (by simp) (by simp) n t [] h
    exact ⟨d, Or.inr ⟨hi, h1⟩, h2⟩
  · rw [if_neg hi] at h
    have hi' : W.iface t = false := by simpa using hi
    split at h
    · obtain ⟨d, h1, h2⟩ := inBases_found n _ _ h
      exact ⟨d, Or.inl ⟨hi', .up h1⟩, h2⟩
    · exact ⟨t, Or.inl ⟨hi', .here⟩, h⟩

theorem at_nil {m : Method} (h : ∀ p ∈ m.params, p.2.over [] = true) (ts : List Ty) : m.at ts = m.params := by
  unfold Method.at
  conv => rhs; rw [← List.map_id m.params]
  apply List.map_congr_left
  intro p hp
  rw [(Ty.closed_subst _ p.2 (h p hp)).1]
  rfl

/-! ## The order of the methods does not matter -/

theorem chosen_congr {W : World} {as : List Slot} {ms ms' : List Method} (h : ∀ m, m ∈ ms ↔ m ∈ ms') {x : Answer}
    (hx : Chosen W as ms x) : Chosen W as ms' x := by
  cases hx with
  | exact h1 h2 => exact .exact ((h _).1 h1) h2
  | only h1 h2 h3 h4 =>
    exact .only (fun m hm => h1 m ((h m).2 hm)) ((h _).1 h2) h3 (fun m hm => h4 m ((h m).2 hm))
  | ambiguous h1 h2 h3 h4 h5 h6 =>
    exact .ambiguous (fun m hm => h1 m ((h m).2 hm)) ((h _).1 h2) ((h _).1 h3) h4 h5 h6
  | nothing h1 => exact .nothing (fun m hm => h1 m ((h m).2 hm))

theorem analyze_perm {W : World} (g : W.Good) {name : Nat} {as : List Slot} {ms ms' : List Method}
    (hp : ms'.Perm ms) (h : W.Ready as (namedIn name ms))
    (hg : ∀ m ∈ ms, m.name = name → m.gparams = [])
    (hd : ∀ m ∈ namedIn name ms, ∀ m' ∈ namedIn name ms, m.params = m'.params → m = m') :
    (analyze W (callQuery name as) ms').result = (analyze W (callQuery name as) ms).result := by
  have hpf : (namedIn name ms').Perm (namedIn name ms) := hp.filter _
  have h' : W.Ready as (namedIn name ms') :=
    ⟨hpf.nodup_iff.2 h.nodup, fun m hm => h.closed m (hpf.mem_iff.1 hm), fun m hm => h.plain m (hpf.mem_iff.1 hm)⟩
  obtain ⟨x, hx1, hx2⟩ := analyze_chosen g h
  obtain ⟨y, hy1, hy2⟩ := analyze_chosen g h'
  rw [hx2 (Or.inr hg), hy2 (Or.inr fun m hm => hg m (hp.mem_iff.1 hm))]
  have hy := chosen_congr (fun m => hpf.mem_iff) hy1
  rw [chosen_unique hd hx1 hy]

theorem inBases_congr {W W' : World} {q : Query} (hb : W'.baseOf = W.baseOf) (h : ∀ t, inType W' q t = inType W q t) :
    ∀ n walked o, inBases W' q n walked o = inBases W q n walked o
  | 0, _, _ => rfl
  | _ + 1, _, none => rfl
  | n + 1, walked, some t => by
    unfold inBases
    rw [h, hb]
    split
    · rfl
    · split
      · exact inBases_congr hb h n _ _
      · rfl

theorem eachSuper_congr {f f' : Ty → List Ty → Res × List Ty} (h : ∀ t w, f' t w = f t w) :
    ∀ ss w, eachSuper f' ss w = eachSuper f ss w
  | [], _ => rfl
  | s :: ss, w => by
    unfold eachSuper
    rw [h]
    split
    · exact eachSuper_congr h ss _
    · rfl

theorem inInterface_congr {W W' : World} {q : Query} (hs : W'.supers = W.supers) (h : ∀ t, inType W' q t = inType W q t) :
    ∀ n t walked, inInterface W' q n t walked = inInterface W q n t walked
  | 0, _, _ => rfl
  | n + 1, t, walked => by
    unfold inInterface
    rw [h, hs]
    split
    · rfl
    · split
      · exact eachSuper_congr (inInterface_congr hs h n) _ _
      · rfl

theorem getMember_congr {W W' : World} {q : Query} (hs : W'.supers = W.supers) (hb : W'.baseOf = W.baseOf)
    (hi : W'.iface = W.iface) (h : ∀ t, inType W' q t = inType W q t) (n : Nat) (t : Ty) :
    getMember W' q n t = getMember W q n t := by
  unfold getMember
  rw [hi, h, hb, inInterface_congr hs h]
  split
  · rfl
  · split
    · exact inBases_congr hb h _ _ _
    · rfl

/-- The comparison does not read the lists of methods. -/
theorem compareLoop_methods (W : World) (f : Ty → List Method) (given : Bool) :
    ∀ env ps as r, compareLoop { W with methods := f } given env ps as r = compareLoop W given env ps as r
  | env, [], as, r => by cases as <;> rfl
  | env, p :: ps, [], r => rfl
  | env, p :: ps, a :: as, r => by
    unfold compareLoop
    have : compareArg { W with methods := f } given env p a = compareArg W given env p a := rfl
    rw [this]
    split
    · rfl
    · rfl
    · exact compareLoop_methods W f given _ _ _ _
    · exact compareLoop_methods W f given _ _ _ _
    · exact compareLoop_methods W f given _ _ _ _
    · rfl

theorem compareMethod_methods (W : World) (f : Ty → List Method) (m : Method) (ga : Option (List Ty))
    (as : Option (List Slot)) : compareMethod { W with methods := f } m ga as = compareMethod W m ga as := by
  have h : ∀ given env ps as, compareAll { W with methods := f } given env ps as = compareAll W given env ps as := by
    intro given env ps as
    unfold compareAll
    rw [compareLoop_methods]
  unfold compareMethod
  simp only [h]

theorem analyze_methods (W : World) (f : Ty → List Method) (q : Query) (ms : List Method) :
    analyze { W with methods := f } q ms = analyze W q ms := by
  have h : analyzeOne { W with methods := f } q = analyzeOne W q := by
    funext s m
    unfold analyzeOne
    rw [compareMethod_methods]
  unfold analyze
  rw [h]

end Verif.Overload
