import Verif.Spec.Subst

/-! Lemmas about the replacement of type parameters. -/

namespace Verif.Subst

theorem search_bind : ∀ (ps : List Nat) (args : List Ty) (n : Nat), ps.length ≤ args.length →
    ((search ps args n).getD []).headD .null = (bind ps args n).getD .null
  | [], args, n, _ => by simp [search, bind]
  | p :: ps, [], n, h => by simp at h
  | p :: ps, a :: args, n, h => by
    simp only [search, bind, List.zip_cons_cons, List.lookup_cons]
    by_cases hp : p = n
    · subst hp; simp
    · have hb : (n == p) = false := by simpa using fun h => hp h.symm
      simp only [if_neg hp, hb, List.tail_cons]
      exact search_bind ps args n (by simpa using h)

theorem bind_isSome : ∀ (ps : List Nat) (args : List Ty) (n : Nat), ps.length ≤ args.length → n ∈ ps →
    ∃ t ∈ args, bind ps args n = some t
  | [], _, _, _, hn => by cases hn
  | p :: ps, [], _, h, _ => by simp at h
  | p :: ps, a :: args, n, h, hn => by
    simp only [bind, List.zip_cons_cons, List.lookup_cons]
    by_cases hp : n = p
    · subst hp; exact ⟨a, by simp, by simp⟩
    · have hb : (n == p) = false := by simpa using hp
      simp only [hb]
      obtain ⟨t, h1, h2⟩ := bind_isSome ps args n (by simpa using h) (by simpa [hp] using hn)
      exact ⟨t, by simp [h1], h2⟩

theorem bind_none : ∀ (ps : List Nat) (args : List Ty) (n : Nat), n ∉ ps → bind ps args n = none
  | [], _, _, _ => rfl
  | p :: ps, [], _, _ => rfl
  | p :: ps, a :: args, n, hn => by
    simp only [List.mem_cons, not_or] at hn
    simp only [bind, List.zip_cons_cons, List.lookup_cons]
    have hb : (n == p) = false := by simpa using hn.1
    simp only [hb]
    exact bind_none ps args n hn.2

theorem bind_mem {ps : List Nat} {args : List Ty} {n : Nat} {t : Ty} (h : bind ps args n = some t) : t ∈ args := by
  induction ps generalizing args with
  | nil => cases h
  | cons p ps ih =>
    cases args with
    | nil => cases h
    | cons a args =>
      simp only [bind, List.zip_cons_cons, List.lookup_cons] at h
      by_cases hp : n = p
      · subst hp; simp at h; simp [h]
      · have hb : (n == p) = false := by simpa using hp
        simp only [hb] at h
        exact List.mem_cons_of_mem _ (ih h)

theorem fold_plain {β : Type} {f : Option β → Host → Option β} (hf : ∀ r, f r .plain = r) : ∀ (hosts : List Host), Outer hosts →
    ∀ r, hosts.foldl f r = r
  | [], _, _ => rfl
  | h :: hs, ho, r => by
    rw [List.foldl_cons, ho h (by simp), hf, fold_plain hf hs (fun x hx => ho x (List.mem_cons_of_mem _ hx))]

theorem findType_outer {hosts : List Host} (ho : Outer hosts) (name fuel : Nat) (params : List Nat) (args found : List Ty) :
    findType hosts name (fuel + 1) params args found =
      some (if args.length > 0 then (search params args name).getD found else found) := by
  simp only [findType]
  exact fold_plain (by intro r; cases r <;> rfl) hosts ho _

theorem typeAt_outer {hosts : List Host} (ho : Outer hosts) (fuel : Nat) {params : List Nat} {args : List Ty}
    (hl : params.length ≤ args.length) (name : Nat) :
    typeAt (fuel + 1) hosts params args name = some ((bind params args name).getD .null) := by
  unfold typeAt
  rw [findType_outer ho, ← search_bind params args name hl]
  simp only [Option.map_some, Option.some.injEq]
  split
  · rfl
  · cases args with
    | nil => cases params with
      | nil => rfl
      | cons => simp at hl
    | cons => simp at *

theorem fold_none {f : Option (List Ty) → Host → Option (List Ty)} (hn : ∀ h, f none h = none) : ∀ hosts : List Host,
    hosts.foldl f none = none
  | [] => rfl
  | h :: hs => by rw [List.foldl_cons, hn, fold_none hn hs]

theorem fold_diverge {f : Option (List Ty) → Host → Option (List Ty)} (hn : ∀ h, f none h = none) (hp : ∀ r, f r .plain = r)
    (hg : ∀ r ps as, f r (.generic ps as) = none) : ∀ (hosts : List Host), ¬Outer hosts → ∀ r, hosts.foldl f r = none
  | [], ho, _ => absurd (fun _ h => by cases h) ho
  | .plain :: hs, ho, r => by
    rw [List.foldl_cons, hp]
    refine fold_diverge hn hp hg hs (fun h => ho ?_) r
    intro x hx
    rcases List.mem_cons.1 hx with rfl | hx
    · rfl
    · exact h x hx
  | .generic ps as :: hs, _, r => by rw [List.foldl_cons, hg, fold_none hn hs]

theorem findType_diverges {hosts : List Host} (ho : ¬Outer hosts) (name : Nat) : ∀ (fuel : Nat) (params : List Nat)
    (args found : List Ty), findType hosts name fuel params args found = none
  | 0, _, _, _ => rfl
  | fuel + 1, params, args, found => by
    simp only [findType]
    refine fold_diverge (by intro h; cases h <;> rfl) (by intro r; cases r <;> rfl) ?_ hosts ho _
    intro r ps as
    cases r with
    | none => rfl
    | some r => exact findType_diverges ho name fuel ps as r

theorem replace_notNull {σ : Nat → Option Ty} (hσ : ∀ n t, σ n = some t → t.isNull = false) (t : Ty) (ht : t.isNull = false) :
    (replace σ t).isNull = false := by
  cases t with
  | param n =>
    simp only [replace]
    cases h : σ n with
    | none => rfl
    | some t => exact hσ n t h
  | null => simp [Ty.isNull] at ht
  | _ => simp [replace, Ty.isNull]

mutual
theorem transform_over {ps : List Nat} {σ : Nat → Option Ty} {f : Nat → Ty} (hσ : ∀ n t, σ n = some t → t.isNull = false)
    (hf : ∀ n ∈ ps, ∃ t, σ n = some t ∧ f n = t) : ∀ t, Over ps t → transform f t = replace σ t ∧ t.isNull = false
  | .param n, h => by
    obtain ⟨t, h1, h2⟩ := hf n h
    exact ⟨by simp only [transform, replace, h1, h2, Option.getD_some], rfl⟩
  | .array e d, h => by
    obtain ⟨h1, h2⟩ := transform_over hσ hf e h
    refine ⟨?_, rfl⟩
    simp only [transform, replace, h1, newArray, replace_notNull hσ e h2, Bool.false_eq_true, if_false]
  | .gen t args host, h => by
    obtain ⟨h1, rfl⟩ := h
    exact ⟨by simp only [transform, replace, transformAll_over hσ hf args h1], rfl⟩
  | .null, h => h.elim
  | .nullType, _ => ⟨rfl, rfl⟩
  | .basic _, _ => ⟨rfl, rfl⟩
theorem transformAll_over {ps : List Nat} {σ : Nat → Option Ty} {f : Nat → Ty} (hσ : ∀ n t, σ n = some t → t.isNull = false)
    (hf : ∀ n ∈ ps, ∃ t, σ n = some t ∧ f n = t) : ∀ ts, OverAll ps ts → transformAll f ts = replaceAll σ ts
  | [], _ => rfl
  | t :: ts, h => by
    simp only [transformAll, replaceAll, (transform_over hσ hf t h.1).1, transformAll_over hσ hf ts h.2]
end

mutual
theorem replace_closed (σ : Nat → Option Ty) : ∀ t, Closed t → replace σ t = t
  | .param _, h => h.elim
  | .array e d, h => by simp only [replace, replace_closed σ e h]
  | .gen t args host, h => by simp only [replace, replaceAll_closed σ args h.1, replace_closed σ host h.2]
  | .null, _ => rfl
  | .nullType, _ => rfl
  | .basic _, _ => rfl
theorem replaceAll_closed (σ : Nat → Option Ty) : ∀ ts, ClosedAll ts → replaceAll σ ts = ts
  | [], _ => rfl
  | t :: ts, h => by simp only [replaceAll, replace_closed σ t h.1, replaceAll_closed σ ts h.2]
end

mutual
theorem noParams_closed : ∀ t, Bare t → hasParams t = false → (∀ n, t ≠ .param n) → Closed t
  | .param n, _, _, h => absurd rfl (h n)
  | .array e d, hb, _, _ => by simpa [Bare, Closed] using hb
  | .gen t args host, hb, hp, _ => by
    simp only [Bare] at hb
    simp only [hasParams] at hp
    exact ⟨noParams_closedAll args hb.1 hp, hb.2⟩
  | .null, _, _, _ => trivial
  | .nullType, _, _, _ => trivial
  | .basic _, _, _, _ => trivial
theorem noParams_closedAll : ∀ ts, BareAll ts → anyParams ts = false → ClosedAll ts
  | [], _, _ => trivial
  | t :: ts, hb, hp => by
    simp only [BareAll] at hb
    have hne : ∀ n, t ≠ .param n := by
      rintro n rfl; simp [anyParams] at hp
    have hp' : hasParams t = false ∧ anyParams ts = false := by
      cases t <;> simp_all [anyParams]
    exact ⟨noParams_closed t hb.1 hp'.1 hne, noParams_closedAll ts hb.2 hp'.2⟩
end

/-- The parameters of the method first, then those of its class. -/
theorem revise_param {mps : List Nat} {margs : List Ty} (hl : mps.length ≤ margs.length) (hg : Given margs) {host : Nat → Ty}
    {τ : Nat → Option Ty} (hh : ∀ n, host n = (τ n).getD .null) (hτ : ∀ n t, τ n = some t → t.isNull = false) (n : Nat) :
    revise mps margs host (.param n) = replace (orElse (bind mps margs) τ) (.param n) := by
  simp only [revise, search_bind mps margs n hl, replace, orElse]
  cases h : bind mps margs n with
  | some t =>
    have := hg t (bind_mem h)
    simp [this]
  | none =>
    have hnn : Ty.null.isNull = true := rfl
    simp only [Option.getD_none, hnn, if_true, Option.none_or, hh]
    cases h2 : τ n with
    | none => simp [hnn]
    | some t => simp [hτ n t h2]

mutual
theorem revise_bare {mps : List Nat} {margs : List Ty} (hl : mps.length ≤ margs.length) (hg : Given margs) {host : Nat → Ty}
    {τ : Nat → Option Ty} (hh : ∀ n, host n = (τ n).getD .null) (hτ : ∀ n t, τ n = some t → t.isNull = false) :
    ∀ t, Bare t → revise mps margs host t = replace (orElse (bind mps margs) τ) t
  | .param n, _ => revise_param hl hg hh hτ n
  | .array e d, hb => by
    simp only [Bare] at hb
    simp only [revise, replace, replace_closed _ e hb]
  | .gen t args h, hb => by
    cases hp : hasParams (.gen t args h) with
    | false =>
      have hc := noParams_closed _ hb hp (by simp)
      simp only [revise, hp, Bool.false_eq_true, if_false]
      exact (replace_closed _ _ hc).symm
    | true =>
      simp only [Bare] at hb
      simp only [revise, hp, if_true, replace, reviseAll_bare hl hg hh hτ args hb.1, replace_closed _ h hb.2]
  | .null, _ => rfl
  | .nullType, _ => rfl
  | .basic _, _ => rfl
theorem reviseAll_bare {mps : List Nat} {margs : List Ty} (hl : mps.length ≤ margs.length) (hg : Given margs) {host : Nat → Ty}
    {τ : Nat → Option Ty} (hh : ∀ n, host n = (τ n).getD .null) (hτ : ∀ n t, τ n = some t → t.isNull = false) :
    ∀ ts, BareAll ts → reviseAll mps margs host ts = replaceAll (orElse (bind mps margs) τ) ts
  | [], _ => rfl
  | t :: ts, hb => by
    simp only [BareAll] at hb
    simp only [reviseAll, replaceAll, revise_bare hl hg hh hτ t hb.1, reviseAll_bare hl hg hh hτ ts hb.2]
end

end Verif.Subst
