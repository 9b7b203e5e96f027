import Verif.Spec.Decl

/-! # Lemmas on the checks of super types and constraints -/

namespace Verif.Decl

open Spec

theorem nodup_length : ∀ (n : Nat) (l : List Nat), l.Nodup → (∀ x ∈ l, x < n) → l.length ≤ n
  | 0, [], _, _ => by simp
  | 0, x :: l, _, h => absurd (h x (by simp)) (by omega)
  | n + 1, l, hd, hb => by
    have h1 : (l.erase n).Nodup := hd.erase n
    have h2 : ∀ x ∈ l.erase n, x < n := fun x hx => by
      have hne : x ≠ n := fun he => by
        subst he
        exact (List.Nodup.not_mem_erase hd) hx
      have := hb x (List.mem_of_mem_erase hx)
      omega
    have h3 := nodup_length n _ h1 h2
    have h4 : l.length ≤ (l.erase n).length + 1 := by
      rw [List.length_erase]
      split <;> omega
    omega

theorem nodup_subset_length : ∀ (l m : List Nat), l.Nodup → (∀ x ∈ l, x ∈ m) → l.length ≤ m.length
  | [], m, _, _ => by simp
  | x :: l, m, hd, hs => by
    have hx : x ∈ m := hs x (by simp)
    have hd' := List.nodup_cons.1 hd
    have h1 : ∀ y ∈ l, y ∈ m.erase x := fun y hy => by
      have hne : y ≠ x := fun he => hd'.1 (he ▸ hy)
      exact (List.mem_erase_of_ne hne).2 (hs y (by simp [hy]))
    have h2 := nodup_subset_length l (m.erase x) hd'.2 h1
    rw [List.length_erase_of_mem hx] at h2
    have : 0 < m.length := List.length_pos_of_mem hx
    simp only [List.length_cons]
    omega

/-- What a walk up the super types leaves behind. -/
structure WalkPost (p : Types) (this : Nat) (walked : List Nat) (starts : List Nat)
    (r : Bool × List Nat) : Prop where
  nodup : r.2.Nodup
  bound : ∀ x ∈ r.2, x < p.count
  keeps : ∀ x ∈ walked, x ∈ r.2
  longer : walked.length ≤ r.2.length
  found : r.1 = true → ∃ s ∈ starts, p.general s = this ∨ Derives p (p.general s) this
  all : r.1 = false → ∀ s ∈ starts, p.general s ∈ r.2
  fresh : r.1 = false → ∀ x ∈ r.2, x ∉ walked → x ≠ this ∧ ∀ s ∈ p.supers x, p.general s ∈ r.2

theorem eachSuper_post (p : Types) (this : Nat) (hthis : this < p.count) (hc : Closed p) (n : Nat)
    (f : List Nat → Nat → Bool × List Nat)
    (hf : ∀ walked s, walked.Nodup → (∀ x ∈ walked, x < p.count) → p.general s < p.count →
      n + walked.length ≥ p.count + 1 → WalkPost p this walked [s] (f walked s)) :
    ∀ (ss walked : List Nat), walked.Nodup → (∀ x ∈ walked, x < p.count) →
      (∀ s ∈ ss, p.general s < p.count) → n + walked.length ≥ p.count + 1 →
      WalkPost p this walked ss (eachSuper f walked ss)
  | [], walked, hd, hb, _, _ =>
    { nodup := hd, bound := hb, keeps := fun _ h => h, longer := Nat.le_refl _
      found := by simp [eachSuper], all := by simp
      fresh := fun _ x hx hn => absurd hx hn }
  | s :: ss, walked, hd, hb, hs, hn => by
    have h1 := hf walked s hd hb (hs s (by simp)) hn
    cases hz : f walked s with
    | mk b w =>
      rw [hz] at h1
      cases b with
      | true =>
        simp only [eachSuper, hz]
        exact
          { nodup := h1.nodup, bound := h1.bound, keeps := h1.keeps, longer := h1.longer
            found := fun hr => by
              obtain ⟨t, ht, h⟩ := h1.found hr
              exact ⟨t, by simp at ht; simp [ht], h⟩
            all := by simp, fresh := by simp }
      | false =>
        simp only [eachSuper, hz]
        have hlen := h1.longer
        have h2 := eachSuper_post p this hthis hc n f hf ss w h1.nodup h1.bound
          (fun t ht => hs t (by simp [ht])) (by simp only at hlen; omega)
        have hlen2 := h2.longer
        exact
          { nodup := h2.nodup, bound := h2.bound
            keeps := fun x hx => h2.keeps x (h1.keeps x hx)
            longer := by simp only at hlen; omega
            found := fun hr => by
              obtain ⟨t, ht, h⟩ := h2.found hr
              exact ⟨t, by simp [ht], h⟩
            all := fun hr t ht => by
              rcases List.mem_cons.1 ht with rfl | ht
              · exact h2.keeps _ (h1.all rfl _ (by simp))
              · exact h2.all hr t ht
            fresh := fun hr x hx hnx => by
              by_cases hw : x ∈ w
              · have := h1.fresh rfl x hw hnx
                exact ⟨this.1, fun t ht => h2.keeps _ (this.2 t ht)⟩
              · exact h2.fresh hr x hx hw }

theorem circleFrom_post (p : Types) (this : Nat) (hthis : this < p.count) (hc : Closed p) :
    ∀ (fuel : Nat) (walked : List Nat) (s : Nat), walked.Nodup → (∀ x ∈ walked, x < p.count) →
      p.general s < p.count → fuel + walked.length ≥ p.count + 1 →
      WalkPost p this walked [s] (circleFrom p this fuel walked s)
  | 0, walked, s, hd, hb, _, hn => by
    have := nodup_length _ _ hd hb
    omega
  | fuel + 1, walked, s, hd, hb, hs, hn => by
    simp only [circleFrom]
    by_cases hw : p.general s ∈ walked
    · rw [if_pos (by simpa using hw)]
      exact
        { nodup := hd, bound := hb, keeps := fun _ h => h, longer := Nat.le_refl _
          found := by simp, all := fun _ t ht => by simp at ht; simpa [ht] using hw
          fresh := fun _ x hx hnx => absurd hx hnx }
    · rw [if_neg (by simpa using hw)]
      have hd' : (p.general s :: walked).Nodup := List.nodup_cons.2 ⟨hw, hd⟩
      have hb' : ∀ x ∈ p.general s :: walked, x < p.count := fun x hx => by
        rcases List.mem_cons.1 hx with rfl | hx
        · exact hs
        · exact hb x hx
      by_cases ht : p.general s = this
      · rw [if_pos (by simpa using ht)]
        exact
          { nodup := hd', bound := hb', keeps := fun _ h => by simp [h]
            longer := by simp
            found := fun _ => ⟨s, by simp, Or.inl ht⟩
            all := by simp, fresh := by simp }
      · rw [if_neg (by simpa using ht)]
        have h := eachSuper_post p this hthis hc fuel (circleFrom p this fuel)
          (fun w t h1 h2 h3 h4 => circleFrom_post p this hthis hc fuel w t h1 h2 h3 h4)
          (p.supers (p.general s)) (p.general s :: walked) hd' hb' (fun t ht' => hc _ t ht')
          (by simp only [List.length_cons]; omega)
        have hl := h.longer
        simp only [List.length_cons] at hl
        exact
          { nodup := h.nodup, bound := h.bound
            keeps := fun x hx => h.keeps x (by simp [hx])
            longer := by omega
            found := fun hr => by
              obtain ⟨t, ht', h'⟩ := h.found hr
              refine ⟨s, by simp, Or.inr ?_⟩
              rcases h' with h' | h'
              · exact h' ▸ Derives.direct ht'
              · exact Derives.up ht' h'
            all := fun _ t ht' => by
              simp at ht'
              subst ht'
              exact h.keeps _ (by simp)
            fresh := fun hr x hx hnx => by
              by_cases hxs : x = p.general s
              · subst hxs
                exact ⟨ht, fun t ht' => h.all hr t ht'⟩
              · exact h.fresh hr x hx (by simp [hxs, hnx]) }

theorem closed_reach (p : Types) (w : List Nat) (hw : ∀ x ∈ w, ∀ s ∈ p.supers x, p.general s ∈ w)
    {a b : Nat} (h : Derives p a b) : a ∈ w → b ∈ w := by
  induction h with
  | direct hs => exact fun ha => hw _ ha _ hs
  | up hs _ ih => exact fun ha => ih (hw _ ha _ hs)

/-- The walk up from one super type finds the type exactly when it is above that super type. -/
theorem circleFrom_iff (p : Types) (this : Nat) (hthis : this < p.count) (hc : Closed p) (s : Nat)
    (hs : p.general s < p.count) :
    (circleFrom p this (p.count + 1) [] s).1 = true ↔
      p.general s = this ∨ Derives p (p.general s) this := by
  have h := circleFrom_post p this hthis hc (p.count + 1) [] s List.nodup_nil (by simp) hs (by simp)
  constructor
  · intro hr
    obtain ⟨t, ht, h'⟩ := h.found hr
    simp at ht
    subst ht
    exact h'
  · intro hd
    cases hr : (circleFrom p this (p.count + 1) [] s).1 with
    | true => rfl
    | false =>
      exfalso
      have hall := h.all hr s (by simp)
      have hfr := h.fresh hr
      rcases hd with hd | hd
      · exact (hfr _ hall (by simp)).1 hd
      · have := closed_reach p _ (fun x hx t ht => (hfr x hx (by simp)).2 t ht) hd hall
        exact (hfr _ this (by simp)).1 rfl

/-! ## Constraints -/

/-- What a walk over the names leaves behind when nothing was rejected. -/
structure NamePost (d : Deps) (walked starts : List Nat) (r : Bool × List Nat) : Prop where
  nodup : r.2.Nodup
  sub : ∀ x ∈ r.2, x ∈ walked ∨ x ∈ (d.flatMap fun e => e.1 :: e.2)
  keeps : ∀ x ∈ walked, x ∈ r.2
  longer : walked.length ≤ r.2.length
  all : r.1 = true → ∀ s ∈ starts, s ∈ r.2 ∧ s ∉ walked
  fresh : r.1 = true → ∀ x ∈ r.2, x ∉ walked → ∀ s ∈ depsOf d x, s ∈ r.2 ∧ s ∉ walked

theorem depsOf_mem (d : Deps) (a b : Nat) (h : b ∈ depsOf d a) :
    a ∈ d.map (·.1) ∧ b ∈ d.flatMap fun e => e.1 :: e.2 := by
  unfold depsOf at h
  cases hf : d.find? fun e => e.1 == a with
  | none => simp [hf] at h
  | some e =>
    rw [hf] at h
    have h1 := List.mem_of_find?_eq_some hf
    have h2 := List.find?_some hf
    simp at h2
    refine ⟨List.mem_map.2 ⟨e, h1, h2⟩, List.mem_flatMap.2 ⟨e, h1, by simp; exact Or.inr h⟩⟩

theorem eachName_post (d : Deps) (f : List Nat → Nat → Bool × List Nat) (n : Nat)
    (hf : ∀ walked s, walked.Nodup → s ∈ (d.flatMap fun e => e.1 :: e.2) →
      (∀ x ∈ walked, x ∈ (d.flatMap fun e => e.1 :: e.2)) →
      n + walked.length ≥ (d.flatMap fun e => e.1 :: e.2).length + 1 →
      NamePost d walked [s] (f walked s)) :
    ∀ (ss walked : List Nat), walked.Nodup → (∀ s ∈ ss, s ∈ (d.flatMap fun e => e.1 :: e.2)) →
      (∀ x ∈ walked, x ∈ (d.flatMap fun e => e.1 :: e.2)) →
      n + walked.length ≥ (d.flatMap fun e => e.1 :: e.2).length + 1 →
      NamePost d walked ss (eachName f walked ss)
  | [], walked, hd, _, _, _ =>
    { nodup := hd, sub := fun x hx => Or.inl hx, keeps := fun _ h => h, longer := Nat.le_refl _
      all := by simp, fresh := fun _ x hx hn => absurd hx hn }
  | s :: ss, walked, hd, hs, hb, hn => by
    have h1 := hf walked s hd (hs s (by simp)) hb hn
    cases hz : f walked s with
    | mk b w =>
      rw [hz] at h1
      cases b with
      | false =>
        simp only [eachName, hz]
        exact
          { nodup := h1.nodup, sub := h1.sub, keeps := h1.keeps, longer := h1.longer
            all := by simp, fresh := by simp }
      | true =>
        simp only [eachName, hz]
        have hlen := h1.longer
        simp only at hlen
        have hb' : ∀ x ∈ w, x ∈ (d.flatMap fun e => e.1 :: e.2) := fun x hx => by
          rcases h1.sub x hx with h | h
          · exact hb x h
          · exact h
        have h2 := eachName_post d f n hf ss w h1.nodup (fun t ht => hs t (by simp [ht])) hb'
          (by omega)
        have hlen2 := h2.longer
        exact
          { nodup := h2.nodup
            sub := fun x hx => by
              rcases h2.sub x hx with h | h
              · exact h1.sub x h
              · exact Or.inr h
            keeps := fun x hx => h2.keeps x (h1.keeps x hx)
            longer := by omega
            all := fun hr t ht => by
              rcases List.mem_cons.1 ht with rfl | ht
              · have := h1.all rfl t (by simp)
                exact ⟨h2.keeps _ this.1, this.2⟩
              · have := h2.all hr t ht
                exact ⟨this.1, fun h => this.2 (h1.keeps _ h)⟩
            fresh := fun hr x hx hnx t ht => by
              by_cases hw : x ∈ w
              · have := h1.fresh rfl x hw hnx t ht
                exact ⟨h2.keeps _ this.1, this.2⟩
              · have := h2.fresh hr x hx hw t ht
                exact ⟨this.1, fun h => this.2 (h1.keeps _ h)⟩ }

theorem nameOk_post (d : Deps) :
    ∀ (fuel : Nat) (walked : List Nat) (s : Nat), walked.Nodup →
      s ∈ (d.flatMap fun e => e.1 :: e.2) → (∀ x ∈ walked, x ∈ (d.flatMap fun e => e.1 :: e.2)) →
      fuel + walked.length ≥ (d.flatMap fun e => e.1 :: e.2).length + 1 →
      NamePost d walked [s] (nameOk d fuel walked s)
  | 0, walked, s, hd, _, hb, hn => by
    have := nodup_subset_length _ _ hd hb
    omega
  | fuel + 1, walked, s, hd, hs, hb, hn => by
    simp only [nameOk]
    by_cases hw : s ∈ walked
    · rw [if_pos (by simpa using hw)]
      exact
        { nodup := hd, sub := fun x hx => Or.inl hx, keeps := fun _ h => h, longer := Nat.le_refl _
          all := by simp, fresh := by simp }
    · rw [if_neg (by simpa using hw)]
      have h := eachName_post d (nameOk d fuel) fuel
        (fun w t h1 h2 h3 h4 => nameOk_post d fuel w t h1 h2 h3 h4) (depsOf d s) (s :: walked)
        (List.nodup_cons.2 ⟨hw, hd⟩) (fun t ht => (depsOf_mem d s t ht).2)
        (fun x hx => by
          rcases List.mem_cons.1 hx with rfl | hx
          · exact hs
          · exact hb x hx)
        (by simp only [List.length_cons]; omega)
      have hl := h.longer
      simp only [List.length_cons] at hl
      exact
        { nodup := h.nodup
          sub := fun x hx => by
            rcases h.sub x hx with hm | hm
            · rcases List.mem_cons.1 hm with rfl | hm
              · exact Or.inr hs
              · exact Or.inl hm
            · exact Or.inr hm
          keeps := fun x hx => h.keeps x (by simp [hx])
          longer := by omega
          all := fun _ t ht => by
            simp at ht
            subst ht
            exact ⟨h.keeps _ (by simp), hw⟩
          fresh := fun hr x hx hnx t ht => by
            by_cases hxs : x = s
            · subst hxs
              have := h.all hr t ht
              exact ⟨this.1, fun hm => this.2 (by simp [hm])⟩
            · have := h.fresh hr x hx (by simp [hxs, hnx]) t ht
              exact ⟨this.1, fun hm => this.2 (by simp [hm])⟩ }

theorem dependsOn_stays (d : Deps) (w w0 : List Nat)
    (hw : ∀ x ∈ w, x ∉ w0 → ∀ s ∈ depsOf d x, s ∈ w ∧ s ∉ w0) {a b : Nat} (h : DependsOn d a b) :
    (a ∈ w ∧ a ∉ w0) → (b ∈ w ∧ b ∉ w0) := by
  induction h with
  | direct hb => exact fun ha => hw _ ha.1 ha.2 _ hb
  | through hc _ ih => exact fun ha => ih (hw _ ha.1 ha.2 _ hc)

/-- A parameter that depends on itself is rejected when the walk starts there. -/
theorem walk_rejects (d : Deps) (a : Nat) (h : DependsOn d a a) :
    (eachName (nameOk d ((d.flatMap fun e => e.1 :: e.2).length + 1)) [a] (depsOf d a)).1 = false := by
  have hmem : a ∈ d.map (·.1) := by
    cases h with
    | direct hb => exact (depsOf_mem d _ _ hb).1
    | through hc _ => exact (depsOf_mem d _ _ hc).1
  have hall : a ∈ d.flatMap fun e => e.1 :: e.2 := by
    obtain ⟨e, he, rfl⟩ := List.mem_map.1 hmem
    exact List.mem_flatMap.2 ⟨e, he, by simp⟩
  have hp := eachName_post d (nameOk d ((d.flatMap fun e => e.1 :: e.2).length + 1)) _
    (fun w t h1 h2 h3 h4 => nameOk_post d _ w t h1 h2 h3 h4) (depsOf d a) [a] (by simp)
    (fun t ht => (depsOf_mem d a t ht).2) (by simpa using hall) (by simp)
  cases hr : (eachName (nameOk d ((d.flatMap fun e => e.1 :: e.2).length + 1)) [a] (depsOf d a)).1 with
  | false => rfl
  | true =>
    exfalso
    have h0 : ∀ b, DependsOn d a b → b ∈ (eachName (nameOk d ((d.flatMap fun e => e.1 :: e.2).length + 1)) [a] (depsOf d a)).2 ∧ b ∉ [a] := by
      intro b hb
      cases hb with
      | direct hb => exact hp.all hr _ hb
      | through hc hb => exact dependsOn_stays d _ _ (hp.fresh hr) hb (hp.all hr _ hc)
    exact (h0 a h).2 (by simp)

theorem chain_snoc (d : Deps) {a b c : Nat} {p : List Nat} (h : Chain d a p b) (hc : c ∈ depsOf d b) :
    Chain d a (p ++ [c]) c := by
  induction h with
  | here a => exact Chain.step hc (Chain.here c)
  | step hm _ ih => exact Chain.step hm (ih hc)

/-- One parameter is reached in two ways. -/
def TwoWays (d : Deps) : Prop :=
  ∃ a b p q, Chain d a p b ∧ Chain d a q b ∧ p ≠ q

theorem prefix_same {p q : List Nat} {m n : Nat} (h1 : (p ++ [m]) <+: q) (h2 : (p ++ [n]) <+: q) :
    m = n := by
  have h := List.prefix_of_prefix_length_le h1 h2 (by simp)
  have h' := h.eq_of_length (by simp)
  have := List.append_cancel_left h'
  simpa using this

theorem eachName_paths (d : Deps) (r : Nat) (f : List Nat → Nat → Bool × List Nat)
    (hf : ∀ walked n p (ps : List (List Nat)), Chain d r (p ++ [n]) n →
      (∀ x ∈ walked, ∃ q ∈ ps, Chain d r q x) → (∀ q ∈ ps, ¬ (p ++ [n]) <+: q) →
      ((f walked n).1 = false → TwoWays d) ∧
      ((f walked n).1 = true → ∃ ps' : List (List Nat), (∀ x ∈ (f walked n).2, ∃ q ∈ ps', Chain d r q x) ∧
        ∀ q ∈ ps', q ∈ ps ∨ (p ++ [n]) <+: q)) :
    ∀ (ns : List Nat) (walked : List Nat) (p : List Nat) (ps : List (List Nat)), ns.Nodup →
      (∀ n ∈ ns, Chain d r (p ++ [n]) n) → (∀ x ∈ walked, ∃ q ∈ ps, Chain d r q x) →
      (∀ q ∈ ps, ∀ n ∈ ns, ¬ (p ++ [n]) <+: q) →
      ((eachName f walked ns).1 = false → TwoWays d) ∧
      ((eachName f walked ns).1 = true → ∃ ps' : List (List Nat), (∀ x ∈ (eachName f walked ns).2, ∃ q ∈ ps', Chain d r q x) ∧
        ∀ q ∈ ps', q ∈ ps ∨ ∃ n ∈ ns, (p ++ [n]) <+: q)
  | [], walked, p, ps, _, _, hw, _ => by
    refine ⟨by simp [eachName], fun _ => ⟨ps, by simpa [eachName] using hw, fun q hq => Or.inl hq⟩⟩
  | n :: ns, walked, p, ps, hd, hc, hw, hp => by
    have hd' := List.nodup_cons.1 hd
    have h1 := hf walked n p ps (hc n (by simp)) hw (fun q hq => hp q hq n (by simp))
    cases hz : f walked n with
    | mk b w =>
      rw [hz] at h1
      cases b with
      | false =>
        simp only [eachName, hz]
        exact ⟨fun _ => h1.1 rfl, by simp⟩
      | true =>
        simp only [eachName, hz]
        obtain ⟨ps', hps, hq⟩ := h1.2 rfl
        have h2 := eachName_paths d r f hf ns w p ps' hd'.2 (fun m hm => hc m (by simp [hm])) hps
          (fun q hq' m hm hpre => by
            rcases hq q hq' with h | h
            · exact hp q h m (by simp [hm]) hpre
            · exact hd'.1 (prefix_same h hpre ▸ hm))
        refine ⟨h2.1, fun hr => ?_⟩
        obtain ⟨ps2, hps2, hq2⟩ := h2.2 hr
        refine ⟨ps2, hps2, fun q hq' => ?_⟩
        rcases hq2 q hq' with h | ⟨m, hm, h⟩
        · rcases hq q h with h | h
          · exact Or.inl h
          · exact Or.inr ⟨n, by simp, h⟩
        · exact Or.inr ⟨m, by simp [hm], h⟩

theorem nameOk_paths (d : Deps) (hd : ∀ a, (depsOf d a).Nodup) (r : Nat) :
    ∀ (fuel : Nat) (walked : List Nat) (n : Nat) (p : List Nat) (ps : List (List Nat)),
      Chain d r (p ++ [n]) n → (∀ x ∈ walked, ∃ q ∈ ps, Chain d r q x) →
      (∀ q ∈ ps, ¬ (p ++ [n]) <+: q) →
      ((nameOk d fuel walked n).1 = false → TwoWays d) ∧
      ((nameOk d fuel walked n).1 = true → ∃ ps' : List (List Nat), (∀ x ∈ (nameOk d fuel walked n).2, ∃ q ∈ ps', Chain d r q x) ∧
        ∀ q ∈ ps', q ∈ ps ∨ (p ++ [n]) <+: q)
  | 0, walked, n, p, ps, _, hw, _ =>
    ⟨by simp [nameOk], fun _ => ⟨ps, by simpa [nameOk] using hw, fun q hq => Or.inl hq⟩⟩
  | fuel + 1, walked, n, p, ps, hc, hw, hp => by
    simp only [nameOk]
    by_cases hm : n ∈ walked
    · rw [if_pos (by simpa using hm)]
      refine ⟨fun _ => ?_, by simp⟩
      obtain ⟨q, hq, hqc⟩ := hw n hm
      exact ⟨r, n, p ++ [n], q, hc, hqc, fun he => hp q hq (he ▸ List.prefix_rfl)⟩
    · rw [if_neg (by simpa using hm)]
      have h := eachName_paths d r (nameOk d fuel)
        (fun w m p' ps' h1 h2 h3 => nameOk_paths d hd r fuel w m p' ps' h1 h2 h3)
        (depsOf d n) (n :: walked) (p ++ [n]) ((p ++ [n]) :: ps) (hd n)
        (fun m hm' => chain_snoc d hc hm')
        (fun x hx => by
          rcases List.mem_cons.1 hx with rfl | hx
          · exact ⟨p ++ [x], by simp, hc⟩
          · obtain ⟨q, hq, hqc⟩ := hw x hx
            exact ⟨q, by simp [hq], hqc⟩)
        (fun q hq m hm' hpre => by
          rcases List.mem_cons.1 hq with rfl | hq
          · have := hpre.length_le
            simp at this
          · exact hp q hq ((List.prefix_append (p ++ [n]) [m]).trans hpre))
      refine ⟨h.1, fun hr => ?_⟩
      obtain ⟨ps', h1, h2⟩ := h.2 hr
      refine ⟨ps', h1, fun q hq => ?_⟩
      rcases h2 q hq with h' | ⟨m, _, h'⟩
      · rcases List.mem_cons.1 h' with rfl | h'
        · exact Or.inr List.prefix_rfl
        · exact Or.inl h'
      · exact Or.inr ((List.prefix_append (p ++ [n]) [m]).trans h')

theorem reported_two_ways (d : Deps) (hd : ∀ a, (depsOf d a).Nodup) (a fuel : Nat)
    (h : (eachName (nameOk d fuel) [a] (depsOf d a)).1 = false) : TwoWays d := by
  have h' := eachName_paths d a (nameOk d fuel)
    (fun w m p' ps' h1 h2 h3 => nameOk_paths d hd a fuel w m p' ps' h1 h2 h3)
    (depsOf d a) [a] [] [[]] (hd a)
    (fun n hn => Chain.step hn (Chain.here n))
    (fun x hx => by simp at hx; subst hx; exact ⟨[], by simp, Chain.here x⟩)
    (fun q hq n _ hpre => by
      simp at hq
      subst hq
      simp at hpre)
  exact h'.1 h

end Verif.Decl
