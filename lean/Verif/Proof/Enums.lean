import Verif.Spec.Enums

namespace Verif.Enums
open Verif.Fold (VT conv)

/-! ## Numbers -/

theorem conv_fits {t : VT} {v : Int} (ht : t.isInt = true) (h : Fits t v) : conv t v = v := by
  cases t <;> simp_all [Fits, minOf, maxOf, conv, VT.isInt, VT.signed, VT.bits] <;>
    first
      | omega
      | (rw [Int.bmod_eq_of_le] <;> omega)

theorem fits_int64 {t : VT} {v : Int} (ht : t.isInt = true) (h : Fits t v) (h64 : t ≠ .uint64) :
    conv .int64 v = v := by
  apply conv_fits rfl
  cases t <;> simp_all [Fits, minOf, maxOf, VT.isInt, VT.signed, VT.bits] <;> omega

theorem fits_min {t : VT} (ht : t.isInt = true) : Fits t (minOf t) := by
  cases t <;> simp_all [Fits, minOf, maxOf, VT.isInt, VT.signed, VT.bits]

theorem fits_max {t : VT} (ht : t.isInt = true) : Fits t (maxOf t) := by
  cases t <;> simp_all [Fits, minOf, maxOf, VT.isInt, VT.signed, VT.bits]

theorem fits_zero {t : VT} (ht : t.isInt = true) : Fits t 0 := by
  cases t <;> simp_all [Fits, minOf, maxOf, VT.isInt, VT.signed, VT.bits]

theorem compare_plain {le : Int → Int → Bool} {t1 t2 : VT} {v1 v2 : Int} (h1 : t1.isInt = true)
    (h2 : t2.isInt = true) (f1 : Fits t1 v1) (f2 : Fits t2 v2)
    (h : t1 = t2 ∨ (t1 ≠ .uint64 ∧ t2 ≠ .uint64)) : compare le t1 v1 t2 v2 = le v1 v2 := by
  unfold compare
  by_cases he : t1 = t2
  · rw [if_pos he]
  · rcases h with h | ⟨ha, hb⟩
    · exact absurd h he
    · rw [if_neg he, if_neg ha, if_neg hb, fits_int64 h1 f1 ha, fits_int64 h2 f2 hb]

/-! ## Circles -/

theorem mem_depends (s : Inits) (i j : Nat) : j ∈ depends s i ↔ Needs s i j := by
  unfold depends Needs
  cases initOf s i with
  | some e => simp
  | none =>
    by_cases h : i = 0
    · simp [h]
    · simp [h]; omega

theorem circular_sound (s : Inits) : ∀ fuel path i, (∀ p ∈ path, NeedsPlus s p i) →
    circular s fuel path i = true → OnCircle s i := by
  intro fuel
  induction fuel with
  | zero => intro path i _ h; simp [circular] at h
  | succ fuel ih =>
    intro path i hp h
    simp only [circular] at h
    split at h
    · rename_i hc
      exact ⟨i, .inl rfl, hp i (by simpa using hc)⟩
    · obtain ⟨j, hj, hc⟩ := List.any_eq_true.mp h
      have hn := (mem_depends s i j).mp hj
      have ext : ∀ {a b}, NeedsPlus s a b → Needs s b j → NeedsPlus s a j := by
        intro a b hab
        induction hab with
        | one h1 => intro h2; exact .cons h1 (.one h2)
        | cons h1 _ ih => intro h2; exact .cons h1 (ih h2)
      have := ih (i :: path) j (by
        intro p hp'
        rcases List.mem_cons.mp hp' with rfl | hp'
        · exact .one hn
        · exact ext (hp p hp') hn) hc
      obtain ⟨k, hk, hkk⟩ := this
      refine ⟨k, .inr ?_, hkk⟩
      rcases hk with rfl | hk
      · exact .one hn
      · exact .cons hn hk

theorem length_le_of_nodup : ∀ {n : Nat} {l : List Nat}, l.Nodup → (∀ x ∈ l, x < n) → l.length ≤ n := by
  intro n
  induction n with
  | zero =>
    intro l _ hl
    cases l with
    | nil => simp
    | cons a l => exact absurd (hl a (by simp)) (by omega)
  | succ n ih =>
    intro l hn hl
    have h1 := ih (hn.erase n) (by
      intro x hx
      have := (List.Nodup.mem_erase_iff hn).mp hx
      have := hl x this.2
      omega)
    have h2 := List.length_erase (a := n) (l := l)
    split at h2 <;> omega

/-- A set of fields in which every field needs one of the set. -/
theorem circular_complete (s : Inits) (n : Nat) (P : Nat → Prop) (hP : ∀ i, P i → i < n ∧ ∃ j, Needs s i j ∧ P j) :
    ∀ fuel path i, fuel + path.length = n + 1 → path.Nodup → (∀ p ∈ path, p < n) → P i →
    circular s fuel path i = true := by
  intro fuel
  induction fuel with
  | zero =>
    intro path i hl hn hlt _
    have := length_le_of_nodup hn hlt
    omega
  | succ fuel ih =>
    intro path i hl hn hlt hi
    simp only [circular]
    split
    · rfl
    · rename_i hc
      obtain ⟨hin, j, hj, hPj⟩ := hP i hi
      rw [List.any_eq_true]
      refine ⟨j, (mem_depends s i j).mpr hj, ih (i :: path) j ?_ ?_ ?_ hPj⟩
      · simp; omega
      · exact List.nodup_cons.mpr ⟨by simpa using hc, hn⟩
      · intro p hp
        rcases List.mem_cons.mp hp with rfl | hp
        · exact hin
        · exact hlt p hp

theorem onCircle_step {s : Inits} {i : Nat} (h : OnCircle s i) : ∃ j, Needs s i j ∧ OnCircle s j := by
  obtain ⟨k, hk, hkk⟩ := h
  have aux : ∀ {a}, NeedsPlus s a k → ∃ j, Needs s a j ∧ OnCircle s j := by
    intro a ha
    cases ha with
    | one h1 => exact ⟨k, h1, k, .inl rfl, hkk⟩
    | cons h1 h2 => exact ⟨_, h1, k, .inr h2, hkk⟩
  rcases hk with rfl | hk
  · exact aux hkk
  · exact aux hk

theorem needs_lt {s : Inits} (hc : Closed s) {i j : Nat} (hi : i < s.length) (h : Needs s i j) : j < s.length := by
  unfold Needs at h
  cases hs : initOf s i with
  | some e => rw [hs] at h; exact hc i e hs j h
  | none => rw [hs] at h; simp only at h; omega

theorem circular_iff {s : Inits} (hc : Closed s) {i : Nat} (hi : i < s.length) :
    circular s (s.length + 1) [] i = true ↔ OnCircle s i := by
  constructor
  · exact circular_sound s _ [] i (by simp)
  · intro h
    refine circular_complete s s.length (fun i => i < s.length ∧ OnCircle s i) ?_ _ [] i (by simp) (by simp) (by simp) ⟨hi, h⟩
    intro i ⟨hi, h⟩
    obtain ⟨j, hj, ho⟩ := onCircle_step h
    exact ⟨hi, j, hj, needs_lt hc hi hj, ho⟩

/-! ## Lists of values -/

theorem initOf_set (s : Inits) (i j : Nat) (e : Ex) (hi : i < s.length) :
    initOf (s.set i (some e)) j = if i = j then some e else initOf s j := by
  unfold initOf
  rw [List.getElem?_set]
  by_cases h : i = j
  · subst h; simp [hi]
  · simp [h]

theorem initOf_lt {s : Inits} {i : Nat} {e : Ex} (h : initOf s i = some e) : i < s.length := by
  unfold initOf at h
  cases hg : s[i]? with
  | none => rw [hg] at h; simp at h
  | some x => exact (List.getElem?_eq_some_iff.mp hg).1

/-- The fields before `i` have their values, the others are as declared. -/
def Upto (t : VT) (decl : Inits) (vs : List Int) (i : Nat) (s : Inits) : Prop :=
  s.length = decl.length ∧
  (∀ j, j < i → j < s.length → initOf s j = some (.lit (.num t (vs.getD j 0)))) ∧
  (∀ j, i ≤ j → initOf s j = initOf decl j)

theorem exec_upto {t : VT} {decl : Inits} {vs : List Int} {i : Nat} {s : Inits} (h : Upto t decl vs i s)
    (hi : i ≤ s.length) (fuel : Nat) : ∀ e : Ex, (∀ j ∈ refs e, j < i) →
    exec t s (fuel + 1) e = den t vs e := by
  intro e
  induction e with
  | lit c => intro _; rfl
  | field j =>
    intro hj
    have hj : j < i := hj j (by simp [refs])
    simp only [exec, eval, den, h.2.1 j hj (by omega)]
    cases fuel <;> rfl
  | op f a b iha ihb =>
    intro hj
    have iha := iha
    have ihb := ihb
    simp only [exec, eval, den] at iha ihb ⊢
    rw [iha (fun j hj' => hj j (by simp [refs, hj'])), ihb (fun j hj' => hj j (by simp [refs, hj']))]

theorem allInit_upto {t : VT} {decl : Inits} {vs : List Int} {i : Nat} {s : Inits} (h : Upto t decl vs i s)
    (hi : i ≤ s.length) (fuel : Nat) (e : Ex) (hr : ∀ j ∈ refs e, j < i) : allInit t s fuel e = true := by
  cases fuel with
  | zero => rfl
  | succ fuel =>
    simp only [allInit, List.all_eq_true]
    intro j hj
    simp only [h.2.1 j (hr j hj) (by have := hr j hj; omega)]
    cases fuel <;> simp [exec, eval, allInit, refs]

theorem needs_backward {t : VT} {decl : Inits} {vs : List Int} {i : Nat} {s : Inits} (h : Upto t decl vs i s)
    (hb : Backward decl) {a b : Nat} (ha : a < s.length) (hn : Needs s a b) : b < a := by
  unfold Needs at hn
  by_cases hai : a < i
  · rw [h.2.1 a hai ha] at hn
    simp [refs] at hn
  · rw [h.2.2 a (by omega)] at hn
    cases hd : initOf decl a with
    | some e => rw [hd] at hn; exact hb a e hd b hn
    | none => rw [hd] at hn; simp only at hn; omega

theorem not_circular_backward {t : VT} {decl : Inits} {vs : List Int} {i : Nat} {s : Inits} (h : Upto t decl vs i s)
    (hb : Backward decl) : ∀ fuel path a, a < s.length → (∀ p ∈ path, a < p) → circular s fuel path a = false := by
  intro fuel
  induction fuel with
  | zero => intros; rfl
  | succ fuel ih =>
    intro path a ha hp
    simp only [circular]
    rw [if_neg (by
      simp only [List.contains_iff_mem]
      intro hm
      exact absurd (hp a hm) (by omega))]
    rw [List.any_eq_false]
    intro j hj
    have hlt := needs_backward h hb ha ((mem_depends s a j).mp hj)
    rw [ih (a :: path) j (by omega) (by
      intro p hp'
      rcases List.mem_cons.mp hp' with rfl | hp'
      · exact hlt
      · exact Nat.lt_trans hlt (hp p hp'))]
    simp

/-- The value `den` gives depends only on the fields that occur. -/
theorem den_congr {t : VT} {vs ws : List Int} : ∀ e : Ex, (∀ j ∈ refs e, vs.getD j 0 = ws.getD j 0) →
    den t vs e = den t ws e := by
  intro e
  induction e with
  | lit c => intro _; rfl
  | field j => intro h; simp only [den]; rw [h j (by simp [refs])]
  | op f a b iha ihb =>
    intro h
    simp only [den]
    rw [iha fun j hj => h j (by simp [refs, hj]), ihb fun j hj => h j (by simp [refs, hj])]

/-! ## One field -/

theorem fill_explicit {t : VT} {decl : Inits} {vs : List Int} {i : Nat} {s : St} {e : Ex} (ht : t.isInt = true)
    (hb : Backward decl) (hpl : Plain t decl) (hu : Upto t decl vs i s.inits) (hi : i < s.inits.length)
    (hv : ∀ v ∈ vs, Fits t v) (he : initOf decl i = some e) :
    (∃ t' n, den t vs e = .num t' n ∧ Fits t n ∧
      fill t s i = (.succeed, { s.put i (.num t n) with value := n, isNext := false })) ∨
    ((∃ err, fill t s i = (.error err, s)) ∧ ¬ ∃ t' n, den t vs e = .num t' n ∧ Fits t n) := by
  have hs : initOf s.inits i = some e := by rw [hu.2.2 i (Nat.le_refl i)]; exact he
  have hr : ∀ j ∈ refs e, j < i := hb i e he
  have hx : exec t s.inits s.fuel e = den t vs e := exec_upto hu (by omega) _ e hr
  unfold fill
  simp only [hs, not_circular_backward hu hb s.fuel [] i hi (by simp), hx,
    allInit_upto hu (by omega) s.fuel e hr]
  cases hd : den t vs e with
  | num t' n =>
    obtain ⟨h1, h2, h3⟩ := hpl i e he vs hv t' n hd
    have h3' : t' = t ∨ (t' ≠ .uint64 ∧ t ≠ .uint64) := h3
    simp only [Cv.le, Cv.lt, compare_plain h1 ht h2 (fits_max ht) h3', compare_plain h1 ht h2 (fits_min ht) h3']
    by_cases ha : n ≤ maxOf t
    · by_cases hb' : minOf t ≤ n
      · left
        refine ⟨t', n, rfl, ⟨hb', ha⟩, ?_⟩
        simp [ha, Int.not_lt.mpr hb', conv_fits ht ⟨hb', ha⟩]
      · right
        refine ⟨⟨.tooSmall, ?_⟩, ?_⟩
        · simp [ha, Int.not_le.mp hb']
        · rintro ⟨t2, n2, h, hf⟩
          cases h
          exact hb' hf.1
    · right
      refine ⟨⟨.tooLarge, ?_⟩, ?_⟩
      · simp [ha]
      · rintro ⟨t2, n2, h, hf⟩
        cases h
        exact ha hf.2
  | nan => right; exact ⟨⟨.notConstant, by simp⟩, by simp⟩
  | string => right; exact ⟨⟨.tooLarge, by simp [Cv.le, Cv.rank]⟩, by simp⟩
  | null => right; exact ⟨⟨.tooLarge, by simp [Cv.le, Cv.rank]⟩, by simp⟩
  | type => right; exact ⟨⟨.tooLarge, by simp [Cv.le, Cv.rank]⟩, by simp⟩

theorem upto_put {t : VT} {decl : Inits} {vs ws : List Int} {i : Nat} {s : Inits} {n : Int}
    (hu : Upto t decl vs i s) (hi : i < s.length) (hw : ∀ j, j < i → ws.getD j 0 = vs.getD j 0)
    (hn : ws.getD i 0 = n) : Upto t decl ws (i + 1) (s.set i (some (.lit (.num t n)))) := by
  refine ⟨by simpa using hu.1, ?_, ?_⟩
  · intro j hj hjl
    rw [initOf_set s i j _ hi]
    by_cases h : i = j
    · subst h; rw [if_pos rfl, hn]
    · rw [if_neg h, hw j (by omega)]
      exact hu.2.1 j (by omega) (by simpa using hjl)
  · intro j hj
    rw [initOf_set s i j _ hi, if_neg (by omega)]
    exact hu.2.2 j (by omega)

/-! ## All fields, from the values -/

theorem getD_fits {t : VT} {vs : List Int} (ht : t.isInt = true) (hv : ∀ v ∈ vs, Fits t v) (i : Nat) :
    Fits t (vs.getD i 0) := by
  rw [List.getD_eq_getElem?_getD]
  cases h : vs[i]? with
  | none => exact fits_zero ht
  | some v => exact hv v (List.mem_of_getElem? h)

theorem isValues_fits {t : VT} {decl : Inits} {vals : List Int} (h : IsValues t decl vals) : ∀ v ∈ vals, Fits t v := by
  intro v hv
  obtain ⟨i, hi, rfl⟩ := List.mem_iff_getElem.mp hv
  have := (h.2 i (by rw [← h.1]; exact hi)).1
  simpa [List.getD_eq_getElem?_getD, hi] using this

/-- `__value` and `__is_next_value` before field `i`. -/
def Counter (s : St) (vs : List Int) (i : Nat) : Prop :=
  (i = 0 → s.isNext = true ∧ s.value = 0) ∧ (0 < i → s.isNext = false ∧ s.value = vs.getD (i - 1) 0)

theorem loop_values {t : VT} {decl : Inits} {vals : List Int} (ht : t.isInt = true) (hb : Backward decl)
    (hpl : Plain t decl) (hvals : IsValues t decl vals) : ∀ (n i : Nat) (s : St), n + i = decl.length →
    Upto t decl vals i s.inits → Counter s vals i → s.errors = [] →
    ∃ s', loop t n i none s = (none, s') ∧ s'.errors = [] ∧ Upto t decl vals decl.length s'.inits := by
  intro n
  induction n with
  | zero =>
    intro i s hn hu _ he
    have : i = decl.length := by omega
    subst this
    exact ⟨s, rfl, he, hu⟩
  | succ n ih =>
    intro i s hn hu hc he
    have hi : i < s.inits.length := by rw [hu.1]; omega
    have hR := hvals.2 i (by omega)
    simp only [loop, if_pos hi]
    cases hd : initOf decl i with
    | some e =>
      have hR2 := hR.2
      simp only [hd] at hR2
      obtain ⟨t', hden⟩ := hR2
      rcases fill_explicit ht hb hpl hu hi (isValues_fits hvals) hd with ⟨t2, n2, h1, _, h3⟩ | ⟨_, h⟩
      · rw [hden] at h1
        cases h1
        rw [h3]
        refine ih (i + 1) _ (by omega) ?_ ?_ he
        · exact upto_put hu hi (fun _ _ => rfl) rfl
        · exact ⟨by omega, fun _ => ⟨rfl, rfl⟩⟩
      · exact absurd ⟨t', _, hden, hR.1⟩ h
    | none =>
      have hR2 := hR.2
      simp only [hd] at hR2
      have hs : initOf s.inits i = none := by rw [hu.2.2 i (Nat.le_refl i)]; exact hd
      simp only [fill, hs]
      by_cases h0 : i = 0
      · subst h0
        obtain ⟨hnx, hvz⟩ := hc.1 rfl
        rw [if_pos rfl] at hR2
        simp only [hnx, if_true]
        refine ih 1 _ (by omega) ?_ ?_ he
        · exact upto_put hu hi (fun _ _ => rfl) (by rw [hR2, hvz])
        · refine ⟨by omega, fun _ => ⟨rfl, ?_⟩⟩
          show s.value = _
          rw [hvz]; exact hR2.symm
      · obtain ⟨hnx, hvz⟩ := hc.2 (by omega)
        rw [if_neg h0] at hR2
        have hne : s.value ≠ maxOf t := by
          have := hR.1.2
          rw [hR2, ← hvz] at this
          omega
        simp only [hnx, Bool.false_eq_true, if_false, if_neg hne]
        refine ih (i + 1) _ (by omega) ?_ ?_ he
        · exact upto_put hu hi (fun _ _ => rfl) (by rw [hR2, hvz])
        · refine ⟨by omega, fun _ => ⟨hnx, ?_⟩⟩
          show s.value + 1 = _
          rw [hvz]; exact hR2.symm

/-! ## All fields, from the run -/

theorem getD_append_left {vs : List Int} {n : Int} {j : Nat} (h : j < vs.length) : (vs ++ [n]).getD j 0 = vs.getD j 0 := by
  simp [List.getD_eq_getElem?_getD, List.getElem?_append_left h]

theorem getD_append_last {vs : List Int} {n : Int} : (vs ++ [n]).getD vs.length 0 = n := by
  simp [List.getD_eq_getElem?_getD]

theorem right_append {t : VT} {decl : Inits} {vs : List Int} {n : Int} (hb : Backward decl) {j : Nat} (hj : j < vs.length)
    (h : Right t decl vs j) : Right t decl (vs ++ [n]) j := by
  unfold Right at h ⊢
  rw [getD_append_left hj]
  refine ⟨h.1, ?_⟩
  have h2 := h.2
  cases hd : initOf decl j with
  | some e =>
    simp only [hd] at h2 ⊢
    obtain ⟨t', h3⟩ := h2
    refine ⟨t', ?_⟩
    rw [den_congr (ws := vs) e]
    · exact h3
    · intro k hk
      exact getD_append_left (Nat.lt_trans (hb j e hd k hk) hj)
  | none =>
    simp only [hd] at h2 ⊢
    by_cases h0 : j = 0
    · simpa [h0] using h2
    · rw [if_neg h0] at h2 ⊢
      rw [h2, getD_append_left (by omega)]

theorem loop_run {t : VT} {decl : Inits} (ht : t.isInt = true) (hb : Backward decl) (hpl : Plain t decl) :
    ∀ (n i : Nat) (s : St) (vs : List Int), n + i = decl.length → vs.length = i → (∀ v ∈ vs, Fits t v) →
    Fits t s.value → Upto t decl vs i s.inits →
    (s.errors = [] → Counter s vs i ∧ ∀ j, j < i → Right t decl vs j) →
    ∃ s' ws, loop t n i none s = (none, s') ∧ ws.length = decl.length ∧ Upto t decl ws decl.length s'.inits ∧
      (s'.errors = [] → IsValues t decl ws) := by
  intro n
  induction n with
  | zero =>
    intro i s vs hn hl hv hsv hu hr
    have : i = decl.length := by omega
    subst this
    exact ⟨s, vs, rfl, hl, hu, fun he => ⟨hl, (hr he).2⟩⟩
  | succ n ih =>
    intro i s vs hn hl hv hsv hu hr
    have hi : i < s.inits.length := by rw [hu.1]; omega
    have fits' : ∀ {m}, Fits t m → ∀ v ∈ vs ++ [m], Fits t v := by
      intro m hm v hv'
      rcases List.mem_append.mp hv' with h | h
      · exact hv v h
      · rw [List.mem_singleton.mp h]; exact hm
    have upto' : ∀ {m}, Upto t decl (vs ++ [m]) (i + 1) (s.inits.set i (some (.lit (.num t m)))) := by
      intro m
      exact upto_put hu hi (fun j hj => getD_append_left (by omega)) (by rw [← hl]; exact getD_append_last)
    have right' : ∀ {m}, (∀ j, j < i → Right t decl vs j) → Right t decl (vs ++ [m]) i →
        ∀ j, j < i + 1 → Right t decl (vs ++ [m]) j := by
      intro m ho hm j hj
      by_cases h : j < i
      · exact right_append hb (by omega) (ho j h)
      · have : j = i := by omega
        subst this; exact hm
    simp only [loop, if_pos hi]
    cases hd : initOf decl i with
    | some e =>
      rcases fill_explicit ht hb hpl hu hi hv hd with ⟨t2, n2, h1, h2, h3⟩ | ⟨⟨err, h⟩, _⟩
      · rw [h3]
        refine ih (i + 1) _ (vs ++ [n2]) (by omega) (by simp [hl]) (fits' h2) h2 upto' ?_
        intro he
        refine ⟨⟨by omega, fun _ => ⟨rfl, ?_⟩⟩, right' (hr he).2 ?_⟩
        · show n2 = _
          rw [Nat.add_sub_cancel, ← hl]; exact getD_append_last.symm
        · unfold Right
          rw [← hl, getD_append_last]
          refine ⟨h2, ?_⟩
          rw [hl, hd]
          refine ⟨t2, ?_⟩
          rw [den_congr (ws := vs) e]
          · exact h1
          · intro k hk
            exact getD_append_left (by have := hb i e hd k hk; omega)
      · rw [h]
        refine ih (i + 1) _ (vs ++ [0]) (by omega) (by simp [hl]) (fits' (fits_zero ht)) hsv upto' ?_
        intro he
        simp at he
    | none =>
      have hs : initOf s.inits i = none := by rw [hu.2.2 i (Nat.le_refl i)]; exact hd
      simp only [fill, hs]
      by_cases hnx : s.isNext = true
      · simp only [hnx, if_true]
        refine ih (i + 1) _ (vs ++ [s.value]) (by omega) (by simp [hl]) (fits' hsv) hsv upto' ?_
        intro he
        obtain ⟨hc, ho⟩ := hr he
        have h0 : i = 0 := by
          rcases Nat.eq_zero_or_pos i with h | h
          · exact h
          · have := (hc.2 h).1; rw [hnx] at this; cases this
        have hz : s.value = 0 := (hc.1 h0).2
        refine ⟨⟨by omega, fun _ => ⟨rfl, ?_⟩⟩, right' ho ?_⟩
        · show s.value = _
          rw [Nat.add_sub_cancel, ← hl]; exact getD_append_last.symm
        · unfold Right
          rw [← hl, getD_append_last, hl, hd]
          exact ⟨hsv, by simp [h0, hz]⟩
      · have hnx' : s.isNext = false := by simpa using hnx
        by_cases hne : s.value = maxOf t
        · simp only [hnx', Bool.false_eq_true, if_false, if_pos hne]
          refine ih (i + 1) _ (vs ++ [0]) (by omega) (by simp [hl]) (fits' (fits_zero ht)) hsv upto' ?_
          intro he
          simp at he
        · simp only [hnx', Bool.false_eq_true, if_false, if_neg hne]
          have hf : Fits t (s.value + 1) := ⟨by have := hsv.1; omega, by have := hsv.2; omega⟩
          refine ih (i + 1) _ (vs ++ [s.value + 1]) (by omega) (by simp [hl]) (fits' hf) hf upto' ?_
          intro he
          obtain ⟨hc, ho⟩ := hr he
          have h0 : 0 < i := by
            rcases Nat.eq_zero_or_pos i with h | h
            · have := (hc.1 h).1; rw [hnx'] at this; cases this
            · exact h
          refine ⟨⟨by omega, fun _ => ⟨hnx', ?_⟩⟩, right' ho ?_⟩
          · show s.value + 1 = _
            rw [Nat.add_sub_cancel, ← hl]; exact getD_append_last.symm
          · unfold Right
            rw [← hl, getD_append_last, hl, hd]
            refine ⟨hf, ?_⟩
            rw [if_neg (by omega), (hc.2 h0).2, getD_append_left (by omega)]

/-! ## Circles are reported -/

theorem fill_errors (t : VT) (s : St) (i : Nat) : (fill t s i).2.errors = s.errors := by
  unfold fill
  simp only []
  repeat' split
  all_goals rfl

theorem fill_length (t : VT) (s : St) (i : Nat) : (fill t s i).2.inits.length = s.inits.length := by
  unfold fill
  simp only []
  repeat' split
  all_goals simp [St.put]

theorem fill_other (t : VT) (s : St) (i j : Nat) (h : i ≠ j) : initOf (fill t s i).2.inits j = initOf s.inits j := by
  unfold fill
  simp only []
  repeat' split
  all_goals simp [St.put, initOf, List.getElem?_set, h]

theorem loop_errors (t : VT) : ∀ n i brk s, s.errors ≠ [] → (loop t n i brk s).2.errors ≠ [] := by
  intro n
  induction n with
  | zero => intro i brk s h; exact h
  | succ n ih =>
    intro i brk s h
    simp only [loop]
    split
    · have := fill_errors t s i
      split
      · rename_i s' heq
        rw [heq] at this
        exact ih _ _ _ (by rw [this]; exact h)
      · exact ih _ _ _ (by simp)
      · rename_i s' heq
        rw [heq] at this
        exact ih _ _ _ (by rw [this]; exact h)
    · exact h

theorem passes_errors (t : VT) : ∀ k i s, s.errors ≠ [] → (passes t k i s).2.errors ≠ [] := by
  intro k
  induction k with
  | zero => intro i s h; exact h
  | succ k ih =>
    intro i s h
    simp only [passes]
    have := loop_errors t s.inits.length i none s h
    split
    · rename_i heq; rw [heq] at this; exact this
    · rename_i heq; rw [heq] at this; exact ih _ _ this

/-- While nothing was reported, the fields that lead to a circle are as declared. -/
def Kept (decl s : Inits) : Prop := s.length = decl.length ∧ ∀ j, OnCircle decl j → initOf s j = initOf decl j

theorem kept_circular {decl s : Inits} (hc : Closed decl) (hk : Kept decl s) {i : Nat} (hi : i < decl.length)
    (h : OnCircle decl i) : circular s (s.length + 1) [] i = true := by
  refine circular_complete s s.length (fun i => i < s.length ∧ OnCircle decl i) ?_ _ [] i (by simp) (by simp) (by simp)
    ⟨by rw [hk.1]; exact hi, h⟩
  intro i ⟨hi, h⟩
  obtain ⟨j, hj, ho⟩ := onCircle_step h
  refine ⟨hi, j, ?_, ?_, ho⟩
  · unfold Needs at hj ⊢
    rw [hk.2 i h]; exact hj
  · rw [hk.1] at hi ⊢
    exact needs_lt hc hi hj

theorem takeWhile_le : ∀ (l : List (Option Ex)) (k : Nat) (e : Ex), (l[k]?).join = some e →
    (l.takeWhile (·.isNone)).length ≤ k := by
  intro l
  induction l with
  | nil => simp
  | cons a l ih =>
    intro k e h
    cases a with
    | some e' => simp
    | none =>
      cases k with
      | zero => simp at h
      | succ k =>
        simp only [List.takeWhile_cons, Option.isNone_none, if_true, List.length_cons]
        exact Nat.succ_le_succ (ih k e (by simpa using h))

theorem skip_le {s : Inits} {i m : Nat} {e : Ex} (hi : i < m) (hm : initOf s m = some e) : i + 1 + skip s i ≤ m := by
  have := takeWhile_le (s.drop (i + 1)) (m - (i + 1)) e (by
    rw [List.getElem?_drop, Nat.add_sub_cancel' (by omega)]; exact hm)
  unfold skip
  omega

theorem skip_lands {s : Inits} {i : Nat} (h : i + 1 + skip s i < s.length) : (initOf s (i + 1 + skip s i)).isSome = true := by
  have h1 : ∀ l : List (Option Ex), (l.takeWhile (·.isNone)).length < l.length →
      ((l[(l.takeWhile (·.isNone)).length]?).join).isSome = true := by
    intro l
    induction l with
    | nil => simp
    | cons a l ih =>
      intro h
      cases a with
      | none =>
        simp only [List.takeWhile_cons, Option.isNone_none, if_true, List.length_cons] at h ⊢
        rw [List.getElem?_cons_succ]
        exact ih (by omega)
      | some e => simp
  have h2 := h1 (s.drop (i + 1)) (by simp only [List.length_drop]; unfold skip at h; omega)
  rw [List.getElem?_drop] at h2
  exact h2

theorem fill_break {t : VT} {s s' : St} {i : Nat} (h : fill t s i = (.break_, s')) : s' = s := by
  unfold fill at h
  simp only [] at h
  repeat' split at h
  all_goals first
    | (cases h; rfl)
    | (injection h with h1 h2; first | exact h2.symm | cases h1)

theorem loop_circle {t : VT} {decl : Inits} (hc : Closed decl) {m : Nat} {em : Ex} (hm : initOf decl m = some em)
    (hom : OnCircle decl m) : ∀ n i brk s, i ≤ m → m < n + i → Kept decl s.inits →
    (OnCircle decl i → (initOf decl i).isSome = true) → (loop t n i brk s).2.errors ≠ [] := by
  have hml := initOf_lt hm
  intro n
  induction n with
  | zero => intro i brk s h1 h2; omega
  | succ n ih =>
    intro i brk s him hmn hk hex
    have hi : i < s.inits.length := by rw [hk.1]; omega
    simp only [loop, if_pos hi]
    by_cases ho : OnCircle decl i
    · have hsome := hex ho
      obtain ⟨e, he⟩ := Option.isSome_iff_exists.mp hsome
      have hs : initOf s.inits i = some e := by rw [hk.2 i ho]; exact he
      have hf : fill t s i = (.error .circular, s) := by
        unfold fill
        simp only [hs, St.fuel, kept_circular hc hk (by omega) ho, if_true]
      rw [hf]
      exact loop_errors t _ _ _ _ (by simp)
    · have hne : i ≠ m := fun h => ho (h ▸ hom)
      cases hf : fill t s i with
      | mk r s' =>
        have hk' : Kept decl s'.inits := by
          have h1 := fill_length t s i
          rw [hf] at h1
          refine ⟨by rw [← hk.1]; exact h1, fun j hj => ?_⟩
          have h2 := fill_other t s i j (fun h => ho (h ▸ hj))
          rw [hf] at h2
          rw [← hk.2 j hj]
          exact h2
        cases r with
        | error e => exact loop_errors t _ _ _ _ (by simp)
        | succeed =>
          refine ih (i + 1) brk s' (by omega) (by omega) hk' ?_
          intro ho'
          cases hd : initOf decl (i + 1) with
          | some e => rfl
          | none =>
            obtain ⟨j, hj, hoj⟩ := onCircle_step ho'
            unfold Needs at hj
            rw [hd] at hj
            have : j = i := by simp only at hj; omega
            exact absurd (this ▸ hoj) ho
        | break_ =>
          have hms : initOf s'.inits m = some em := by rw [hk'.2 m hom]; exact hm
          have hle := skip_le (i := i) (by omega) hms
          refine ih _ _ s' hle (by omega) hk' ?_
          intro ho'
          rw [← hk'.2 _ ho']
          exact skip_lands (by rw [hk'.1]; omega)

theorem explicit_on_circle {decl : Inits} : ∀ i, OnCircle decl i → ∃ m e, initOf decl m = some e ∧ OnCircle decl m := by
  intro i
  induction i with
  | zero =>
    intro h
    cases hd : initOf decl 0 with
    | some e => exact ⟨0, e, hd, h⟩
    | none =>
      obtain ⟨j, hj, _⟩ := onCircle_step h
      unfold Needs at hj
      rw [hd] at hj
      simp at hj
  | succ i ih =>
    intro h
    cases hd : initOf decl (i + 1) with
    | some e => exact ⟨i + 1, e, hd, h⟩
    | none =>
      obtain ⟨j, hj, ho⟩ := onCircle_step h
      unfold Needs at hj
      rw [hd] at hj
      have : j = i := by simp only at hj; omega
      subst this
      exact ih ho

/-! ## The rounds come to an end -/

/-- A constant. -/
def isDone : Option Ex → Bool
  | some (.lit (.num _ _)) => true
  | _ => false

/-- A field that has its value. -/
def Done (s : Inits) (i : Nat) : Prop := isDone (initOf s i) = true

/-- The number of fields without their value. -/
def left (s : Inits) : Nat := s.countP fun x => !isDone x

theorem left_lt : ∀ {a b : Inits}, a.length = b.length → (∀ x, Done a x → Done b x) →
    (∃ x, ¬ Done a x ∧ Done b x) → left b < left a := by
  have le : ∀ {a b : Inits}, a.length = b.length → (∀ x, Done a x → Done b x) → left b ≤ left a := by
    intro a
    induction a with
    | nil => intro b hl _; cases b with
      | nil => simp
      | cons => simp at hl
    | cons u a ih =>
      intro b hl h
      cases b with
      | nil => simp at hl
      | cons v b =>
        have h0 : isDone u = true → isDone v = true := by simpa [Done, initOf] using h 0
        have := ih (b := b) (by simpa using hl) (fun x hx => by
          have := h (x + 1) (by simpa [Done, initOf] using hx)
          simpa [Done, initOf] using this)
        simp only [left, List.countP_cons] at this ⊢
        cases hu : isDone u <;> cases hv : isDone v <;> simp_all <;> omega
  intro a
  induction a with
  | nil =>
    intro b hl _ ⟨x, _, h⟩
    cases b with
    | nil => simp [Done, initOf, isDone] at h
    | cons => simp at hl
  | cons u a ih =>
    intro b hl h hx
    cases b with
    | nil => simp at hl
    | cons v b =>
      have h0 : isDone u = true → isDone v = true := by simpa [Done, initOf] using h 0
      have hs : ∀ x, Done a x → Done b x := fun x hx => by
        have := h (x + 1) (by simpa [Done, initOf] using hx)
        simpa [Done, initOf] using this
      obtain ⟨x, hx1, hx2⟩ := hx
      have hle := le (a := a) (b := b) (by simpa using hl) hs
      cases x with
      | zero =>
        have hx1 : isDone u = false := by simpa [Done, initOf] using hx1
        have hx2 : isDone v = true := by simpa [Done, initOf] using hx2
        simp only [left, List.countP_cons] at hle ⊢
        simp_all
        omega
      | succ x =>
        have := ih (b := b) (by simpa using hl) hs ⟨x, by simpa [Done, initOf] using hx1, by simpa [Done, initOf] using hx2⟩
        simp only [left, List.countP_cons] at this ⊢
        cases hu : isDone u <;> cases hv : isDone v <;> simp_all <;> omega

/-- From `a` to `b` fields got their values, and nothing else happened. -/
structure Later (a b : Inits) : Prop where
  len : b.length = a.length
  done : ∀ x, Done a x → Done b x
  same : ∀ x, ¬ Done b x → initOf b x = initOf a x

theorem Later.refl (a : Inits) : Later a a := ⟨rfl, fun _ h => h, fun _ _ => rfl⟩

theorem Later.trans {a b c : Inits} (h1 : Later a b) (h2 : Later b c) : Later a c :=
  ⟨h2.len.trans h1.len, fun x h => h2.done x (h1.done x h), fun x h => by
    rw [h2.same x h]; exact h1.same x (fun h' => h (h2.done x h'))⟩

theorem later_set (s : Inits) (i : Nat) (t : VT) (v : Int) (hi : i < s.length) :
    Later s (s.set i (some (.lit (.num t v)))) ∧ Done (s.set i (some (.lit (.num t v)))) i := by
  refine ⟨⟨by simp, fun x h => ?_, fun x h => ?_⟩, ?_⟩
  · unfold Done at h ⊢
    rw [initOf_set s i x _ hi]
    split
    · rfl
    · exact h
  · unfold Done at h
    rw [initOf_set s i x _ hi] at h ⊢
    split
    · rename_i he; rw [if_pos he] at h; simp [isDone] at h
    · rfl
  · unfold Done
    rw [initOf_set s i i _ hi, if_pos rfl]; rfl

theorem done_needs {s : Inits} {i j : Nat} (h : Done s i) : ¬ Needs s i j := by
  unfold Done at h
  unfold Needs
  split
  · rename_i e he
    rw [he] at h
    cases e with
    | lit c => simp [refs]
    | field => simp [isDone] at h
    | op => simp [isDone] at h
  · rename_i he; rw [he] at h; simp [isDone] at h

theorem Later.needs {a b : Inits} (h : Later a b) {i j : Nat} (hn : Needs b i j) : Needs a i j := by
  have hd : ¬ Done b i := fun hd => done_needs hd hn
  unfold Needs at hn ⊢
  rw [← h.same i hd]; exact hn

theorem Later.closed {a b : Inits} (h : Later a b) (hc : Closed a) : Closed b := by
  intro i e he j hj
  rw [h.len]
  have hn : Needs b i j := by unfold Needs; rw [he]; exact hj
  have hn' := h.needs hn
  exact needs_lt hc (by rw [← h.len]; exact initOf_lt he) hn'

/-- What one step of the loop does to the fields. -/
theorem fill_done {t : VT} {s s' : St} {i : Nat} (hi : i < s.inits.length) (h : fill t s i = (.succeed, s')) :
    Later s.inits s'.inits ∧ Done s'.inits i := by
  unfold fill at h
  simp only [] at h
  repeat' split at h
  all_goals first
    | (cases h; exact later_set _ _ _ _ hi)
    | (injection h with h1 h2; cases h1; done)
    | skip
  rename_i hv h1 h2 v hx
  exfalso
  generalize exec t s.inits s.fuel _ = w at *
  cases w with
  | num t n => exact hx t n rfl
  | nan => simp at hv
  | string => simp [Cv.le, Cv.rank] at h1
  | null => simp [Cv.le, Cv.rank] at h1
  | type => simp [Cv.le, Cv.rank] at h1

theorem fill_error {t : VT} {s s' : St} {i : Nat} {e : Err} (h : fill t s i = (.error e, s')) : s' = s := by
  unfold fill at h
  simp only [] at h
  repeat' split at h
  all_goals first
    | (cases h; rfl)
    | (injection h with h1 h2; first | exact h2.symm | cases h1)

theorem done_lit {s : Inits} {i : Nat} (h : Done s i) : ∃ t v, initOf s i = some (.lit (.num t v)) := by
  unfold Done at h
  cases hs : initOf s i with
  | none => rw [hs] at h; simp [isDone] at h
  | some e =>
    rw [hs] at h
    cases e with
    | lit c =>
      cases c with
      | num t v => exact ⟨t, v, rfl⟩
      | _ => simp [isDone] at h
    | field => simp [isDone] at h
    | op => simp [isDone] at h

theorem fill_ready {t : VT} {s s' : St} {i : Nat} (h : ∀ j, Needs s.inits i j → Done s.inits j) :
    fill t s i ≠ (.break_, s') := by
  intro hf
  cases hs : initOf s.inits i with
  | none =>
    simp only [fill, hs] at hf
    repeat' split at hf
    all_goals cases hf
  | some e =>
    have ha : allInit t s.inits s.fuel e = true := by
      unfold St.fuel
      simp only [allInit, List.all_eq_true]
      intro j hj
      obtain ⟨t', v, hl⟩ := done_lit (h j (by unfold Needs; rw [hs]; exact hj))
      simp only [hl]
      cases s.inits.length <;> simp [exec, eval, allInit, refs]
    simp only [fill, hs, ha, if_true] at hf
    repeat' split at hf
    all_goals cases hf

theorem put_later {t : VT} {s : St} {i : Nat} (hi : i < s.inits.length) (v : Int) (errs : List (Nat × Err)) :
    Later s.inits ({ s.put i (.num t v) with errors := errs } : St).inits ∧
      Done ({ s.put i (.num t v) with errors := errs } : St).inits i := later_set s.inits i t v hi

theorem loop_later (t : VT) : ∀ n i brk s, Later s.inits (loop t n i brk s).2.inits := by
  intro n
  induction n with
  | zero => intro i brk s; exact Later.refl _
  | succ n ih =>
    intro i brk s
    simp only [loop]
    split
    · rename_i hi
      split
      · rename_i s' hf; exact (fill_done hi hf).1.trans (ih _ _ _)
      · rename_i e s' hf
        have := fill_error hf
        subst this
        exact (put_later hi 0 _).1.trans (ih _ _ _)
      · rename_i s' hf
        have := fill_break hf
        subst this
        exact ih _ _ _
    · exact Later.refl _

/-- A field whose needs are met gets its value in the round. -/
theorem loop_ready {t : VT} {x : Nat} : ∀ n i brk s, i ≤ x → x < n + i → x < s.inits.length →
    (∀ j, Needs s.inits x j → Done s.inits j) → Done (loop t n i brk s).2.inits x := by
  intro n
  induction n with
  | zero => intro i brk s h1 h2; omega
  | succ n ih =>
    intro i brk s hix hxn hxl hr
    have hi : i < s.inits.length := by omega
    simp only [loop, if_pos hi]
    have next : ∀ {i' brk s'}, i' ≤ x → x < n + i' → Later s.inits s'.inits →
        Done (loop t n i' brk s').2.inits x := by
      intro i' brk s' h1 h2 hl
      refine ih i' brk s' h1 h2 (by rw [hl.len]; exact hxl) ?_
      intro j hj
      exact hl.done j (hr j (hl.needs hj))
    have stay : ∀ {brk s'}, Later s.inits s'.inits → Done s'.inits i → Done (loop t n (i + 1) brk s').2.inits x := by
      intro brk s' hl hd
      by_cases he : i = x
      · subst he
        exact (loop_later t n _ _ _).done i hd
      · exact next (by omega) (by omega) hl
    split
    · rename_i s' hf
      obtain ⟨h1, h2⟩ := fill_done hi hf
      exact stay h1 h2
    · rename_i e s' hf
      have := fill_error hf
      subst this
      exact stay (put_later hi 0 _).1 (put_later hi 0 _).2
    · rename_i s' hf
      have hb := fill_break hf
      subst hb
      have hne : i ≠ x := fun h => fill_ready (h ▸ hr) hf
      have hle : i + 1 + skip s'.inits i ≤ x := by
        cases hx : initOf s'.inits x with
        | some e => exact skip_le (by omega) hx
        | none =>
          have hd : Done s'.inits (x - 1) := hr (x - 1) (by unfold Needs; rw [hx]; simp only; omega)
          obtain ⟨t', v, hl⟩ := done_lit hd
          have hne' : i ≠ x - 1 := fun h => fill_ready (fun j hj => absurd hj (done_needs (h ▸ hd))) hf
          have := skip_le (i := i) (m := x - 1) (by omega) hl
          omega
      exact next hle (by omega) (Later.refl _)

theorem loop_brk (t : VT) (j : Nat) : ∀ n i s, (loop t n i (some j) s).1 = some j := by
  intro n
  induction n with
  | zero => intros; rfl
  | succ n ih =>
    intro i s
    simp only [loop]
    split
    · split <;> simp [ih]
    · rfl

/-- The first field that has to wait. -/
theorem loop_waits {t : VT} {j : Nat} : ∀ n i s, (∀ y, y < i → Done s.inits y) → (loop t n i none s).1 = some j →
    ∃ sj, Later s.inits sj.inits ∧ Later sj.inits (loop t n i none s).2.inits ∧ fill t sj j = (.break_, sj) ∧
      j < sj.inits.length ∧ (∀ y, y < j → Done sj.inits y) := by
  intro n
  induction n with
  | zero => intro i s _ h; simp [loop] at h
  | succ n ih =>
    intro i s hd h
    simp only [loop] at h ⊢
    split at h
    · rename_i hi
      rw [if_pos hi]
      have step : ∀ {s' : St}, Later s.inits s'.inits → Done s'.inits i → (loop t n (i + 1) none s').1 = some j →
          ∃ sj, Later s.inits sj.inits ∧ Later sj.inits (loop t n (i + 1) none s').2.inits ∧
            fill t sj j = (.break_, sj) ∧ j < sj.inits.length ∧ (∀ y, y < j → Done sj.inits y) := by
        intro s' hl hdi hj
        obtain ⟨sj, h1, h2, h3⟩ := ih (i + 1) s' (fun y hy => by
          by_cases he : y = i
          · exact he ▸ hdi
          · exact hl.done y (hd y (by omega))) hj
        exact ⟨sj, hl.trans h1, h2, h3⟩
      cases hf : fill t s i with
      | mk r s' =>
        rw [hf] at h
        cases r with
        | succeed => exact step (fill_done hi hf).1 (fill_done hi hf).2 h
        | error e =>
          have := fill_error hf
          subst this
          exact step (put_later hi 0 _).1 (put_later hi 0 _).2 h
        | break_ =>
          have := fill_break hf
          subst this
          simp only [Option.none_or, loop_brk, Option.some.injEq] at h
          subst h
          exact ⟨s', Later.refl _, loop_later t _ _ _ _, hf, hi, hd⟩
    · cases h

/-- A round in which a field has to wait gives another field its value. -/
theorem loop_progress {t : VT} {j i : Nat} {s : St} (hc : Closed s.inits) (hd : ∀ y, y < i → Done s.inits y)
    (h : (loop t s.inits.length i none s).1 = some j) :
    left (loop t s.inits.length i none s).2.inits < left s.inits := by
  have hlat := loop_later t s.inits.length i none s
  obtain ⟨sj, h1, h2, h3, h4, h5⟩ := loop_waits _ i s hd h
  refine left_lt hlat.len.symm hlat.done ?_
  apply Classical.byContradiction
  intro hno
  have hno : ∀ x, Done (loop t s.inits.length i none s).2.inits x → Done s.inits x := by
    intro x hx
    apply Classical.byContradiction
    intro hn
    exact hno ⟨x, hn, hx⟩
  -- every field without value needs another one
  have hmin : ∀ x, x < s.inits.length → ¬ Done s.inits x → ∃ y, Needs s.inits x y ∧ ¬ Done s.inits y := by
    intro x hx hnd
    apply Classical.byContradiction
    intro hall
    refine hnd (hno x (loop_ready _ i none s ?_ ?_ hx ?_))
    · apply Classical.byContradiction
      intro hlt
      exact hnd (hd x (by omega))
    · omega
    · intro y hy
      apply Classical.byContradiction
      intro hny
      exact hall ⟨y, hy, hny⟩
  have hsame : ∀ x, ¬ Done s.inits x → ¬ Done sj.inits x := fun x hn hx => hn (hno x (h2.done x hx))
  have hcirc : circular sj.inits (sj.inits.length + 1) [] j = true := by
    refine circular_complete sj.inits sj.inits.length (fun x => x < s.inits.length ∧ ¬ Done s.inits x) ?_ _ [] j
      (by simp) (by simp) (by simp) ⟨by rw [← h1.len]; exact h4, ?_⟩
    · intro x ⟨hx, hnd⟩
      obtain ⟨y, hy, hny⟩ := hmin x hx hnd
      refine ⟨by rw [h1.len]; exact hx, y, ?_, needs_lt hc hx hy, hny⟩
      unfold Needs at hy ⊢
      rw [h1.same x (hsame x hnd)]; exact hy
    · intro hdj
      exact fill_ready (fun k hk => absurd hk (done_needs (h1.done j hdj))) h3
  have hsome : ∃ e, initOf sj.inits j = some e := by
    cases he : initOf sj.inits j with
    | some e => exact ⟨e, rfl⟩
    | none =>
      exfalso
      simp only [fill, he] at h3
      repeat' split at h3
      all_goals cases h3
  obtain ⟨e, he⟩ := hsome
  simp only [fill, he, St.fuel, hcirc, if_true] at h3
  cases h3

theorem passes_end {t : VT} : ∀ m k i s, left s.inits ≤ m → m < k → Closed s.inits → (∀ y, y < i → Done s.inits y) →
    (passes t k i s).1 = none := by
  intro m
  induction m with
  | zero =>
    intro k i s hm hk hc hd
    cases k with
    | zero => omega
    | succ k =>
      simp only [passes]
      cases hl : loop t s.inits.length i none s with
      | mk b s' =>
        cases b with
        | none => rfl
        | some j =>
          have := loop_progress (j := j) hc hd (by rw [hl])
          omega
  | succ m ih =>
    intro k i s hm hk hc hd
    cases k with
    | zero => omega
    | succ k =>
      simp only [passes]
      cases hl : loop t s.inits.length i none s with
      | mk b s' =>
        cases b with
        | none => rfl
        | some j =>
          have hp := loop_progress (j := j) hc hd (by rw [hl])
          have hlat := loop_later t s.inits.length i none s
          obtain ⟨sj, h1, h2, _, _, h5⟩ := loop_waits (j := j) _ i s hd (by rw [hl])
          rw [hl] at hp hlat h2
          exact ih k j s' (by simp only at hp; omega) (by omega) (hlat.closed hc) (fun y hy => h2.done y (h5 y hy))

/-- When no field has to wait, every field has its value. -/
theorem loop_all {t : VT} : ∀ n i s, s.inits.length ≤ n + i → (∀ y, y < i → y < s.inits.length → Done s.inits y) →
    (loop t n i none s).1 = none → ∀ y, y < s.inits.length → Done (loop t n i none s).2.inits y := by
  intro n
  induction n with
  | zero => intro i s hl hd _ y hy; exact hd y (by omega) hy
  | succ n ih =>
    intro i s hl hd h y hy
    simp only [loop] at h ⊢
    split at h
    · rename_i hi
      rw [if_pos hi]
      have step : ∀ {s' : St}, Later s.inits s'.inits → Done s'.inits i → (loop t n (i + 1) none s').1 = none →
          Done (loop t n (i + 1) none s').2.inits y := by
        intro s' hlt hdi hj
        refine ih (i + 1) s' (by rw [hlt.len]; omega) (fun y hy hyl => ?_) hj y (by rw [hlt.len]; exact hy)
        by_cases he : y = i
        · exact he ▸ hdi
        · exact hlt.done y (hd y (by omega) (by rw [← hlt.len]; exact hyl))
      cases hf : fill t s i with
      | mk r s' =>
        rw [hf] at h
        cases r with
        | succeed => exact step (fill_done hi hf).1 (fill_done hi hf).2 h
        | error e =>
          have := fill_error hf
          subst this
          exact step (put_later hi 0 _).1 (put_later hi 0 _).2 h
        | break_ =>
          simp [loop_brk] at h
    · rename_i hi
      rw [if_neg hi]
      exact hd y (by omega) hy

theorem passes_all {t : VT} : ∀ k i s, (∀ y, y < i → Done s.inits y) → (passes t k i s).1 = none →
    (passes t k i s).2.inits.length = s.inits.length ∧ ∀ y, y < s.inits.length → Done (passes t k i s).2.inits y := by
  intro k
  induction k with
  | zero => intro i s _ h; simp [passes] at h
  | succ k ih =>
    intro i s hd h
    have hlat := loop_later t s.inits.length i none s
    simp only [passes] at h ⊢
    cases hl : loop t s.inits.length i none s with
    | mk b s' =>
      rw [hl] at h hlat
      cases b with
      | none =>
        refine ⟨hlat.len, fun y hy => ?_⟩
        have := loop_all (t := t) s.inits.length i s (by omega) (fun y hy _ => hd y hy) (by rw [hl]) y hy
        rw [hl] at this
        exact this
      | some j =>
        obtain ⟨sj, h1, h2, _, _, h5⟩ := loop_waits (j := j) _ i s hd (by rw [hl])
        rw [hl] at h2
        have := ih j s' (fun y hy => h2.done y (h5 y hy)) h
        exact ⟨this.1.trans hlat.len, fun y hy => this.2 y (by have := hlat.len; simp only at this; omega)⟩

theorem loop_prefix (t : VT) : ∀ n i brk s, s.errors <+: (loop t n i brk s).2.errors := by
  intro n
  induction n with
  | zero => intro i brk s; exact List.prefix_rfl
  | succ n ih =>
    intro i brk s
    simp only [loop]
    split
    · have hf := fill_errors t s i
      split
      · rename_i heq; rw [heq] at hf; rw [← hf]; exact ih _ _ _
      · rename_i heq; rw [heq] at hf
        refine List.IsPrefix.trans ?_ (ih _ _ _)
        rw [← hf]
        exact List.prefix_append _ _
      · rename_i heq; rw [heq] at hf; rw [← hf]; exact ih _ _ _
    · exact List.prefix_rfl

theorem passes_prefix0 (t : VT) : ∀ k i s, s.errors <+: (passes t k i s).2.errors := by
  intro k
  induction k with
  | zero => intro i s; exact List.prefix_rfl
  | succ k ih =>
    intro i s
    simp only [passes]
    have := loop_prefix t s.inits.length i none s
    split
    · rename_i heq; rw [heq] at this; exact this
    · rename_i heq; rw [heq] at this; exact this.trans (ih _ _)

theorem passes_prefix (t : VT) : ∀ k m i s,
    (passes t k i s).2.errors <+: (passes t (k + m) i s).2.errors := by
  intro k
  induction k with
  | zero => intro m i s; exact passes_prefix0 t _ i s
  | succ k ih =>
    intro m i s
    rw [Nat.add_right_comm]
    simp only [passes]
    split
    · exact List.prefix_rfl
    · exact ih _ _ _

end Verif.Enums
