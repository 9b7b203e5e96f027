import Verif.Spec.Cmd

/-! Helper lemmas about the command line. -/

namespace Verif.Cmd

open Spec
open Verif.Paths (Str)

/-- The state with more options and files. -/
def St.plus (st : St) (s : List (Str × Option Str)) (r : List Str) : St :=
  ⟨st.sets ++ s, st.errors, st.rest ++ r⟩

theorem plus_nil (st : St) : st.plus [] [] = st := by simp [St.plus]

theorem plus_plus (st : St) (s s' r r') : (st.plus s r).plus s' r' = st.plus (s ++ s') (r ++ r') := by
  simp [St.plus]

theorem byName_mem {os : List Opt} {n o} (h : byName os n = some o) : o ∈ os ∧ o.name = n := by
  unfold byName at h
  have h1 := List.mem_of_find?_eq_some h
  have h2 := List.find?_some h
  exact ⟨h1, by simpa using h2⟩

theorem byShort_mem {os : List Opt} {c o} (h : byShort os c = some o) :
    o ∈ os ∧ o.short = some c := by
  unfold byShort at h
  have h1 := List.mem_of_find?_eq_some h
  have h2 := List.find?_some h
  exact ⟨h1, by simpa using h2⟩

theorem byName_of {os : List Opt} (hd : (os.map Opt.name).Nodup) {o} (h : o ∈ os) :
    byName os o.name = some o := by
  unfold byName
  induction os with
  | nil => simp at h
  | cons a os ih =>
    rw [List.map_cons, List.nodup_cons] at hd
    rw [List.find?_cons]
    rcases List.mem_cons.mp h with rfl | h
    · simp
    · have : a.name ≠ o.name := fun e => hd.1 (e ▸ List.mem_map_of_mem h)
      have hb : (a.name == o.name) = false := by simpa using this
      rw [hb]
      exact ih hd.2 h

theorem byShort_of {os : List Opt} (hd : (os.filterMap Opt.short).Nodup) {o c} (h : o ∈ os)
    (hc : o.short = some c) : byShort os c = some o := by
  unfold byShort
  induction os with
  | nil => simp at h
  | cons a os ih =>
    rw [List.find?_cons]
    rcases List.mem_cons.mp h with rfl | h
    · simp [hc]
    · have hb : (a.short == some c) = false := by
        cases ha : a.short with
        | none => rfl
        | some d =>
          rw [List.filterMap_cons, ha] at hd
          have := (List.nodup_cons.mp hd).1
          have hne : d ≠ c := by
            rintro rfl
            exact this (List.mem_filterMap.mpr ⟨o, h, hc⟩)
          simpa using hne
      rw [hb]
      refine ih ?_ h
      rw [List.filterMap_cons] at hd
      cases ha : a.short with
      | none => rw [ha] at hd; exact hd
      | some d => rw [ha] at hd; exact (List.nodup_cons.mp hd).2

theorem setValue_ok {os : List Opt} (hd : Distinct os) {n v} (h : TakesValue os n v) (st : St) :
    setValue os n v st = st.plus [(n, some v)] [] := by
  obtain ⟨o, hm, rfl, h1, h2⟩ := h
  simp [setValue, byName_of hd.1 hm, h1, h2, St.plus]

theorem setFlag_ok {os : List Opt} (hd : Distinct os) {n} (h : IsFlag os n) (st : St) :
    setFlag os n st = st.plus [(n, none)] [] := by
  obtain ⟨o, hm, rfl, h1⟩ := h
  simp [setFlag, byName_of hd.1 hm, h1, St.plus]

theorem letters_ok {os : List Opt} (hd : Distinct os) {as ns} (h : Letters os as ns) :
    ∀ st : St, letters os as st = st.plus (ns.map (·, none)) [] := by
  induction h with
  | nil => intro st; simp [letters, St.plus]
  | cons hl _ ih =>
    intro st
    obtain ⟨o, hm, hs, rfl, hv⟩ := hl
    simp only [letters, byShort_of hd.2 hm hs]
    rw [setFlag_ok hd ⟨o, hm, rfl, hv⟩, ih, plus_plus]
    rfl

theorem splitEq_join {n v : Str} (h : equals ∉ n) : splitEq (n ++ equals :: v) = some (n, v) := by
  induction n with
  | nil => simp [splitEq]
  | cons c n ih =>
    simp only [List.mem_cons, not_or] at h
    rw [List.cons_append, splitEq, if_neg (fun e => h.1 e.symm), ih h.2]
    rfl

theorem splitEq_none {n : Str} (h : equals ∉ n) : splitEq n = none := by
  induction n with
  | nil => rfl
  | cons c n ih =>
    simp only [List.mem_cons, not_or] at h
    rw [splitEq, if_neg (fun e => h.1 e.symm), ih h.2]
    rfl

theorem of_splitEq_none : ∀ {n : Str}, splitEq n = none → equals ∉ n := by
  intro n
  induction n with
  | nil => intro _; simp
  | cons c n ih =>
    intro h
    rw [splitEq] at h
    split at h
    · cases h
    · next hc =>
      rw [Option.map_eq_none_iff] at h
      simp only [List.mem_cons, not_or]
      exact ⟨fun e => hc e.symm, ih h⟩

theorem of_splitEq : ∀ {s n v : Str}, splitEq s = some (n, v) →
    s = n ++ equals :: v ∧ equals ∉ n := by
  intro s
  induction s with
  | nil => intro n v h; cases h
  | cons c s ih =>
    intro n v h
    rw [splitEq] at h
    split at h
    · next hc =>
      simp at h
      obtain ⟨rfl, rfl⟩ := h
      exact ⟨by rw [hc]; rfl, by simp⟩
    · next hc =>
      rw [Option.map_eq_some_iff] at h
      obtain ⟨⟨a, b⟩, hs, he⟩ := h
      simp at he
      obtain ⟨rfl, rfl⟩ := he
      obtain ⟨h1, h2⟩ := ih hs
      refine ⟨by rw [h1]; rfl, ?_⟩
      simp only [List.mem_cons, not_or]
      exact ⟨fun e => hc e.symm, h2⟩

theorem long_prefix (s : Str) : [hyphen, hyphen] <+: hyphen :: hyphen :: s := ⟨s, rfl⟩

theorem not_long {as : Str} {c : Nat} (h : (as ++ [c]).head? ≠ some hyphen) :
    ¬ [hyphen, hyphen] <+: hyphen :: (as ++ [c]) := by
  rintro ⟨t, ht⟩
  simp only [List.cons_append, List.nil_append, List.cons.injEq, true_and] at ht
  rw [← ht] at h
  exact h rfl

theorem go_says {os : List Opt} (hd : Distinct os) {i s r} (h : Says os i s r) (args : List Str)
    (st : St) : go os (i.words ++ args) st = go os args (st.plus s r) := by
  cases h with
  | file hf =>
    rename_i f
    show go os (f :: args) st = _
    have h1 : ¬ [hyphen, hyphen] <+: f := by rintro ⟨t, rfl⟩; exact hf rfl
    have h2 : ¬ [hyphen] <+: f := by rintro ⟨t, rfl⟩; exact hf rfl
    rw [go.eq_def]
    simp only
    rw [if_neg h1, if_neg h2]
    simp [St.plus]
  | dash =>
    show go os ([hyphen] :: args) st = _
    rw [go.eq_def]
    simp only
    rw [if_neg (by decide), if_pos (by decide), plus_nil]
    rfl
  | long hn hv =>
    rename_i n v
    show go os ((hyphen :: hyphen :: (n ++ equals :: v)) :: args) st = _
    rw [go.eq_def]
    simp only
    rw [if_pos (long_prefix _), show List.drop 2 (hyphen :: hyphen :: (n ++ equals :: v))
      = n ++ equals :: v from rfl, splitEq_join hn]
    simp only
    rw [setValue_ok hd hv]
  | longNext hn hv =>
    rename_i n v
    show go os ((hyphen :: hyphen :: n) :: v :: args) st = _
    have hv' := hv
    obtain ⟨o, hm, rfl, h1, h2⟩ := hv'
    rw [go.eq_def]
    simp only
    rw [if_pos (long_prefix _), show List.drop 2 (hyphen :: hyphen :: o.name) = o.name from rfl,
      splitEq_none hn]
    simp only
    rw [byName_of hd.1 hm]
    simp only
    rw [if_pos h1, setValue_ok hd hv]
  | longFlag hn hv =>
    rename_i n
    show go os ((hyphen :: hyphen :: n) :: args) st = _
    have hv' := hv
    obtain ⟨o, hm, rfl, h1⟩ := hv'
    rw [go.eq_def]
    simp only
    rw [if_pos (long_prefix _), show List.drop 2 (hyphen :: hyphen :: o.name) = o.name from rfl,
      splitEq_none hn]
    simp only
    rw [byName_of hd.1 hm]
    simp only
    rw [if_neg (by rw [h1]; decide), setFlag_ok hd hv]
  | flags hh hl hc =>
    rename_i as c ns n
    show go os ((hyphen :: (as ++ [c])) :: args) st = _
    obtain ⟨o, hm, hs, rfl, hv⟩ := hc
    rw [go.eq_def]
    simp only
    rw [if_neg (not_long hh), if_pos ⟨as ++ [c], rfl⟩]
    rw [show List.drop 1 (hyphen :: (as ++ [c])) = as ++ [c] from rfl, List.getLast?_concat,
      List.dropLast_concat]
    simp only
    rw [byShort_of hd.2 hm hs]
    have hf : setFlag os o.name (letters os as st)
        = st.plus (ns.map (·, none) ++ [(o.name, none)]) [] := by
      rw [letters_ok hd hl, setFlag_ok hd ⟨o, hm, rfl, hv⟩, plus_plus]; rfl
    cases args with
    | nil => simp only; rw [hf, go]
    | cons v args =>
      simp only
      rw [if_neg (by rw [hv]; decide), hf]
  | flagsNext hh hl hc =>
    rename_i as c ns n v
    show go os ((hyphen :: (as ++ [c])) :: v :: args) st = _
    obtain ⟨o, hm, hs, rfl, hv, hr⟩ := hc
    rw [go.eq_def]
    simp only
    rw [if_neg (not_long hh), if_pos ⟨as ++ [c], rfl⟩]
    rw [show List.drop 1 (hyphen :: (as ++ [c])) = as ++ [c] from rfl, List.getLast?_concat,
      List.dropLast_concat]
    simp only
    rw [byShort_of hd.2 hm hs]
    simp only
    rw [if_pos hv, letters_ok hd hl, setValue_ok hd ⟨o, hm, rfl, hv, hr⟩, plus_plus]
    rfl

theorem go_line {os : List Opt} (hd : Distinct os) {args s r} (h : Line os args s r) :
    ∀ st : St, go os args st = st.plus s r := by
  induction h with
  | nil => intro st; rw [plus_nil]; rfl
  | cons hs _ ih => intro st; rw [go_says hd hs, ih, plus_plus]

/-! The other direction: without errors, the arguments were well written. -/

theorem setFlag_errors (os : List Opt) (n) (st : St) : st.errors ≤ (setFlag os n st).errors := by
  unfold setFlag
  split
  · simp [St.fail]
  · split <;> simp [St.fail]

theorem setValue_errors (os : List Opt) (n v) (st : St) :
    st.errors ≤ (setValue os n v st).errors := by
  unfold setValue
  split
  · simp [St.fail]
  · split <;> simp [St.fail]

theorem letters_errors (os : List Opt) : ∀ (as : Str) (st : St),
    st.errors ≤ (letters os as st).errors := by
  intro as
  induction as with
  | nil => intro st; simp [letters]
  | cons c as ih =>
    intro st
    rw [letters]
    refine Nat.le_trans ?_ (ih _)
    cases byShort os c with
    | none => simp [St.fail]
    | some o => exact setFlag_errors _ _ _

theorem go_errors (os : List Opt) : ∀ (k : Nat) (args : List Str), args.length ≤ k → ∀ st : St,
    st.errors ≤ (go os args st).errors := by
  intro k
  induction k with
  | zero =>
    intro args h st
    rw [List.length_eq_zero_iff.mp (Nat.le_zero.mp h)]
    exact Nat.le_refl _
  | succ k ih =>
    intro args h st
    cases args with
    | nil => exact Nat.le_refl _
    | cons a as =>
      have ha : as.length ≤ k := by simpa using h
      rw [go.eq_def]
      simp only
      split
      · cases splitEq (a.drop 2) with
        | some p => exact Nat.le_trans (setValue_errors _ _ _ _) (ih _ ha _)
        | none =>
          cases byName os (a.drop 2) with
          | none => exact Nat.le_trans (by simp [St.fail]) (ih _ ha _)
          | some o =>
            simp only
            split
            · cases as with
              | nil => simp [St.fail]
              | cons v as' =>
                exact Nat.le_trans (setValue_errors _ _ _ _)
                  (ih _ (by simp at ha; omega) _)
            · exact Nat.le_trans (setFlag_errors _ _ _) (ih _ ha _)
      · split
        · cases (a.drop 1).getLast? with
          | none => exact ih _ ha _
          | some c =>
            simp only
            have hl := letters_errors os (a.drop 1).dropLast st
            cases byShort os c with
            | none =>
              exact Nat.le_trans hl (Nat.le_trans (by simp [St.fail]) (ih _ ha _))
            | some o =>
              cases as with
              | nil => exact Nat.le_trans hl (setFlag_errors _ _ _)
              | cons v as' =>
                simp only
                split
                · exact Nat.le_trans hl (Nat.le_trans (setValue_errors _ _ _ _)
                    (ih _ (by simp at ha; omega) _))
                · exact Nat.le_trans hl (Nat.le_trans (setFlag_errors _ _ _) (ih _ ha _))
        · exact ih _ ha { st with rest := st.rest ++ [a] }

theorem no_errors {os : List Opt} {args : List Str} {st : St} (h : (go os args st).errors = 0) :
    st.errors = 0 := by
  have := go_errors os args.length args (Nat.le_refl _) st
  omega

theorem of_setValue {os : List Opt} {n v} {st : St} (h : (setValue os n v st).errors = 0) :
    TakesValue os n v := by
  unfold setValue at h
  cases hb : byName os n with
  | none => rw [hb] at h; simp [St.fail] at h
  | some o =>
    rw [hb] at h
    simp only at h
    split at h
    · next hc =>
      rw [Bool.and_eq_true] at hc
      exact ⟨o, (byName_mem hb).1, (byName_mem hb).2, hc.1, hc.2⟩
    · simp [St.fail] at h

theorem of_setFlag {os : List Opt} {n} {st : St} (h : (setFlag os n st).errors = 0) :
    IsFlag os n := by
  unfold setFlag at h
  cases hb : byName os n with
  | none => rw [hb] at h; simp [St.fail] at h
  | some o =>
    rw [hb] at h
    simp only at h
    split at h
    · simp [St.fail] at h
    · next hc =>
      exact ⟨o, (byName_mem hb).1, (byName_mem hb).2, by simpa using hc⟩

theorem flag_unique {os : List Opt} (hd : Distinct os) {o} (hm : o ∈ os) (h : IsFlag os o.name) :
    o.hasValue = false := by
  obtain ⟨o', hm', hn, hv⟩ := h
  have h1 := byName_of hd.1 hm
  have h2 := byName_of hd.1 hm'
  rw [hn, h1] at h2
  rw [Option.some.inj h2]
  exact hv

theorem value_unique {os : List Opt} (hd : Distinct os) {o v} (hm : o ∈ os)
    (h : TakesValue os o.name v) : o.hasValue = true ∧ o.reads v = true := by
  obtain ⟨o', hm', hn, hv⟩ := h
  have h1 := byName_of hd.1 hm
  have h2 := byName_of hd.1 hm'
  rw [hn, h1] at h2
  rw [Option.some.inj h2]
  exact hv

theorem of_letters {os : List Opt} (hd : Distinct os) : ∀ (as : Str) (st : St),
    (letters os as st).errors = 0 → ∃ ns, Letters os as ns := by
  intro as
  induction as with
  | nil => intro st _; exact ⟨[], .nil⟩
  | cons c as ih =>
    intro st h
    rw [letters] at h
    obtain ⟨ns, hns⟩ := ih _ h
    have h0 := Nat.le_trans (letters_errors os as _) (Nat.le_of_eq h)
    cases hb : byShort os c with
    | none => rw [hb] at h0; simp [St.fail] at h0
    | some o =>
      rw [hb] at h0
      simp only at h0
      have hm := byShort_mem hb
      have hf := of_setFlag (Nat.le_zero.mp h0)
      exact ⟨o.name :: ns, .cons ⟨o, hm.1, hm.2, rfl, flag_unique hd hm.1 hf⟩ hns⟩

theorem line_of {os : List Opt} (hd : Distinct os) : ∀ (k : Nat) (args : List Str),
    args.length ≤ k → ∀ st : St, (go os args st).errors = 0 → ∃ s r, Line os args s r := by
  intro k
  induction k with
  | zero =>
    intro args h st _
    rw [List.length_eq_zero_iff.mp (Nat.le_zero.mp h)]
    exact ⟨[], [], .nil⟩
  | succ k ih =>
    intro args h st h0
    cases args with
    | nil => exact ⟨[], [], .nil⟩
    | cons a as =>
      have ha : as.length ≤ k := by simpa using h
      have add : ∀ {i s r as'}, Says os i s r → i.words ++ as' = a :: as →
          (∃ s' r', Line os as' s' r') → ∃ s r, Line os (a :: as) s r := by
        intro i s r as' hs he hl
        obtain ⟨s', r', hl⟩ := hl
        exact ⟨_, _, he ▸ Line.cons hs hl⟩
      rw [go.eq_def] at h0
      simp only at h0
      split at h0
      · next hp =>
        obtain ⟨t, rfl⟩ := hp
        rw [show List.drop 2 ([hyphen, hyphen] ++ t) = t from rfl] at h0
        cases hs : splitEq t with
        | some p =>
          obtain ⟨n, v⟩ := p
          simp only [hs] at h0
          obtain ⟨rfl, hn⟩ := of_splitEq hs
          exact add (.long hn (of_setValue (no_errors h0))) rfl (ih _ ha _ h0)
        | none =>
          simp only [hs] at h0
          have hn := of_splitEq_none hs
          cases hb : byName os t with
          | none =>
            simp only [hb] at h0
            have := no_errors h0
            simp [St.fail] at this
          | some o =>
            simp only [hb] at h0
            split at h0
            · cases as with
              | nil => simp [St.fail] at h0
              | cons v as' =>
                simp only at h0
                exact add (.longNext hn (of_setValue (no_errors h0))) rfl
                  (ih _ (by simp at ha; omega) _ h0)
            · exact add (.longFlag hn (of_setFlag (no_errors h0))) rfl (ih _ ha _ h0)
      · next hnl =>
        split at h0
        · next hp =>
          obtain ⟨t, rfl⟩ := hp
          rw [show List.drop 1 ([hyphen] ++ t) = t from rfl] at h0
          cases hl : t.getLast? with
          | none =>
            simp only [hl] at h0
            rw [List.getLast?_eq_none_iff] at hl
            subst hl
            exact add .dash rfl (ih _ ha _ h0)
          | some c =>
            simp only [hl] at h0
            obtain ⟨as₀, rfl⟩ : ∃ as₀, t = as₀ ++ [c] := by
              obtain ⟨as₀, h⟩ := List.getLast?_eq_some_iff.mp hl
              exact ⟨as₀, h⟩
            rw [List.dropLast_concat] at h0
            have hh : (as₀ ++ [c]).head? ≠ some hyphen := by
              intro he
              apply hnl
              cases hx : as₀ ++ [c] with
              | nil => rw [hx] at he; cases he
              | cons d ds =>
                rw [hx] at he
                simp at he
                subst he
                exact ⟨ds, rfl⟩
            cases hb : byShort os c with
            | none =>
              simp only [hb] at h0
              have := no_errors h0
              simp [St.fail] at this
            | some o =>
              simp only [hb] at h0
              have hm := byShort_mem hb
              have fin : ∀ {st'}, (setFlag os o.name st').errors = 0 → Letter os c o.name :=
                fun h => ⟨o, hm.1, hm.2, rfl, flag_unique hd hm.1 (of_setFlag h)⟩
              cases as with
              | nil =>
                simp only at h0
                have h1 : (letters os as₀ st).errors = 0 := by
                  have := setFlag_errors os o.name (letters os as₀ st)
                  omega
                obtain ⟨ns, hns⟩ := of_letters hd _ _ h1
                exact add (.flags hh hns (fin h0)) rfl ⟨[], [], .nil⟩
              | cons v as' =>
                simp only at h0
                split at h0
                · have h2 := no_errors h0
                  have h1 : (letters os as₀ st).errors = 0 := by
                    have := setValue_errors os o.name v (letters os as₀ st)
                    omega
                  obtain ⟨ns, hns⟩ := of_letters hd _ _ h1
                  have hv := value_unique hd hm.1 (of_setValue h2)
                  exact add (.flagsNext hh hns ⟨o, hm.1, hm.2, rfl, hv.1, hv.2⟩) rfl
                    (ih _ (by simp at ha; omega) _ h0)
                · have h2 := no_errors h0
                  have h1 : (letters os as₀ st).errors = 0 := by
                    have := setFlag_errors os o.name (letters os as₀ st)
                    omega
                  obtain ⟨ns, hns⟩ := of_letters hd _ _ h1
                  exact add (.flags hh hns (fin h2)) rfl (ih _ ha _ h0)
        · next hns =>
          refine add (.file ?_) rfl (ih _ ha _ h0)
          intro he
          apply hns
          cases a with
          | nil => cases he
          | cons d ds =>
            simp at he
            subst he
            exact ⟨ds, rfl⟩

/-! ## Levels -/

theorem decimal_append (s : Str) (c : Nat) : decimal (s ++ [c]) = 10 * decimal s + (c - 48) := by
  simp [decimal]

theorem snoc_cases (s : Str) : s = [] ∨ ∃ t c, s = t ++ [c] := by
  rcases List.eq_nil_or_concat s with h | ⟨t, c, h⟩
  · exact .inl h
  · exact .inr ⟨t, c, by simpa using h⟩

theorem zeros_of : ∀ (n : Nat) (s : Str), s.length = n → (∀ c ∈ s, digit c = true) → decimal s = 0 → ∀ c ∈ s, c = 48 := by
  intro n
  induction n with
  | zero => intro s h _ _ c hc; rw [List.length_eq_zero_iff.mp h] at hc; cases hc
  | succ n ih =>
    intro s h hd h0 c hc
    rcases snoc_cases s with rfl | ⟨t, x, rfl⟩
    · cases hc
    · rw [decimal_append] at h0
      have hx := hd x (by simp)
      simp only [digit, Bool.and_eq_true, decide_eq_true_eq] at hx
      rcases List.mem_append.mp hc with hc | hc
      · exact ih t (by simpa using h) (fun y hy => hd y (by simp [hy])) (by omega) c hc
      · simp at hc; omega

theorem decimal_zeros : ∀ (s : Str), (∀ c ∈ s, c = 48) → decimal s = 0 := by
  intro s h
  have : ∀ (s : Str), (∀ c ∈ s, c = 48) → s.foldl (fun n c => 10 * n + (c - 48)) 0 = 0 := by
    intro s
    induction s with
    | nil => intro _; rfl
    | cons c s ih =>
      intro h
      rw [List.foldl_cons, h c (by simp)]
      exact ih (fun x hx => h x (by simp [hx]))
  exact this s h

/-- Digits that stand for a level. -/
theorem small_decimal (s : Str) (k : Nat) (hk : k ≤ 3) :
    (s ≠ [] ∧ s.all digit = true ∧ decimal s = k) ↔ ∃ zeros, s = zeros ++ [48 + k] ∧ ∀ c ∈ zeros, c = 48 := by
  constructor
  · rintro ⟨h1, h2, h3⟩
    rcases snoc_cases s with rfl | ⟨t, x, rfl⟩
    · exact absurd rfl h1
    · rw [List.all_eq_true] at h2
      rw [decimal_append] at h3
      have hx := h2 x (by simp)
      simp only [digit, Bool.and_eq_true, decide_eq_true_eq] at hx
      refine ⟨t, by congr 2; omega, zeros_of _ t rfl (fun c hc => h2 c (by simp [hc])) (by omega)⟩
  · rintro ⟨zeros, rfl, hz⟩
    refine ⟨by simp, ?_, ?_⟩
    · rw [List.all_eq_true]
      intro c hc
      rcases List.mem_append.mp hc with hc | hc
      · rw [hz c hc]; rfl
      · simp at hc; subst hc
        simp only [digit, Bool.and_eq_true, decide_eq_true_eq]; omega
    · rw [decimal_append, decimal_zeros _ hz]; omega

theorem signed_level (neg : Bool) (s : Str) (l : Int) (h0 : 0 ≤ l) (h3 : l ≤ 3) :
    signed neg s = some l ↔ ∃ d : Nat, l = d ∧ d ≤ 3 ∧ (neg = true → d = 0) ∧
      ∃ zeros, s = zeros ++ [48 + d] ∧ ∀ c ∈ zeros, c = 48 := by
  unfold signed
  constructor
  · intro h
    split at h
    · rename_i hs
      have hd : decimal s ≤ 3 ∧ l = (decimal s : Int) ∧ (neg = true → decimal s = 0) := by
        cases neg
        · simp only [Bool.false_eq_true, ↓reduceIte, Option.ite_none_right_eq_some, Option.some.injEq] at h
          simp; omega
        · simp only [↓reduceIte, Option.ite_none_right_eq_some, Option.some.injEq] at h
          simp; omega
      exact ⟨decimal s, hd.2.1, hd.1, hd.2.2, (small_decimal s _ hd.1).mp ⟨hs.1, hs.2, rfl⟩⟩
    · cases h
  · rintro ⟨d, rfl, hd, hn, hz⟩
    obtain ⟨h1, h2, h4⟩ := (small_decimal s d hd).mpr hz
    rw [if_pos ⟨h1, h2⟩]
    simp only [h4]
    cases neg with
    | false => rw [if_pos (by simp; omega)]; simp
    | true => have := hn rfl; subst this; simp

theorem dropWhile_append_of (p : Nat → Bool) (a b : Str) (ha : ∀ c ∈ a, p c = true) (hb : ∀ c, b.head? = some c → p c = false) :
    (a ++ b).dropWhile p = b := by
  induction a with
  | nil =>
    cases b with
    | nil => rfl
    | cons c b => simp [hb c rfl]
  | cons c a ih => 
    rw [List.cons_append, List.dropWhile, ha c (by simp)]
    exact ih (fun x hx => ha x (by simp [hx]))

theorem space_iff (c : Nat) : space c = true ↔ (c = 32 ∨ 9 ≤ c ∧ c ≤ 13) := by
  simp [space]

/-- What is read as a level is what is written as one. -/
theorem level_read (v : Str) (l : Int) : Level v l ↔ readInt v = some l ∧ 0 ≤ l ∧ l ≤ 3 := by
  constructor
  · rintro ⟨blanks, sign, zeros, d, rfl, ⟨rfl, hd⟩, hb, hz, hs⟩
    refine ⟨?_, by omega, by omega⟩
    have key : ∀ neg, (neg = true → d = 0) → signed neg (zeros ++ [48 + d]) = some (d : Int) := fun neg hn =>
      (signed_level neg _ _ (by omega) (by omega)).mpr ⟨d, rfl, hd, hn, zeros, rfl, hz⟩
    have hhead : ∀ c, (zeros ++ [48 + d]).head? = some c → 48 ≤ c ∧ c ≤ 51 := by
      intro c hc
      cases zeros with
      | nil => simp at hc; omega
      | cons z zs => have := hz z (by simp); simp at hc; omega
    have hdrop : (blanks ++ sign ++ zeros ++ [48 + d]).dropWhile space = sign ++ (zeros ++ [48 + d]) := by
      rw [List.append_assoc, List.append_assoc]
      apply dropWhile_append_of _ _ _ (fun c hc => (space_iff c).mpr (hb c hc))
      intro c hc
      have : c ≠ 32 ∧ ¬ (9 ≤ c ∧ c ≤ 13) := by
        rcases hs with rfl | rfl | ⟨rfl, _⟩
        · have := hhead c hc; omega
        · simp at hc; omega
        · simp at hc; omega
      cases hsp : space c with
      | false => rfl
      | true => have := (space_iff c).mp hsp; omega
    unfold readInt
    rw [hdrop]
    rcases hs with rfl | rfl | ⟨rfl, h0⟩
    · rw [List.nil_append]
      cases hh : zeros ++ [48 + d] with
      | nil => simp at hh
      | cons c cs =>
        have := hhead c (by rw [hh]; rfl)
        simp only
        rw [if_neg (by omega), if_neg (by omega), ← hh]
        exact key false (by simp)
    · simpa using key false (by simp)
    · simpa using key true (fun _ => h0)
  · rintro ⟨h, h0, h3⟩
    unfold readInt at h
    have hv : v = v.takeWhile space ++ v.dropWhile space := (List.takeWhile_append_dropWhile).symm
    have hb : ∀ c ∈ v.takeWhile space, c = 32 ∨ 9 ≤ c ∧ c ≤ 13 := by
      intro c hc
      have : ∀ (s : Str), ∀ c ∈ s.takeWhile space, space c = true := by
        intro s
        induction s with
        | nil => intro c hc; cases hc
        | cons x s ih =>
          intro c hc
          rw [List.takeWhile] at hc
          split at hc
          · rcases List.mem_cons.mp hc with rfl | hc
            · assumption
            · exact ih c hc
          · cases hc
      exact (space_iff c).mp (this v c hc)
    split at h
    · cases h
    · rename_i c cs hd
      rw [hd] at hv
      generalize v.takeWhile space = bl at hv hb
      split at h
      · rename_i hc
        obtain ⟨d, rfl, hd3, hn, zeros, rfl, hz⟩ := (signed_level true _ _ h0 h3).mp h
        exact ⟨_, [45], zeros, d, by rw [hv]; simp [hc], ⟨rfl, hd3⟩, hb, hz, .inr (.inr ⟨rfl, hn rfl⟩)⟩
      · split at h
        · rename_i hc
          obtain ⟨d, rfl, hd3, hn, zeros, rfl, hz⟩ := (signed_level false _ _ h0 h3).mp h
          exact ⟨_, [43], zeros, d, by rw [hv]; simp [hc], ⟨rfl, hd3⟩, hb, hz, .inr (.inl rfl)⟩
        · obtain ⟨d, rfl, hd3, hn, zeros, hcs, hz⟩ := (signed_level false _ _ h0 h3).mp h
          exact ⟨_, [], zeros, d, by rw [hv, hcs]; simp, ⟨rfl, hd3⟩, hb, hz, .inl rfl⟩

end Verif.Cmd
