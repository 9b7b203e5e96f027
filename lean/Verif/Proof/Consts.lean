import Verif.Spec.Consts

/-! Lemmas about the values of constants. -/

namespace Verif.Consts

variable {V : Type}

theorem mem_depends (s : List (Fld V)) (i j : Nat) : j ∈ depends s i ↔ Needs s i j := by
  unfold depends Needs
  cases initOf s i with
  | some e => simp
  | none => simp

theorem circular_sound (s : List (Fld V)) : ∀ fuel path i, (∀ p ∈ path, NeedsPlus s p i) →
    circular s fuel path i = true → OnCircle s i := by
  intro fuel
  induction fuel with
  | zero => intro path i _ h; simp [circular] at h
  | succ fuel ih =>
    intro path i hp h
    simp only [circular] at h
    split at h
    · rename_i hc
      exact ⟨i, .inl rfl, hp i (by simpa using hc)⟩
    · obtain ⟨j, hj, hc⟩ := List.any_eq_true.mp h
      have hn := (mem_depends s i j).mp hj
      have ext : ∀ {a b}, NeedsPlus s a b → Needs s b j → NeedsPlus s a j := by
        intro a b hab
        induction hab with
        | one h1 => intro h2; exact .cons h1 (.one h2)
        | cons h1 _ ih => intro h2; exact .cons h1 (ih h2)
      have := ih (i :: path) j (by
        intro p hp'
        rcases List.mem_cons.mp hp' with rfl | hp'
        · exact .one hn
        · exact ext (hp p hp') hn) hc
      obtain ⟨k, hk, hkk⟩ := this
      refine ⟨k, .inr ?_, hkk⟩
      rcases hk with rfl | hk
      · exact .one hn
      · exact .cons hn hk

theorem length_le_of_nodup : ∀ {n : Nat} {l : List Nat}, l.Nodup → (∀ x ∈ l, x < n) → l.length ≤ n := by
  intro n
  induction n with
  | zero =>
    intro l _ hl
    cases l with
    | nil => simp
    | cons a l => exact absurd (hl a (by simp)) (by omega)
  | succ n ih =>
    intro l hn hl
    have h1 := ih (hn.erase n) (by
      intro x hx
      have := (List.Nodup.mem_erase_iff hn).mp hx
      have := hl x this.2
      omega)
    have h2 := List.length_erase (a := n) (l := l)
    split at h2 <;> omega

theorem circular_complete (s : List (Fld V)) (n : Nat) (P : Nat → Prop) (hP : ∀ i, P i → i < n ∧ ∃ j, Needs s i j ∧ P j) :
    ∀ fuel path i, fuel + path.length = n + 1 → path.Nodup → (∀ p ∈ path, p < n) → P i →
    circular s fuel path i = true := by
  intro fuel
  induction fuel with
  | zero =>
    intro path i hl hn hlt _
    have := length_le_of_nodup hn hlt
    omega
  | succ fuel ih =>
    intro path i hl hn hlt hi
    simp only [circular]
    split
    · rfl
    · rename_i hc
      obtain ⟨hin, j, hj, hPj⟩ := hP i hi
      rw [List.any_eq_true]
      refine ⟨j, (mem_depends s i j).mpr hj, ih (i :: path) j ?_ ?_ ?_ hPj⟩
      · simp; omega
      · exact List.nodup_cons.mpr ⟨by simpa using hc, hn⟩
      · intro p hp
        rcases List.mem_cons.mp hp with rfl | hp
        · exact hin
        · exact hlt p hp

theorem onCircle_step {s : List (Fld V)} {i : Nat} (h : OnCircle s i) : ∃ j, Needs s i j ∧ OnCircle s j := by
  obtain ⟨k, hk, hkk⟩ := h
  have aux : ∀ {a}, NeedsPlus s a k → ∃ j, Needs s a j ∧ OnCircle s j := by
    intro a ha
    cases ha with
    | one h1 => exact ⟨k, h1, k, .inl rfl, hkk⟩
    | cons h1 h2 => exact ⟨_, h1, k, .inr h2, hkk⟩
  rcases hk with rfl | hk
  · exact aux hkk
  · exact aux hk

theorem put_get (s : St V) (i j : Nat) (v : V) :
    (s.put i v).flds[j]? = if i = j then (s.flds[j]?).map fun f => { f with init := some (.lit (some v)) } else s.flds[j]? := by
  simp only [St.put, List.getElem?_modify]
  cases s.flds[j]? with
  | none => simp
  | some f => by_cases h : i = j <;> simp [h]

theorem put_length (s : St V) (i : Nat) (v : V) : (s.put i v).flds.length = s.flds.length := by
  simp [St.put]

theorem put_other {s : St V} {i j : Nat} {v : V} (h : i ≠ j) : (s.put i v).flds[j]? = s.flds[j]? := by
  rw [put_get, if_neg h]

/-- Some constants have their values, all else is as declared. -/
def Filled (decl : List (Fld V)) (vals : Nat → V) (s : St V) : Prop :=
  s.flds.length = decl.length ∧ ∀ j, s.flds[j]? = decl[j]? ∨
    ∃ f : Fld V, decl[j]? = some f ∧ f.const = true ∧ s.flds[j]? = some { f with init := some (.lit (some (vals j))) }

theorem filled_put {decl : List (Fld V)} {vals : Nat → V} {s : St V} (h : Filled decl vals s) {i : Nat} {f : Fld V}
    (hi : s.flds[i]? = some f) (hc : f.const = true) : Filled decl vals (s.put i (vals i)) := by
  refine ⟨by rw [put_length]; exact h.1, fun j => ?_⟩
  by_cases hij : i = j
  · subst hij
    right
    rcases h.2 i with h' | ⟨g, hg, hgc, h'⟩
    · refine ⟨f, by rw [← h']; exact hi, hc, ?_⟩
      rw [put_get, if_pos rfl, hi]
      rfl
    · refine ⟨g, hg, hgc, ?_⟩
      rw [put_get, if_pos rfl, h']
      rfl
  · rw [put_other hij]
    exact h.2 j

/-- What a constant is in a state. -/
theorem filled_init {decl : List (Fld V)} {vals : Nat → V} {s : St V} (h : Filled decl vals s) (hv : IsValues decl vals) {i : Nat}
    {f : Fld V} (hi : s.flds[i]? = some f) (hc : f.const = true) :
    (f.init = none ∧ f.dflt = vals i) ∨ f.init = some (.lit (some (vals i))) ∨
      ∃ e, f.init = some e ∧ den vals e = some (vals i) ∧ decl[i]? = some f := by
  rcases h.2 i with h' | ⟨g, hg, hgc, h'⟩
  · rw [hi] at h'
    have := hv i f h'.symm hc
    cases hf : f.init with
    | none => rw [hf] at this; exact .inl ⟨rfl, this.symm⟩
    | some e => rw [hf] at this; exact .inr (.inr ⟨e, rfl, this, h'.symm⟩)
  · rw [hi] at h'
    cases h'
    exact .inr (.inl rfl)

theorem eval_den {vals : Nat → V} {g : Nat → Option V} : ∀ e : Ex V, (∀ j ∈ refs e, g j = some (vals j)) → eval g e = den vals e
  | .lit _, _ => rfl
  | .field i, h => h i (by simp [refs])
  | .op f a b, h => by
    simp only [eval, den]
    rw [eval_den a fun j hj => h j (by simp [refs, hj]), eval_den b fun j hj => h j (by simp [refs, hj])]

theorem exec_value {decl : List (Fld V)} {vals : Nat → V} {s : St V} (h : Filled decl vals s) (hv : IsValues decl vals)
    (ho : OnlyConsts decl) : ∀ (fuel : Nat) (path : List Nat) (i : Nat) (f : Fld V) (e : Ex V), fuel + path.length = s.flds.length + 1 →
    path.Nodup → (∀ p ∈ path, p < s.flds.length) → s.flds[i]? = some f → f.const = true → f.init = some e →
    circular s.flds fuel path i = false → exec s.flds fuel e = some (vals i)
  | 0, path, i, f, e, hl, hn, hlt, _, _, _, _ => by
    have := length_le_of_nodup hn hlt
    simp at hl
    omega
  | fuel + 1, path, i, f, e, hl, hn, hlt, hi, hc, he, hcirc => by
    simp only [circular] at hcirc
    by_cases hp : path.contains i = true
    · rw [if_pos hp] at hcirc; cases hcirc
    · rw [if_neg hp] at hcirc
      rcases filled_init h hv hi hc with ⟨h1, _⟩ | h1 | ⟨e', h1, h2, h3⟩
      · rw [he] at h1; cases h1
      · rw [he] at h1; cases h1; rfl
      · rw [he] at h1; cases h1
        rw [exec, ← h2]
        apply eval_den
        intro j hj
        obtain ⟨g, hg, hgc⟩ := ho i f e h3 hc he j hj
        have hsj : ∃ g', s.flds[j]? = some g' ∧ g'.const = true := by
          rcases h.2 j with h' | ⟨g', hg', hgc', h'⟩
          · exact ⟨g, by rw [h']; exact hg, hgc⟩
          · exact ⟨_, h', hgc'⟩
        obtain ⟨g', hg', hgc'⟩ := hsj
        simp only [hg', hgc', if_true]
        rcases filled_init h hv hg' hgc' with ⟨h1, h4⟩ | h1 | ⟨e', h1, h4, _⟩
        · rw [h1]; simp only [h4]
        · rw [h1]
          dsimp only
          cases fuel <;> rfl
        · rw [h1]
          dsimp only
          have hdep : j ∈ depends s.flds i := by
            unfold depends initOf
            simp only [hi, Option.bind_some, he]
            exact hj
          refine exec_value h hv ho fuel (i :: path) j g' e' (by simp; omega) (List.nodup_cons.2 ⟨by simpa using hp, hn⟩) ?_ hg' hgc' h1 ?_
          · intro p hp'
            rcases List.mem_cons.1 hp' with rfl | hp'
            · exact (List.getElem?_eq_some_iff.1 hi).1
            · exact hlt p hp'
          · rw [List.any_eq_false] at hcirc
            simpa using hcirc j hdep

theorem needs_filled {decl : List (Fld V)} {vals : Nat → V} {s : St V} (h : Filled decl vals s) {i j : Nat}
    (hn : Needs s.flds i j) : Needs decl i j := by
  obtain ⟨e, he, hj⟩ := hn
  rcases h.2 i with h' | ⟨f, hf, hc, h'⟩
  · refine ⟨e, ?_, hj⟩
    unfold initOf at he ⊢
    rw [← h']; exact he
  · unfold initOf at he
    rw [h'] at he
    simp only [Option.bind_some, Option.some.injEq] at he
    subst he
    simp [refs] at hj

theorem plus_filled {decl : List (Fld V)} {vals : Nat → V} {s : St V} (h : Filled decl vals s) {i j : Nat}
    (hn : NeedsPlus s.flds i j) : NeedsPlus decl i j := by
  induction hn with
  | one h1 => exact .one (needs_filled h h1)
  | cons h1 _ ih => exact .cons (needs_filled h h1) ih

theorem fill_value {decl : List (Fld V)} {vals : Nat → V} {s : St V} (h : Filled decl vals s) (hv : IsValues decl vals)
    (ho : OnlyConsts decl) (hac : ∀ (i : Nat) (f : Fld V), decl[i]? = some f → f.const = true → ¬ OnCircle decl i) {i : Nat} {f : Fld V}
    (hi : s.flds[i]? = some f) (hc : f.const = true) : fill s i f = (.succeed, s.put i (vals i)) := by
  have hcirc : circular s.flds s.fuel [] i = false := by
    cases hb : circular s.flds s.fuel [] i with
    | false => rfl
    | true =>
      obtain ⟨k, hk, hkk⟩ := circular_sound s.flds _ [] i (by simp) hb
      have hon : OnCircle decl i := ⟨k, hk.imp id (plus_filled h), plus_filled h hkk⟩
      have : ∃ g, decl[i]? = some g ∧ g.const = true := by
        rcases h.2 i with h' | ⟨g, hg, hgc, _⟩
        · exact ⟨f, by rw [← h']; exact hi, hc⟩
        · exact ⟨g, hg, hgc⟩
      obtain ⟨g, hg, hgc⟩ := this
      exact absurd hon (hac i g hg hgc)
  unfold fill
  cases he : f.init with
  | none =>
    rcases filled_init h hv hi hc with ⟨_, h1⟩ | h1 | ⟨e, h1, _⟩
    · simp only [h1]
    · rw [he] at h1; cases h1
    · rw [he] at h1; cases h1
  | some e =>
    simp only [hcirc]
    have := exec_value h hv ho s.fuel [] i f e (by simp [St.fuel]) List.nodup_nil (by simp) hi hc he hcirc
    rw [this]
    rfl

theorem loop_value {decl : List (Fld V)} {vals : Nat → V} (hv : IsValues decl vals) (ho : OnlyConsts decl)
    (hac : ∀ (i : Nat) (f : Fld V), decl[i]? = some f → f.const = true → ¬ OnCircle decl i) :
    ∀ (n i : Nat) (brk : Option Nat) (s : St V), Filled decl vals s →
      ∃ s', loop n i brk s = (brk, s') ∧ Filled decl vals s' ∧ s'.errors = s.errors ∧
        (∀ j, initOf s.flds j = some (.lit (some (vals j))) → initOf s'.flds j = some (.lit (some (vals j)))) ∧
        ∀ (j : Nat) (f : Fld V), decl[j]? = some f → f.const = true → i ≤ j → j < i + n →
          initOf s'.flds j = some (.lit (some (vals j)))
  | 0, i, brk, s, h => ⟨s, rfl, h, rfl, fun _ hj => hj, fun j f _ _ h1 h2 => absurd h1 (by omega)⟩
  | n + 1, i, brk, s, h => by
    rw [loop]
    cases hi : s.flds[i]? with
    | none =>
      refine ⟨s, rfl, h, rfl, fun _ hj => hj, fun j f hf _ h1 h2 => ?_⟩
      have h3 : s.flds.length ≤ i := List.getElem?_eq_none_iff.1 hi
      have h4 : j < decl.length := (List.getElem?_eq_some_iff.1 hf).1
      rw [h.1] at h3
      omega
    | some f =>
      by_cases hc : f.const = true
      · simp only [hc, if_true, fill_value h hv ho hac hi hc]
        obtain ⟨s', h1, h2, h3, h4, h5⟩ := loop_value hv ho hac n (i + 1) brk _ (filled_put h hi hc)
        refine ⟨s', h1, h2, h3, ?_, ?_⟩
        · intro j hj
          apply h4
          by_cases hij : i = j
          · subst hij
            unfold initOf
            rw [put_get, if_pos rfl, hi]
            rfl
          · unfold initOf at hj ⊢
            rw [put_other hij]
            exact hj
        · intro j g hg hgc hle hlt
          by_cases hij : i = j
          · subst hij
            apply h4
            unfold initOf
            rw [put_get, if_pos rfl, hi]
            rfl
          · exact h5 j g hg hgc (by omega) (by omega)
      · have hf : f.const = false := by simpa using hc
        simp only [hf]
        obtain ⟨s', h1, h2, h3, h4, h5⟩ := loop_value hv ho hac n (i + 1) brk s h
        refine ⟨s', h1, h2, h3, h4, ?_⟩
        intro j g hg hgc hle hlt
        by_cases hij : i = j
        · subst hij
          rcases h.2 i with h' | ⟨g', hg', hgc', h'⟩
          · rw [hi, hg] at h'
            cases h'
            rw [hf] at hgc
            cases hgc
          · rw [hi] at h'
            cases h'
            rw [hf] at hgc'
            cases hgc'
        · exact h5 j g hg hgc (by omega) (by omega)

/-! ## Circles -/

theorem fill_errors (s : St V) (i : Nat) (f : Fld V) : (fill s i f).2.errors = s.errors ∧
    (fill s i f).2.flds.length = s.flds.length ∧ (∀ j, j ≠ i → (fill s i f).2.flds[j]? = s.flds[j]?) ∧
    ((fill s i f).1 = .succeed ∨ (fill s i f).2 = s) := by
  have hput : ∀ v : V, (s.put i v).errors = s.errors ∧ (s.put i v).flds.length = s.flds.length ∧
      ∀ j, j ≠ i → (s.put i v).flds[j]? = s.flds[j]? := fun v => ⟨rfl, put_length s i v, fun j hj => put_other (Ne.symm hj)⟩
  unfold fill
  cases f.init with
  | none => exact ⟨(hput _).1, (hput _).2.1, (hput _).2.2, .inl rfl⟩
  | some e =>
    by_cases hc : circular s.flds s.fuel [] i = true
    · simp [hc]
    · simp only [hc]
      cases exec s.flds s.fuel e with
      | none => by_cases ha : allInit s.flds s.fuel e = true <;> simp [ha]
      | some v => exact ⟨(hput _).1, (hput _).2.1, (hput _).2.2, .inl rfl⟩

theorem loop_prefix : ∀ (n i : Nat) (brk : Option Nat) (s : St V), s.errors <+: (loop n i brk s).2.errors
  | 0, _, _, _ => List.prefix_refl _
  | n + 1, i, brk, s => by
    rw [loop]
    cases hi : s.flds[i]? with
    | none => exact List.prefix_refl _
    | some f =>
      by_cases hc : f.const = true
      · simp only [hc, if_true]
        obtain ⟨h1, -⟩ := fill_errors s i f
        cases hf : fill s i f with
        | mk r s' =>
          rw [hf] at h1
          dsimp only at h1
          cases r with
          | succeed => have := loop_prefix n (i + 1) brk s'; rw [h1] at this; exact this
          | error e =>
            refine List.IsPrefix.trans ?_ (loop_prefix n (i + 1) brk _)
            rw [← h1]
            exact List.prefix_append _ _
          | break_ => have := loop_prefix n (i + 1 + skip s'.flds i) (brk.or (some i)) s'; rw [h1] at this; exact this
      · simp only [hc]
        exact loop_prefix n (i + 1) brk s

theorem passes_prefix : ∀ (k i : Nat) (s : St V), s.errors <+: (passes k i s).2.errors
  | 0, _, _ => List.prefix_refl _
  | k + 1, i, s => by
    rw [passes]
    have h := loop_prefix s.flds.length i none s
    cases hl : loop s.flds.length i none s with
    | mk b s' =>
      rw [hl] at h
      cases b with
      | none => exact h
      | some j => exact h.trans (passes_prefix k j s')

theorem skip_le {s : List (Fld V)} {a m : Nat} {f : Fld V} (hm : s[m]? = some f) (hf : f.init.isSome = true) (ham : a < m) :
    a + 1 + skip s a ≤ m := by
  have key : ∀ (l : List (Fld V)) (k : Nat), l[k]? = some f → (l.takeWhile (·.init.isNone)).length ≤ k := by
    intro l
    induction l with
    | nil => intro k h; simp at h
    | cons x l ih =>
      intro k h
      cases k with
      | zero =>
        simp only [List.getElem?_cons_zero, Option.some.injEq] at h
        subst h
        have : x.init.isNone = false := by cases hx : x.init <;> simp_all
        simp [this]
      | succ k =>
        simp only [List.getElem?_cons_succ] at h
        rw [List.takeWhile_cons]
        split
        · have := ih k h; simp; omega
        · simp
  have := key (s.drop (a + 1)) (m - (a + 1)) (by rw [List.getElem?_drop]; rw [show a + 1 + (m - (a + 1)) = m by omega]; exact hm)
  unfold skip
  omega

theorem loop_circle {decl : List (Fld V)} (hcl : Closed decl) {m : Nat} {fm : Fld V} (hm : decl[m]? = some fm) (hmc : fm.const = true)
    (hon : OnCircle decl m) (hmin : ∀ (j : Nat) (f : Fld V), decl[j]? = some f → f.const = true → OnCircle decl j → m ≤ j) :
    ∀ (n a : Nat) (brk : Option Nat) (s : St V), a ≤ m → m < a + n → s.flds.length = decl.length →
      (∀ (j : Nat), a ≤ j ∨ (∃ f, decl[j]? = some f ∧ f.const = false) → s.flds[j]? = decl[j]?) →
      (loop n a brk s).2.errors ≠ []
  | 0, a, brk, s, h1, h2, _, _ => absurd h2 (by omega)
  | n + 1, a, brk, s, h1, h2, hlen, hk => by
    have hmi : fm.init.isSome = true := by
      obtain ⟨j, ⟨e, he, _⟩, _⟩ := onCircle_step hon
      unfold initOf at he
      rw [hm] at he
      simp only [Option.bind_some] at he
      rw [he]; rfl
    have hsm : s.flds[m]? = some fm := by rw [hk m (.inl h1)]; exact hm
    have hlt : a < s.flds.length := by
      have := (List.getElem?_eq_some_iff.1 hsm).1
      omega
    rw [loop, List.getElem?_eq_getElem hlt]
    dsimp only
    generalize hfa : s.flds[a] = f
    have hsa : s.flds[a]? = some f := by rw [List.getElem?_eq_getElem hlt, hfa]
    have hda : decl[a]? = some f := by rw [← hk a (.inl (Nat.le_refl _))]; exact hsa
    by_cases hc : f.const = true
    · simp only [hc, if_true]
      by_cases ham : a = m
      · subst ham
        rw [hsm] at hsa
        cases hsa
        have hcirc : circular s.flds s.fuel [] a = true := by
          refine circular_complete s.flds s.flds.length (fun i => i < s.flds.length ∧ OnCircle decl i) ?_ _ [] a (by simp [St.fuel])
            (by simp) (by simp) ⟨hlt, hon⟩
          intro i ⟨hi, h⟩
          obtain ⟨j, ⟨e, he, hj⟩, hoj⟩ := onCircle_step h
          have hsame : s.flds[i]? = decl[i]? := by
            have hi' : i < decl.length := by omega
            cases hci : (decl[i]).const with
            | true => exact hk i (.inl (hmin i decl[i] (List.getElem?_eq_getElem hi') hci h))
            | false => exact hk i (.inr ⟨_, List.getElem?_eq_getElem hi', hci⟩)
          refine ⟨hi, j, ⟨e, ?_, hj⟩, ?_, hoj⟩
          · unfold initOf at he ⊢
            rw [hsame]; exact he
          · rw [hlen]; exact hcl i e he j hj
        have hfill : fill s a fm = (.error .circular, s) := by
          obtain ⟨e, he⟩ := Option.isSome_iff_exists.1 hmi
          unfold fill
          rw [he]
          simp only [hcirc, if_true]
        rw [hfill]
        dsimp only
        intro hnil
        have := loop_prefix n (a + 1) brk { s.put a fm.dflt with errors := s.errors ++ [(a, .circular)] }
        rw [hnil] at this
        have := List.prefix_nil.1 this
        simp at this
      · obtain ⟨e1, e2, e3, -⟩ := fill_errors s a f
        cases hf : fill s a f with
        | mk r s' =>
          rw [hf] at e1 e2 e3
          dsimp only at e1 e2 e3
          have hk' : ∀ (b : Nat), a < b → ∀ (j : Nat), b ≤ j ∨ (∃ f, decl[j]? = some f ∧ f.const = false) → s'.flds[j]? = decl[j]? := by
            intro b hb j hj
            rw [e3 j ?_, hk j ?_]
            · rcases hj with hj | hj
              · exact .inl (by omega)
              · exact .inr hj
            · rcases hj with hj | ⟨g, hg, hgc⟩
              · omega
              · intro hja
                subst hja
                rw [hda] at hg
                cases hg
                rw [hc] at hgc
                cases hgc
          cases r with
          | succeed =>
            exact loop_circle hcl hm hmc hon hmin n (a + 1) brk s' (by omega) (by omega) (by omega) (hk' _ (by omega))
          | error e =>
            refine loop_circle hcl hm hmc hon hmin n (a + 1) brk _ (by omega) (by omega) (by simp only [put_length]; omega) ?_
            intro j hj
            have hja : a ≠ j := by
              rcases hj with hj | ⟨g, hg, hgc⟩
              · omega
              · intro hja
                subst hja
                rw [hda] at hg
                cases hg
                rw [hc] at hgc
                cases hgc
            show (s'.put a f.dflt).flds[j]? = _
            rw [put_other hja]
            exact hk' (a + 1) (by omega) j hj
          | break_ =>
            have hsm' : s'.flds[m]? = some fm := by rw [hk' (a + 1) (by omega) m (.inl (by omega))]; exact hm
            have hsk := skip_le hsm' hmi (a := a) (by omega)
            exact loop_circle hcl hm hmc hon hmin n (a + 1 + skip s'.flds a) _ s' hsk (by omega) (by omega) (hk' _ (by omega))
    · have ham : a ≠ m := by
        intro h
        subst h
        rw [hsm] at hsa
        cases hsa
        exact hc hmc
      simp only [hc]
      exact loop_circle hcl hm hmc hon hmin n (a + 1) brk s (by omega) (by omega) hlen fun j hj => hk j (by
        rcases hj with hj | hj
        · exact .inl (by omega)
        · exact .inr hj)

/-! ## Waiting for ever -/

/-- Constant `i` is field `j`, which is no constant and has no initial value. -/
def Waits (s : St V) (i j : Nat) : Prop :=
  (∃ f, s.flds[i]? = some f ∧ f.const = true ∧ f.init = some (.field j)) ∧
    ∃ g, s.flds[j]? = some g ∧ g.const = false ∧ g.init = none

theorem waits_fill {s : St V} {i j : Nat} (h : Waits s i j) {f : Fld V} (hi : s.flds[i]? = some f) : fill s i f = (.break_, s) := by
  obtain ⟨⟨f', h1, h2, h3⟩, g, h4, h5, h6⟩ := h
  rw [hi] at h1
  cases h1
  have hij : i ≠ j := by
    intro h
    subst h
    rw [hi] at h4
    cases h4
    rw [h2] at h5
    cases h5
  have hdj : depends s.flds j = [] := by
    unfold depends initOf
    rw [h4]
    simp [h6]
  have hdi : depends s.flds i = [j] := by
    unfold depends initOf
    rw [hi]
    simp [h3, refs]
  have hcirc : circular s.flds s.fuel [] i = false := by
    unfold St.fuel
    rw [circular]
    simp only [hdi, List.contains_nil, Bool.false_eq_true, if_false, List.any_cons, List.any_nil, Bool.or_false]
    cases s.flds.length with
    | zero => rfl
    | succ n =>
      rw [circular]
      have : ([i] : List Nat).contains j = false := by simp [Ne.symm hij]
      simp [hdj, Ne.symm hij]
  unfold fill
  rw [h3]
  simp only [hcirc]
  have he : exec s.flds s.fuel (.field j) = none := by
    unfold St.fuel
    rw [exec]
    simp [eval, h4, h5]
  have ha : allInit s.flds s.fuel (.field j) = false := by
    unfold St.fuel
    rw [allInit]
    simp [refs, initOf, h4, h6]
  simp [he, ha]

theorem waits_keep {s s' : St V} {i j a : Nat} (h : Waits s i j) {f : Fld V} (ha : s.flds[a]? = some f) (hc : f.const = true)
    (hai : a ≠ i) (hs : ∀ k, k ≠ a → s'.flds[k]? = s.flds[k]?) : Waits s' i j := by
  obtain ⟨⟨f', h1, h2, h3⟩, g, h4, h5, h6⟩ := h
  have haj : a ≠ j := by
    intro h
    subst h
    rw [ha] at h4
    cases h4
    rw [hc] at h5
    cases h5
  exact ⟨⟨f', by rw [hs i (Ne.symm hai)]; exact h1, h2, h3⟩, g, by rw [hs j (Ne.symm haj)]; exact h4, h5, h6⟩

theorem loop_waits {i j : Nat} : ∀ (n a : Nat) (brk : Option Nat) (s : St V), Waits s i j →
    Waits (loop n a brk s).2 i j ∧ (loop n a brk s).2.flds.length = s.flds.length ∧
      (∀ b, brk = some b → (loop n a brk s).1 = some b) ∧
      (a ≤ i → i < a + n → (brk = none ∨ ∃ b, b ≤ i ∧ brk = some b) → ∃ b, b ≤ i ∧ (loop n a brk s).1 = some b)
  | 0, a, brk, s, h => ⟨h, rfl, fun _ hb => hb, fun h1 h2 => absurd h2 (by omega)⟩
  | n + 1, a, brk, s, h => by
    rw [loop]
    cases ha : s.flds[a]? with
    | none =>
      refine ⟨h, rfl, fun _ hb => hb, fun h1 h2 _ => ?_⟩
      obtain ⟨⟨f', hf, _⟩, _⟩ := h
      have := List.getElem?_eq_none_iff.1 ha
      have := (List.getElem?_eq_some_iff.1 hf).1
      omega
    | some f =>
      by_cases hc : f.const = true
      · simp only [hc, if_true]
        by_cases hai : a = i
        · subst hai
          rw [waits_fill h ha]
          dsimp only
          obtain ⟨h1, h2, h3, _⟩ := loop_waits (i := a) (j := j) n (a + 1 + skip s.flds a) (brk.or (some a)) s h
          refine ⟨h1, h2, fun b hb => h3 b (by rw [hb]; rfl), fun _ _ hb => ?_⟩
          rcases hb with hb | ⟨b, hle, hb⟩
          · exact ⟨a, Nat.le_refl _, h3 a (by rw [hb]; rfl)⟩
          · exact ⟨b, hle, h3 b (by rw [hb]; rfl)⟩
        · obtain ⟨e1, e2, e3, -⟩ := fill_errors s a f
          cases hf : fill s a f with
          | mk r s' =>
            rw [hf] at e1 e2 e3
            dsimp only at e1 e2 e3
            have hw : Waits s' i j := waits_keep h ha hc hai e3
            cases r with
            | succeed =>
              obtain ⟨h1, h2, h3, h4⟩ := loop_waits (i := i) (j := j) n (a + 1) brk s' hw
              exact ⟨h1, h2.trans e2, h3, fun g1 g2 g3 => h4 (by omega) (by omega) g3⟩
            | error e =>
              have hw' : Waits { s'.put a f.dflt with errors := s'.errors ++ [(a, e)] } i j := by
                refine waits_keep h ha hc hai fun k hk => ?_
                show (s'.put a f.dflt).flds[k]? = _
                rw [put_other (Ne.symm hk), e3 k hk]
              obtain ⟨h1, h2, h3, h4⟩ := loop_waits (i := i) (j := j) n (a + 1) brk _ hw'
              refine ⟨h1, ?_, h3, fun g1 g2 g3 => h4 (by omega) (by omega) g3⟩
              rw [h2]
              show (s'.put a f.dflt).flds.length = _
              rw [put_length]; exact e2
            | break_ =>
              obtain ⟨h1, h2, h3, h4⟩ := loop_waits (i := i) (j := j) n (a + 1 + skip s'.flds a) (brk.or (some a)) s' hw
              refine ⟨h1, h2.trans e2, fun b hb => h3 b (by rw [hb]; rfl), fun g1 g2 g3 => ?_⟩
              rcases g3 with hb | ⟨b, hle, hb⟩
              · exact ⟨a, g1, h3 a (by rw [hb]; rfl)⟩
              · exact ⟨b, hle, h3 b (by rw [hb]; rfl)⟩
      · simp only [hc]
        have hai : a ≠ i := by
          intro hai
          subst hai
          obtain ⟨⟨f', hf, hfc, _⟩, _⟩ := h
          rw [ha] at hf
          cases hf
          exact hc hfc
        obtain ⟨h1, h2, h3, h4⟩ := loop_waits (i := i) (j := j) n (a + 1) brk s h
        exact ⟨h1, h2, h3, fun g1 g2 g3 => h4 (by omega) (by omega) g3⟩

theorem passes_waits {i j : Nat} : ∀ (k a : Nat) (s : St V), Waits s i j → a ≤ i → ∃ b, b ≤ i ∧ (passes k a s).1 = some b
  | 0, a, s, _, h => ⟨a, h, rfl⟩
  | k + 1, a, s, h, ha => by
    have hlt : i < s.flds.length := by
      obtain ⟨⟨f, hf, _⟩, _⟩ := h
      exact (List.getElem?_eq_some_iff.1 hf).1
    obtain ⟨h1, _, _, h4⟩ := loop_waits s.flds.length a none s h
    obtain ⟨b, hb, hl⟩ := h4 ha (by omega) (.inl rfl)
    rw [passes]
    cases hr : loop s.flds.length a none s with
    | mk r s' =>
      rw [hr] at h1 hl
      dsimp only at h1 hl
      subst hl
      exact passes_waits k b s' h1 hb

end Verif.Consts
