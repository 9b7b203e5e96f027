import Verif.Spec.Paths

/-! Helper lemmas: the scan over characters is a scan over names. -/

namespace Verif.Paths

open Spec

/-! ## The same scan over the names, the last one first -/

/-- `__jmp_relative` over names; `none`: before the start of the path. -/
def cjmp : List Str → Bool × Option (List Str)
  | [] => (false, some [])
  | n :: r =>
    if n = [dot] then (true, (cjmp r).2)
    else if n = [dot, dot] then
      (true, match (cjmp r).2 with
        | some (_ :: r') => some r'
        | _ => none)
    else (false, some (n :: r))

def cjmps : Nat → List Str → Option (List Str)
  | 0, r => some r
  | k + 1, r =>
    match cjmp r with
    | (false, q) => q
    | (true, some q) => cjmps k q
    | (true, none) => none

def ccopy : Nat → List Str → Str → Str
  | 0, _, out => out
  | _ + 1, [], out => out
  | k + 1, n :: r, out =>
    match cjmps (r.length + 1) r with
    | some q => ccopy k q (slash :: (n ++ out))
    | none => n ++ out

theorem render_nil : render [] = [] := rfl

theorem render_cons (n : Str) (ns : List Str) : render (n :: ns) = slash :: (n ++ render ns) := by
  simp [render]

theorem render_append (a b : List Str) : render (a ++ b) = render a ++ render b := by
  simp [render]

/-- The position behind the names `r` (the last one first). -/
def pos (r : List Str) : Nat := (render r.reverse).length

theorem pos_nil : pos [] = 0 := rfl

theorem pos_cons (n : Str) (r : List Str) : pos (n :: r) = pos r + 1 + n.length := by
  simp [pos, render_append, render_cons, render_nil]; omega

theorem at_append_right (a b : Str) (i : Nat) (p : Int) (h : p = ((a.length + i : Nat) : Int)) :
    at' (a ++ b) p = b.getD i 0 := by
  subst h
  have h1 : ((a.length + i : Nat) : Int).toNat = a.length + i := by omega
  unfold at'
  rw [h1, List.getD_eq_getElem?_getD, List.getElem?_append_right (by omega)]
  rw [List.getD_eq_getElem?_getD]
  congr 2
  omega

/-- The path is `r` reversed, then other names. -/
def Cut (s : Str) (r : List Str) (rest : List Str) : Prop := s = render (r.reverse ++ rest)

theorem Cut.split {s : Str} {r rest : List Str} (h : Cut s r rest) :
    s = render r.reverse ++ render rest := by rw [h, render_append]

theorem Cut.tail {s n} {r rest : List Str} (h : Cut s (n :: r) rest) : Cut s r (n :: rest) := by
  rw [Cut, h]; simp

theorem Cut.slashAt {s n} {r rest : List Str} (h : Cut s r (n :: rest)) :
    at' s (pos r : Int) = slash := by
  rw [h.split, at_append_right _ _ 0 _ (by simp [pos]), render_cons]; rfl

theorem Cut.len {s} {r rest : List Str} (h : Cut s r rest) : pos r ≤ s.length := by
  rw [h.split, List.length_append, pos]; omega

/-- A character of the name in front of the position. -/
theorem Cut.char {s n} {r rest : List Str} (h : Cut s r (n :: rest)) (i : Nat)
    (hi : i < n.length) (p : Int) (hp : p = ((pos r + 1 + i : Nat) : Int)) :
    at' s p = n[i] := by
  rw [h.split, at_append_right _ _ (i + 1) _ (by rw [hp]; simp [pos]; omega), render_cons]
  rw [List.getD_eq_getElem?_getD, List.getElem?_cons_succ, List.getElem?_append_left hi,
    List.getElem?_eq_getElem hi]; rfl

theorem Cut.drop {s n} {r rest : List Str} (h : Cut s r (n :: rest)) (i : Nat)
    (hi : i ≤ n.length) (p : Int) (hp : p = ((pos r + 1 + i : Nat) : Int)) :
    s.drop p.toNat = n.drop i ++ render rest := by
  have h1 : p.toNat = (render r.reverse).length + (i + 1) := by rw [hp]; simp [pos]; omega
  rw [h1, h.split, List.drop_append]
  have h2 : (render r.reverse).drop ((render r.reverse).length + (i + 1)) = [] :=
    List.drop_eq_nil_of_le (by omega)
  rw [h2, render_cons, List.nil_append]
  have h3 : (render r.reverse).length + (i + 1) - (render r.reverse).length = i + 1 := by omega
  rw [h3, List.drop_succ_cons, List.drop_append]
  have h4 : i - n.length = 0 := by omega
  rw [h4]; simp

theorem Cut.dropSlash {s n} {r rest : List Str} (h : Cut s r (n :: rest)) :
    s.drop (pos r : Int).toNat = slash :: (n ++ render rest) := by
  have h1 : (pos r : Int).toNat = (render r.reverse).length := by simp [pos]
  rw [h1, h.split, List.drop_left, render_cons]

/-! ## `__pre_with` -/

theorem pre_nil (s : Str) (pre : Str) (hp : 0 < pre.length) :
    preWith s ((0 : Nat) - 1 : Int) pre = false := by
  unfold preWith
  rw [if_pos (by omega)]

theorem preWith_at (s : Str) (p : Int) (pre : Str) (start : Int) (h : ¬ p + 1 < pre.length)
    (hs : p - pre.length + 1 = start) :
    preWith s p pre
      = if start ≤ 0 || at' s (start - 1) == slash then startsWith s start pre else false := by
  subst hs
  unfold preWith
  rw [if_neg h]

theorem pre_iff_one {s n} {r rest : List Str} (h : Cut s r (n :: rest)) (hn : slash ∉ n) :
    preWith s ((pos (n :: r) : Nat) - 1 : Int) [dot] = decide (n = [dot]) := by
  rw [pos_cons]
  rw [preWith_at s _ _ ((pos r + n.length : Nat) : Int) (by simp; omega) (by simp; omega)]
  by_cases h0 : n.length = 0
  · have : n = [] := List.length_eq_zero_iff.mp h0
    subst this
    simp only [List.length_nil, Nat.add_zero, startsWith]
    rw [h.dropSlash]
    simp [List.isPrefixOf, slash, dot]
  · have e2 : ((pos r + n.length : Nat) : Int) = ((pos r + 1 + (n.length - 1) : Nat) : Int) := by
      omega
    by_cases h1 : n.length = 1
    · have hs : at' s (((pos r + n.length : Nat) : Int) - 1) = slash := by
        have : ((pos r + n.length : Nat) : Int) - 1 = (pos r : Int) := by omega
        rw [this, h.slashAt]
      rw [hs]
      simp only [beq_self_eq_true, Bool.or_true, if_true, startsWith]
      rw [h.drop (n.length - 1) (by omega) _ e2, h1]
      obtain ⟨a, rfl⟩ := List.length_eq_one_iff.mp h1
      rw [Bool.eq_iff_iff]
      simp only [Nat.sub_self, List.drop_zero, List.cons_append, List.nil_append,
        List.isPrefixOf_cons₂, List.isPrefixOf_nil_left, Bool.and_true, beq_iff_eq,
        decide_eq_true_eq, List.cons.injEq, and_true]
      exact eq_comm
    · have hs : at' s (((pos r + n.length : Nat) : Int) - 1) ≠ slash := by
        rw [h.char (n.length - 2) (by omega) _ (by omega)]
        intro h'
        exact hn (h' ▸ List.getElem_mem _)
      have hne : n ≠ [dot] := by intro h'; rw [h'] at h1; simp at h1
      have : ¬ ((pos r + n.length : Nat) : Int) ≤ 0 := by omega
      rw [if_neg (by
        rw [Bool.or_eq_true]
        intro h'
        rcases h' with h' | h'
        · exact this (of_decide_eq_true h')
        · exact hs (by simpa using h'))]
      simp [hne]

theorem pre_iff_two {s n} {r rest : List Str} (h : Cut s r (n :: rest)) (hn : slash ∉ n) :
    preWith s ((pos (n :: r) : Nat) - 1 : Int) [dot, dot] = decide (n = [dot, dot]) := by
  rw [pos_cons]
  by_cases h0 : n.length = 0
  · have : n = [] := List.length_eq_zero_iff.mp h0
    rw [this] at h ⊢
    by_cases hp : pos r = 0
    · unfold preWith
      rw [if_pos (by simp [hp])]; simp
    · rw [preWith_at s _ _ ((pos r - 1 : Nat) : Int) (by simp; omega) (by simp; omega)]
      have hl := Cut.len h
      have hd : s.drop ((pos r - 1 : Nat) : Int).toNat
          = at' s ((pos r - 1 : Nat) : Int) :: (slash :: ([] ++ render rest)) := by
        have e : ((pos r - 1 : Nat) : Int).toNat = pos r - 1 := by omega
        rw [e]
        have hlt : pos r - 1 < s.length := by omega
        rw [List.drop_eq_getElem_cons hlt]
        have e3 : pos r - 1 + 1 = (pos r : Int).toNat := by omega
        rw [e3, Cut.dropSlash h]
        simp [at', List.getD_eq_getElem?_getD, hlt]
      unfold startsWith
      rw [hd]
      simp [List.isPrefixOf, slash, dot]
  · rw [preWith_at s _ _ ((pos r + (n.length - 1) : Nat) : Int) (by simp; omega)
      (by simp; omega)]
    by_cases h1 : n.length = 1
    · unfold startsWith
      have e1 : ((pos r + (n.length - 1) : Nat) : Int) = (pos r : Int) := by omega
      rw [e1, h.dropSlash]
      have hne : n ≠ [dot, dot] := by intro h'; rw [h'] at h1; simp at h1
      rw [decide_eq_false hne]
      simp [List.isPrefixOf, slash, dot]
    · have e2 : ((pos r + (n.length - 1) : Nat) : Int)
          = ((pos r + 1 + (n.length - 2) : Nat) : Int) := by omega
      by_cases h2 : n.length = 2
      · have hs : at' s (((pos r + (n.length - 1) : Nat) : Int) - 1) = slash := by
          have : ((pos r + (n.length - 1) : Nat) : Int) - 1 = (pos r : Int) := by omega
          rw [this, h.slashAt]
        rw [hs]
        simp only [beq_self_eq_true, Bool.or_true, if_true, startsWith]
        rw [h.drop (n.length - 2) (by omega) _ e2, h2]
        obtain ⟨a, b, rfl⟩ : ∃ a b, n = [a, b] := by
          match n, h2 with
          | [a, b], _ => exact ⟨a, b, rfl⟩
        rw [Bool.eq_iff_iff]
        simp only [Nat.sub_self, List.drop_zero, List.cons_append, List.nil_append,
          List.isPrefixOf_cons₂, List.isPrefixOf_nil_left, Bool.and_true, beq_iff_eq,
          decide_eq_true_eq, List.cons.injEq, and_true, Bool.and_eq_true]
        exact ⟨fun h => ⟨h.1.symm, h.2.symm⟩, fun h => ⟨h.1.symm, h.2.symm⟩⟩
      · have hs : at' s (((pos r + (n.length - 1) : Nat) : Int) - 1) ≠ slash := by
          rw [h.char (n.length - 3) (by omega) _ (by omega)]
          intro h'
          exact hn (h' ▸ List.getElem_mem _)
        have hne : n ≠ [dot, dot] := by intro h'; rw [h'] at h2; simp at h2
        have : ¬ ((pos r + (n.length - 1) : Nat) : Int) ≤ 0 := by omega
        rw [if_neg (by
          rw [Bool.or_eq_true]
          intro h'
          rcases h' with h' | h'
          · exact this (of_decide_eq_true h')
          · exact hs (by simpa using h'))]
        simp [hne]

/-! ## Stepping back over a name -/

theorem backNat_name {s n} {r rest : List Str} (h : Cut s r (n :: rest)) (hn : slash ∉ n) :
    ∀ i, i ≤ n.length → backNat s (pos r + i) = (pos r : Int) := by
  intro i
  induction i with
  | zero =>
    intro _
    have hs := h.slashAt
    cases hp : pos r with
    | zero => rw [hp] at hs; simp [backNat] at *; exact hs
    | succ m => rw [hp] at hs; rw [backNat.eq_def]; simp at hs ⊢; intro h'; exact absurd hs h'
  | succ i ih =>
    intro hi
    have hc := h.char i (by omega) ((pos r + i + 1 : Nat) : Int) (by omega)
    have hne : n[i] ≠ slash := fun h' => hn (h' ▸ List.getElem_mem _)
    have e : pos r + (i + 1) = (pos r + i) + 1 := by omega
    rw [e, backNat.eq_def]
    simp only
    rw [hc, if_neg (by simpa using hne)]
    exact ih (by omega)

theorem back_name {s n} {r rest : List Str} (h : Cut s r (n :: rest)) (hn : slash ∉ n) :
    back s ((pos (n :: r) : Int) - 1) = (pos r : Int) := by
  rw [pos_cons]
  unfold back
  rw [if_neg (by omega)]
  have e : (((pos r + 1 + n.length : Nat) : Int) - 1).toNat = pos r + n.length := by omega
  rw [e]
  exact backNat_name h hn _ (Nat.le_refl _)

/-! ## `__jmp_relative` -/

/-- A position of the scan: in the path, or before its start. -/
def Stands (p : Int) : Option (List Str) → Prop
  | some r => p = (pos r : Int)
  | none => p < 0

theorem cjmp_suffix : ∀ (r q : List Str), (cjmp r).2 = some q →
    ∃ mid, r = mid ++ q ∧ ((cjmp r).1 = true → mid ≠ []) := by
  intro r
  induction r with
  | nil =>
    intro q hq
    simp [cjmp] at hq
    subst hq
    exact ⟨[], rfl, by simp [cjmp]⟩
  | cons n r ih =>
    intro q hq
    unfold cjmp at hq ⊢
    by_cases h1 : n = [dot]
    · rw [if_pos h1] at hq
      obtain ⟨mid, hm, _⟩ := ih q hq
      exact ⟨n :: mid, by rw [hm]; rfl, by simp⟩
    · rw [if_neg h1] at hq ⊢
      by_cases h2 : n = [dot, dot]
      · rw [if_pos h2] at hq
        cases hc : (cjmp r).2 with
        | none => rw [hc] at hq; simp at hq
        | some r1 =>
          rw [hc] at hq
          cases r1 with
          | nil => simp at hq
          | cons m r2 =>
            simp at hq
            subst hq
            obtain ⟨mid, hm, _⟩ := ih _ hc
            exact ⟨n :: (mid ++ [m]), by rw [hm]; simp, by simp⟩
      · rw [if_neg h2] at hq ⊢
        simp at hq
        exact ⟨[], by rw [← hq]; rfl, by simp⟩

theorem Cut.go {s} {mid q rest : List Str} (h : Cut s (mid ++ q) rest) :
    Cut s q (mid.reverse ++ rest) := by
  rw [Cut, h]; simp

theorem jmp_names {s} : ∀ (r rest : List Str), Cut s r rest → (∀ n ∈ r, slash ∉ n) →
    ∀ k, pos r < k →
    ∃ p, jmp k s (pos r) = .ok ((cjmp r).1, p) ∧ Stands p (cjmp r).2 := by
  intro r
  induction r with
  | nil =>
    intro rest h _ k hk
    obtain ⟨k, rfl⟩ : ∃ j, k = j + 1 := ⟨k - 1, by omega⟩
    refine ⟨0, ?_, by simp [cjmp, Stands, pos_nil]⟩
    rw [pos_nil, jmp.eq_def]
    simp only
    rw [pre_nil s [dot] (by simp), pre_nil s [dot, dot] (by simp)]
    simp [cjmp]
  | cons n r ih =>
    intro rest h hr k hk
    obtain ⟨k, rfl⟩ : ∃ j, k = j + 1 := ⟨k - 1, by omega⟩
    have ht := h.tail
    have hn : slash ∉ n := hr n (by simp)
    have hr' : ∀ m ∈ r, slash ∉ m := fun m hm => hr m (by simp [hm])
    rw [jmp.eq_def]
    simp only
    rw [pre_iff_one ht hn, pre_iff_two ht hn]
    unfold cjmp
    by_cases h1 : n = [dot]
    · rw [if_pos (by simpa using h1), if_pos h1]
      have e : (pos (n :: r) : Int) - 2 = (pos r : Int) := by
        rw [pos_cons, h1]; simp; omega
      rw [e, if_pos ⟨by omega, ht.slashAt⟩]
      rw [pos_cons] at hk
      obtain ⟨p, hp, hs⟩ := ih _ ht hr' k (by omega)
      rw [hp]
      exact ⟨p, rfl, hs⟩
    · rw [if_neg (by simpa using h1), if_neg h1]
      by_cases h2 : n = [dot, dot]
      · rw [if_pos (by simpa using h2), if_pos h2]
        have e : (pos (n :: r) : Int) - 3 = (pos r : Int) := by
          rw [pos_cons, h2]; simp; omega
        rw [e, if_pos (by omega), if_pos ht.slashAt]
        rw [pos_cons] at hk
        obtain ⟨p, hp, hs⟩ := ih _ ht hr' k (by omega)
        rw [hp]
        refine ⟨back s (p - 1), rfl, ?_⟩
        cases hc : (cjmp r).2 with
        | none =>
          rw [hc] at hs
          simp only [Stands] at hs ⊢
          unfold back
          rw [if_pos (by omega)]; omega
        | some r1 =>
          rw [hc] at hs
          simp only [Stands] at hs
          subst hs
          cases r1 with
          | nil =>
            simp only [Stands, pos_nil]
            unfold back
            rw [if_pos (by omega)]; omega
          | cons m r2 =>
            simp only [Stands]
            obtain ⟨mid, hm, _⟩ := cjmp_suffix _ _ hc
            have hcut : Cut s (m :: r2) (mid.reverse ++ n :: rest) := by
              rw [hm] at ht; exact ht.go
            exact back_name hcut.tail (hr' m (by rw [hm]; simp))
      · rw [if_neg (by simpa using h2), if_neg h2]
        exact ⟨_, rfl, rfl⟩

theorem jmps_names {s} : ∀ (k : Nat) (r rest : List Str), Cut s r rest → rest ≠ [] →
    (∀ n ∈ r, slash ∉ n) → r.length < k → ∀ j, r.length < j →
    ∃ p, jmps j s (pos r) = .ok p ∧ Stands p (cjmps k r) := by
  intro k
  induction k with
  | zero => intro r rest _ _ _ h; omega
  | succ k ih =>
    intro r rest h hrest hr hk j hj
    obtain ⟨j, rfl⟩ : ∃ i, j = i + 1 := ⟨j - 1, by omega⟩
    obtain ⟨p, hp, hs⟩ := jmp_names r rest h hr ((pos r : Int).toNat + 1) (by omega)
    rw [jmps.eq_def]
    simp only
    rw [hp]
    unfold cjmps
    cases hc : cjmp r with
    | mk b o =>
      rw [hc] at hs
      cases b with
      | false => exact ⟨p, rfl, hs⟩
      | true =>
        cases o with
        | none =>
          simp only [Stands] at hs
          exact ⟨p, by simp [hs], hs⟩
        | some q =>
          simp only [Stands] at hs
          subst hs
          obtain ⟨mid, hm, hne⟩ := cjmp_suffix r q (by rw [hc])
          have hne := hne (by rw [hc])
          have hcut : Cut s q (mid.reverse ++ rest) := by
            rw [hm] at h; exact h.go
          have hl : r.length = mid.length + q.length := by rw [hm]; simp
          have hmid : 0 < mid.length := List.length_pos_iff.mpr hne
          have hsl : at' s (pos q : Int) = slash := by
            cases hx : mid.reverse ++ rest with
            | nil => simp at hx; exact absurd hx.1 hne
            | cons a b => rw [hx] at hcut; exact hcut.slashAt
          have : ¬ (pos q : Int) < 0 := by omega
          simp only [hsl, this, decide_false, Bool.false_or, bne_self_eq_false]
          exact ih q _ hcut (by simp [hne]) (fun n hn => hr n (by rw [hm]; simp [hn]))
            (by omega) j (by omega)

theorem cjmps_suffix : ∀ (k : Nat) (r q : List Str), cjmps k r = some q →
    ∃ mid, r = mid ++ q := by
  intro k
  induction k with
  | zero => intro r q h; simp [cjmps] at h; exact ⟨[], by simp [h]⟩
  | succ k ih =>
    intro r q h
    unfold cjmps at h
    cases hc : cjmp r with
    | mk b o =>
      rw [hc] at h
      cases b with
      | false =>
        simp at h
        obtain ⟨mid, hm, _⟩ := cjmp_suffix r q (by rw [hc]; exact h)
        exact ⟨mid, hm⟩
      | true =>
        cases o with
        | none => simp at h
        | some q' =>
          obtain ⟨mid, hm, _⟩ := cjmp_suffix r q' (by rw [hc])
          obtain ⟨mid', hm'⟩ := ih q' q h
          exact ⟨mid ++ mid', by rw [hm, hm', List.append_assoc]⟩

theorem pos_ge (r : List Str) : r.length ≤ pos r := by
  induction r with
  | nil => simp
  | cons n r ih => rw [pos_cons]; simp; omega

/-- Copying the characters of a name. -/
theorem copy_chars {s n} {r rest : List Str} (h : Cut s r (n :: rest)) (hn : slash ∉ n)
    (out : Str) : ∀ (i : Nat), i ≤ n.length → ∀ k, i ≤ k →
    copy k s ((pos r + i : Nat) : Int) out
      = copy (k - i) s (pos r : Int) (n.take i ++ out) := by
  intro i
  induction i generalizing out with
  | zero => intro _ k _; simp
  | succ i ih =>
    intro hi k hk
    obtain ⟨k, rfl⟩ : ∃ j, k = j + 1 := ⟨k - 1, by omega⟩
    have hc := h.char i (by omega) ((pos r + (i + 1) : Nat) : Int) (by omega)
    have hne : n[i] ≠ slash := fun h' => hn (h' ▸ List.getElem_mem _)
    rw [copy.eq_def]
    simp only
    rw [if_neg (by omega), hc, if_neg hne]
    have e : ((pos r + (i + 1) : Nat) : Int) - 1 = ((pos r + i : Nat) : Int) := by omega
    rw [e, ih _ (by omega) k (by omega)]
    have e2 : k + 1 - (i + 1) = k - i := by omega
    rw [e2, List.take_succ_eq_append_getElem (by omega), List.append_assoc]
    rfl

theorem copy_names {s} : ∀ (m : Nat) (r rest : List Str) (out : Str), Cut s r rest →
    (∀ n ∈ r, slash ∉ n) → r.length < m → ∀ k, pos r < k →
    copy k s ((pos r : Int) - 1) out = .ok (ccopy m r out) := by
  intro m
  induction m with
  | zero => intro r _ _ _ _ h; omega
  | succ m ih =>
    intro r rest out h hr hm k hk
    cases r with
    | nil =>
      obtain ⟨k, rfl⟩ : ∃ j, k = j + 1 := ⟨k - 1, by omega⟩
      rw [copy.eq_def]
      simp [pos_nil, ccopy]
    | cons n r =>
      have ht := h.tail
      have hn : slash ∉ n := hr n (by simp)
      have hr' : ∀ a ∈ r, slash ∉ a := fun a ha => hr a (by simp [ha])
      rw [pos_cons] at hk ⊢
      have e : ((pos r + 1 + n.length : Nat) : Int) - 1 = ((pos r + n.length : Nat) : Int) := by
        omega
      rw [e, copy_chars ht hn out n.length (Nat.le_refl _) k (by omega), List.take_length]
      obtain ⟨j, hj⟩ : ∃ j, k - n.length = j + 1 := ⟨k - n.length - 1, by omega⟩
      rw [hj, copy.eq_def]
      simp only
      rw [if_neg (by omega), if_pos ht.slashAt]
      have hpg := pos_ge r
      obtain ⟨p, hp, hs⟩ := jmps_names (r.length + 1) r _ ht (by simp) hr' (by omega)
        ((pos r : Int).toNat + 1) (by omega)
      rw [hp]
      unfold ccopy
      cases hc : cjmps (r.length + 1) r with
      | none =>
        rw [hc] at hs
        simp only [Stands] at hs
        simp only
        rw [if_neg (by omega)]
        obtain ⟨j, rfl⟩ : ∃ i, j = i + 1 := ⟨j - 1, by omega⟩
        rw [copy.eq_def]
        simp [hs]
      | some q =>
        rw [hc] at hs
        simp only [Stands] at hs
        subst hs
        simp only
        rw [if_pos (by omega)]
        obtain ⟨mid, hmid⟩ := cjmps_suffix _ _ _ hc
        have hcut : Cut s q (mid.reverse ++ n :: rest) := by
          rw [hmid] at ht; exact ht.go
        have hsl : at' s (pos q : Int) = slash := by
          cases hx : mid.reverse ++ n :: rest with
          | nil => simp at hx
          | cons a b => rw [hx] at hcut; exact hcut.slashAt
        have hlen : r.length = mid.length + q.length := by rw [hmid]; simp
        have hpq : pos q ≤ pos r := by
          have := congrArg pos hmid
          rw [this]
          clear this hmid hcut hlen
          induction mid with
          | nil => simp
          | cons a mid ihm => rw [List.cons_append, pos_cons]; omega
        rw [hsl]
        simp only [List.length_cons] at hm
        exact ih q _ _ hcut (fun a ha => hr' a (by rw [hmid]; simp [ha])) (by omega) j (by omega)

/-- `make_absolute` over names. -/
theorem makeAbsolute_names (names : List Str) (h : ∀ n ∈ names, slash ∉ n) :
    makeAbsolute (render names) =
      match (cjmp names.reverse).2 with
      | some r => .ok (ccopy (r.length + 1) r [])
      | none => .ub := by
  have hcut : Cut (render names) names.reverse [] := by rw [Cut]; simp
  have hl : (render names).length = pos names.reverse := by simp [pos]
  have hr : ∀ n ∈ names.reverse, slash ∉ n := fun n hn => h n (by simpa using hn)
  unfold makeAbsolute
  obtain ⟨p, hp, hs⟩ := jmp_names names.reverse [] hcut hr (pos names.reverse + 1) (by omega)
  rw [hl, hp]
  simp only
  cases hc : (cjmp names.reverse).2 with
  | none =>
    rw [hc] at hs
    simp only [Stands] at hs
    rw [if_neg (by simp [inside]; omega)]
  | some r =>
    rw [hc] at hs
    simp only [Stands] at hs
    subst hs
    obtain ⟨mid, hm, _⟩ := cjmp_suffix _ _ hc
    have hc2 : Cut (render names) r (mid.reverse ++ []) := by rw [hm] at hcut; exact hcut.go
    have hin : pos r ≤ (render names).length := hc2.len
    have hrr : ∀ n ∈ r, slash ∉ n := fun n hn => hr n (by rw [hm]; simp [hn])
    rw [if_pos (by simp [inside]; omega)]
    have hch : at' (render names) (pos r : Int) = 0 ∨ at' (render names) (pos r : Int) = slash := by
      cases hx : mid.reverse ++ [] with
      | nil =>
        left
        rw [hx] at hc2
        unfold at'
        rw [List.getD_eq_getElem?_getD, List.getElem?_eq_none]
        · rfl
        · rw [hc2]; simp [pos]
      | cons a b => right; rw [hx] at hc2; exact hc2.slashAt
    rw [if_pos hch]
    exact copy_names (r.length + 1) r _ [] hc2 hrr (by omega) _ (by omega)

/-! ## Legs -/

/-- Neither `.` nor `..`. -/
def Solid (r : List Str) : Prop := ∀ n ∈ r, ¬ Dots n ∧ slash ∉ n

theorem cjmp_solid {n : Str} (r : List Str) (h : ¬ Dots n) : cjmp (n :: r) = (false, some (n :: r)) := by
  unfold Dots at h
  unfold cjmp
  rw [if_neg (fun h' => h (.inl h')), if_neg (fun h' => h (.inr h'))]

theorem ups_cons_one (ds : List Str) : ups ([dot] :: ds) = ups ds := by
  unfold ups; rw [List.count_cons_of_ne (by decide)]

theorem ups_cons_two (ds : List Str) : ups ([dot, dot] :: ds) = ups ds + 1 := by
  unfold ups; rw [List.count_cons_self]

theorem ups_reverse (ds : List Str) : ups ds.reverse = ups ds := by
  unfold ups; exact List.count_reverse

theorem cjmp_dots (r : List Str) (hr : cjmp r = (false, some r)) : ∀ (ds : List Str),
    (∀ d ∈ ds, Dots d) → ups ds ≤ r.length →
    cjmp (ds ++ r) = (!ds.isEmpty, some (r.drop (ups ds))) := by
  intro ds
  induction ds with
  | nil => intro _ _; simpa [ups] using hr
  | cons d ds ih =>
    intro hd hu
    have hd' : ∀ x ∈ ds, Dots x := fun x hx => hd x (by simp [hx])
    rw [List.cons_append]
    unfold cjmp
    rcases hd d (by simp) with rfl | rfl
    · rw [ups_cons_one] at hu
      rw [if_pos rfl, ih hd' hu, ups_cons_one]
      simp
    · rw [ups_cons_two] at hu
      rw [if_neg (by decide), if_pos rfl, ih hd' (by omega), ups_cons_two]
      simp only [List.isEmpty_cons, Bool.not_false, Prod.mk.injEq, true_and]
      cases hx : r.drop (ups ds) with
      | nil =>
        have := congrArg List.length hx
        simp at this
        omega
      | cons a b =>
        have h1 := congrArg List.tail hx
        rw [List.tail_drop] at h1
        simp [h1]

/-- The names of the legs, the last one first. -/
def revAll : List Leg → List Str
  | [] => []
  | l :: ls => l.dots.reverse ++ (l.names.reverse ++ revAll ls)

/-- Where the legs lead to, the last name first. -/
def resR : List Leg → List Str
  | [] => []
  | l :: ls => l.names.reverse.drop (ups l.dots) ++ resR ls

theorem cjmps_stop {k : Nat} {r : List Str} (h : cjmp r = (false, some r)) :
    cjmps (k + 1) r = some r := by
  unfold cjmps; rw [h]

theorem cjmp_front {P X : List Str} (hP : Solid P) (h : P ≠ []) :
    cjmp (P ++ X) = (false, some (P ++ X)) := by
  cases P with
  | nil => exact absurd rfl h
  | cons n P => exact cjmp_solid _ (hP n (by simp)).1

theorem solid_names {ns : List Str} (h : ∀ n ∈ ns, Name n) : Solid ns :=
  fun n hn => (h n hn).2

theorem Solid.reverse {r : List Str} (h : Solid r) : Solid r.reverse :=
  fun n hn => h n (by simpa using hn)

theorem Solid.drop {r : List Str} (h : Solid r) (i : Nat) : Solid (r.drop i) :=
  fun n hn => h n (List.mem_of_mem_drop hn)

theorem leg_jump {l : Leg} (hl : l.Good) (X : List Str) :
    cjmp (l.dots.reverse ++ (l.names.reverse ++ X))
      = (!l.dots.reverse.isEmpty, some (l.names.reverse.drop (ups l.dots) ++ X)) := by
  obtain ⟨h0, h1, h2, h3⟩ := hl
  have hR := cjmp_front (X := X) (solid_names h1).reverse (by simpa using h0)
  rw [cjmp_dots _ hR l.dots.reverse (fun d hd => h2 d (by simpa using hd))
    (by rw [ups_reverse]; simp; omega)]
  rw [ups_reverse, List.drop_append_of_le_length (by simpa using h3)]

theorem legs_jump : ∀ (ls : List Leg), (∀ l ∈ ls, l.Good) → ∀ k, (revAll ls).length < k →
    ∃ P ls', cjmps k (revAll ls) = some (P ++ revAll ls') ∧ Solid P ∧ (P = [] → ls' = [])
      ∧ (∀ l ∈ ls', l.Good) ∧ resR ls = P ++ resR ls'
      ∧ (P ++ revAll ls').length ≤ (revAll ls).length := by
  intro ls
  induction ls with
  | nil =>
    intro _ k hk
    obtain ⟨k, rfl⟩ : ∃ j, k = j + 1 := ⟨k - 1, by omega⟩
    exact ⟨[], [], cjmps_stop rfl, fun _ h => by simp at h, fun _ => rfl, fun _ h => by simp at h,
      rfl, Nat.le_refl _⟩
  | cons l ls ih =>
    intro hg k hk
    obtain ⟨k, rfl⟩ : ∃ j, k = j + 1 := ⟨k - 1, by omega⟩
    have hl := hg l (by simp)
    have hls : ∀ x ∈ ls, x.Good := fun x hx => hg x (by simp [hx])
    have hj := leg_jump hl (revAll ls)
    have hsol := solid_names hl.2.1
    simp only [revAll] at hk ⊢
    unfold cjmps
    rw [hj]
    have hlen : (l.names.reverse.drop (ups l.dots) ++ revAll ls).length
        ≤ (l.dots.reverse ++ (l.names.reverse ++ revAll ls)).length := by
      simp; omega
    cases hd : l.dots.reverse with
    | nil =>
      refine ⟨l.names.reverse.drop (ups l.dots), ls, rfl, hsol.reverse.drop _, ?_, hls, rfl, ?_⟩
      · intro he
        have hdd : l.dots = [] := by simpa using hd
        rw [hdd] at he
        simp [ups] at he
        exact absurd he hl.1
      · rw [hd] at hlen; exact hlen
    | cons d ds =>
      rw [hd] at hk hlen
      simp only [List.isEmpty_cons, Bool.not_false]
      simp only [List.length_append, List.length_cons] at hk
      by_cases he : l.names.reverse.drop (ups l.dots) = []
      · rw [he, List.nil_append]
        obtain ⟨P, ls', h1, h2, h3, h4, h5, h6⟩ := ih hls k (by omega)
        refine ⟨P, ls', h1, h2, h3, h4, ?_, ?_⟩
        · simp only [resR]; rw [he, h5]; rfl
        · simp only [List.length_append, List.length_cons] at h6 ⊢; omega
      · obtain ⟨k, rfl⟩ : ∃ j, k = j + 1 := ⟨k - 1, by
          have : 0 < l.names.length := List.length_pos_iff.mpr hl.1
          simp at hk
          omega⟩
        refine ⟨_, ls, cjmps_stop (cjmp_front (hsol.reverse.drop _) he), hsol.reverse.drop _,
          fun h => absurd h he, hls, rfl, hlen⟩

theorem copy_legs : ∀ (m : Nat) (P : List Str) (ls : List Leg) (out : Str), Solid P →
    (P = [] → ls = []) → (∀ l ∈ ls, l.Good) → (P ++ revAll ls).length < m →
    ccopy m (P ++ revAll ls) out = render ((P ++ resR ls).reverse) ++ out := by
  intro m
  induction m with
  | zero => intro _ _ _ _ _ _ h; omega
  | succ m ih =>
    intro P ls out hP hne hg hm
    cases P with
    | nil => rw [hne rfl]; simp [revAll, resR, ccopy, render]
    | cons n P =>
      have hP' : Solid P := fun x hx => hP x (by simp [hx])
      simp only [List.cons_append, ccopy]
      simp only [List.cons_append, List.length_cons] at hm
      by_cases hPe : P = []
      · subst hPe
        rw [List.nil_append, List.nil_append] at *
        obtain ⟨Q, ls', h1, h2, h3, h4, h5, h6⟩ :=
          legs_jump ls hg ((revAll ls).length + 1) (by omega)
        rw [h1]
        simp only
        rw [ih Q ls' _ h2 h3 h4 (by omega), h5]
        simp [render_append, render_cons, render_nil]
      · rw [cjmps_stop (cjmp_front hP' hPe)]
        simp only
        rw [ih P ls _ hP' (fun h => absurd h hPe) hg (by omega)]
        simp [render_append, render_cons, render_nil]

/-! ## Where the legs lead -/

theorem walk_append (st a b : List Str) : walk st (a ++ b) = walk (walk st a) b := by
  induction a generalizing st with
  | nil => rfl
  | cons n a ih =>
    simp only [List.cons_append, walk]
    split
    · exact ih _
    · split
      · exact ih _
      · exact ih _

theorem walk_solid (st : List Str) : ∀ ns, Solid ns → walk st ns = ns.reverse ++ st := by
  intro ns
  induction ns generalizing st with
  | nil => intro _; rfl
  | cons n ns ih =>
    intro h
    have hn := (h n (by simp)).1
    unfold Dots at hn
    unfold walk
    rw [if_neg (fun h' => hn (.inl h')), if_neg (fun h' => hn (.inr h')),
      ih _ (fun x hx => h x (by simp [hx]))]
    simp

theorem walk_dots (st : List Str) : ∀ ds, (∀ d ∈ ds, Dots d) → walk st ds = st.drop (ups ds) := by
  intro ds
  induction ds generalizing st with
  | nil => intro _; rfl
  | cons d ds ih =>
    intro h
    have h' : ∀ x ∈ ds, Dots x := fun x hx => h x (by simp [hx])
    unfold walk
    rcases h d (by simp) with rfl | rfl
    · rw [if_pos rfl, ih _ h', ups_cons_one]
    · rw [if_neg (by decide), if_pos rfl, ih _ h', ups_cons_two]
      cases st <;> simp

theorem walk_legs : ∀ (ls : List Leg), (∀ l ∈ ls, l.Good) →
    walk [] (revAll ls).reverse = resR ls := by
  intro ls
  induction ls with
  | nil => intro _; rfl
  | cons l ls ih =>
    intro hg
    have hl := hg l (by simp)
    have e : (revAll (l :: ls)).reverse = (revAll ls).reverse ++ (l.names ++ l.dots) := by
      simp [revAll]
    rw [e, walk_append, ih (fun x hx => hg x (by simp [hx])), walk_append,
      walk_solid _ _ (solid_names hl.2.1), walk_dots _ _ hl.2.2.1,
      List.drop_append_of_le_length (by simpa using hl.2.2.2)]
    rfl

theorem revAll_eq (ls : List Leg) : (revAll ls.reverse).reverse = ls.flatMap Leg.all := by
  have : ∀ ls : List Leg, (revAll ls).reverse = ls.reverse.flatMap Leg.all := by
    intro ls
    induction ls with
    | nil => rfl
    | cons l ls ih => simp [revAll, ih, Leg.all]
  rw [this]; simp

theorem dots_slash {d : Str} (h : Dots d) : slash ∉ d := by
  rcases h with rfl | rfl <;> decide

/-- Paths made of legs, then solid names. -/
theorem makeAbsolute_legs (ls : List Leg) (tail : List Str) (hg : ∀ l ∈ ls, l.Good)
    (ht : Solid tail)
    (hend : tail ≠ [] ∨ ∃ ls' l, ls = ls' ++ [l] ∧ ups l.dots < l.names.length) :
    makeAbsolute (render (ls.flatMap Leg.all ++ tail))
      = .ok (render (resolve (ls.flatMap Leg.all ++ tail))) := by
  have hg' : ∀ l ∈ ls.reverse, l.Good := fun l hl => hg l (by simpa using hl)
  have hsl : ∀ n ∈ ls.flatMap Leg.all ++ tail, slash ∉ n := by
    intro n hn
    rw [List.mem_append] at hn
    rcases hn with hn | hn
    · obtain ⟨l, hl, hn⟩ := List.mem_flatMap.mp hn
      have := hg l hl
      simp only [Leg.all, List.mem_append] at hn
      rcases hn with hn | hn
      · exact (this.2.1 n hn).2.2
      · exact dots_slash (this.2.2.1 n hn)
    · exact (ht n hn).2
  have hrev : (ls.flatMap Leg.all ++ tail).reverse = tail.reverse ++ revAll ls.reverse := by
    rw [← revAll_eq]; simp
  have hres : resolve (ls.flatMap Leg.all ++ tail) = (tail.reverse ++ resR ls.reverse).reverse := by
    unfold resolve
    rw [walk_append, ← revAll_eq, walk_legs _ hg', walk_solid _ _ ht]
  rw [makeAbsolute_names _ hsl, hrev, hres]
  rcases Classical.em (tail = []) with he | he
  · rcases hend with h | ⟨ls', l, rfl, hlt⟩
    · exact absurd he h
    · subst he
      have e : (ls' ++ [l]).reverse = l :: ls'.reverse := by simp
      rw [e]
      have hl := hg l (by simp)
      simp only [List.reverse_nil, List.nil_append, revAll, leg_jump hl]
      have hne : l.names.reverse.drop (ups l.dots) ≠ [] := by
        intro h
        have := congrArg List.length h
        simp at this
        omega
      rw [copy_legs _ (l.names.reverse.drop (ups l.dots)) ls'.reverse []
        ((solid_names hl.2.1).reverse.drop _) (fun h => absurd h hne)
        (fun x hx => hg x (by simp at hx; simp [hx])) (by omega)]
      simp [resR]
  · rw [cjmp_front ht.reverse (by simpa using he)]
    simp only
    rw [copy_legs _ tail.reverse ls.reverse [] ht.reverse
      (fun h => absurd (by simpa using h) he) hg' (by omega)]
    simp

end Verif.Paths
