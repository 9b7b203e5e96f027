import Verif.Spec.TypeNames

namespace Verif.TypeNames

def Special (c : Char) : Prop := c = '<' ∨ c = '>' ∨ c = ',' ∨ c = '[' ∨ c = ']'

/-- What may follow a name. -/
def Stop (r : Text) : Prop := r = [] ∨ ∃ c t, r = c :: t ∧ Special c

theorem name_not {n : Text} (h : Name n) {c : Char} (hc : c ∈ n) : ¬ Special c := by
  obtain ⟨h1, h2, h3, h4, h5⟩ := h.2 c hc
  rintro (h | h | h | h | h)
  · exact h1 h
  · exact h2 h
  · exact h3 h
  · exact h4 h
  · exact h5 h

theorem span_inj : ∀ (n m x y : Text), (∀ c ∈ n, ¬ Special c) → (∀ c ∈ m, ¬ Special c) → Stop x → Stop y →
    n ++ x = m ++ y → n = m ∧ x = y
  | [], [], _, _, _, _, _, _, h => ⟨rfl, h⟩
  | [], c :: m, x, y, _, hm, hx, _, h => by
    rcases hx with rfl | ⟨d, t, rfl, hs⟩
    · simp at h
    · simp only [List.nil_append, List.cons_append, List.cons.injEq] at h
      rw [h.1] at hs
      exact absurd hs (hm c (by simp))
  | c :: n, [], x, y, hn, _, _, hy, h => by
    rcases hy with rfl | ⟨d, t, rfl, hs⟩
    · simp at h
    · simp only [List.nil_append, List.cons_append, List.cons.injEq] at h
      rw [← h.1] at hs
      exact absurd hs (hn c (by simp))
  | c :: n, d :: m, x, y, hn, hm, hx, hy, h => by
    simp only [List.cons_append, List.cons.injEq] at h
    obtain ⟨h1, h2⟩ := span_inj n m x y (fun a ha => hn a (List.mem_cons_of_mem _ ha))
      (fun a ha => hm a (List.mem_cons_of_mem _ ha)) hx hy h.2
    exact ⟨by rw [h.1, h1], h2⟩

def suffix : List Nat → Text
  | [] => []
  | d :: ds => '[' :: (commas (d - 1) ++ ']' :: suffix ds)

theorem arrays_eq : ∀ (ds : List Nat) (s : Text), arrays s ds = s ++ suffix ds
  | [], s => by simp [arrays, suffix]
  | d :: ds, s => by
    have := arrays_eq ds (arrayName s d)
    unfold arrays at this ⊢
    rw [List.foldl_cons, this]
    simp [arrayName, suffix]

theorem commas_inj : ∀ (n m : Nat) (x y : Text), commas n ++ ']' :: x = commas m ++ ']' :: y → n = m ∧ x = y
  | 0, 0, _, _, h => by simpa [commas] using h
  | 0, m + 1, _, _, h => by simp [commas] at h
  | n + 1, 0, _, _, h => by simp [commas] at h
  | n + 1, m + 1, x, y, h => by
    simp only [commas, List.cons_append, List.nil_append, List.cons.injEq, true_and] at h
    obtain ⟨h1, h2⟩ := commas_inj n m x y h
    exact ⟨by rw [h1], h2⟩

/-- What may follow a type. -/
def End (r : Text) : Prop := r = [] ∨ ∃ c t, r = c :: t ∧ (c = ',' ∨ c = '>')

theorem suffix_inj : ∀ (ds es : List Nat) (r s : Text), (∀ d ∈ ds, 1 ≤ d) → (∀ e ∈ es, 1 ≤ e) → End r → End s →
    suffix ds ++ r = suffix es ++ s → ds = es ∧ r = s
  | [], [], _, _, _, _, _, _, h => ⟨rfl, h⟩
  | [], e :: es, r, s, _, _, hr, _, h => by
    rcases hr with rfl | ⟨c, t, rfl, rfl | rfl⟩ <;> simp [suffix] at h
  | d :: ds, [], r, s, _, _, _, hs, h => by
    rcases hs with rfl | ⟨c, t, rfl, rfl | rfl⟩ <;> simp [suffix] at h
  | d :: ds, e :: es, r, s, hd, he, hr, hs, h => by
    simp only [suffix, List.cons_append, List.append_assoc, List.cons.injEq, true_and] at h
    obtain ⟨h1, h2⟩ := commas_inj _ _ _ _ h
    obtain ⟨h3, h4⟩ := suffix_inj ds es r s (fun a ha => hd a (List.mem_cons_of_mem _ ha))
      (fun a ha => he a (List.mem_cons_of_mem _ ha)) hr hs h2
    have := hd d (by simp)
    have := he e (by simp)
    exact ⟨by rw [h3, show d = e by omega], h4⟩

theorem suffix_stop (ds : List Nat) (r : Text) (hr : End r) : Stop (suffix ds ++ r) := by
  cases ds with
  | nil =>
    rcases hr with rfl | ⟨c, t, rfl, rfl | rfl⟩
    · exact Or.inl rfl
    · exact Or.inr ⟨_, _, rfl, by simp [Special]⟩
    · exact Or.inr ⟨_, _, rfl, by simp [Special]⟩
  | cons d ds => exact Or.inr ⟨_, _, rfl, by simp [Special]⟩

theorem suffix_head (ds : List Nat) (r t : Text) (hr : End r) : suffix ds ++ r ≠ '<' :: t := by
  cases ds with
  | nil => rcases hr with rfl | ⟨c, t, rfl, rfl | rfl⟩ <;> simp [suffix]
  | cons d ds => simp [suffix]

theorem plain_text (n : Text) (ds : List Nat) (r : Text) : nameOf (.plain n [] ds) ++ r = n ++ (suffix ds ++ r) := by
  simp [nameOf, arrays_eq]

theorem inst_text (n : Text) (as : List RTy) (ds : List Nat) (r : Text) :
    nameOf (.inst n as ds) ++ r = n ++ ('<' :: (argsLoop true as ++ '>' :: (suffix ds ++ r))) := by
  simp [nameOf, arrays_eq]

theorem whole_head {t : RTy} (w : Whole t) : ∃ c x, nameOf t = c :: x ∧ ¬ Special c := by
  cases w with
  | plain n ds hn hd =>
    cases n with
    | nil => exact absurd rfl hn.1
    | cons c n => exact ⟨c, _, by simpa using plain_text (c :: n) ds [], name_not hn (by simp)⟩
  | inst n as ds hn ha hd =>
    cases n with
    | nil => exact absurd rfl hn.1
    | cons c n => exact ⟨c, _, by simpa using inst_text (c :: n) as ds [], name_not hn (by simp)⟩

theorem loop_end (as : List RTy) (r : Text) : End (argsLoop false as ++ '>' :: r) := by
  cases as with
  | nil => exact Or.inr ⟨'>', r, by simp [argsLoop], Or.inr rfl⟩
  | cons a as => exact Or.inr ⟨',', nameOf a ++ (argsLoop false as ++ '>' :: r), by simp [argsLoop], Or.inl rfl⟩

mutual
theorem name_inj : ∀ (t u : RTy) (r s : Text), Whole t → Whole u → End r → End s →
    nameOf t ++ r = nameOf u ++ s → t = u ∧ r = s
  | .plain n ps ds, u, r, s, w, v, hr, hs, h => by
    cases w with
    | plain _ _ hn hd =>
      cases v with
      | plain m es hm he =>
        rw [plain_text, plain_text] at h
        obtain ⟨h1, h2⟩ := span_inj _ _ _ _ (fun c => name_not hn) (fun c => name_not hm) (suffix_stop ds r hr)
          (suffix_stop es s hs) h
        obtain ⟨h3, h4⟩ := suffix_inj _ _ _ _ hd he hr hs h2
        exact ⟨by rw [h1, h3], h4⟩
      | inst m as es hm ha he =>
        rw [plain_text, inst_text] at h
        obtain ⟨_, h2⟩ := span_inj _ _ _ _ (fun c => name_not hn) (fun c => name_not hm) (suffix_stop ds r hr)
          (Or.inr ⟨_, _, rfl, Or.inl rfl⟩) h
        exact absurd h2 (suffix_head ds r _ hr)
  | .inst n as ds, u, r, s, w, v, hr, hs, h => by
    cases w with
    | inst _ _ _ hn ha hd =>
      cases v with
      | plain m es hm he =>
        rw [inst_text, plain_text] at h
        obtain ⟨_, h2⟩ := span_inj _ _ _ _ (fun c => name_not hn) (fun c => name_not hm)
          (Or.inr ⟨_, _, rfl, Or.inl rfl⟩) (suffix_stop es s hs) h
        exact absurd h2.symm (suffix_head es s _ hs)
      | inst m bs es hm hb he =>
        rw [inst_text, inst_text] at h
        obtain ⟨h1, h2⟩ := span_inj _ _ _ _ (fun c => name_not hn) (fun c => name_not hm)
          (Or.inr ⟨_, _, rfl, Or.inl rfl⟩) (Or.inr ⟨_, _, rfl, Or.inl rfl⟩) h
        injection h2 with _ h2
        obtain ⟨h3, h4⟩ := args_inj as bs true _ _ ha hb h2
        obtain ⟨h5, h6⟩ := suffix_inj _ _ _ _ hd he hr hs h4
        exact ⟨by rw [h1, h3, h5], h6⟩
  | .nested _ _ _ _, _, _, _, w, _, _, _, _ => by cases w
  | .nestedInst _ _ _ _, _, _, _, w, _, _, _, _ => by cases w

theorem args_inj : ∀ (as bs : List RTy) (first : Bool) (r s : Text), (∀ a ∈ as, Whole a) → (∀ b ∈ bs, Whole b) →
    argsLoop first as ++ '>' :: r = argsLoop first bs ++ '>' :: s → as = bs ∧ r = s
  | [], [], _, _, _, _, _, h => by simpa [argsLoop] using h
  | [], b :: bs, first, r, s, _, hb, h => by
    obtain ⟨c, x, e, hc⟩ := whole_head (hb b (by simp))
    cases first
    · simp [argsLoop] at h
    · simp only [argsLoop, e, if_true, List.nil_append, List.cons_append, List.cons.injEq] at h
      exact absurd (by rw [← h.1]; simp [Special]) hc
  | a :: as, [], first, r, s, ha, _, h => by
    obtain ⟨c, x, e, hc⟩ := whole_head (ha a (by simp))
    cases first
    · simp [argsLoop] at h
    · simp only [argsLoop, e, if_true, List.nil_append, List.cons_append, List.cons.injEq] at h
      exact absurd (by rw [h.1]; simp [Special]) hc
  | a :: as, b :: bs, first, r, s, ha, hb, h => by
    have h' : nameOf a ++ (argsLoop false as ++ '>' :: r) = nameOf b ++ (argsLoop false bs ++ '>' :: s) := by
      cases first <;> simpa [argsLoop] using h
    obtain ⟨h1, h2⟩ := name_inj a b _ _ (ha a (by simp)) (hb b (by simp)) (loop_end as r) (loop_end bs s) h'
    obtain ⟨h3, h4⟩ := args_inj as bs false r s (fun x hx => ha x (List.mem_cons_of_mem _ hx))
      (fun x hx => hb x (List.mem_cons_of_mem _ hx)) h2
    exact ⟨by rw [h1, h3], h4⟩
end

end Verif.TypeNames
