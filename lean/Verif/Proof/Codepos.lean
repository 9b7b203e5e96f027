import Verif.Spec.Codepos

namespace Verif.Codepos

/-! ## Positions -/

theorem breaks_shift : ∀ (l : List Char) (k : Nat), breaks k l = (breaks 0 l).map (· + k)
  | [], k => by simp [breaks]
  | c :: l, k => by
    unfold breaks
    split
    · simp
    · split
      · rw [breaks_shift l (k + 1), breaks_shift l (0 + 1)]
        simp [Function.comp_def]
        refine ⟨by omega, fun a _ => by omega⟩
      · rw [breaks_shift l (k + 1), breaks_shift l (0 + 1)]
        simp [Function.comp_def]
        intro a _; omega

theorem breaks_plain : ∀ (l : List Char) (k : Nat), '\n' ∉ l → '\x00' ∉ l → breaks k l = [k + l.length]
  | [], k, _, _ => by simp [breaks]
  | c :: l, k, h1, h2 => by
    simp only [List.mem_cons, not_or] at h1 h2
    rw [breaks, if_neg (fun e => h2.1 e.symm), if_neg (fun e => h1.1 e.symm), breaks_plain l (k + 1) h1.2 h2.2]
    simp; omega

theorem breaks_line : ∀ (l rest : List Char) (k : Nat), '\n' ∉ l → '\x00' ∉ l →
    breaks k (l ++ '\n' :: rest) = (k + l.length + 1) :: breaks (k + l.length + 1) rest
  | [], rest, k, _, _ => by
    rw [List.nil_append, breaks, if_neg (by decide), if_pos rfl]
    simp
  | c :: l, rest, k, h1, h2 => by
    simp only [List.mem_cons, not_or] at h1 h2
    rw [List.cons_append, breaks, if_neg (fun e => h2.1 e.symm), if_neg (fun e => h1.1 e.symm),
      breaks_line l rest (k + 1) h1.2 h2.2]
    have : k + 1 + l.length + 1 = k + (c :: l).length + 1 := by simp; omega
    rw [this]

theorem posArr_plain {l : List Char} (h1 : '\n' ∉ l) (h2 : '\x00' ∉ l) : posArr l = [0, l.length] := by
  simp [posArr, breaks_plain l 0 h1 h2]

theorem posArr_line {l rest : List Char} (h1 : '\n' ∉ l) (h2 : '\x00' ∉ l) :
    posArr (l ++ '\n' :: rest) = 0 :: (posArr rest).map (· + (l.length + 1)) := by
  unfold posArr
  rw [breaks_line l rest 0 h1 h2, breaks_shift rest]
  simp [Nat.add_comm]

theorem lines (code : List Char) : '\n' ∉ code ∨ ∃ l rest, '\n' ∉ l ∧ code = l ++ '\n' :: rest := by
  induction code with
  | nil => left; simp
  | cons c code ih =>
    by_cases hc : c = '\n'
    · right; exact ⟨[], code, by simp, by simp [hc]⟩
    · rcases ih with h | ⟨l, rest, h, e⟩
      · left
        simp only [List.mem_cons, not_or]
        exact ⟨fun e => hc e.symm, h⟩
      · right
        refine ⟨c :: l, rest, ?_, by simp [e]⟩
        simp only [List.mem_cons, not_or]
        exact ⟨fun e => hc e.symm, h⟩

theorem posArr_length (code : List Char) : 2 ≤ (posArr code).length := by
  have : ∀ (l : List Char) (k : Nat), 1 ≤ (breaks k l).length := by
    intro l
    induction l with
    | nil => intro k; simp [breaks]
    | cons c l ih =>
      intro k
      rw [breaks]
      split
      · simp
      · split
        · simp
        · exact ih _
  have := this code 0
  simp [posArr]
  omega

theorem breaks_last : ∀ (l : List Char) (k : Nat), '\x00' ∉ l → (breaks k l).getLast? = some (k + l.length)
  | [], k, _ => by simp [breaks]
  | c :: l, k, h => by
    simp only [List.mem_cons, not_or] at h
    rw [breaks, if_neg (fun e => h.1 e.symm)]
    have ih := breaks_last l (k + 1) h.2
    have e : k + 1 + l.length = k + (c :: l).length := by simp; omega
    split
    · rw [List.getLast?_cons, ih, e]; rfl
    · rw [ih, e]

theorem posArr_last {code : List Char} (h : '\x00' ∉ code) :
    (posArr code)[(posArr code).length - 1]? = some code.length := by
  rw [← List.getLast?_eq_getElem?, posArr, List.getLast?_cons, breaks_last code 0 h]
  simp

/-- Between two entries that are next to each other there is a line. -/
theorem entry_at : ∀ (i : Nat) (code : List Char) (p lo hi : Nat), '\x00' ∉ code →
    (posArr code)[i]? = some lo → (posArr code)[i + 1]? = some hi → lo ≤ p → p < hi →
    At code p ⟨i + 1, p - lo + 1⟩
  | i, code, p, lo, hi, hz, h1, h2, h3, h4 => by
    rcases lines code with hn | ⟨l, rest, hn, rfl⟩
    · rw [posArr_plain hn hz] at h1 h2
      cases i with
      | zero =>
        simp at h1 h2
        subst h1; subst h2
        refine ⟨[], code.take p, code.drop p, by simp, ?_, fun h => hn (List.mem_of_mem_take h), .inl rfl,
          by simp, ?_⟩
        · simp; omega
        · simp; omega
      | succ i => simp at h2
    · have hzl : '\x00' ∉ l := fun h => hz (by simp [h])
      have hzr : '\x00' ∉ rest := fun h => hz (by simp [h])
      rw [posArr_line hn hzl] at h1 h2
      cases i with
      | zero =>
        have hh : (posArr rest)[0]? = some 0 := rfl
        simp [hh] at h1 h2
        subst h1
        have hp : p ≤ l.length := by omega
        refine ⟨[], l.take p, l.drop p ++ '\n' :: rest, ?_, ?_, fun h => hn (List.mem_of_mem_take h), .inl rfl,
          by simp, ?_⟩
        · rw [List.nil_append, ← List.append_assoc, List.take_append_drop]
        · simp; omega
        · simp; omega
      | succ i =>
        simp only [List.getElem?_cons_succ, List.getElem?_map, Option.map_eq_some_iff] at h1 h2
        obtain ⟨lo', e1, rfl⟩ := h1
        obtain ⟨hi', e2, rfl⟩ := h2
        obtain ⟨b, c, a, r1, r2, r3, r4, r5, r6⟩ := entry_at i rest (p - (l.length + 1)) lo' hi' hzr e1 e2
          (by omega) (by omega)
        refine ⟨l ++ '\n' :: b, c, a, by simp [r1], ?_, r3, .inr ?_, ?_, ?_⟩
        · simp; omega
        · rw [List.getLast?_append]
          rcases r4 with rfl | r4
          · simp
          · simp [List.getLast?_cons, r4]
        · simp only at r5 ⊢
          rw [List.count_append, List.count_eq_zero.2 hn, List.count_cons_self]
          omega
        · simp only at r6 ⊢
          omega

theorem search_finds {arr : List Nat} {p : Nat} : ∀ (fuel start stop lo hi : Nat), stop - start < fuel →
    start ≤ stop → stop + 1 < arr.length → arr[start]? = some lo → lo ≤ p → arr[stop + 1]? = some hi → p < hi →
    ∃ i lo' hi', arr[i]? = some lo' ∧ arr[i + 1]? = some hi' ∧ lo' ≤ p ∧ p < hi' ∧
      search arr p fuel start stop = some ⟨i + 1, p - lo' + 1⟩
  | 0, _, _, _, _, h, _, _, _, _, _, _ => by omega
  | fuel + 1, start, stop, lo, hi, hf, hle, hlen, h1, h2, h3, h4 => by
    have hi1 : (start + stop) / 2 < arr.length := by omega
    have hi2 : (start + stop) / 2 + 1 < arr.length := by omega
    obtain ⟨v1, e1⟩ : ∃ v, arr[(start + stop) / 2]? = some v := ⟨_, List.getElem?_eq_getElem hi1⟩
    obtain ⟨v2, e2⟩ : ∃ v, arr[(start + stop) / 2 + 1]? = some v := ⟨_, List.getElem?_eq_getElem hi2⟩
    rw [search, if_pos hle]
    simp only [e1, e2]
    by_cases c1 : p < v1
    · have hne : (start + stop) / 2 ≠ start := fun e => by
        rw [e, h1] at e1
        have := Option.some.inj e1
        omega
      rw [if_pos c1, if_neg (by omega)]
      exact search_finds fuel start _ lo _ (by omega) (by omega) (by omega) h1 h2
        (by rw [Nat.sub_add_cancel (by omega)]; exact e1) c1
    · rw [if_neg c1]
      by_cases c2 : p ≥ v2
      · have hne : (start + stop) / 2 ≠ stop := fun e => by
          rw [e, h3] at e2
          have := Option.some.inj e2
          omega
        rw [if_pos c2]
        exact search_finds fuel _ stop _ hi (by omega) (by omega) hlen e2 c2 h3 h4
      · rw [if_neg c2]
        exact ⟨_, _, _, e1, e2, by omega, by omega, rfl⟩

theorem posOf_at {code : List Char} {p : Nat} (hz : '\x00' ∉ code) (hp : p < code.length) :
    ∃ pos, posOf code p = some pos ∧ At code p pos := by
  have hlen := posArr_length code
  have hl := posArr_last hz
  have h0 : (posArr code)[0]? = some 0 := rfl
  obtain ⟨i, lo, hi, e1, e2, e3, e4, e5⟩ := search_finds (arr := posArr code) (p := p) (posArr code).length 0
    ((posArr code).length - 2) 0 code.length (by omega) (by omega) (by omega) h0 (by omega)
    (by rw [show (posArr code).length - 2 + 1 = (posArr code).length - 1 by omega]; exact hl) hp
  refine ⟨_, ?_, entry_at i code p lo hi hz e1 e2 e3 e4⟩
  unfold posOf
  simp only [h0, hl]
  rw [if_neg (by omega), e5]

/-- A list that ends in a newline is not within a line that follows another such. -/
theorem split_unique {b1 c1 b2 c2 : List Char} (e : b1 ++ c1 = b2 ++ c2) (n1 : '\n' ∉ c1) (n2 : '\n' ∉ c2)
    (l1 : b1 = [] ∨ b1.getLast? = some '\n') (l2 : b2 = [] ∨ b2.getLast? = some '\n') : b1 = b2 ∧ c1 = c2 := by
  rcases List.append_eq_append_iff.1 e with ⟨d, h1, h2⟩ | ⟨d, h1, h2⟩
  · -- b2 = b1 ++ d
    have : d = [] := by
      cases hd : d.getLast? with
      | none => exact List.getLast?_eq_none_iff.1 hd
      | some x =>
        have hx : x ∈ d := List.mem_of_getLast? hd
        rcases l2 with l2 | l2
        · rw [h1] at l2
          exact (List.append_eq_nil_iff.1 l2).2
        · rw [h1, List.getLast?_append, hd] at l2
          simp at l2
          subst l2
          exact absurd (by rw [h2]; exact List.mem_append_left _ hx) n1
    subst this
    simp at h1 h2
    exact ⟨h1.symm, h2⟩
  · have : d = [] := by
      cases hd : d.getLast? with
      | none => exact List.getLast?_eq_none_iff.1 hd
      | some x =>
        have hx : x ∈ d := List.mem_of_getLast? hd
        rcases l1 with l1 | l1
        · rw [h1] at l1
          exact (List.append_eq_nil_iff.1 l1).2
        · rw [h1, List.getLast?_append, hd] at l1
          simp at l1
          subst l1
          exact absurd (by rw [h2]; exact List.mem_append_left _ hx) n2
    subst this
    simp at h1 h2
    exact ⟨h1, h2.symm⟩

theorem at_unique {code : List Char} {p : Nat} {x y : Pos} (hx : At code p x) (hy : At code p y) : x = y := by
  obtain ⟨b1, c1, a1, e1, l1, n1, z1, s1, t1⟩ := hx
  obtain ⟨b2, c2, a2, e2, l2, n2, z2, s2, t2⟩ := hy
  have he : b1 ++ c1 = b2 ++ c2 := by
    have h : (b1 ++ c1) ++ a1 = (b2 ++ c2) ++ a2 := e1.symm.trans e2
    exact (List.append_inj h (by simp; omega)).1
  obtain ⟨hb, hc⟩ := split_unique he n1 n2 z1 z2
  subst hb; subst hc
  cases x; cases y
  simp_all

/-! ## Lines -/

theorem inline_not {l : List Char} (h : Inline l) : ∀ c ∈ l, isLineEnd c = false := by
  intro c hc
  have := h c hc
  simp [isLineEnd, this]

theorem ends_is {c : Char} (h : Ends c) : isLineEnd c = true := by
  rcases h with rfl | rfl <;> rfl

theorem charAt_mid (a : List Char) (c : Char) (b : List Char) : charAt (a ++ c :: b) a.length = c := by
  simp [charAt]

/-- Going back over a text within a line. -/
theorem scanBack_over (a b : List Char) : ∀ (x : List Char), (∀ c ∈ x, isLineEnd c = false) →
    scanBack (a ++ x ++ b) (a.length + x.length) = scanBack (a ++ x ++ b) a.length := by
  intro x
  generalize hn : x.length = n
  induction n generalizing x b with
  | zero => intro _; simp
  | succ n ih =>
    intro h
    obtain ⟨y, c, rfl⟩ : ∃ y c, x = y ++ [c] := by
      rcases List.eq_nil_or_concat x with rfl | ⟨y, c, e⟩
      · simp at hn
      · exact ⟨y, c, by simpa using e⟩
    have hy : y.length = n := by simpa using hn
    have e : a ++ (y ++ [c]) ++ b = a ++ y ++ (c :: b) := by simp
    rw [e]
    have := ih (c :: b) y hy (fun d hd => h d (by simp [hd]))
    rw [← this]
    have hc : charAt (a ++ y ++ c :: b) (a.length + n) = c := by
      have := charAt_mid (a ++ y) c b
      rw [List.length_append, hy] at this
      exact this
    rw [show a.length + (n + 1) = (a.length + n) + 1 by omega, scanBack, hc, h c (by simp)]
    simp

theorem scanBack_line (a : List Char) (e : Char) (x b : List Char) (he : isLineEnd e = true)
    (hx : ∀ c ∈ x, isLineEnd c = false) :
    scanBack (a ++ e :: x ++ b) (a.length + 1 + x.length) = a.length + 2 := by
  have h := scanBack_over (a ++ [e]) b x hx
  simp only [List.length_append, List.length_singleton, List.append_assoc, List.nil_append,
    List.cons_append] at h
  simp only [List.append_assoc, List.cons_append]
  rw [h, scanBack, charAt_mid a e (x ++ b), he]
  simp

theorem scanBack_first (x b : List Char) (hx : ∀ c ∈ x, isLineEnd c = false) : scanBack (x ++ b) x.length = 0 := by
  have h := scanBack_over [] b x hx
  simp only [List.nil_append, List.length_nil, Nat.zero_add] at h
  rw [h, scanBack]

theorem skipReturns_over (a b : List Char) : ∀ (n : Nat), skipReturns (a ++ List.replicate n '\r' ++ b) (a.length + n) =
    skipReturns (a ++ List.replicate n '\r' ++ b) a.length := by
  intro n
  induction n generalizing b with
  | zero => simp
  | succ n ih =>
    have e : a ++ List.replicate (n + 1) '\r' ++ b = a ++ List.replicate n '\r' ++ ('\r' :: b) := by
      simp [List.replicate_succ']
    rw [e, ← ih ('\r' :: b)]
    have hc : charAt (a ++ List.replicate n '\r' ++ '\r' :: b) (a.length + n) = '\r' := by
      have := charAt_mid (a ++ List.replicate n '\r') '\r' b
      rw [List.length_append, List.length_replicate] at this
      exact this
    rw [show a.length + (n + 1) = (a.length + n) + 1 by omega, skipReturns, hc]
    simp

theorem scanForward_to (y : List Char) (f : Char) (b : List Char) (hf : Ends f) (hy : Inline y) :
    ∀ k, scanForward k (y ++ f :: b) = k + y.length := by
  induction y with
  | nil =>
    intro k
    rcases hf with rfl | rfl <;> simp [scanForward, isLineEnd]
  | cons c y ih =>
    intro k
    have hc := hy c List.mem_cons_self
    rw [List.cons_append, scanForward, if_neg hc.2.2, inline_not hy c List.mem_cons_self]
    rw [if_neg (by simp), ih (fun d hd => hy d (List.mem_cons_of_mem _ hd))]
    simp; omega

theorem scanForward_end (y : List Char) (hy : Inline y) : ∀ k, scanForward k y = k + y.length + 1 := by
  induction y with
  | nil => intro k; simp [scanForward]
  | cons c y ih =>
    intro k
    have hc := hy c List.mem_cons_self
    rw [scanForward, if_neg hc.2.2, inline_not hy c List.mem_cons_self]
    rw [if_neg (by simp), ih (fun d hd => hy d (List.mem_cons_of_mem _ hd))]
    simp; omega

theorem blank_prefix (x : List Char) : Blank x (prefixSpace x) := by
  refine ⟨by simp [prefixSpace], fun k c h => ?_⟩
  simp only [prefixSpace, List.getElem?_map, h, Option.map_some]
  by_cases hc : c = '\t' <;> simp [hc]

theorem blank_unique {x b1 b2 : List Char} (h1 : Blank x b1) (h2 : Blank x b2) : b1 = b2 := by
  apply List.ext_getElem (h1.1.trans h2.1.symm)
  intro k k1 k2
  have hx : k < x.length := by rw [← h1.1]; exact k1
  have e1 := h1.2 k _ (List.getElem?_eq_getElem hx)
  have e2 := h2.2 k _ (List.getElem?_eq_getElem hx)
  rw [List.getElem?_eq_getElem k1] at e1
  rw [List.getElem?_eq_getElem k2] at e2
  exact Option.some.inj (e1.trans e2.symm)

/-- A text at the start of a line: where the line is. -/
theorem lineStart_in (a : List Char) (e : Char) (x : List Char) (c : Char) (t : List Char) (he : Ends e)
    (hx : Inline x) (hc : Inline [c]) :
    lineStart (a ++ e :: (x ++ c :: t)) (a.length + 1 + x.length) = a.length + 2 := by
  have h1 : charAt (a ++ e :: (x ++ c :: t)) (a.length + 1 + x.length) = c := by
    have := charAt_mid (a ++ e :: x) c t
    simp only [List.length_append, List.length_cons, List.append_assoc, List.cons_append] at this
    rw [show a.length + 1 + x.length = a.length + (x.length + 1) by omega]
    exact this
  have hc' := hc c (by simp)
  unfold lineStart
  rw [h1, if_neg hc'.1]
  have := scanBack_line a e (x ++ [c]) t (ends_is he) (inline_not (l := x ++ [c]) (fun d hd => by
    rcases List.mem_append.1 hd with hd | hd
    · exact hx d hd
    · exact hc d hd))
  simp only [List.length_append, List.length_singleton, List.append_assoc, List.cons_append,
    List.nil_append] at this
  exact this

theorem take_line (a : List Char) (e : Char) (l z : List Char) :
    ((a ++ e :: (l ++ z)).drop (a.length + 1)).take l.length = l := by
  have : a ++ e :: (l ++ z) = (a ++ [e]) ++ (l ++ z) := by simp
  rw [this, List.drop_append, List.drop_of_length_le (by simp)]
  simp

end Verif.Codepos
