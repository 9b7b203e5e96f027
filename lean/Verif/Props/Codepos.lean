import Verif.Proof.Codepos
/-!
# C135: errors are shown at the code they are about

`At` (in `Spec/Codepos.lean`) says what the line and the column of a place are, `Marks` what is printed below
a line.
-/

namespace Verif.Codepos

/-- For every place in every file the position that is printed is its line and its column. -/
theorem position_partial {code : List Char} {p : Nat} (text : '\x00' ∉ code) (inside : p < code.length) :
    ∃ pos, posOf code p = some pos ∧ At code p pos ∧ ∀ other, At code p other → other = pos := by
  obtain ⟨pos, h1, h2⟩ := posOf_at text inside
  exact ⟨pos, h1, h2, fun _ h => at_unique h h2⟩

def demo : List Char := "class A\n{\n\tint x y;\n}\n".toList

example : '\x00' ∉ demo ∧ 16 < demo.length := by decide
example : posOf demo 16 = some ⟨3, 7⟩ := by decide

/-- Different places have different positions. -/
theorem positions_differ {code : List Char} {p q : Nat} (text : '\x00' ∉ code) (hp : p < code.length)
    (hq : q < code.length) (same : posOf code p = posOf code q) : p = q := by
  obtain ⟨x, h1, b1, c1, a1, e1, l1, n1, z1, s1, t1⟩ := posOf_at text hp
  obtain ⟨y, h2, b2, c2, a2, e2, l2, n2, z2, s2, t2⟩ := posOf_at text hq
  rw [h1, h2] at same
  cases same
  have hcnt : b1.count '\n' = b2.count '\n' := by omega
  have hb : b1 = b2 := by
    have he : b1 ++ (c1 ++ a1) = b2 ++ (c2 ++ a2) := by rw [← List.append_assoc, ← List.append_assoc, ← e1, ← e2]
    have key : ∀ (b d : List Char), (b ++ d).count '\n' = b.count '\n' →
        (b ++ d = [] ∨ (b ++ d).getLast? = some '\n') → d = [] := by
      intro b d hc hl
      rw [List.count_append] at hc
      have h0 : d.count '\n' = 0 := by omega
      rw [List.count_eq_zero] at h0
      rcases hl with hl | hl
      · exact (List.append_eq_nil_iff.1 hl).2
      · cases hd : d.getLast? with
        | none => exact List.getLast?_eq_none_iff.1 hd
        | some v =>
          rw [List.getLast?_append, hd] at hl
          simp at hl
          subst hl
          exact absurd (List.mem_of_getLast? hd) h0
    rcases List.append_eq_append_iff.1 he with ⟨d, g1, _⟩ | ⟨d, g1, _⟩
    · have := key b1 d (by rw [← g1]; exact hcnt.symm) (by rw [← g1]; exact z2)
      subst this
      simpa using g1.symm
    · have := key b2 d (by rw [← g1]; exact hcnt) (by rw [← g1]; exact z1)
      subst this
      simpa using g1
  subst hb
  omega

/-- At the end of the code, where an unfinished block is reported, the position is 0:0 for every file. -/
theorem end_refuted {code : List Char} (text : '\x00' ∉ code) :
    posOf code code.length = some ⟨0, 0⟩ ∧ ¬ At code code.length ⟨0, 0⟩ := by
  constructor
  · have h0 : (posArr code)[0]? = some 0 := rfl
    unfold posOf
    simp only [h0, posArr_last text]
    rw [if_pos (by omega)]
  · rintro ⟨b, c, a, _, _, _, _, h, _⟩
    simp at h

/-- For code in a line that is neither the first one nor ends with the file: the whole line is shown, and below
it marks under the code, which begin where the code begins. -/
theorem line_partial (a : List Char) (e : Char) (x u y : List Char) (f : Char) (b : List Char) (he : Ends e)
    (hf : Ends f) (hx : Inline x) (hu : Inline u) (hy : Inline y) (some' : u ++ y ≠ []) :
    ∃ marks, formatLine (a ++ e :: (x ++ u ++ y ++ f :: b)) (a.length + 1 + x.length) u.length =
      some (x ++ u ++ y, marks) ∧ Marks x u marks ∧ ∀ other, Marks x u other → other = marks := by
  obtain ⟨c, t, hct⟩ : ∃ c t, u ++ y = c :: t := by
    cases h : u ++ y with
    | nil => exact absurd h some'
    | cons c t => exact ⟨c, t, rfl⟩
  have hc : Inline [c] := by
    intro d hd
    simp at hd
    subst hd
    have : d ∈ u ++ y := by rw [hct]; simp
    rcases List.mem_append.1 this with h | h
    · exact hu d h
    · exact hy d h
  have hls : lineStart (a ++ e :: (x ++ u ++ y ++ f :: b)) (a.length + 1 + x.length) = a.length + 2 := by
    have e1 : x ++ u ++ y ++ f :: b = x ++ c :: (t ++ f :: b) := by
      rw [List.append_assoc x, hct]; simp
    rw [e1]
    exact lineStart_in a e x c _ he hx hc
  have hdrop : (a ++ e :: (x ++ u ++ y ++ f :: b)).drop (a.length + 1 + x.length + u.length) = y ++ f :: b := by
    have e1 : a ++ e :: (x ++ u ++ y ++ f :: b) = (a ++ e :: (x ++ u)) ++ (y ++ f :: b) := by simp
    rw [e1, List.drop_append, List.drop_of_length_le (by simp; omega)]
    simp only [List.length_append, List.length_cons, List.nil_append]
    rw [show a.length + 1 + x.length + u.length - (a.length + (x.length + u.length + 1)) = 0 by omega]
    rfl
  have hstop := scanForward_to y f b hf hy (a.length + 1 + x.length + u.length)
  refine ⟨prefixSpace x ++ (if u = [] then ['^'] else u.map fun _ => '~'), ?_,
    ⟨_, blank_prefix x, rfl⟩, ?_⟩
  · unfold formatLine
    rw [hls, hdrop, hstop]
    simp only
    rw [if_pos (by omega)]
    congr 2
    · have := take_line a e (x ++ u ++ y) (f :: b ++ ['\x00'])
      rw [show a.length + 1 + x.length + u.length + y.length - (a.length + 1) = (x ++ u ++ y).length by
        simp; omega]
      rw [← this]
      simp
    · congr 1
      · rw [show a.length + 1 + x.length - (a.length + 1) = x.length by omega]
        have := take_line a e x (u ++ y ++ f :: b)
        rw [show x ++ u ++ y ++ f :: b = x ++ (u ++ y ++ f :: b) by simp, this]
      · cases u with
        | nil => rfl
        | cons v u => simp [List.map_const', List.replicate_succ]
  · rintro other ⟨b', h1, rfl⟩
    rw [blank_unique h1 (blank_prefix x)]

example : Ends '\n' ∧ Inline "\tint ".toList ∧ Inline "x".toList ∧ Inline " y;".toList ∧
    "x".toList ++ " y;".toList ≠ [] := by
  refine ⟨.inl rfl, ?_, ?_, ?_, by decide⟩ <;> (unfold Inline; decide)
example : formatLine demo 15 1 = some ("\tint x y;".toList, "\t    ~".toList) := by decide

/-- At the end of a line that is not empty, where something is missing: the line is shown and a mark after it,
with whatever returns there are before the newline. -/
theorem line_end (a : List Char) (e : Char) (x : List Char) (n : Nat) (b : List Char) (he : Ends e) (hx : Inline x)
    (ne : x ≠ []) :
    ∃ marks, formatLine (a ++ e :: (x ++ List.replicate n '\r' ++ '\n' :: b)) (a.length + 1 + x.length + n) 0 =
      some (x ++ List.replicate n '\r', marks) ∧ Marks (x ++ List.replicate n '\r') [] marks := by
  obtain ⟨x', c, rfl⟩ : ∃ x' c, x = x' ++ [c] := by
    rcases List.eq_nil_or_concat x with h | ⟨y, c, e⟩
    · exact absurd h ne
    · exact ⟨y, c, by simpa using e⟩
  have hcr : c ≠ '\r' := (hx c (by simp)).2.1
  have hch : charAt (a ++ e :: (x' ++ [c] ++ List.replicate n '\r' ++ '\n' :: b))
      (a.length + 1 + (x' ++ [c]).length + n) = '\n' := by
    have := charAt_mid (a ++ e :: (x' ++ [c] ++ List.replicate n '\r')) '\n' b
    simp only [List.length_append, List.length_cons, List.length_replicate, List.length_nil, List.append_assoc,
      List.cons_append] at this ⊢
    rw [show a.length + 1 + (x'.length + (0 + 1)) + n = a.length + (x'.length + (0 + n + 1) + 1) by omega]
    exact this
  have hskip : skipReturns (a ++ e :: (x' ++ [c] ++ List.replicate n '\r' ++ '\n' :: b))
      (a.length + 1 + (x' ++ [c]).length + n) = a.length + 1 + (x' ++ [c]).length := by
    have h := skipReturns_over (a ++ e :: (x' ++ [c])) ('\n' :: b) n
    have hl : (a ++ e :: (x' ++ [c])).length = a.length + 1 + (x' ++ [c]).length := by simp; omega
    have ee : a ++ e :: (x' ++ [c]) ++ List.replicate n '\r' ++ '\n' :: b =
      a ++ e :: (x' ++ [c] ++ List.replicate n '\r' ++ '\n' :: b) := by simp
    rw [hl, ee] at h
    rw [h]
    have hl2 : a.length + 1 + (x' ++ [c]).length = (a ++ e :: x').length + 1 := by simp; omega
    have ee2 : a ++ e :: (x' ++ [c] ++ List.replicate n '\r' ++ '\n' :: b) =
      (a ++ e :: x') ++ c :: (List.replicate n '\r' ++ '\n' :: b) := by simp
    rw [hl2, ee2, skipReturns, charAt_mid, if_neg hcr]
  have hback := scanBack_line a e (x' ++ [c]) (List.replicate n '\r' ++ '\n' :: b) (ends_is he) (inline_not hx)
  have hls : lineStart (a ++ e :: (x' ++ [c] ++ List.replicate n '\r' ++ '\n' :: b))
      (a.length + 1 + (x' ++ [c]).length + n) = a.length + 2 := by
    unfold lineStart
    rw [if_pos hch, hskip, ← hback]
    congr 1
    simp
  have hdrop : (a ++ e :: (x' ++ [c] ++ List.replicate n '\r' ++ '\n' :: b)).drop
      (a.length + 1 + (x' ++ [c]).length + n + 0) = '\n' :: b := by
    have e1 : a ++ e :: (x' ++ [c] ++ List.replicate n '\r' ++ '\n' :: b) =
      (a ++ e :: (x' ++ [c] ++ List.replicate n '\r')) ++ '\n' :: b := by simp
    rw [e1, List.drop_append, List.drop_of_length_le (by simp; omega)]
    simp only [List.length_append, List.length_cons, List.length_nil, List.length_replicate, List.nil_append]
    rw [show a.length + 1 + (x'.length + (0 + 1)) + n + 0 - (a.length + (x'.length + (0 + 1) + n + 1)) = 0 by omega]
    rfl
  refine ⟨prefixSpace (x' ++ [c] ++ List.replicate n '\r') ++ ['^'], ?_, ⟨_, blank_prefix _, by simp⟩⟩
  unfold formatLine
  rw [hls, hdrop]
  have hst : scanForward (a.length + 1 + (x' ++ [c]).length + n + 0) ('\n' :: b) =
      a.length + 1 + (x' ++ [c]).length + n := by simp [scanForward, isLineEnd]
  rw [hst]
  simp only
  rw [if_pos (by omega)]
  have hlen : a.length + 1 + (x' ++ [c]).length + n - (a.length + 1) =
      (x' ++ [c] ++ List.replicate n '\r').length := by simp; omega
  rw [hlen]
  congr 2
  · have := take_line a e (x' ++ [c] ++ List.replicate n '\r') ('\n' :: b ++ ['\x00'])
    rw [← this]
    simp
  · rw [take_line]
    simp

example : Inline "int x".toList ∧ "int x".toList ≠ [] := by
  refine ⟨?_, by decide⟩; unfold Inline; decide
example : formatLine "a\r\nint x\r\n}".toList 9 0 = some ("int x\r".toList, "      ^".toList) := by decide

/-- In the first line of a file the loop ends before the code, and memory before it is read: for all code that is
in the first line. -/
theorem first_line_refuted (x : List Char) (c : Char) (b : List Char) (n : Nat) (hx : Inline x) (hc : Inline [c]) :
    formatLine (x ++ c :: b) x.length n = none := by
  have hc' := hc c (by simp)
  have h := scanBack_first (x ++ [c]) b (inline_not (l := x ++ [c]) (fun d hd => by
    rcases List.mem_append.1 hd with hd | hd
    · exact hx d hd
    · exact hc d hd))
  simp only [List.length_append, List.length_singleton, List.append_assoc, List.cons_append,
    List.nil_append] at h
  unfold formatLine lineStart
  rw [charAt_mid, if_neg hc'.1, h]

example : Inline "using ".toList ∧ Inline ['S'] := by constructor <;> (unfold Inline; decide)

/-- In a last line without an end the zero after the code is shown as part of the line. -/
theorem last_line_refuted (a : List Char) (e : Char) (x u y : List Char) (he : Ends e)
    (hx : Inline x) (hu : Inline u) (hy : Inline y) (some' : u ++ y ≠ []) :
    ∃ marks, formatLine (a ++ e :: (x ++ u ++ y)) (a.length + 1 + x.length) u.length =
      some (x ++ u ++ y ++ ['\x00'], marks) := by
  obtain ⟨c, t, hct⟩ : ∃ c t, u ++ y = c :: t := by
    cases h : u ++ y with
    | nil => exact absurd h some'
    | cons c t => exact ⟨c, t, rfl⟩
  have hc : Inline [c] := by
    intro d hd
    simp at hd
    subst hd
    have : d ∈ u ++ y := by rw [hct]; simp
    rcases List.mem_append.1 this with h | h
    · exact hu d h
    · exact hy d h
  have hls : lineStart (a ++ e :: (x ++ u ++ y)) (a.length + 1 + x.length) = a.length + 2 := by
    have e1 : x ++ u ++ y = x ++ c :: t := by rw [List.append_assoc x, hct]
    rw [e1]
    exact lineStart_in a e x c _ he hx hc
  have hdrop : (a ++ e :: (x ++ u ++ y)).drop (a.length + 1 + x.length + u.length) = y := by
    have e1 : a ++ e :: (x ++ u ++ y) = (a ++ e :: (x ++ u)) ++ y := by simp
    rw [e1, List.drop_append, List.drop_of_length_le (by simp; omega)]
    simp only [List.length_append, List.length_cons, List.nil_append]
    rw [show a.length + 1 + x.length + u.length - (a.length + (x.length + u.length + 1)) = 0 by omega]
    rfl
  refine ⟨prefixSpace x ++ (if u.length = 0 then ['^'] else List.replicate u.length '~'), ?_⟩
  unfold formatLine
  rw [hls, hdrop, scanForward_end y hy]
  simp only
  rw [if_pos (by omega)]
  congr 2
  · have := take_line a e (x ++ u ++ y ++ ['\x00']) []
    rw [show a.length + 1 + x.length + u.length + y.length + 1 - (a.length + 1) =
      (x ++ u ++ y ++ ['\x00']).length by simp; omega]
    rw [← this]
    simp
  · congr 2
    rw [show a.length + 1 + x.length - (a.length + 1) = x.length by omega]
    have := take_line a e x (u ++ y)
    rw [show x ++ u ++ y = x ++ (u ++ y) by simp, this]

example : formatLine "{\n} x".toList 4 1 = some ("} x\x00".toList, "  ~".toList) := by decide

end Verif.Codepos
