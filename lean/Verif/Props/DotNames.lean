import Verif.Proof.DotNames

/-!
# C118: Names with dots are what is written, and one text is one name
-/

namespace Verif.DotNames

/-- Whatever is asked for and in whatever order: two names with the same text are the same object. -/
theorem one_object (ops : List Op) (i j : Nat) (x y : Name) (hi : nameAt (run ops {}) i = some x) (hj : nameAt (run ops {}) j = some y)
    (ht : x.text = y.text) : i = j := by
  obtain ⟨h, _⟩ := run_any ops {} (inv_empty _)
  have h1 := (h.1 i x hi).2
  have h2 := (h.1 j y hj).2
  rw [ht, h2] at h1
  cases h1
  rfl

/-- A name never changes. -/
theorem kept (ops more : List Op) (i : Nat) (x : Name) (hi : nameAt (run ops {}) i = some x) : nameAt (run more (run ops {})) i = some x :=
  prefix_get (run_any more _ (run_any ops {} (inv_empty _)).1).2 hi

/-- The name for a text has this text, after any calls. -/
theorem parse_text (ops : List Op) (t : Text) (hne : t ≠ []) :
    ∃ i s' x, parse (run ops {}) t = some (i, s') ∧ nameAt s' i = some x ∧ x.text = t := by
  obtain ⟨_, _, x, hx, ht, _⟩ := fromCache_inv (run_any ops {} (inv_empty _)).1 (key := t) (load := { text := t, parts := split t }) rfl trivial
  exact ⟨_, _, x, by unfold parse; cases t with | nil => exact absurd rfl hne | cons c cs => rfl, hx, ht⟩

/-- An empty text is no name. -/
theorem parse_empty (s : St) : parse s [] = none := rfl

/-- The parts of the name for a text are the pieces between its dots.  Partial: as long as `to_mname`, and with it the reader of
assemblies, is asked only for names without dots (`dotted_refuted`). -/
theorem parse_partial (ops : List Op) (hs : ∀ op ∈ ops, Simple op) (t : Text) (hne : t ≠ []) :
    ∃ i s' x, parse (run ops {}) t = some (i, s') ∧ nameAt s' i = some x ∧ x.text = t ∧ x.parts = pieces t := by
  obtain ⟨_, _, x, hx, ht, hp⟩ := fromCache_inv (run_right ops {} (inv_empty _) hs) (key := t) (load := { text := t, parts := split t }) rfl (split_eq hne)
  exact ⟨_, _, x, by unfold parse; cases t with | nil => exact absurd rfl hne | cons c cs => rfl, hx, ht, by rw [hp, ht]⟩

/-- Two names put together: the texts with a dot between them, all parts of both. -/
theorem combine_partial (ops : List Op) (hs : ∀ op ∈ ops, Simple op) (a b : Nat) (x y : Name) (ha : nameAt (run ops {}) a = some x)
    (hb : nameAt (run ops {}) b = some y) :
    ∃ i s' z, combine (run ops {}) (some a) (some b) = (some i, s') ∧ nameAt s' i = some z ∧ z.text = x.text ++ '.' :: y.text ∧
      z.parts = x.parts ++ y.parts := by
  have h := run_right ops {} (inv_empty _) hs
  unfold nameAt at ha hb
  obtain ⟨_, _, z, hz, ht, hp⟩ := fromCache_inv h (key := x.text ++ '.' :: y.text)
    (load := { text := x.text ++ '.' :: y.text, parts := x.parts ++ y.parts }) rfl (right_combine x y (h.1 a x ha).1 (h.1 b y hb).1)
  refine ⟨_, _, z, by unfold combine; simp only [ha, hb]; rfl, hz, ht, ?_⟩
  rw [hp, ht, pieces_append, (h.1 a x ha).1, (h.1 b y hb).1]

/-- Nothing put together with a name is the name. -/
theorem combine_none (s : St) (a : Option Nat) : combine s none a = (a, s) ∧ combine s a none = (a, s) := by
  cases a <;> exact ⟨rfl, rfl⟩

/-- The parent is the name without its last part; put together with the last part again it is the same object. -/
theorem parent_partial (ops : List Op) (hs : ∀ op ∈ ops, Simple op) (a : Nat) (x : Name) (ha : nameAt (run ops {}) a = some x)
    (ps : List Text) (p : Text) (hx : pieces x.text = ps ++ [p]) (hps : ps ≠ []) :
    ∃ i s' z, getParent (run ops {}) (some a) = (some i, s') ∧ nameAt s' i = some z ∧ z.text = dotted ps ∧ z.parts = ps ∧
      (combineName s' (some i) p).1 = some a := by
  have h := run_right ops {} (inv_empty _) hs
  generalize hst : run ops {} = s at *
  unfold nameAt at ha
  have hr := (h.1 a x ha).1
  have hxp : x.parts = ps ++ [p] := by rw [hr]; exact hx
  have hdl : ∀ q ∈ ps ++ [p], '.' ∉ q := by rw [← hx]; exact pieces_dotless _
  have hdps : ∀ q ∈ ps, '.' ∉ q := fun q hq => hdl q (by simp [hq])
  have hload : Right { text := joinDots ps, parts := ps } := right_join ps hps hdps
  have hget : getParent s (some a) =
      (some (fromCache s (joinDots ps) { text := joinDots ps, parts := ps }).1, (fromCache s (joinDots ps) { text := joinDots ps, parts := ps }).2) := by
    unfold getParent
    simp only [Option.bind_some, ha, hxp]
    match ps, hps with
    | [q], _ => rfl
    | q :: r :: rs, _ =>
      rw [show (q :: r :: rs) ++ [p] = q :: r :: (rs ++ [p]) from rfl]
      cases hrs : rs ++ [p] with
      | nil => simp at hrs
      | cons u us =>
        dsimp only
        rw [← hrs, show (q :: r :: (rs ++ [p])).dropLast = q :: r :: rs from by
          rw [show q :: r :: (rs ++ [p]) = (q :: r :: rs) ++ [p] from rfl, List.dropLast_concat]]
  obtain ⟨hinv, hpre, z, hz, ht, hp⟩ := fromCache_inv h (key := joinDots ps) (load := { text := joinDots ps, parts := ps }) rfl hload
  refine ⟨_, _, z, hget, hz, by rw [ht, join_dotted], by rw [hp, ht, pieces_join ps hps hdps], ?_⟩
  obtain ⟨hinv2, hpre2, w, hw, hwt, hwp⟩ := fromCache_inv hinv (key := p) (load := { text := p, parts := [p] }) rfl
    (right_single p (hdl p (by simp)))
  have ha2 := prefix_get hpre2 (prefix_get hpre ha)
  have hz2 := prefix_get hpre2 hz
  have htext : joinDots ps ++ '.' :: p = x.text := by
    rw [← join_pieces x.text, hx]
    clear hget hz hp ht hload hdps hdl hxp hx hz2 hpre hpre2 hw hwp hwt hinv hinv2 ha2
    induction ps with
    | nil => exact absurd rfl hps
    | cons q qs ih =>
      cases qs with
      | nil => rfl
      | cons r rs =>
        have := ih (by simp)
        rw [List.cons_append, List.cons_append, joinDots, joinDots]
        rw [List.cons_append] at this
        rw [← this]
        simp
  unfold combineName combine
  have : (toMname (fromCache s (joinDots ps) { text := joinDots ps, parts := ps }).2 p) =
      fromCache (fromCache s (joinDots ps) { text := joinDots ps, parts := ps }).2 p { text := p, parts := [p] } := rfl
  simp only [this, hz2, hw]
  unfold combineNames
  dsimp only
  rw [ht, hwt, htext, fromCache_known hinv2 ha2]

/-- The child is the name without its first part. -/
theorem child_partial (ops : List Op) (hs : ∀ op ∈ ops, Simple op) (a : Nat) (x : Name) (ha : nameAt (run ops {}) a = some x)
    (ps : List Text) (p : Text) (hx : pieces x.text = p :: ps) (hps : ps ≠ []) :
    ∃ i s' z, getChild (run ops {}) (some a) = (some i, s') ∧ nameAt s' i = some z ∧ z.text = dotted ps ∧ z.parts = ps := by
  have h := run_right ops {} (inv_empty _) hs
  generalize hst : run ops {} = s at *
  unfold nameAt at ha
  have hr := (h.1 a x ha).1
  have hxp : x.parts = p :: ps := by rw [hr]; exact hx
  have hdl : ∀ q ∈ p :: ps, '.' ∉ q := by rw [← hx]; exact pieces_dotless _
  have hdps : ∀ q ∈ ps, '.' ∉ q := fun q hq => hdl q (by simp [hq])
  have hget : getChild s (some a) =
      (some (fromCache s (joinDots ps) { text := joinDots ps, parts := ps }).1, (fromCache s (joinDots ps) { text := joinDots ps, parts := ps }).2) := by
    unfold getChild
    simp only [Option.bind_some, ha, hxp]
    match ps, hps with
    | [q], _ => rfl
    | q :: r :: rs, _ => rfl
  obtain ⟨_, _, z, hz, ht, hp⟩ := fromCache_inv h (key := joinDots ps) (load := { text := joinDots ps, parts := ps }) rfl (right_join ps hps hdps)
  exact ⟨_, _, z, hget, hz, by rw [ht, join_dotted], by rw [hp, ht, pieces_join ps hps hdps]⟩

/-- A name without dots has no parent and no child. -/
theorem simple_partial (ops : List Op) (hs : ∀ op ∈ ops, Simple op) (a : Nat) (x : Name) (ha : nameAt (run ops {}) a = some x)
    (hx : '.' ∉ x.text) : getParent (run ops {}) (some a) = (none, run ops {}) ∧ getChild (run ops {}) (some a) = (none, run ops {}) := by
  have h := run_right ops {} (inv_empty _) hs
  unfold nameAt at ha
  have hr : x.parts = [x.text] := by rw [(h.1 a x ha).1, pieces_single _ hx]
  unfold getParent getChild
  simp only [Option.bind_some, ha, hr]
  exact ⟨trivial, trivial⟩

/-- What the reader of assemblies does: when the text of a namespace is not known yet, its name becomes one part, dots and all, and
has no parent; and so it is for every later use of the text. -/
theorem dotted_refuted (ops more : List Op) (n : Text) (hn : n ≠ []) (hnew : ∀ (i : Nat) (x : Name), nameAt (run ops {}) i = some x → x.text ≠ n) :
    (readNamespace (run ops {}) n).1.2 = none ∧
      ∃ i x, parse (run more (readNamespace (run ops {}) n).2) n = some (i, run more (readNamespace (run ops {}) n).2) ∧
        nameAt (run more (readNamespace (run ops {}) n).2) i = some x ∧ x.parts = [n] ∧
        (getParent (run more (readNamespace (run ops {}) n).2) (some i)).1 = none := by
  have h := (run_any ops {} (inv_empty _)).1
  generalize hst : run ops {} = s at *
  have hl : s.cache.lookup n = none := by
    cases hl : s.cache.lookup n with
    | none => rfl
    | some i =>
      obtain ⟨x, hx, ht⟩ := h.2 n i hl
      exact absurd ht (hnew i x hx)
  have hto : toMname s n = (s.objs.length, { objs := s.objs ++ [{ text := n, parts := [n] }], cache := (n, s.objs.length) :: s.cache }) := by
    unfold toMname fromCache
    rw [hl]
  have hread : readNamespace s n = ((s.objs.length, none), { objs := s.objs ++ [{ text := n, parts := [n] }], cache := (n, s.objs.length) :: s.cache }) := by
    unfold readNamespace
    rw [hto]
    unfold getParent
    simp
  have hinv := (step_any h (.readNamespace n)).1
  simp only [step] at hinv
  rw [hread] at hinv ⊢
  dsimp only at hinv ⊢
  obtain ⟨h2, hp2⟩ := run_any more _ hinv
  have hobj := prefix_get hp2 (i := s.objs.length) (x := { text := n, parts := [n] }) (by simp)
  refine ⟨rfl, s.objs.length, _, ?_, hobj, rfl, ?_⟩
  · unfold parse
    cases n with
    | nil => exact absurd rfl hn
    | cons c cs =>
      have := fromCache_known h2 hobj { text := c :: cs, parts := split (c :: cs) }
      dsimp only at this
      simp [this]
  · unfold getParent
    simp only [Option.bind_some, hobj]

/-! ## Examples -/

/-- `System.Text` after a parse: two parts. -/
example : nameAt (run [.parse "System.Text".toList] {}) 0 = some { text := "System.Text".toList, parts := ["System".toList, "Text".toList] } := by
  decide +kernel

example : (∀ op ∈ [Op.parse "A.B.C".toList, .internal ["A".toList, "B".toList], .getParent (some 0)], Simple op) ∧
    (run [.parse "A.B.C".toList, .internal ["A".toList, "B".toList], .getParent (some 0)] {}).objs.map (·.text) =
      ["A.B.C".toList, "A.B".toList] := by
  refine ⟨?_, by decide +kernel⟩
  intro op hop
  simp only [List.mem_cons, List.not_mem_nil, or_false] at hop
  rcases hop with rfl | rfl | rfl
  · trivial
  · exact ⟨by simp, by decide +kernel⟩
  · trivial

/-- The same text, read from an assembly first: one part. -/
example : ∃ i x, parse (run [] (readNamespace (run [] {}) "System.Text".toList).2) "System.Text".toList =
      some (i, run [] (readNamespace (run [] {}) "System.Text".toList).2) ∧
    nameAt (run [] (readNamespace (run [] {}) "System.Text".toList).2) i = some x ∧ x.parts.length = 1 ∧
    (pieces "System.Text".toList).length = 2 :=
  ⟨0, _, by decide +kernel, rfl, rfl, by decide +kernel⟩

example : pieces "A.B.C".toList = ["A".toList, "B".toList] ++ ["C".toList] := by decide +kernel

end Verif.DotNames
