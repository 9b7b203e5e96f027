import Verif.Spec.Sections

/-!
# Lemmas about sources in several languages
-/

namespace Verif.Sections

open Verif.CStr (Ch isWhitespace)
open Verif.Sections.Spec

variable {langId : List Ch → Option Nat}

/-! ## Reading the name of a language -/

theorem nameLoop_len : ∀ (s name : List Ch) (r : List Ch × List Ch), nameLoop name s = .ok r → r.2.length < s.length := by
  intro s
  induction s with
  | nil => intro name r h; simp [nameLoop] at h
  | cons c s ih =>
    intro name r h
    rw [nameLoop] at h
    split at h
    · cases h; simp
    · have := ih _ _ h
      simp; omega

theorem readLang_len {s : List Ch} {r : List Ch × List Ch} (h : readLang s = .ok r) : r.2.length < s.length := by
  cases s with
  | nil => simp [readLang] at h
  | cons c s =>
    rw [readLang] at h
    split at h
    · cases h
    · have := nameLoop_len _ _ _ h
      simp; omega

/-- What the loop reads is a name and the character behind it. -/
theorem nameLoop_sound : ∀ (s name : List Ch) (r : List Ch × List Ch), nameLoop name s = .ok r →
    ∃ cs sep, r.1 = name ++ cs ∧ s = cs ++ sep :: r.2 ∧ (∀ x ∈ cs, isWhitespace x = false) ∧
      (∀ a b, cs ≠ a ++ quest :: gt :: b) ∧ IsSep sep r.2 ∧ ∀ b, cs = b ++ [quest] → sep ≠ gt := by
  intro s
  induction s with
  | nil => intro name r h; simp [nameLoop] at h
  | cons c s ih =>
    intro name r h
    rw [nameLoop] at h
    split at h
    · next hc =>
      cases h
      exact ⟨[], c, by simp, by simp, by simp, by simp, hc.symm, by simp⟩
    · next hc =>
      obtain ⟨cs, sep, h1, h2, h3, h4, h5, h6⟩ := ih _ _ h
      have hw : isWhitespace c = false := by
        cases hh : isWhitespace c with
        | false => rfl
        | true => exact absurd (Or.inr hh) hc
      have hq : ¬ (c = quest ∧ s.head? = some gt) := fun hh => hc (Or.inl hh)
      refine ⟨c :: cs, sep, by simp [h1], by simp [h2], ?_, ?_, h5, ?_⟩
      · intro x hx
        rcases List.mem_cons.1 hx with rfl | hx
        · exact hw
        · exact h3 x hx
      · intro a b he
        cases a with
        | nil =>
          simp only [List.nil_append, List.cons.injEq] at he
          refine hq ⟨he.1, ?_⟩
          rw [h2, he.2]; rfl
        | cons x a =>
          simp only [List.cons_append, List.cons.injEq] at he
          exact h4 a b he.2
      · intro b he
        cases b with
        | nil =>
          simp only [List.nil_append, List.cons.injEq] at he
          intro hs
          refine hq ⟨he.1, ?_⟩
          rw [h2, he.2, hs]; rfl
        | cons x b =>
          simp only [List.cons_append, List.cons.injEq] at he
          exact h6 b he.2

theorem readLang_sound {s : List Ch} {r : List Ch × List Ch} (h : readLang s = .ok r) :
    ∃ sep, s = r.1 ++ sep :: r.2 ∧ IsName r.1 ∧ IsSep sep r.2 := by
  cases s with
  | nil => simp [readLang] at h
  | cons c s =>
    rw [readLang] at h
    split at h
    · cases h
    · next hc =>
      obtain ⟨cs, sep, h1, h2, h3, h4, h5, h6⟩ := nameLoop_sound _ _ _ h
      exact ⟨sep, by rw [h1, h2]; simp, ⟨c, cs, by rw [h1]; rfl, by simpa using hc, h3, h4⟩, h5⟩

theorem gt_not_space : isWhitespace gt = false := by decide +kernel

theorem nameLoop_complete {sep : Ch} {t : List Ch} (hs : IsSep sep t) : ∀ (cs name : List Ch),
    (∀ x ∈ cs, isWhitespace x = false) → (∀ a b, cs ≠ a ++ quest :: gt :: b) →
    nameLoop name (cs ++ sep :: t) = .ok (name ++ cs, t) := by
  intro cs
  induction cs with
  | nil =>
    intro name _ _
    rw [List.nil_append, nameLoop, if_pos hs.symm]; simp
  | cons c cs ih =>
    intro name h1 h2
    rw [List.cons_append, nameLoop, if_neg, ih _ (fun x hx => h1 x (List.mem_cons_of_mem _ hx))]
    · simp
    · intro a b he
      exact h2 (c :: a) b (by rw [he]; rfl)
    · rintro (⟨hc, hh⟩ | hc)
      · cases cs with
        | nil =>
          simp only [List.nil_append, List.head?_cons, Option.some.injEq] at hh
          subst hh
          rcases hs with hs | ⟨hs, _⟩
          · rw [gt_not_space] at hs; cases hs
          · revert hs; decide
        | cons x cs =>
          simp only [List.cons_append, List.head?_cons, Option.some.injEq] at hh
          exact h2 [] cs (by rw [hc, hh]; rfl)
      · rw [h1 c (by simp)] at hc; cases hc

theorem readLang_complete {name : List Ch} {sep : Ch} {t : List Ch} (hn : IsName name) (hs : IsSep sep t) :
    readLang (name ++ sep :: t) = .ok (name, t) := by
  obtain ⟨c, cs, rfl, h1, h2, h3⟩ := hn
  rw [List.cons_append, readLang, if_neg (by rw [h1]; simp), nameLoop_complete hs _ _ h2 h3]
  rfl

/-! ## Enough steps -/

theorem bind_ok {α β : Type} {o : Out α} {f : α → Out β} {b : β} (h : o.bind f = .ok b) : ∃ a, o = .ok a ∧ f a = .ok b := by
  cases o with
  | ok a => exact ⟨a, rfl, h⟩
  | error e => cases h
  | beyond => cases h

theorem build_cons (n : Nat) (c : Ch) (s cur : List Ch) (lang : Nat) (stack : List Nat) :
    build langId (n + 1) (c :: s) cur lang stack =
    if c = lt ∧ s.head? = some tick then
      (readLang s.tail).bind fun r =>
        match langId r.1 with
        | none => .error .unknownLang
        | some l => (build langId n r.2 [] l (lang :: stack)).bind fun secs => .ok (⟨cur, lang, stack.length⟩ :: secs)
    else if c = tick ∧ s.head? = some gt then
      match stack with
      | [] => .error .unexpectedEnd
      | l :: st => (build langId n s.tail [] l st).bind fun secs => .ok (⟨cur, lang, (l :: st).length⟩ :: secs)
    else build langId n s (cur ++ [c]) lang stack := by
  cases stack <;> rfl

theorem build_enough : ∀ (n m : Nat) (s cur : List Ch) (lang : Nat) (st : List Nat), s.length < n → s.length < m →
    build langId n s cur lang st = build langId m s cur lang st := by
  intro n
  induction n with
  | zero => intro m s cur lang st h; omega
  | succ n ih =>
    intro m s cur lang st hn hm
    cases m with
    | zero => omega
    | succ m =>
      cases s with
      | nil => rfl
      | cons c s =>
        simp only [List.length_cons] at hn hm
        rw [build_cons, build_cons]
        split
        · cases hr : readLang s.tail with
          | ok r =>
            have hl := readLang_len hr
            have ht : s.tail.length ≤ s.length := by simp
            simp only [Out.bind]
            cases langId r.1 with
            | none => rfl
            | some l => dsimp only; rw [ih m r.2 [] l (lang :: st) (by omega) (by omega)]
          | error e => rfl
          | beyond => rfl
        · split
          · have ht : s.tail.length ≤ s.length := by simp
            cases st with
            | nil => rfl
            | cons l st => dsimp only; rw [ih m s.tail [] l st (by omega) (by omega)]
          · exact ih m _ _ _ _ (by omega) (by omega)

/-- Building with enough steps. -/
def full (langId : List Ch → Option Nat) (s cur : List Ch) (lang : Nat) (st : List Nat) : Out (List Sec) :=
  build langId (s.length + 1) s cur lang st

theorem full_nil (cur : List Ch) (lang : Nat) (st : List Nat) : full langId [] cur lang st =
    if st.length > 0 then .error .missingEnd else .ok [⟨cur ++ [0#32], lang, 0⟩] := rfl

theorem full_open {s : List Ch} (cur : List Ch) (lang : Nat) (st : List Nat) :
    full langId (lt :: tick :: s) cur lang st =
      (readLang s).bind fun r =>
        match langId r.1 with
        | none => .error .unknownLang
        | some l => (full langId r.2 [] l (lang :: st)).bind fun secs => .ok (⟨cur, lang, st.length⟩ :: secs) := by
  rw [full, List.length_cons, build_cons, if_pos ⟨rfl, rfl⟩, List.tail_cons]
  cases hr : readLang s with
  | ok r =>
    have hl := readLang_len hr
    simp only [Out.bind]
    cases langId r.1 with
    | none => rfl
    | some l =>
      dsimp only
      rw [build_enough _ (r.2.length + 1) r.2 [] l (lang :: st) (by simp; omega) (by omega)]
      rfl
  | error e => rfl
  | beyond => rfl

theorem full_close {s : List Ch} (cur : List Ch) (lang l : Nat) (st : List Nat) :
    full langId (tick :: gt :: s) cur lang (l :: st) =
      (full langId s [] l st).bind fun secs => .ok (⟨cur, lang, (l :: st).length⟩ :: secs) := by
  rw [full, List.length_cons, build_cons, if_neg (by rintro ⟨h, _⟩; revert h; decide), if_pos ⟨rfl, rfl⟩, List.tail_cons]
  show Out.bind _ _ = _
  rw [build_enough _ (s.length + 1) s [] l st (by simp; omega) (by omega)]
  rfl

theorem full_char {c : Ch} {s : List Ch} (h : ¬ TagAt c s) (cur : List Ch) (lang : Nat) (st : List Nat) :
    full langId (c :: s) cur lang st = full langId s (cur ++ [c]) lang st := by
  rw [full, List.length_cons, build_cons, if_neg (fun hh => h (Or.inl hh)), if_neg (fun hh => h (Or.inr hh))]
  rfl

/-! ## Completeness -/

theorem free_tail {c : Ch} {p after : List Ch} (h : Free (c :: p) after) : Free p after := by
  intro a x b he
  exact h (c :: a) x b (by rw [he]; rfl)

theorem free_cons {c : Ch} {p after : List Ch} (h : ¬ TagAt c (p ++ after)) (hp : Free p after) : Free (c :: p) after := by
  intro a x b he
  cases a with
  | nil =>
    simp only [List.nil_append, List.cons.injEq] at he
    obtain ⟨rfl, rfl⟩ := he
    exact h
  | cons y a =>
    simp only [List.cons_append, List.cons.injEq] at he
    exact hp a x b he.2

theorem tagAt_congr {c : Ch} {s t : List Ch} (h : s.head? = t.head?) : TagAt c s ↔ TagAt c t := by
  simp only [TagAt, h]

theorem head_append (p : List Ch) {s t : List Ch} (h : s.head? = t.head?) : (p ++ s).head? = (p ++ t).head? := by
  cases p with
  | nil => exact h
  | cons c p => rfl

/-- Text without tags is added to the section. -/
theorem full_text : ∀ (p : List Ch) {after t : List Ch}, Free p after → after.head? = t.head? → ∀ (cur : List Ch) (lang : Nat)
    (st : List Nat), full langId (p ++ t) cur lang st = full langId t (cur ++ p) lang st := by
  intro p
  induction p with
  | nil => intro after t _ _ cur lang st; simp
  | cons c p ih =>
    intro after t hf hh cur lang st
    rw [List.cons_append, full_char, ih (free_tail hf) hh]
    · simp
    · rw [← tagAt_congr (head_append p hh)]
      exact hf [] c p rfl

theorem full_text_open (p : List Ch) {t : List Ch} (h : Free p [lt, tick]) (cur : List Ch) (lang : Nat) (st : List Nat) :
    full langId (p ++ lt :: tick :: t) cur lang st = full langId (lt :: tick :: t) (cur ++ p) lang st :=
  full_text p (t := lt :: tick :: t) h rfl cur lang st

/-- A source with `cur` before its first text. -/
def pre (cur : List Ch) : Doc → Doc
  | .done p => .done (cur ++ p)
  | .emb p name sep inner rest => .emb (cur ++ p) name sep inner rest

theorem pre_nil (d : Doc) : pre [] d = d := by cases d <;> rfl

theorem pre_pre (a b : List Ch) (d : Doc) : pre a (pre b d) = pre (a ++ b) d := by cases d <;> simp [pre]

theorem bind_cons {a : List Sec} {x : Sec} {o : Out (List Sec)} :
    ((o.bind fun r => .ok (a ++ r)).bind fun secs => .ok (x :: secs)) = o.bind fun r => .ok ((x :: a) ++ r) := by
  cases o <;> rfl

theorem bind_app {a b : List Sec} {o : Out (List Sec)} :
    ((o.bind fun r => .ok (b ++ r)).bind fun r => .ok (a ++ r)) = o.bind fun r => Out.ok (a ++ b ++ r) := by
  cases o <;> simp [Out.bind]

/-- An embedded source and its end. -/
theorem full_inner (d : Doc) : ∀ (t cur : List Ch) (lang l : Nat) (st : List Nat), d.WF langId [tick, gt] →
    full langId (d.render ++ tick :: gt :: t) cur lang (l :: st) =
      (full langId t [] l st).bind fun r => .ok ((pre cur d).sections langId [] lang (st.length + 1) ++ r) := by
  induction d with
  | done p =>
    intro t cur lang l st h
    rw [Doc.render, full_text p (t := tick :: gt :: t) h rfl, full_close]
    simp [pre, Doc.sections]
  | emb p name sep inner rest ihi ihr =>
    intro t cur lang l st h
    obtain ⟨h1, h2, h3, h4, h5, h6⟩ := h
    obtain ⟨k, hk⟩ := Option.isSome_iff_exists.1 h4
    have hs : IsSep sep (inner.render ++ tick :: gt :: (rest.render ++ tick :: gt :: t)) := by
      rcases h3 with h3 | ⟨h3, hh⟩
      · exact Or.inl h3
      · exact Or.inr ⟨h3, by rw [← hh]; exact head_append _ rfl⟩
    have he : (Doc.emb p name sep inner rest).render ++ tick :: gt :: t =
        p ++ lt :: tick :: (name ++ sep :: (inner.render ++ tick :: gt :: (rest.render ++ tick :: gt :: t))) := by
      simp [Doc.render]
    rw [he, full_text_open p h1, full_open, readLang_complete h2 hs]
    simp only [Out.bind, hk]
    rw [ihi _ _ _ _ _ h5, ihr _ _ _ _ _ h6, pre_nil, pre_nil]
    cases full langId t [] l st with
    | ok r => simp [Out.bind, pre, Doc.sections, hk]
    | error e => rfl
    | beyond => rfl

/-- A whole source. -/
theorem full_outer (d : Doc) : ∀ (cur : List Ch) (lang : Nat), d.WF langId [] →
    full langId d.render cur lang [] = .ok ((pre cur d).sections langId [0#32] lang 0) := by
  induction d with
  | done p =>
    intro cur lang h
    have := full_text (langId := langId) p (t := []) h rfl cur lang []
    rw [List.append_nil] at this
    rw [Doc.render, this, full_nil]
    simp [pre, Doc.sections]
  | emb p name sep inner rest ihi ihr =>
    intro cur lang h
    obtain ⟨h1, h2, h3, h4, h5, h6⟩ := h
    obtain ⟨k, hk⟩ := Option.isSome_iff_exists.1 h4
    have hs : IsSep sep (inner.render ++ tick :: gt :: rest.render) := by
      rcases h3 with h3 | ⟨h3, hh⟩
      · exact Or.inl h3
      · exact Or.inr ⟨h3, by rw [← hh]; exact head_append _ rfl⟩
    have he : (Doc.emb p name sep inner rest).render =
        p ++ lt :: tick :: (name ++ sep :: (inner.render ++ tick :: gt :: rest.render)) := by
      simp [Doc.render]
    rw [he, full_text_open p h1, full_open, readLang_complete h2 hs]
    simp only [Out.bind, hk]
    rw [full_inner inner _ _ _ _ _ h5, ihr _ _ h6, pre_nil, pre_nil]
    simp [Out.bind, pre, Doc.sections, hk]

/-! ## Soundness -/

/-- What is behind the current level: the rests of the sources around it. -/
def renderAll : List Doc → List Ch
  | [] => []
  | d :: ds => tick :: gt :: (d.render ++ renderAll ds)

/-- The sections of the rests. -/
def sectionsAll (langId : List Ch → Option Nat) : List Nat → List Doc → List Sec
  | l :: st, d :: ds => d.sections langId (if ds.isEmpty then [0#32] else []) l st.length ++ sectionsAll langId st ds
  | _, _ => []

/-- What a source is followed by when `ds` are the rests around it. -/
def ending (ds : List Doc) : List Ch := if ds.isEmpty then [] else [tick, gt]

/-- The rests are well formed. -/
def AllWF (langId : List Ch → Option Nat) : List Doc → Prop
  | [] => True
  | d :: ds => d.WF langId (ending ds) ∧ AllWF langId ds

theorem ending_head (ds : List Doc) : (ending ds).head? = (renderAll ds).head? := by
  cases ds <;> rfl

theorem wf_pre {c : Ch} {d : Doc} {ds : List Doc} (h : ¬ TagAt c (d.render ++ renderAll ds)) (hd : d.WF langId (ending ds)) :
    (pre [c] d).WF langId (ending ds) := by
  cases d with
  | done p =>
    refine free_cons (p := p) ?_ hd
    rw [tagAt_congr (head_append p (ending_head ds))]
    exact h
  | emb p name sep inner rest =>
    obtain ⟨h1, h2⟩ := hd
    refine ⟨free_cons ?_ h1, h2⟩
    refine fun hh => h ?_
    have : ((Doc.emb p name sep inner rest).render ++ renderAll ds).head? = (p ++ [lt, tick]).head? := by
      rw [Doc.render]
      simp only [List.append_assoc]
      exact head_append p rfl
    rw [tagAt_congr this]
    exact hh

theorem render_pre (c : Ch) (d : Doc) : (pre [c] d).render = c :: d.render := by
  cases d <;> simp [pre, Doc.render]

theorem full_sound : ∀ (n : Nat) (s cur : List Ch) (lang : Nat) (st : List Nat) (secs : List Sec), s.length < n →
    full langId s cur lang st = .ok secs → ∃ d ds, ds.length = st.length ∧ s = d.render ++ renderAll ds ∧
      d.WF langId (ending ds) ∧ AllWF langId ds ∧
      secs = (pre cur d).sections langId (if ds.isEmpty then [0#32] else []) lang st.length ++ sectionsAll langId st ds := by
  intro n
  induction n with
  | zero => intro s cur lang st secs h; omega
  | succ n ih =>
    intro s cur lang st secs hn h
    cases s with
    | nil =>
      rw [full_nil] at h
      split at h
      · cases h
      · next hst =>
        have : st = [] := by cases st with | nil => rfl | cons l st => simp at hst
        subst this
        cases h
        exact ⟨.done [], [], rfl, rfl, by intro a c b he; simp at he, trivial, by simp [pre, Doc.sections, sectionsAll]⟩
    | cons c s =>
      simp only [List.length_cons] at hn
      by_cases htag : TagAt c s
      · rcases htag with ⟨rfl, hh⟩ | ⟨rfl, hh⟩
        · cases s with
          | nil => cases hh
          | cons x s =>
            simp only [List.head?_cons, Option.some.injEq] at hh
            subst hh
            rw [full_open] at h
            obtain ⟨r, hr, h⟩ := bind_ok h
            have hl := readLang_len hr
            simp only [List.length_cons] at hn
            cases hk : langId r.1 with
            | none => rw [hk] at h; cases h
            | some k =>
              rw [hk] at h
              dsimp only at h
              obtain ⟨secs', hb, h⟩ := bind_ok h
              cases h
              obtain ⟨sep, hs1, hs2, hs3⟩ := readLang_sound hr
              obtain ⟨d, ds, h1, h2, h3, h4, h5⟩ := ih _ _ _ _ _ (by omega) hb
              cases ds with
              | nil => simp at h1
              | cons rest ds =>
                simp only [List.length_cons, Nat.add_right_cancel_iff] at h1
                refine ⟨.emb [] r.1 sep d rest, ds, h1, ?_, ?_, h4.2, ?_⟩
                · rw [hs1, h2]; simp [Doc.render, renderAll]
                · refine ⟨by intro a c b he; simp at he, hs2, ?_, by rw [hk]; rfl, h3, h4.1⟩
                  rcases hs3 with hs3 | ⟨hs3, hh⟩
                  · exact Or.inl hs3
                  · refine Or.inr ⟨hs3, ?_⟩
                    rw [h2] at hh
                    rw [← hh]
                    exact head_append _ rfl
                · rw [h5, pre_nil]
                  simp [pre, Doc.sections, sectionsAll, hk]
        · cases s with
          | nil => cases hh
          | cons x s =>
            simp only [List.head?_cons, Option.some.injEq] at hh
            subst hh
            cases st with
            | nil =>
              rw [full, List.length_cons, build_cons, if_neg (by rintro ⟨h, _⟩; revert h; decide), if_pos ⟨rfl, rfl⟩] at h
              cases h
            | cons l st =>
              rw [full_close] at h
              obtain ⟨secs', hb, h⟩ := bind_ok h
              cases h
              simp only [List.length_cons] at hn
              obtain ⟨d, ds, h1, h2, h3, h4, h5⟩ := ih _ _ _ _ _ (by omega) hb
              refine ⟨.done [], d :: ds, by simp [h1], by rw [h2]; rfl, by intro a c b he; simp at he, ⟨h3, h4⟩, ?_⟩
              rw [h5, pre_nil]
              simp [pre, Doc.sections, sectionsAll]
      · rw [full_char htag] at h
        obtain ⟨d, ds, h1, h2, h3, h4, h5⟩ := ih _ _ _ _ _ (by omega) h
        refine ⟨pre [c] d, ds, h1, ?_, ?_, h4, ?_⟩
        · rw [render_pre, h2]; rfl
        · refine wf_pre ?_ h3
          rw [← h2]; exact htag
        · rw [pre_pre]; exact h5

/-! ## Staying inside the text -/

theorem nameLoop_inside : ∀ (s name : List Ch), (∃ c ∈ s, isWhitespace c = true) → nameLoop name s ≠ .beyond := by
  intro s
  induction s with
  | nil => rintro name ⟨c, hc, _⟩; cases hc
  | cons c s ih =>
    rintro name ⟨x, hx, hw⟩
    rw [nameLoop]
    split
    · intro h; cases h
    · next hc =>
      apply ih
      rcases List.mem_cons.1 hx with rfl | hx
      · exact absurd (Or.inr hw) hc
      · exact ⟨x, hx, hw⟩

/-- The last character, if there is one, is white space. -/
def LastSpace (s : List Ch) : Prop := ∀ x, s.getLast? = some x → isWhitespace x = true

theorem lastSpace_tail {c : Ch} {s : List Ch} (h : LastSpace (c :: s)) : LastSpace s := by
  intro x hx
  cases s with
  | nil => cases hx
  | cons y s => exact h x (by rw [List.getLast?_cons_cons]; exact hx)

theorem lastSpace_drop {a s : List Ch} (h : LastSpace (a ++ s)) : LastSpace s := by
  induction a with
  | nil => exact h
  | cons c a ih => exact ih (lastSpace_tail h)

theorem readLang_inside {s : List Ch} (hne : s ≠ []) (h : LastSpace s) : readLang s ≠ .beyond := by
  cases s with
  | nil => exact absurd rfl hne
  | cons c s =>
    rw [readLang]
    split
    · intro hh; cases hh
    · next hc =>
      cases hs : s with
      | nil =>
        subst hs
        exact absurd (h c rfl) hc
      | cons y s' =>
        apply nameLoop_inside
        have hx := List.getLast?_eq_some_getLast (l := y :: s') (by simp)
        refine ⟨(y :: s').getLast (by simp), List.getLast_mem _, ?_⟩
        have := lastSpace_tail h
        rw [hs] at this
        exact this _ hx

theorem tick_not_space : isWhitespace tick = false := by decide +kernel

theorem full_inside : ∀ (n : Nat) (s cur : List Ch) (lang : Nat) (st : List Nat), s.length < n → LastSpace s →
    full langId s cur lang st ≠ .beyond := by
  intro n
  induction n with
  | zero => intro s cur lang st h; omega
  | succ n ih =>
    intro s cur lang st hn hl
    cases s with
    | nil => rw [full_nil]; split <;> intro h <;> cases h
    | cons c s =>
      simp only [List.length_cons] at hn
      by_cases htag : TagAt c s
      · rcases htag with ⟨rfl, hh⟩ | ⟨rfl, hh⟩
        · cases s with
          | nil => cases hh
          | cons x s =>
            simp only [List.head?_cons, Option.some.injEq] at hh
            subst hh
            simp only [List.length_cons] at hn
            rw [full_open]
            have hne : s ≠ [] := by
              rintro rfl
              have := hl tick rfl
              rw [tick_not_space] at this; cases this
            have hls := lastSpace_tail (lastSpace_tail hl)
            cases hr : readLang s with
            | beyond => exact absurd hr (readLang_inside hne hls)
            | error e => intro h; cases h
            | ok r =>
              have hlen := readLang_len hr
              obtain ⟨sep, hs1, _⟩ := readLang_sound hr
              simp only [Out.bind]
              cases langId r.1 with
              | none => intro h; cases h
              | some k =>
                dsimp only
                have hr2 : LastSpace r.2 := by
                  rw [hs1] at hls
                  exact lastSpace_tail (lastSpace_drop hls)
                have := ih r.2 [] k (lang :: st) (by omega) hr2
                cases hb : full langId r.2 [] k (lang :: st) with
                | beyond => exact absurd hb this
                | error e => intro h; cases h
                | ok a => intro h; cases h
        · cases s with
          | nil => cases hh
          | cons x s =>
            simp only [List.head?_cons, Option.some.injEq] at hh
            subst hh
            simp only [List.length_cons] at hn
            cases st with
            | nil =>
              rw [full, List.length_cons, build_cons, if_neg (by rintro ⟨h, _⟩; revert h; decide), if_pos ⟨rfl, rfl⟩]
              intro h; cases h
            | cons l st =>
              rw [full_close]
              have := ih s [] l st (by omega) (lastSpace_tail (lastSpace_tail hl))
              cases hb : full langId s [] l st with
              | beyond => exact absurd hb this
              | error e => intro h; cases h
              | ok a => intro h; cases h
      · rw [full_char htag]
        exact ih _ _ _ _ (by omega) (lastSpace_tail hl)

/-! ## Reading the sections -/

variable {T : Type} {toks : Nat → List Ch → List T}

/-- Every section of a source is at its depth or deeper, and there is one. -/
theorem sections_first (last : List Ch) (lang depth : Nat) (d : Doc) :
    ∃ s r, d.sections langId last lang depth = s :: r ∧ s.depth = depth ∧ s.lang = lang := by
  cases d with
  | done p => exact ⟨_, _, rfl, rfl, rfl⟩
  | emb p name sep inner rest => exact ⟨_, _, rfl, rfl, rfl⟩

/-- What comes behind the sections of a source at this depth: nothing, or a section that is less deep. -/
def Less (depth : Nat) (tail : List Sec) : Prop := ∀ s, tail.head? = some s → s.depth < depth

/-- Reading behind an embedded source: the first text of the rest is skipped. -/
theorem loop_sections (d : Doc) : ∀ (n lang depth : Nat) (last : List Ch) (tail : List Sec), Less depth tail →
    (d.sections langId last lang depth ++ tail).length < n →
    loop toks n depth lang (d.sections langId last lang depth ++ tail) = .ok (d.givenRest toks langId lang, tail) := by
  induction d with
  | done p =>
    intro n lang depth last tail hl hn
    cases n with
    | zero => omega
    | succ n =>
      cases tail with
      | nil => rfl
      | cons s tail =>
        have := hl s rfl
        show loop toks (n + 1) depth lang (_ :: s :: tail) = _
        rw [loop, if_neg (by omega), if_neg (by omega)]
        rfl
  | emb p name sep inner rest ihi ihr =>
    intro n lang depth last tail hl hn
    cases n with
    | zero => omega
    | succ n =>
      obtain ⟨s, r, h1, h2, h3⟩ := sections_first (langId := langId) [] ((langId name).getD 0) (depth + 1) inner
      obtain ⟨s', r', h1', h2', h3'⟩ := sections_first (langId := langId) last lang depth rest
      rw [Doc.sections] at hn ⊢
      have e : (⟨p, lang, depth⟩ :: inner.sections langId [] ((langId name).getD 0) (depth + 1) ++
          rest.sections langId last lang depth) ++ tail =
          ⟨p, lang, depth⟩ :: s :: (r ++ (rest.sections langId last lang depth ++ tail)) := by
        rw [h1]; simp
      have e2 : s :: (r ++ (rest.sections langId last lang depth ++ tail)) =
          inner.sections langId [] ((langId name).getD 0) (depth + 1) ++ (rest.sections langId last lang depth ++ tail) := by
        rw [h1]; simp
      have hi := ihi n ((langId name).getD 0) (depth + 1) [] (rest.sections langId last lang depth ++ tail)
        (by
          intro x hx
          rw [h1'] at hx
          simp only [List.cons_append, List.head?_cons, Option.some.injEq] at hx
          subst hx; omega)
        (by simp only [List.length_append, List.length_cons] at hn ⊢; omega)
      have hr := ihr n lang depth last tail hl (by simp only [List.length_append, List.length_cons] at hn ⊢; omega)
      rw [e, loop, if_pos (by omega), h2, h3, e2, hi]
      simp only [Out.bind]
      rw [hr]
      cases inner with
      | done q =>
        simp only [Doc.sections, List.cons.injEq] at h1
        rw [← h1.1]
        simp [Doc.givenRest, Doc.given]
      | emb q nm sp i2 r2 =>
        simp only [Doc.sections, List.cons_append, List.cons.injEq] at h1
        rw [← h1.1]
        simp [Doc.givenRest, Doc.given]

theorem given_head (lang : Nat) (d : Doc) :
    d.given toks langId lang = (toks lang d.head).map .tok ++ d.givenRest toks langId lang := by
  cases d <;> simp [Doc.given, Doc.givenRest, Doc.head]

/-- Nothing is left out when there is nothing behind the embedded sources. -/
theorem given_ends (d : Doc) : ∀ lang, d.Ends toks langId lang → d.given toks langId lang = d.elems toks langId lang := by
  induction d with
  | done p => intro lang _; rfl
  | emb p name sep inner rest ihi ihr =>
    rintro lang ⟨h1, h2, h3⟩
    have := ihr _ h3
    rw [given_head, h2] at this
    rw [Doc.given, Doc.elems, ihi _ h1, ← this]
    rfl

end Verif.Sections
