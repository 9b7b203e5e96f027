import Verif.Proof.CodegenRun
import Verif.Proof.StmtSound

/-! # Helper lemmas: the commands follow the statements -/

namespace Verif.Stmt

variable {A S : Type}

/-! ## The switch instruction -/

theorem placeRows_ok {find : Nat → Option Nat} {i : Nat} :
    ∀ {rows : List (BitVec 32 × Nat)} {rs : List (BitVec 32 × Int)}, placeRows find i rows = .ok rs →
    rs.map (·.1) = rows.map (·.1) ∧
    (∀ v l, (v, l) ∈ rows → ∃ t, find l = some t ∧ (v, (distance i t).toInt) ∈ rs)
  | [], rs, h => by cases h; simp
  | (v, l) :: rows, rs, h => by
    simp only [placeRows] at h
    split at h
    · cases h
    · rename_i t ht
      split at h
      · cases h
      · rename_i rs' hrs
        injection h with h; subst h
        obtain ⟨h1, h2⟩ := placeRows_ok hrs
        refine ⟨by simp [h1], ?_⟩
        intro v' l' hm
        rcases List.mem_cons.mp hm with hm | hm
        · injection hm with e1 e2; subst e1; subst e2
          refine ⟨t, ?_, by simp⟩
          simp only [found] at ht
          split at ht
          · injection ht with ht; subst ht; assumption
          · cases ht
        · obtain ⟨t', h3, h4⟩ := h2 v' l' hm
          exact ⟨t', h3, List.mem_cons_of_mem _ h4⟩

theorem sorted_of_keys {α β : Type} {rows : List (BitVec 32 × α)} {rs : List (BitVec 32 × β)}
    (h : rs.map (·.1) = rows.map (·.1)) (hs : Sorted rows) : Sorted rs := by
  have h1 : (rows.map (·.1)).Pairwise (fun a b => a.toInt < b.toInt) := by
    rw [List.pairwise_map]; exact hs
  rw [← h, List.pairwise_map] at h1
  exact h1

theorem Placed.switch {prog : List (X A)} {cmds : List (Cmd A)} (P : Placed prog cmds)
    (I : Interp A S) {i d : Nat} {rows : List (BitVec 32 × Nat)}
    (h : Seg prog i [.switch rows d]) (hs : Sorted rows) (s : S) :
    (∀ l, ((I.popInt s).1, l) ∈ rows → ∃ t, labelIdx prog 0 l = some t ∧
      Reach I.machine cmds (.at_ i s) (.at_ t (I.popInt s).2)) ∧
    ((∀ l, ((I.popInt s).1, l) ∉ rows) → ∃ t, labelIdx prog 0 d = some t ∧
      Reach I.machine cmds (.at_ i s) (.at_ t (I.popInt s).2)) := by
  obtain ⟨c, h1, h2⟩ := fetch P.ok h rfl
  simp only [place] at h1
  split at h1
  · cases h1
  · rename_i rs hrs
    split at h1
    · cases h1
    · rename_i t ht
      injection h1 with h1; subst h1
      obtain ⟨k1, k2⟩ := placeRows_ok hrs
      have hsr := sorted_of_keys k1 hs
      obtain ⟨q1, q2⟩ := search_mem rs (I.popInt s).1 hsr
      have hd : labelIdx prog 0 d = some t := by
        simp only [found] at ht
        split at ht
        · injection ht with ht; subst ht; assumption
        · cases ht
      constructor
      · intro l hl
        obtain ⟨t', h3, h4⟩ := k2 _ _ hl
        refine ⟨t', h3, (Reach.one ?_).reach⟩
        simp only [next, h2, exec, Interp.machine, q1 _ h4, Option.getD_some]
        rw [distance_toInt _ _ (P.seg_lt h) (P.idx_lt h3), jumpTo_eq]
      · intro hno
        refine ⟨t, hd, (Reach.one ?_).reach⟩
        have hno' : ∀ a, ((I.popInt s).1, a) ∉ rs := by
          intro a ha
          have : (I.popInt s).1 ∈ rs.map (·.1) := List.mem_map.mpr ⟨_, ha, rfl⟩
          rw [k1, List.mem_map] at this
          obtain ⟨⟨v, l⟩, hm, hv⟩ := this
          simp only at hv
          subst hv
          exact hno l hm
        simp only [next, h2, exec, Interp.machine, q2 hno', Option.getD_none]
        rw [distance_toInt _ _ (P.seg_lt h) (P.idx_lt hd), jumpTo_eq]

/-! ## Following -/

/-- The commands from `i` on do what the statement did: end at `j` when it passed, at the places of
the labels `b` and `c` when it ended with `break` or `continue`. -/
def Follows (I : Interp A S) (prog : List (X A)) (cmds : List (Cmd A)) (i j : Nat) (b c : Option Nat)
    (n : Nat) (s : S) : Option (Out × S) → Prop
  | none => Live I.machine cmds n (.at_ i s)
  | some (.pass, s') => Reach I.machine cmds (.at_ i s) (.at_ j s')
  | some (.brk, s') => ∃ l p, b = some l ∧ labelIdx prog 0 l = some p ∧
      Reach I.machine cmds (.at_ i s) (.at_ p s')
  | some (.cont, s') => ∃ l p, c = some l ∧ labelIdx prog 0 l = some p ∧
      ReachP I.machine cmds (.at_ i s) (.at_ p s')
  | some (.ret, s') => Reach I.machine cmds (.at_ i s) (.returned s')
  | some (.thr, s') => Reach I.machine cmds (.at_ i s) (.thrown s')
  | some (.goto_ _, _) => False

section
variable {I : Interp A S} {prog : List (X A)} {cmds : List (Cmd A)}

theorem Follows.after {i i' j : Nat} {b c : Option Nat} {n : Nat} {s s1 : S} {r : Option (Out × S)}
    (h : Reach I.machine cmds (.at_ i s) (.at_ i' s1)) (hf : Follows I prog cmds i' j b c n s1 r) :
    Follows I prog cmds i j b c n s r := by
  match r, hf with
  | none, hf => exact Live.after h hf
  | some (.pass, s'), hf => exact h.trans hf
  | some (.brk, s'), ⟨l, p, h1, h2, h3⟩ => exact ⟨l, p, h1, h2, h.trans h3⟩
  | some (.cont, s'), ⟨l, p, h1, h2, h3⟩ => exact ⟨l, p, h1, h2, h.transP h3⟩
  | some (.ret, s'), hf => exact h.trans hf
  | some (.thr, s'), hf => exact h.trans hf

theorem Follows.on {i j j' : Nat} {b c : Option Nat} {n : Nat} {s : S} {r : Option (Out × S)}
    (hf : Follows I prog cmds i j b c n s r)
    (h : ∀ s', r = some (.pass, s') → Reach I.machine cmds (.at_ j s') (.at_ j' s')) :
    Follows I prog cmds i j' b c n s r := by
  match r, hf with
  | none, hf => exact hf
  | some (.pass, s'), hf => exact Reach.trans hf (h s' rfl)
  | some (.brk, s'), hf => exact hf
  | some (.cont, s'), hf => exact hf
  | some (.ret, s'), hf => exact hf
  | some (.thr, s'), hf => exact hf

theorem Follows.leave {i j lb : Nat} {b c : Option Nat} {n : Nat} {s : S} {r : Option (Out × S)}
    (hl : labelIdx prog 0 lb = some j) (hf : Follows I prog cmds i j (some lb) c n s r) :
    Follows I prog cmds i j b c n s (leaveSwitch r) := by
  match r, hf with
  | none, hf => exact hf
  | some (.pass, s'), hf => exact hf
  | some (.brk, s'), ⟨l, p, h1, h2, h3⟩ =>
    injection h1 with h1; subst h1
    rw [hl] at h2; injection h2 with h2; subst h2
    exact h3
  | some (.cont, s'), hf => exact hf
  | some (.ret, s'), hf => exact hf
  | some (.thr, s'), hf => exact hf

/-- One round of the body of a loop. -/
def BodyOk (I : Interp A S) (cmds : List (Cmd A)) (k h e n : Nat) (s : S) :
    Option (Out × S) → Prop
  | none => Live I.machine cmds n (.at_ k s)
  | some (.pass, s') => ReachP I.machine cmds (.at_ k s) (.at_ h s')
  | some (.brk, s') => Reach I.machine cmds (.at_ k s) (.at_ e s')
  | some (.cont, s') => ReachP I.machine cmds (.at_ k s) (.at_ h s')
  | some (.ret, s') => Reach I.machine cmds (.at_ k s) (.returned s')
  | some (.thr, s') => Reach I.machine cmds (.at_ k s) (.thrown s')
  | some (.goto_ _, _) => False

theorem Follows.body {k j h e lb lc n : Nat} {s : S} {r : Option (Out × S)}
    (hf : Follows I prog cmds k j (some lb) (some lc) n s r)
    (hb : labelIdx prog 0 lb = some e) (hc : labelIdx prog 0 lc = some h)
    (hj : ∀ s, ReachP I.machine cmds (.at_ j s) (.at_ h s)) : BodyOk I cmds k h e n s r := by
  match r, hf with
  | none, hf => exact hf
  | some (.pass, s'), hf => exact Reach.transP hf (hj s')
  | some (.brk, s'), ⟨l, p, h1, h2, h3⟩ =>
    injection h1 with h1; subst h1
    rw [hb] at h2; injection h2 with h2; subst h2
    exact h3
  | some (.cont, s'), ⟨l, p, h1, h2, h3⟩ =>
    injection h1 with h1; subst h1
    rw [hc] at h2; injection h2 with h2; subst h2
    exact h3
  | some (.ret, s'), hf => exact hf
  | some (.thr, s'), hf => exact hf

/-- A test: where it goes. -/
def TestOk (I : Interp A S) (cmds : List (Cmd A)) (i k e : Nat) (s : S) :
    Except S (Bool × S) → Prop
  | .error s' => Reach I.machine cmds (.at_ i s) (.thrown s')
  | .ok (true, s') => Reach I.machine cmds (.at_ i s) (.at_ k s')
  | .ok (false, s') => Reach I.machine cmds (.at_ i s) (.at_ e s')

theorem rounds_follows {i e k h n : Nat} {b c : Option Nat} {test : S → Except S (Bool × S)}
    {body : S → Option (Out × S)} {after : S → Except S S}
    (H1 : ∀ s, TestOk I cmds i k e s (test s))
    (H2 : ∀ s, BodyOk I cmds k h e n s (body s))
    (H3 : ∀ s, (match after s with
      | .error s' => Reach I.machine cmds (.at_ h s) (.thrown s')
      | .ok s' => Reach I.machine cmds (.at_ h s) (.at_ i s'))) :
    ∀ m, m ≤ n → ∀ s, Follows I prog cmds i e b c m s (rounds test body after m s) := by
  intro m
  induction m with
  | zero => intro _ s; exact ⟨i, s, rfl⟩
  | succ m ih =>
    intro hm s
    rw [rounds]
    have h1 := H1 s
    cases ht : test s with
    | error s' => rw [ht] at h1; exact h1
    | ok p =>
      obtain ⟨bb, s'⟩ := p
      rw [ht] at h1
      cases bb with
      | false => exact h1
      | true =>
        have h1' : Reach I.machine cmds (.at_ i s) (.at_ k s') := h1
        have h2 := H2 s'
        have again : ∀ s'', ReachP I.machine cmds (.at_ k s') (.at_ h s'') →
            Follows I prog cmds i e b c (m + 1) s (match after s'' with
              | .error s3 => some (.thr, s3)
              | .ok s3 => rounds test body after m s3) := by
          intro s'' hp
          have h3 := H3 s''
          cases ha : after s'' with
          | error s3 => rw [ha] at h3; exact h1'.trans (hp.reach.trans h3)
          | ok s3 =>
            rw [ha] at h3
            have hi := ih (by omega) s3
            have hP := h1'.transP (hp.trans h3)
            simp only
            cases hr : rounds test body after m s3 with
            | none =>
              rw [hr] at hi
              exact Live.afterP hP hi
            | some q =>
              rw [hr] at hi
              obtain ⟨o, s4⟩ := q
              cases o with
              | pass => exact hP.reach.trans hi
              | brk => obtain ⟨l, p, e1, e2, e3⟩ := hi; exact ⟨l, p, e1, e2, hP.reach.trans e3⟩
              | cont => obtain ⟨l, p, e1, e2, e3⟩ := hi; exact ⟨l, p, e1, e2, hP.reach.transP e3⟩
              | ret => exact hP.reach.trans hi
              | thr => exact hP.reach.trans hi
              | goto_ => exact hi.elim
        simp only
        cases hb : body s' with
        | none => rw [hb] at h2; exact Live.after h1' (Live.mono h2 hm)
        | some q =>
          rw [hb] at h2
          obtain ⟨o, s''⟩ := q
          cases o with
          | pass => exact again s'' h2
          | brk => exact h1'.trans h2
          | cont => exact again s'' h2
          | ret => exact h1'.trans h2
          | thr => exact h1'.trans h2
          | goto_ => exact h2.elim

theorem roundsDo_follows {i e k n lb lc : Nat} {b c : Option Nat} {again : Bool}
    {test : S → Except S (Bool × S)} {body : S → Option (Out × S)}
    (hlb : labelIdx prog 0 lb = some e) (hlc : labelIdx prog 0 lc = some i)
    (H2 : ∀ s, Follows I prog cmds i k (some lb) (some lc) n s (body s))
    (Hc : (∀ s s', body s ≠ some (.cont, s')) ∨ (∀ s, test s = .ok (again, s)))
    (H1 : ∀ s, (match test s with
      | .error s' => Reach I.machine cmds (.at_ k s) (.thrown s')
      | .ok (bb, s') =>
        if bb = again then ReachP I.machine cmds (.at_ k s) (.at_ i s')
        else Reach I.machine cmds (.at_ k s) (.at_ e s'))) :
    ∀ m, m ≤ n → ∀ s, Follows I prog cmds i e b c m s (roundsDo again test body m s) := by
  intro m
  induction m with
  | zero => intro _ s; exact ⟨i, s, rfl⟩
  | succ m ih =>
    intro hm s
    rw [roundsDo]
    have h2 := H2 s
    have goOn : ∀ s'', ReachP I.machine cmds (.at_ i s) (.at_ i s'') →
        Follows I prog cmds i e b c (m + 1) s (roundsDo again test body m s'') := by
      intro s3 hP
      have hi := ih (by omega) s3
      cases hr : roundsDo again test body m s3 with
      | none =>
        rw [hr] at hi
        exact Live.afterP hP hi
      | some q =>
        rw [hr] at hi
        obtain ⟨o, s4⟩ := q
        cases o with
        | pass => exact hP.reach.trans hi
        | brk => obtain ⟨l, p, e1, e2, e3⟩ := hi; exact ⟨l, p, e1, e2, hP.reach.trans e3⟩
        | cont => obtain ⟨l, p, e1, e2, e3⟩ := hi; exact ⟨l, p, e1, e2, hP.reach.transP e3⟩
        | ret => exact hP.reach.trans hi
        | thr => exact hP.reach.trans hi
        | goto_ => exact hi.elim
    cases hb : body s with
    | none => rw [hb] at h2; exact Live.mono h2 hm
    | some q =>
      rw [hb] at h2
      obtain ⟨o, s'⟩ := q
      cases o with
      | pass =>
        have h1 := H1 s'
        simp only
        cases ht : test s' with
        | error s'' => rw [ht] at h1; exact Reach.trans h2 h1
        | ok p =>
          obtain ⟨bb, s''⟩ := p
          rw [ht] at h1
          simp only at h1 ⊢
          by_cases hbb : bb = again
          · rw [if_pos hbb] at h1 ⊢
            exact goOn s'' (Reach.transP h2 h1)
          · rw [if_neg hbb] at h1 ⊢
            exact Reach.trans h2 h1
      | brk =>
        obtain ⟨l, p, e1, e2, e3⟩ := h2
        injection e1 with e1; subst e1
        rw [hlb] at e2; injection e2 with e2; subst e2
        exact e3
      | cont =>
        obtain ⟨l, p, e1, e2, e3⟩ := h2
        injection e1 with e1; subst e1
        rw [hlc] at e2; injection e2 with e2; subst e2
        rcases Hc with Hc | Hc
        · exact absurd hb (Hc s s')
        · simp only [Hc s', ↓reduceIte]
          exact goOn s' e3
      | ret => exact h2
      | thr => exact h2
      | goto_ => exact h2.elim

end

/-! ## Tests -/

section
variable {prog : List (X A)} {cmds : List (Cmd A)} (P : Placed prog cmds) {I : Interp A S}
  {F : Folder A} (hF : Agrees F I) {o : Opts}
include P

theorem Placed.condFalse {i l e : Nat} {c : Option (List A)} (h : Seg prog i (condJmp c .ifFalse l))
    (hl : labelIdx prog 0 l = some e) (s : S) :
    TestOk I cmds i (i + size (condJmp c .ifFalse l)) e s (I.test c s) := by
  cases c with
  | none => exact Reach.refl _
  | some ex =>
    simp only [condJmp] at h ⊢
    cases he : I.eval ex s with
    | error s' =>
      rw [show I.test (some ex) s = .error s' by rw [Interp.test, he]]
      exact P.acts_error I h.left he
    | ok s' =>
      have h1 := P.acts_ok I h.left he
      obtain ⟨t, e1, e2⟩ := P.ifFalse I (h.right)
      rw [hl] at e1; injection e1 with e1; subst e1
      rw [size_acts] at e2
      have h2 := e2 s'
      have hsz : size (Verif.Stmt.acts ex ++ [X.jmp .ifFalse l]) = ex.length + 1 := by
            rw [size_append, size_acts]; rfl
      rw [hsz]
      rw [show I.test (some ex) s = .ok (I.popBool s') by rw [Interp.test, he]]
      generalize I.popBool s' = p at h2 ⊢
      obtain ⟨bb, s''⟩ := p
      cases bb with
      | true => exact h1.trans h2.reach
      | false => exact h1.trans h2.reach

include hF

theorem ocond {c : Option (List A)} {b : Bool} (h : o.cond F c = some b) (s : S) :
    I.test c s = .ok (b, s) := by
  rw [Opts.cond] at h
  split at h
  · exact test_known hF h s
  · cases h

theorem ocond_always {c : Option (List A)} (h : o.cond F c = some true ∨ c = none) (s : S) :
    I.test c s = .ok (true, s) := by
  rcases h with h | rfl
  · exact ocond P hF h s
  · rfl

theorem Placed.headTest {i l e : Nat} {c : Option (List A)} (h : Seg prog i (headTest o F c l))
    (hl : labelIdx prog 0 l = some e) (s : S) :
    TestOk I cmds i (i + size (Verif.Stmt.headTest o F c l)) e s (I.test c s) := by
  rw [Verif.Stmt.headTest] at h ⊢
  split
  · rename_i hc
    rw [ocond_always P hF hc]
    exact Reach.refl _
  · rename_i hc
    rw [if_neg hc] at h
    exact P.condFalse h hl s

theorem Placed.doTail {k l i : Nat} {c : Option (List A)} (h : Seg prog k (doTail o F c l))
    (hl : labelIdx prog 0 l = some i) (s : S) :
    match I.test c s with
    | .error s' => Reach I.machine cmds (.at_ k s) (.thrown s')
    | .ok (bb, s') =>
      if bb = true then ReachP I.machine cmds (.at_ k s) (.at_ i s')
      else Reach I.machine cmds (.at_ k s) (.at_ (k + size (Verif.Stmt.doTail o F c l)) s') := by
  rw [Verif.Stmt.doTail] at h ⊢
  split at h
  · rename_i hc
    rw [if_pos hc, ocond_always P hF hc]
    obtain ⟨t, e1, e2⟩ := P.always I h
    rw [hl] at e1; injection e1 with e1; subst e1
    simpa using e2 s
  · rename_i hc
    rw [if_neg hc]
    split at h
    · rename_i hc'
      rw [if_pos hc', ocond P hF hc']
      exact Reach.refl _
    · rename_i hc'
      rw [if_neg hc']
      cases c with
      | none => exact absurd (Or.inr rfl) hc
      | some ex =>
        simp only [condJmp] at h ⊢
        cases he : I.eval ex s with
        | error s' =>
          rw [show I.test (some ex) s = .error s' by rw [Interp.test, he]]
          exact P.acts_error I h.left he
        | ok s' =>
          have h1 := P.acts_ok I h.left he
          obtain ⟨t, e1, e2⟩ := P.ifTrue I (h.right)
          rw [hl] at e1; injection e1 with e1; subst e1
          rw [size_acts] at e2
          have h2 := e2 s'
          have hsz : size (Verif.Stmt.acts ex ++ [X.jmp .ifTrue l]) = ex.length + 1 := by
            rw [size_append, size_acts]; rfl
          rw [hsz]
          rw [show I.test (some ex) s = .ok (I.popBool s') by rw [Interp.test, he]]
          generalize I.popBool s' = p at h2 ⊢
          obtain ⟨bb, s''⟩ := p
          cases bb with
          | true => exact h1.transP h2
          | false => exact h1.trans h2.reach

theorem Placed.untilTail {k l i : Nat} {ex : List A} (h : Seg prog k (untilTail o F (some ex) l))
    (hl : labelIdx prog 0 l = some i) (s : S) :
    match I.test (some ex) s with
    | .error s' => Reach I.machine cmds (.at_ k s) (.thrown s')
    | .ok (bb, s') =>
      if bb = false then ReachP I.machine cmds (.at_ k s) (.at_ i s')
      else Reach I.machine cmds (.at_ k s) (.at_ (k + size (Verif.Stmt.untilTail o F (some ex) l)) s') := by
  rw [Verif.Stmt.untilTail] at h ⊢
  split at h
  · rename_i hc
    have hc' : o.cond F (some ex) = some false := by
      rcases hc with hc | hc
      · exact hc
      · cases hc
    rw [if_pos hc, ocond P hF hc']
    obtain ⟨t, e1, e2⟩ := P.always I h
    rw [hl] at e1; injection e1 with e1; subst e1
    simpa using e2 s
  · rename_i hc
    rw [if_neg hc]
    split at h
    · rename_i hc'
      rw [if_pos hc', ocond P hF hc']
      exact Reach.refl _
    · rename_i hc'
      rw [if_neg hc']
      simp only [condJmp] at h ⊢
      cases he : I.eval ex s with
      | error s' =>
        rw [show I.test (some ex) s = .error s' by rw [Interp.test, he]]
        exact P.acts_error I h.left he
      | ok s' =>
        have h1 := P.acts_ok I h.left he
        obtain ⟨t, e1, e2⟩ := P.ifFalse I (h.right)
        rw [hl] at e1; injection e1 with e1; subst e1
        rw [size_acts] at e2
        have h2 := e2 s'
        have hsz : size (Verif.Stmt.acts ex ++ [X.jmp .ifFalse l]) = ex.length + 1 := by
            rw [size_append, size_acts]; rfl
        rw [hsz]
        rw [show I.test (some ex) s = .ok (I.popBool s') by rw [Interp.test, he]]
        generalize I.popBool s' = p at h2 ⊢
        obtain ⟨bb, s''⟩ := p
        cases bb with
        | false => exact h1.transP h2
        | true => exact h1.trans h2.reach

end

/-! ## No `continue`, no passing -/

theorem rounds_no_cont {test : S → Except S (Bool × S)} {body : S → Option (Out × S)}
    {after : S → Except S S} {n : Nat} {s s' : S} : rounds test body after n s ≠ some (.cont, s') := by
  intro h
  rcases rounds_out h with ⟨h, _⟩ | ⟨h, _⟩ | ⟨h, _⟩ | ⟨_, _, h, _⟩ <;> first | cases h | exact h rfl

theorem roundsDo_no_cont {again : Bool} {test : S → Except S (Bool × S)}
    {body : S → Option (Out × S)} {n : Nat} {s s' : S} :
    roundsDo again test body n s ≠ some (.cont, s') := by
  intro h
  induction n generalizing s with
  | zero => cases h
  | succ n ih =>
    rw [roundsDo] at h
    repeat' split at h
    all_goals first
      | exact ih h
      | cases h
    all_goals simp_all

theorem simple_no_cont {I : Interp A S} {o : Out} {e : List A} {s s' : S} (ho : o ≠ .cont) :
    Stmt.run.simple I o e s ≠ some (.cont, s') := by
  intro h
  rw [Stmt.run.simple] at h
  split at h
  · injection h with h; injection h with h1 h2; exact ho h1
  · cases h

mutual

theorem noCont (I : Interp A S) (n : Nat) (t : Stmt A) (h : hasCont t = false) (s s' : S) :
    t.run I n s ≠ some (.cont, s') := by
  match t with
  | .expr e => rw [Stmt.run]; exact simple_no_cont (by simp)
  | .typeDef => rw [Stmt.run]; simp
  | .decl inits => rw [Stmt.run]; exact simple_no_cont (by simp)
  | .brk => rw [Stmt.run]; simp
  | .cont => simp [hasCont] at h
  | .thr e => rw [Stmt.run]; exact simple_no_cont (by simp)
  | .goto_ l => rw [Stmt.run]; simp
  | .ret e => rw [Stmt.run]; exact simple_no_cont (by simp)
  | .block body => rw [Stmt.run]; exact noConts I n body (by rwa [hasCont] at h) s s'
  | .doWhile c body => rw [Stmt.run]; exact roundsDo_no_cont
  | .loopUntil c body =>
    rw [Stmt.run.eq_def]; dsimp only
    split <;> exact roundsDo_no_cont
  | .while_ c body => rw [Stmt.run]; exact rounds_no_cont
  | .for_ init c inc body =>
    rw [Stmt.run]
    split
    · simp
    · exact rounds_no_cont
  | .if_ c yes no =>
    rw [hasCont, Bool.or_eq_false_iff] at h
    rw [Stmt.run]
    split
    · simp
    · exact noCont I n yes h.1 _ _
    · exact noCont I n no h.2 _ _
  | .switch e cases =>
    rw [hasCont] at h
    rw [Stmt.run]
    split
    · simp
    · split
      · simp
      · rename_i k _
        intro hr
        rw [leaveSwitch.eq_def] at hr
        split at hr
        · cases hr
        · exact noContCases I n cases h k _ _ hr
  | .try_ body catches fin =>
    rw [hasCont, Bool.or_eq_false_iff, Bool.or_eq_false_iff] at h
    rw [Stmt.run]
    intro hr
    rw [afterwards.eq_def] at hr
    split at hr
    · cases hr
    · rename_i o s1 hc
      split at hr
      · injection hr with hr; injection hr with h1 h2
        subst h1
        rw [caught.eq_def] at hc
        split at hc
        · exact noContCatches I n catches h.1.2 _ _ hc
        · exact noCont I n body h.1.1 _ _ hc
      · exact noCont I n fin h.2 _ _ hr
  | .empty => rw [Stmt.run]; simp

theorem noConts (I : Interp A S) (n : Nat) (ts : Stmts A) (h : hasConts ts = false) (s s' : S) :
    ts.run I n s ≠ some (.cont, s') := by
  match ts with
  | .nil => rw [Stmts.run]; simp
  | .cons t rest =>
    rw [hasConts, Bool.or_eq_false_iff] at h
    rw [Stmts.run]
    split
    · exact noConts I n rest h.2 _ _
    · exact noCont I n t h.1 _ _

theorem noContCases (I : Interp A S) (n : Nat) (cs : Cases A) (h : hasContCases cs = false) (k : Nat)
    (s s' : S) : cs.run I n k s ≠ some (.cont, s') := by
  match cs, k with
  | .nil, k => rw [Cases.run]; simp
  | .cons _ body rest, 0 =>
    rw [hasContCases, Bool.or_eq_false_iff] at h
    rw [Cases.run]
    split
    · exact noContCases I n rest h.2 0 _ _
    · exact noConts I n body h.1 _ _
  | .cons _ body rest, k + 1 =>
    rw [hasContCases, Bool.or_eq_false_iff] at h
    rw [Cases.run]
    exact noContCases I n rest h.2 k _ _

theorem noContCatches (I : Interp A S) (n : Nat) (cs : Catches A) (h : hasContCatches cs = false)
    (s s' : S) : cs.run I n s ≠ some (.cont, s') := by
  match cs with
  | .nil => rw [Catches.run]; simp
  | .cons _ body rest =>
    rw [hasContCatches, Bool.or_eq_false_iff] at h
    rw [Catches.run]
    split
    · exact noCont I n body h.1 _ _
    · exact noContCatches I n rest h.2 _ _

end

theorem simple_no_pass {I : Interp A S} {o : Out} {e : List A} {s s' : S} (ho : o ≠ .pass) :
    Stmt.run.simple I o e s ≠ some (.pass, s') := by
  intro h
  rw [Stmt.run.simple] at h
  split at h
  · injection h with h; injection h with h1 h2; exact ho h1
  · cases h

theorem leaves_run (I : Interp A S) (n : Nat) : ∀ (ts : Stmts A), leaves ts = true →
    ∀ s s', ts.run I n s ≠ some (.pass, s')
  | .nil, h, s, s' => by simp [leaves] at h
  | .cons t rest, h, s, s' => by
    rw [Stmts.run]
    rw [leaves.eq_def] at h
    split
    · rename_i s1 h1
      split at h
      · cases h
      · rename_i heq; cases heq; simp [Stmt.run] at h1
      · rename_i heq; cases heq; simp [Stmt.run] at h1
      · rename_i heq; cases heq; rw [Stmt.run] at h1; exact absurd h1 (simple_no_pass (by simp))
      · rename_i heq; cases heq; rw [Stmt.run] at h1; exact absurd h1 (simple_no_pass (by simp))
      · rename_i heq; cases heq; exact leaves_run I n _ h _ _
    · rename_i hx
      intro h1
      exact hx _ h1

end Verif.Stmt
