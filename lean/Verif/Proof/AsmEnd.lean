import Verif.Proof.Asm
import Verif.Spec.AsmEnd

/-
  The queue of the writer becomes empty.  An entry of the queue weighs one more than the
  rows it will own; an object that has no row yet in one of the tables whose rows come one
  at a time weighs as much as its row would.  Filling a row makes the sum smaller.
-/

namespace Verif.Asm

open Verif.Asm.Spec

/-- The table of the rows a statement makes for a list. -/
def child : Act → Option Kind
  | .many k => some k
  | .nest => some .nestType
  | .arguments => some .attributeArgument
  | _ => none

def rank : Kind → Nat
  | .type => 4
  | .method | .property => 3
  | .genericParam | .param | .field | .event | .typeDefParam => 2
  | .typeDef => 3
  | .attribute => 1
  | .genericType | .methodRef => 1
  | _ => 0

/-- The weight of a row, looking `d` levels deep. -/
def weigh (W : World) : Nat → Kind → Id → Nat
  | 0, _, _ => 1
  | d + 1, k, e => 1 + ((steps k).map fun p =>
      match child p.2 with
      | none => 0
      | some k' => ((W.many e p.1).map fun x => weigh W d k' x).sum).sum

theorem child_rank (k : Kind) : ∀ p ∈ steps k, ∀ k', child p.2 = some k' → rank k' < rank k := by
  cases k <;> simp [steps, child, rank]

theorem weigh_stable (W : World) : ∀ d k e, rank k ≤ d → weigh W (d + 1) k e = weigh W d k e := by
  intro d
  induction d with
  | zero =>
    intro k e h
    rw [weigh, weigh]
    have : ∀ p ∈ steps k, child p.2 = none := by
      intro p hp
      cases hc : child p.2 with
      | none => rfl
      | some k' => have := child_rank k p hp k' hc; omega
    rw [List.map_congr_left (g := fun _ => 0)]
    · have hz : ∀ l : List (String × Act), (l.map fun _ => 0).sum = 0 := by
        intro l; induction l with
        | nil => rfl
        | cons a l ih => simpa using ih
      rw [hz]
    · intro p hp; simp [this p hp]
  | succ d ih =>
    intro k e h
    rw [weigh, weigh]
    congr 2
    apply List.map_congr_left
    intro p hp
    cases hc : child p.2 with
    | none => rfl
    | some k' =>
      have := child_rank k p hp k' hc
      simp only []
      congr 1
      apply List.map_congr_left
      intro x _
      exact ih k' x (by omega)

/-- The weight of a row. -/
def wt (W : World) (k : Kind) (e : Id) : Nat := weigh W 5 k e

/-- The weight of the rows a statement makes for a list. -/
def cw (W : World) (e : Id) (p : String × Act) : Nat :=
  match child p.2 with
  | none => 0
  | some k' => ((W.many e p.1).map fun x => wt W k' x).sum

theorem wt_eq (W : World) (k : Kind) (e : Id) :
    wt W k e = 1 + ((steps k).map (cw W e)).sum := by
  have : wt W k e = weigh W 6 k e := by
    refine (weigh_stable W 5 k e ?_).symm
    cases k <;> decide
  rw [this, weigh]
  rfl

/-- The tables whose rows are made where they are needed, while the queue is worked off. -/
def needed : List Kind := [.type, .typeRef, .genericType, .arrayType, .methodRef, .assemblyRef]

def open_ (W : World) (U : List Id) (s : St) (k : Kind) : Nat :=
  (U.map fun e => if (s.search k e).isNone then wt W k e else 0).sum

def pot (W : World) (U : List Id) (s : St) : Nat :=
  (s.queue.map fun p => wt W p.1 p.2.2).sum + (needed.map (open_ W U s)).sum

def Low (W : World) (U : List Id) (s : St) (n : Nat) : Prop :=
  (∀ p ∈ s.queue, p.2.2 ∈ U) ∧ pot W U s ≤ n

theorem sum_le {α : Type} (l : List α) (f g : α → Nat) (h : ∀ x ∈ l, g x ≤ f x) :
    (l.map g).sum ≤ (l.map f).sum := by
  induction l with
  | nil => simp
  | cons a l ih =>
    have h1 := h a (List.mem_cons_self ..)
    have h2 := ih fun x hx => h x (List.mem_cons_of_mem _ hx)
    simp only [List.map_cons, List.sum_cons]
    omega

theorem sum_drop {α : Type} (l : List α) (f g : α → Nat) (h : ∀ x ∈ l, g x ≤ f x) (a : α)
    (ha : a ∈ l) (w : Nat) (hw : g a + w ≤ f a) : (l.map g).sum + w ≤ (l.map f).sum := by
  induction l with
  | nil => cases ha
  | cons b l ih =>
    have h1 := h b (List.mem_cons_self ..)
    have h2 : ∀ x ∈ l, g x ≤ f x := fun x hx => h x (List.mem_cons_of_mem _ hx)
    simp only [List.map_cons, List.sum_cons]
    rcases List.mem_cons.mp ha with rfl | hm
    · have := sum_le l f g h2; omega
    · have := ih h2 hm; omega

theorem open_mono {W : World} {U : List Id} {s s' : St} {k : Kind}
    (h : ∀ e, (s'.search k e).isNone → (s.search k e).isNone) :
    open_ W U s' k ≤ open_ W U s k := by
  apply sum_le
  intro e _
  by_cases he : (s'.search k e).isNone
  · rw [if_pos he, if_pos (h e he)]; exact Nat.le_refl _
  · rw [if_neg he]; exact Nat.zero_le _

theorem commitOne_low {W : World} {U : List Id} {s : St} {n : Nat} (h : Low W U s n) {k : Kind}
    (hk : k ∈ needed) {e : Id} (he : e ∈ U) : Low W U (commitOne s k e).2 n := by
  unfold commitOne
  cases hs : s.search k e with
  | some r => exact h
  | none =>
    refine ⟨?_, Nat.le_trans ?_ h.2⟩
    · intro p hp
      rcases List.mem_append.mp hp with hp | hp
      · exact h.1 p hp
      · simp only [List.mem_singleton] at hp
        subst hp; exact he
    · have hse : ∀ k' e', ((s.append k e).enque k (s.rows k).length e).search k' e' =
          if k' = k ∧ e' = e then some (Ref.of (s.rows k).length 1 (extra k))
          else s.search k' e' := fun k' e' => search_append s k k' e e'
      have h1 : (needed.map (open_ W U ((s.append k e).enque k (s.rows k).length e))).sum
          + wt W k e ≤ (needed.map (open_ W U s)).sum := by
        refine sum_drop _ _ _ ?_ k hk _ ?_
        · intro k' _
          apply open_mono
          intro e' h'
          rw [hse] at h'
          split at h'
          · cases h'
          · exact h'
        · refine sum_drop _ _ _ ?_ e he _ ?_
          · intro e' _
            rw [hse]
            by_cases hh : k = k ∧ e' = e
            · rw [if_pos hh]; simp
            · rw [if_neg hh]; exact Nat.le_refl _
          · rw [hse]
            simp [hs]
      unfold pot
      have h2 : ((s.append k e).enque k (s.rows k).length e).queue =
        s.queue ++ [(k, (s.rows k).length, e)] := rfl
      rw [h2, List.map_append, List.sum_append]
      simp only [List.map_cons, List.map_nil, List.sum_cons, List.sum_nil]
      omega

theorem commitType_low {W : World} {U : List Id} {s s' : St} {n : Nat} (h : Low W U s n) {o r}
    (ho : ∀ t, o = some t → t ∈ U) (hc : commitType W s o = .ok (r, s')) : Low W U s' n := by
  cases o with
  | none => cases hc; exact h
  | some t =>
    have ht := ho t rfl
    simp only [commitType] at hc
    cases hg : W.gtype t with
    | general b =>
      cases b <;> simp only [hg] at hc <;>
        (have hk := Except.ok.inj hc
         rw [← (Prod.mk.injEq ..).mp hk |>.2]
         exact commitOne_low h (by decide) ht)
    | generic =>
      simp only [hg] at hc
      have hk := Except.ok.inj hc
      rw [← (Prod.mk.injEq ..).mp hk |>.2]
      exact commitOne_low h (by decide) ht
    | array =>
      simp only [hg] at hc
      have hk := Except.ok.inj hc
      rw [← (Prod.mk.injEq ..).mp hk |>.2]
      exact commitOne_low h (by decide) ht
    | genericParam j =>
      simp only [hg] at hc
      cases hs : s.search .genericParam t <;> simp only [hs] at hc <;> cases hc <;> exact h
    | typeDefParam =>
      simp only [hg] at hc
      cases hs : s.search .typeDefParam t <;> simp only [hs] at hc <;> cases hc
      exact h
    | null => simp only [hg] at hc; cases hc; exact h

/-- A state that differs only in rows, and in the maps of other tables. -/
theorem Low.same {W : World} {U : List Id} {s s' : St} {n : Nat} (h : Low W U s n)
    (hq : s'.queue = s.queue) (hm : ∀ k ∈ needed, s'.map k = s.map k) : Low W U s' n := by
  refine ⟨by rw [hq]; exact h.1, Nat.le_trans ?_ h.2⟩
  unfold pot
  rw [hq]
  apply Nat.add_le_add_left
  apply sum_le
  intro k hk
  apply open_mono
  intro e he
  simp only [St.search, hm k hk] at he ⊢
  exact he

theorem commitMethod_low {W : World} {U : List Id} (hU : FiniteProgram W U) {s s' : St} {n : Nat}
    (h : Low W U s n) {o r} (ho : ∀ t, o = some t → t ∈ U)
    (hc : commitMethod W s o = .ok (r, s')) : Low W U s' n := by
  cases o with
  | none => cases hc; exact h
  | some m =>
    have hm := ho m rfl
    simp only [commitMethod] at hc
    by_cases hown : W.own m = true
    · simp only [hown, if_true] at hc
      cases hs : s.search .method m with
      | some r' => simp only [hs] at hc; cases hc; exact h
      | none =>
        simp only [hs] at hc
        cases hh : W.one m "host" with
        | none => simp only [hh] at hc; cases hc
        | some x =>
          simp only [hh] at hc
          cases hg : W.gtype x <;> simp only [hg] at hc <;> try cases hc
          cases hct : commitType W s (some x) with
          | error y => simp only [hct] at hc; cases hc
          | ok p =>
            obtain ⟨r1, s1⟩ := p
            simp only [hct] at hc
            have h1 := commitType_low h (o := some x)
              (fun t ht => by cases ht; exact hU.one m hm _ _ hh) hct
            cases hs1 : s1.search .method m <;> simp only [hs1] at hc <;> cases hc
            exact h1
    · simp only [hown, Bool.false_eq_true, if_false] at hc
      have hk := Except.ok.inj hc
      rw [← (Prod.mk.injEq ..).mp hk |>.2]
      exact commitOne_low h (by decide) hm

theorem commitField_low {W : World} {U : List Id} (hU : FiniteProgram W U) {s s' : St} {n : Nat}
    (h : Low W U s n) {x r} (hx : x ∈ U) (hc : commitField W s x = .ok (r, s')) :
    Low W U s' n := by
  simp only [commitField] at hc
  cases hs : s.search .field x with
  | some r' => simp only [hs] at hc; cases hc; exact h
  | none =>
    simp only [hs] at hc
    cases hct : commitType W s (W.one x "host") with
    | error y => simp only [hct] at hc; cases hc
    | ok p =>
      obtain ⟨r1, s1⟩ := p
      simp only [hct] at hc
      have h1 := commitType_low h (fun t ht => hU.one x hx _ _ ht) hct
      cases hs1 : s1.search .field x <;> simp only [hs1] at hc <;> cases hc
      exact h1

theorem commitConstant_low {W : World} {U : List Id} (hU : FiniteProgram W U) {s s' : St}
    {n : Nat} (h : Low W U s n) {o r} (ho : ∀ t, o = some t → t ∈ U)
    (hc : commitConstant W s o = .ok (r, s')) : Low W U s' n := by
  cases o with
  | none => cases hc; exact h
  | some c =>
    simp only [commitConstant] at hc
    cases hs : s.search .constant c with
    | some r' => simp only [hs] at hc; cases hc; exact h
    | none =>
      simp only [hs] at hc
      have h0 : Low W U (s.append .constant c) n := h.same rfl fun k hk => by
        simp only [St.append]
        exact upd_ne _ _ (by rintro rfl; simp [needed] at hk)
      cases hct : commitType W (s.append .constant c) (W.one c "type") with
      | error y => simp only [hct] at hc; cases hc
      | ok p =>
        obtain ⟨r1, s1⟩ := p
        simp only [hct] at hc
        have h1 := commitType_low h0 (fun t ht => hU.one c (ho c rfl) _ _ ht) hct
        cases hc
        exact h1.same rfl fun _ _ => rfl

theorem zip_sum_le (w : Id → Nat) : ∀ (es : List Id) (ns : List Nat),
    ((ns.zip es).map fun p => w p.2).sum ≤ (es.map w).sum
  | [], ns => by simp
  | e :: es, [] => by simp
  | e :: es, n :: ns => by
    have := zip_sum_le w es ns
    simp only [List.zip_cons_cons, List.map_cons, List.sum_cons]
    omega

theorem acquire_low {W : World} {U : List Id} {s : St} {n : Nat} (h : Low W U s n) {k : Kind}
    (hk : k ∉ needed) {es : List Id} (he : ∀ x ∈ es, x ∈ U) :
    Low W U (acquire s k es).2 (n + (es.map fun x => wt W k x).sum) := by
  unfold acquire
  split
  · exact ⟨h.1, Nat.le_trans h.2 (Nat.le_add_right _ _)⟩
  · refine ⟨?_, ?_⟩
    · intro p hp
      rcases List.mem_append.mp hp with hp | hp
      · exact h.1 p hp
      · obtain ⟨q, hq, rfl⟩ := List.mem_map.mp hp
        exact he _ (List.of_mem_zip hq).2
    · have h1 : (needed.map (open_ W U (acquire s k es).2)).sum ≤
          (needed.map (open_ W U s)).sum := by
        apply sum_le
        intro k' hk'
        apply open_mono
        intro e' h'
        have hne : k' ≠ k := by rintro rfl; exact hk hk'
        unfold acquire at h'
        split at h'
        · exact h'
        · simpa only [St.search, upd_ne _ _ hne] using h'
      have h2 := zip_sum_le (fun x => wt W k x) es
        (List.range (Ref.of (s.rows k).length es.length (extra k)).count)
      have h3 := h.2
      unfold acquire at h1
      rw [if_neg (by assumption)] at h1
      simp only [pot, List.map_append, List.sum_append, List.map_map] at h1 h3 ⊢
      have h4 : ((fun p : Kind × Nat × Id => wt W p.1 p.2.2) ∘
          fun p : Nat × Id => (k, (s.rows k).length + p.1, p.2)) = fun p => wt W k p.2 := rfl
      rw [h4]
      omega

theorem act_low {W : World} {U : List Id} (hU : FiniteProgram W U) {s s' : St} {n : Nat}
    (h : Low W U s n) {e f a c} (he : e ∈ U) (hk : ∀ k, child a = some k → k ∉ needed)
    (hc : act W s e f a = .ok (c, s')) : Low W U s' (n + cw W e (f, a)) := by
  have ho : ∀ t, W.one e f = some t → t ∈ U := fun t ht => hU.one e he f t ht
  cases a with
  | text must =>
    simp only [act] at hc
    split at hc <;> cases hc
    exact h
  | num => cases hc; exact h
  | type must =>
    simp only [act] at hc
    split at hc
    · cases hc
    · cases hct : commitType W s (W.one e f) with
      | error y => simp only [hct] at hc; cases hc
      | ok p => simp only [hct] at hc; cases hc; exact commitType_low h ho hct
  | itself =>
    simp only [act] at hc
    cases hct : commitType W s (some e) with
    | error y => simp only [hct] at hc; cases hc
    | ok p =>
      simp only [hct] at hc; cases hc
      exact commitType_low (o := some e) h (fun t ht => by cases ht; exact he) hct
  | touch =>
    simp only [act] at hc
    cases hct : commitType W s (W.one e f) with
    | error y => simp only [hct] at hc; cases hc
    | ok p => simp only [hct] at hc; cases hc; exact commitType_low h ho hct
  | method must =>
    simp only [act] at hc
    split at hc
    · cases hc
    · cases hct : commitMethod W s (W.one e f) with
      | error y => simp only [hct] at hc; cases hc
      | ok p => simp only [hct] at hc; cases hc; exact commitMethod_low hU h ho hct
  | constant =>
    simp only [act] at hc
    cases hct : commitConstant W s (W.one e f) with
    | error y => simp only [hct] at hc; cases hc
    | ok p => simp only [hct] at hc; cases hc; exact commitConstant_low hU h ho hct
  | assembly =>
    simp only [act] at hc
    cases hb : W.one e f with
    | none => simp only [hb, commitAssembly] at hc; cases hc
    | some b =>
      simp only [hb, commitAssembly] at hc; cases hc
      exact commitOne_low h (by decide) (ho b hb)
  | many k =>
    simp only [act] at hc
    cases hc
    exact acquire_low h (hk k rfl) (hU.many e he f)
  | nest =>
    simp only [act] at hc
    split at hc <;> cases hc
    exact acquire_low h (hk _ rfl) (hU.many e he f)
  | arguments =>
    simp only [act] at hc
    cases hb : W.one e "constructor" with
    | none => simp only [hb] at hc; cases hc
    | some b =>
      simp only [hb] at hc
      split at hc <;> cases hc
      exact acquire_low h (hk _ rfl) (hU.many e he f)
  | attributeType =>
    simp only [act] at hc
    cases hb : W.one e f with
    | none => simp only [hb] at hc; cases hc
    | some t =>
      simp only [hb] at hc
      cases hg : W.gtype t <;> simp only [hg] at hc <;> try cases hc
      split at hc
      · cases hct : commitType W s (some t) with
        | error y => simp only [hct] at hc; cases hc
        | ok p =>
          simp only [hct] at hc; cases hc
          exact commitType_low (o := some t) h (fun t' ht => by cases ht; exact ho t hb) hct
      · cases hc
  | refParam =>
    simp only [act] at hc
    cases hb : W.one e f with
    | none => simp only [hb] at hc; cases hc
    | some t =>
      simp only [hb] at hc
      split at hc
      · cases hc; exact h
      · cases hct : commitType W s (some t) with
        | error y => simp only [hct] at hc; cases hc
        | ok p =>
          simp only [hct] at hc; cases hc
          exact commitType_low (o := some t) h (fun t' ht => by cases ht; exact ho t hb) hct

theorem fill_low {W : World} {U : List Id} (hU : FiniteProgram W U) {e : Id} (he : e ∈ U) :
    ∀ (l : List (String × Act)) {s s' : St} {n : Nat} {row},
    (∀ p ∈ l, ∀ k, child p.2 = some k → k ∉ needed) → Low W U s n →
    fill W e l s = .ok (row, s') → Low W U s' (n + (l.map (cw W e)).sum)
  | [], s, s', n, row, _, h, hc => by cases hc; exact h
  | (f, a) :: l, s, s', n, row, hk, h, hc => by
    simp only [fill] at hc
    cases ha : act W s e f a with
    | error y => simp only [ha] at hc; cases hc
    | ok p =>
      obtain ⟨c, s1⟩ := p
      simp only [ha] at hc
      have h1 := act_low hU h he (hk _ (List.mem_cons_self ..)) ha
      cases hf : fill W e l s1 with
      | error y => simp only [hf] at hc; cases hc
      | ok q =>
        obtain ⟨row', s2⟩ := q
        simp only [hf] at hc
        cases hc
        have h2 := fill_low hU he l (fun p hp => hk p (List.mem_cons_of_mem _ hp)) h1 hf
        simpa [Nat.add_assoc] using h2

theorem steps_children (k : Kind) : ∀ p ∈ steps k, ∀ k', child p.2 = some k' → k' ∉ needed := by
  cases k <;> simp [steps, child, needed]

/-- No statement ever reports that the fuel is spent. -/
theorem commitType_fuel {W : World} {s : St} {o} : commitType W s o ≠ .error .fuel := by
  intro h
  cases o with
  | none => cases h
  | some t =>
    simp only [commitType] at h
    cases hg : W.gtype t with
    | general b => cases b <;> simp only [hg] at h <;> cases h
    | genericParam j =>
      simp only [hg] at h
      cases hs : s.search .genericParam t <;> simp only [hs] at h <;> cases h
    | typeDefParam =>
      simp only [hg] at h
      cases hs : s.search .typeDefParam t <;> simp only [hs] at h <;> cases h
    | _ => simp only [hg] at h; cases h

theorem commitMethod_fuel {W : World} {s : St} {o} : commitMethod W s o ≠ .error .fuel := by
  intro h
  cases o with
  | none => cases h
  | some m =>
    simp only [commitMethod] at h
    by_cases hown : W.own m = true
    · simp only [hown, if_true] at h
      cases hs : s.search .method m with
      | some r' => simp only [hs] at h; cases h
      | none =>
        simp only [hs] at h
        cases hh : W.one m "host" with
        | none => simp only [hh] at h; cases h
        | some x =>
          simp only [hh] at h
          cases hg : W.gtype x <;> simp only [hg] at h <;> try cases h
          cases hct : commitType W s (some x) with
          | error y => simp only [hct] at h; cases h; exact commitType_fuel hct
          | ok p =>
            obtain ⟨r1, s1⟩ := p
            simp only [hct] at h
            cases hs1 : s1.search .method m <;> simp only [hs1] at h <;> cases h
    · simp only [hown, Bool.false_eq_true, if_false] at h
      cases h

theorem act_fuel {W : World} {s : St} {e f a} : act W s e f a ≠ .error .fuel := by
  intro h
  cases a with
  | text must => simp only [act] at h; split at h <;> cases h
  | num => cases h
  | type must =>
    simp only [act] at h
    split at h
    · cases h
    · cases hct : commitType W s (W.one e f) <;> simp only [hct] at h <;> cases h
      exact commitType_fuel hct
  | itself =>
    simp only [act] at h
    cases hct : commitType W s (some e) <;> simp only [hct] at h <;> cases h
    exact commitType_fuel hct
  | touch =>
    simp only [act] at h
    cases hct : commitType W s (W.one e f) <;> simp only [hct] at h <;> cases h
    exact commitType_fuel hct
  | method must =>
    simp only [act] at h
    split at h
    · cases h
    · cases hct : commitMethod W s (W.one e f) <;> simp only [hct] at h <;> cases h
      exact commitMethod_fuel hct
  | constant =>
    simp only [act] at h
    cases hct : commitConstant W s (W.one e f) <;> simp only [hct] at h <;> cases h
    cases hb : W.one e f with
    | none => simp only [hb, commitConstant] at hct; cases hct
    | some c =>
      simp only [hb, commitConstant] at hct
      cases hs : s.search .constant c with
      | some r' => simp only [hs] at hct; cases hct
      | none =>
        simp only [hs] at hct
        cases hc' : commitType W (s.append .constant c) (W.one c "type") <;>
          simp only [hc'] at hct <;> cases hct
        exact commitType_fuel hc'
  | assembly =>
    simp only [act] at h
    cases hb : W.one e f <;> simp only [hb, commitAssembly] at h <;> cases h
  | many k => simp only [act] at h; cases h
  | nest => simp only [act] at h; split at h <;> cases h
  | arguments =>
    simp only [act] at h
    cases hb : W.one e "constructor" with
    | none => simp only [hb] at h; cases h
    | some b => simp only [hb] at h; split at h <;> cases h
  | attributeType =>
    simp only [act] at h
    cases hb : W.one e f with
    | none => simp only [hb] at h; cases h
    | some t =>
      simp only [hb] at h
      cases hg : W.gtype t <;> simp only [hg] at h <;> try cases h
      split at h
      · cases hct : commitType W s (some t) <;> simp only [hct] at h <;> cases h
        exact commitType_fuel hct
      · cases h
  | refParam =>
    simp only [act] at h
    cases hb : W.one e f with
    | none => simp only [hb] at h; cases h
    | some t =>
      simp only [hb] at h
      split at h
      · cases h
      · cases hct : commitType W s (some t) <;> simp only [hct] at h <;> cases h
        exact commitType_fuel hct

theorem fill_fuel {W : World} {e : Id} : ∀ (l : List (String × Act)) {s : St},
    fill W e l s ≠ .error .fuel
  | [], s => by intro h; cases h
  | (f, a) :: l, s => by
    intro h
    simp only [fill] at h
    cases ha : act W s e f a with
    | error y => simp only [ha] at h; cases h; exact act_fuel ha
    | ok p =>
      obtain ⟨c, s1⟩ := p
      simp only [ha] at h
      cases hf : fill W e l s1 with
      | error y => simp only [hf] at h; cases h; exact fill_fuel l hf
      | ok q => simp only [hf] at h; cases h

theorem drain_ends {W : World} {U : List Id} (hU : FiniteProgram W U) : ∀ (n : Nat) {s : St},
    Low W U s n → drain W n s ≠ .error .fuel ∧ ∀ s', drain W n s = .ok s' → Low W U s' n
  | 0, s, h => by
    have hq : s.queue = [] := by
      cases hq : s.queue with
      | nil => rfl
      | cons p q =>
        have h2 := h.2
        simp only [pot, hq, List.map_cons, List.sum_cons] at h2
        have := wt_eq W p.1 p.2.2
        omega
    simp only [drain, hq, List.isEmpty_nil, if_true]
    exact ⟨by intro hc; (cases hc), fun s' hs => by cases hs; exact h⟩
  | n + 1, s, h => by
    cases hq : s.queue with
    | nil =>
      simp only [drain, hq]
      exact ⟨by intro hc; (cases hc), fun s' hs => by cases hs; exact h⟩
    | cons p q =>
      obtain ⟨k, i, e⟩ := p
      simp only [drain, hq]
      have he : e ∈ U := h.1 (k, i, e) (by rw [hq]; exact List.mem_cons_self ..)
      have h2 := h.2
      simp only [pot, hq, List.map_cons, List.sum_cons] at h2
      have hw := wt_eq W k e
      have h0 : Low W U { s with queue := q } (n - ((steps k).map (cw W e)).sum) := by
        refine ⟨fun p hp => h.1 p (by rw [hq]; exact List.mem_cons_of_mem _ hp), ?_⟩
        show (q.map fun p => wt W p.1 p.2.2).sum + (needed.map (open_ W U s)).sum ≤ _
        omega
      cases hf : fill W e (steps k) { s with queue := q } with
      | error y =>
        simp only []
        refine ⟨?_, fun s' hs => by cases hs⟩
        intro hc
        cases hc
        exact fill_fuel _ hf
      | ok r =>
        obtain ⟨row, s1⟩ := r
        simp only []
        have h1 := fill_low hU he (steps k) (steps_children k) h0 hf
        have h3 : Low W U s1 n := ⟨h1.1, Nat.le_trans h1.2 (by omega)⟩
        have h4 : Low W U { s1 with rows := upd s1.rows k ((s1.rows k).set i row) } n :=
          h3.same rfl fun _ _ => rfl
        have h5 := drain_ends hU n h4
        exact ⟨h5.1, fun s' hs => ⟨(h5.2 s' hs).1, Nat.le_trans (h5.2 s' hs).2 (by omega)⟩⟩

theorem Low.mono {W : World} {U : List Id} {s : St} {m n : Nat} (h : Low W U s m) (hmn : m ≤ n) :
    Low W U s n := ⟨h.1, Nat.le_trans h.2 hmn⟩

/-- More fuel makes no difference. -/
theorem drain_more {W : World} : ∀ (n : Nat) {s : St}, drain W n s ≠ .error .fuel → ∀ d,
    drain W (n + d) s = drain W n s
  | 0, s, h, d => by
    simp only [drain] at h ⊢
    split at h
    · rename_i hq
      rw [if_pos hq]
      have : s.queue = [] := by simpa using hq
      cases d with
      | zero => simp [drain, this]
      | succ d => rw [Nat.zero_add, drain]; simp [this]
    · exact absurd rfl h
  | n + 1, s, h, d => by
    rw [Nat.add_right_comm]
    cases hq : s.queue with
    | nil => simp only [drain, hq]
    | cons p q =>
      obtain ⟨k, i, e⟩ := p
      simp only [drain, hq] at h ⊢
      cases hf : fill W e (steps k) { s with queue := q } with
      | error y => rfl
      | ok r =>
        obtain ⟨row, s1⟩ := r
        simp only [hf] at h ⊢
        exact drain_more n h d

theorem commitTypes_queue {W : World} {U : List Id} : ∀ (l : List Id) {s : St} {n : Nat},
    (∀ t ∈ l, t ∈ U) → Low W U s n → Low W U (commitTypes s l) n
  | [], _, _, _, h => h
  | t :: l, _, _, hl, h =>
    commitTypes_queue l (fun x hx => hl x (List.mem_cons_of_mem _ hx))
      (commitOne_low h (by decide) (hl t (List.mem_cons_self ..)))

theorem any_low {W : World} {U : List Id} {s : St} (h : ∀ p ∈ s.queue, p.2.2 ∈ U) :
    Low W U s (pot W U s) := ⟨h, Nat.le_refl _⟩

theorem commitTypeDefs_queue {W : World} {U : List Id} (hU : FiniteProgram W U) :
    ∀ (l : List Id) {s s' : St}, (∀ t ∈ l, t ∈ U) → (∀ p ∈ s.queue, p.2.2 ∈ U) →
    commitTypeDefs W s l = .ok s' → ∀ p ∈ s'.queue, p.2.2 ∈ U
  | [], _, _, _, h, hc => by cases hc; exact h
  | d :: l, s, s', hl, h, hc => by
    have hd := hl d (List.mem_cons_self ..)
    have hl' := fun x hx => hl x (List.mem_cons_of_mem _ hx)
    simp only [commitTypeDefs, commitTypeDef] at hc
    cases hs : s.search .typeDef d with
    | some r =>
      simp only [hs] at hc
      exact commitTypeDefs_queue hU l hl' h hc
    | none =>
      simp only [hs] at hc
      cases hct : commitType W s (W.one d "host") with
      | error y => simp only [hct] at hc; cases hc
      | ok p =>
        obtain ⟨r1, s1⟩ := p
        simp only [hct] at hc
        have h1 := commitType_low (any_low h) (fun t ht => hU.one d hd _ _ ht) hct
        refine commitTypeDefs_queue hU l hl' ?_ hc
        intro p hp
        unfold commitOne at hp
        split at hp
        · exact h1.1 p hp
        · rcases List.mem_append.mp hp with hp | hp
          · exact h1.1 p hp
          · simp only [List.mem_singleton] at hp
            subst hp; exact hd

theorem commitTypeDefs_fuel {W : World} : ∀ (l : List Id) {s : St},
    commitTypeDefs W s l ≠ .error .fuel
  | [], _ => by intro h; cases h
  | d :: l, s => by
    intro hc
    simp only [commitTypeDefs, commitTypeDef] at hc
    cases hs : s.search .typeDef d with
    | some r => simp only [hs] at hc; exact commitTypeDefs_fuel l hc
    | none =>
      simp only [hs] at hc
      cases hct : commitType W s (W.one d "host") with
      | error y => simp only [hct] at hc; cases hc; exact commitType_fuel hct
      | ok p => simp only [hct] at hc; exact commitTypeDefs_fuel l hc

theorem load_fuel {W : World} {s : St} {l} : load W s l ≠ .error .fuel := by
  intro h
  cases l with
  | type t => simp only [load] at h; exact commitType_fuel h
  | method m => simp only [load] at h; exact commitMethod_fuel h
  | field x =>
    simp only [load, commitField] at h
    cases hs : s.search .field x with
    | some r' => simp only [hs] at h; cases h
    | none =>
      simp only [hs] at h
      cases hct : commitType W s (W.one x "host") with
      | error y => simp only [hct] at h; cases h; exact commitType_fuel hct
      | ok p =>
        obtain ⟨r1, s1⟩ := p
        simp only [hct] at h
        cases hs1 : s1.search .field x <;> simp only [hs1] at h <;> cases h

theorem load_low {W : World} {U : List Id} (hU : FiniteProgram W U) {s s' : St} {n : Nat}
    (h : Low W U s n) {l r} (hl : asked l ∈ U) (hc : load W s l = .ok (r, s')) :
    Low W U s' n := by
  cases l with
  | type t => exact commitType_low (o := some t) h (fun x hx => by cases hx; exact hl) hc
  | method m => exact commitMethod_low hU (o := some m) h (fun x hx => by cases hx; exact hl) hc
  | field x => exact commitField_low hU h hl hc

theorem loads_low {W : World} {U : List Id} (hU : FiniteProgram W U) : ∀ (ls : List Load)
    {s : St} {n : Nat}, (∀ l ∈ ls, asked l ∈ U) → Low W U s n →
    loads W ls s ≠ .error .fuel ∧ ∀ rs s', loads W ls s = .ok (rs, s') → Low W U s' n
  | [], s, n, _, h => ⟨by intro hc; (cases hc), fun rs s' hc => by cases hc; exact h⟩
  | l :: ls, s, n, hl, h => by
    simp only [loads]
    cases hc : load W s l with
    | error y =>
      simp only []
      exact ⟨by intro h'; cases h'; exact load_fuel hc, fun rs s' h' => by cases h'⟩
    | ok p =>
      obtain ⟨r1, s1⟩ := p
      simp only []
      have h1 := load_low hU h (hl l (List.mem_cons_self ..)) hc
      have h2 := loads_low hU ls (fun x hx => hl x (List.mem_cons_of_mem _ hx)) h1
      cases hr : loads W ls s1 with
      | error y =>
        simp only []
        exact ⟨by intro h'; cases h'; exact h2.1 hr, fun rs s' h' => by cases h'⟩
      | ok q =>
        obtain ⟨rs1, s2⟩ := q
        simp only []
        exact ⟨by intro h'; (cases h'), fun rs s' h' => by cases h'; exact h2.2 _ _ hr⟩

/-- The state in which the queue is worked off the first time. -/
def start (W : World) (s : St) : St :=
  (s.append .assembly W.self).enque .assembly (s.rows .assembly).length W.self

theorem write_ends {W : World} {U : List Id} (hU : FiniteProgram W U) :
    ∃ n, ∀ m, n ≤ m → write W m ≠ .error .fuel ∧ write W m = write W n := by
  cases hd : commitTypeDefs W (commitTypes empty W.types) W.typeDefs with
  | error y =>
    refine ⟨0, fun m _ => ?_⟩
    simp only [write, commitAll, hd]
    exact ⟨by intro h; cases h; exact commitTypeDefs_fuel _ hd, trivial⟩
  | ok s =>
    have h0 : ∀ p ∈ (commitTypes empty W.types).queue, p.2.2 ∈ U :=
      (commitTypes_queue (W := W) W.types hU.types (any_low (by simp [empty]))).1
    have h1 := commitTypeDefs_queue hU W.typeDefs hU.typeDefs h0 hd
    have h2 : ∀ p ∈ (start W s).queue, p.2.2 ∈ U := by
      intro p hp
      rcases List.mem_append.mp hp with hp | hp
      · exact h1 p hp
      · simp only [List.mem_singleton] at hp
        subst hp; exact hU.self
    refine ⟨pot W U (start W s), fun m hm => ?_⟩
    have key : ∀ m, pot W U (start W s) ≤ m → write W m ≠ .error .fuel ∧
        write W (m + 1) = write W m := by
      intro m hm
      have h3 := drain_ends hU m ((any_low (W := W) h2).mono hm)
      have h4 : drain W (m + 1) (start W s) = drain W m (start W s) := drain_more m h3.1 1
      unfold start at h3 h4
      simp only [write, commitAll, hd]
      rw [h4]
      cases hr : drain W m ((s.append .assembly W.self).enque .assembly
          (s.rows .assembly).length W.self) with
      | error y =>
        simp only []
        exact ⟨by intro h; cases h; exact h3.1 hr, trivial⟩
      | ok s2 =>
        simp only []
        have h5 := loads_low hU W.loads hU.loads (h3.2 s2 hr)
        cases hl : loads W W.loads s2 with
        | error y =>
          simp only []
          exact ⟨by intro h; cases h; exact h5.1 hl, trivial⟩
        | ok q =>
          obtain ⟨rs, s3⟩ := q
          simp only []
          have h6 := drain_ends hU m (h5.2 _ _ hl)
          rw [drain_more m h6.1 1]
          cases hr2 : drain W m s3 with
          | error y =>
            simp only []
            exact ⟨by intro h; cases h; exact h6.1 hr2, trivial⟩
          | ok s4 => exact ⟨by intro h; (cases h), rfl⟩
    refine ⟨(key m hm).1, ?_⟩
    obtain ⟨d, rfl⟩ := Nat.le.dest hm
    clear hm
    induction d with
    | zero => rfl
    | succ d ih => rw [← ih, ← (key _ (Nat.le_add_right _ d)).2]; rfl

end Verif.Asm
