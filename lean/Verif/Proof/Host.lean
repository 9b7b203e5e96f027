import Verif.Model.Host
import Verif.Spec.Host
import Verif.Proof.Asm

/-
  Lemmas for C89: the lists of members of the classes follow one another in their tables in
  the order of the classes, and the binary search finds the class.
-/

namespace Verif.Host

open Verif.Asm

/-! ## Binary search -/

theorem binaryFind_eq (f : Nat → Int) (h : Nat) : ∀ (n b e : Nat), e - b ≤ n → b ≤ h → h < e →
    (∀ i, b ≤ i → i < h → f i > 0) → f h = 0 → (∀ i, h < i → i < e → f i < 0) →
    binaryFind f n b e = some h
  | 0, b, e, hn, hb, he, _, _, _ => by omega
  | n + 1, b, e, hn, hb, he, lo, eq, hi => by
    have hne : b ≠ e := by omega
    simp only [binaryFind, if_neg hne]
    have h1 : b + (e - b) / 2 < e := by omega
    rcases Nat.lt_trichotomy (b + (e - b) / 2) h with c | c | c
    · have g := lo _ (by omega) c
      rw [if_neg (by omega), if_pos g]
      exact binaryFind_eq f h n _ e (by omega) (by omega) he (fun i a b => lo i (by omega) b) eq hi
    · rw [c, if_neg (by omega), if_neg (by omega)]
    · have g := hi _ c h1
      rw [if_pos g]
      exact binaryFind_eq f h n b _ (by omega) hb c lo eq (fun i a b => hi i a (by omega))

theorem binaryFind_some (f : Nat → Int) : ∀ (n b e m : Nat), binaryFind f n b e = some m →
    b ≤ e → b ≤ m ∧ m < e ∧ f m = 0
  | 0, b, e, m, h, _ => by cases h
  | n + 1, b, e, m, h, hbe => by
    simp only [binaryFind] at h
    split at h
    · cases h
    · split at h
      · have := binaryFind_some f n b _ m h (by omega)
        omega
      · split at h
        · have := binaryFind_some f n _ e m h (by omega)
          omega
        · cases h
          refine ⟨by omega, by omega, by omega⟩

/-! ## The order of the lists -/

/-- The rows of classes that wait in the queue. -/
def waiting (s : St) : List Nat :=
  s.queue.filterMap fun p => if p.1 = .type then some p.2.1 else none

/-- Nothing but new classes, each with its entry in the queue. -/
def Frame (s s' : St) : Prop := ∃ m,
  s'.rows .type = s.rows .type ++ List.replicate m [] ∧
  waiting s' = waiting s ++ List.range' (s.rows .type).length m

theorem Frame.refl (s : St) : Frame s s := ⟨0, by simp, by simp⟩

theorem Frame.trans {a b c : St} (h : Frame a b) (g : Frame b c) : Frame a c := by
  obtain ⟨m, h1, h2⟩ := h
  obtain ⟨n, g1, g2⟩ := g
  refine ⟨m + n, ?_, ?_⟩
  · rw [g1, h1, List.append_assoc, List.replicate_append_replicate]
  · rw [g2, h2, h1, List.append_assoc, List.length_append, List.length_replicate,
      List.range'_append_1]

/-- The tables of members. -/
def member : Kind → Bool
  | .method | .field | .nestType | .property | .event => true
  | _ => false

/-- The tables of members keep their lengths. -/
def Same (s s' : St) : Prop := ∀ k, member k = true → (s'.rows k).length = (s.rows k).length

theorem Same.refl (s : St) : Same s s := fun _ _ => rfl

theorem Same.trans {a b c : St} (h : Same a b) (g : Same b c) : Same a c :=
  fun k m => (g k m).trans (h k m)

def Calm (s s' : St) : Prop := Frame s s' ∧ Same s s'

theorem Calm.refl (s : St) : Calm s s := ⟨.refl s, .refl s⟩

theorem Calm.trans {a b c : St} (h : Calm a b) (g : Calm b c) : Calm a c :=
  ⟨h.1.trans g.1, h.2.trans g.2⟩

theorem append_enque_calm (s : St) (k : Kind) (e : Id) (hm : member k = false) :
    Calm s ((s.append k e).enque k (s.rows k).length e) := by
  refine ⟨?_, ?_⟩
  · by_cases hk : k = .type
    · subst hk
      refine ⟨1, ?_, ?_⟩
      · simp [St.enque, St.append, upd]
      · simp [waiting, St.enque, St.append, List.filterMap_append]
    · refine ⟨0, ?_, ?_⟩
      · simp [St.enque, St.append, upd, Ne.symm hk]
      · simp [waiting, St.enque, St.append, List.filterMap_append, hk]
  · intro k' h'
    have : k' ≠ k := by rintro rfl; rw [hm] at h'; cases h'
    simp [St.enque, St.append, upd, this]

theorem commitOne_calm (s : St) (k : Kind) (e : Id) (hm : member k = false) :
    Calm s (commitOne s k e).2 := by
  unfold commitOne
  split
  · exact Calm.refl s
  · exact append_enque_calm s k e hm

theorem commitOne_calm' {ε : Type} {s s' : St} {k : Kind} {e : Id} {r : Ref} (hm : member k = false)
    (h : (Except.ok (commitOne s k e) : Except ε (Ref × St)) = .ok (r, s')) : Calm s s' := by
  have := commitOne_calm s k e hm
  rw [Except.ok.inj h] at this
  exact this

theorem commitType_calm {W : World} {s s' : St} {o r} (h : commitType W s o = .ok (r, s')) :
    Calm s s' := by
  unfold commitType at h
  split at h
  · cases h; exact .refl _
  · split at h
    · exact commitOne_calm' rfl h
    · exact commitOne_calm' rfl h
    · exact commitOne_calm' rfl h
    · exact commitOne_calm' rfl h
    · split at h <;> cases h <;> exact .refl _
    · split at h <;> cases h <;> exact .refl _
    · cases h; exact .refl _

theorem commitMethod_calm {W : World} {s s' : St} {o r} (h : commitMethod W s o = .ok (r, s')) :
    Calm s s' := by
  unfold commitMethod at h
  split at h
  · cases h; exact .refl _
  · split at h
    · split at h
      · cases h; exact .refl _
      · split at h
        · cases h
        · split at h
          · split at h
            · cases h
            · rename_i hc
              split at h
              · cases h; exact commitType_calm hc
              · cases h
          · cases h
    · exact commitOne_calm' rfl h

theorem commitField_calm {W : World} {s s' : St} {f r} (h : commitField W s f = .ok (r, s')) :
    Calm s s' := by
  unfold commitField at h
  split at h
  · cases h; exact .refl _
  · split at h
    · cases h
    · rename_i hc
      split at h
      · cases h; exact commitType_calm hc
      · cases h

theorem commitTypeDef_calm {W : World} {s s' : St} {f r}
    (h : commitTypeDef W s f = .ok (r, s')) : Calm s s' := by
  unfold commitTypeDef at h
  split at h
  · cases h; exact .refl _
  · split at h
    · cases h
    · rename_i hc
      exact (commitType_calm hc).trans (commitOne_calm' rfl h)

theorem set_calm (s : St) (k : Kind) (hk : k ≠ .type) (l : List Row)
    (hl : l.length = (s.rows k).length) : Calm s { s with rows := upd s.rows k l } := by
  refine ⟨⟨0, ?_, ?_⟩, ?_⟩
  · simp [upd, Ne.symm hk]
  · simp [waiting]
  · intro k' _
    by_cases h : k' = k
    · subst h; simp [upd, hl]
    · simp [upd, h]

theorem append_calm (s : St) (k : Kind) (e : Id) (hk : k ≠ .type) (hm : member k = false) :
    Calm s (s.append k e) := by
  refine ⟨⟨0, ?_, ?_⟩, ?_⟩
  · simp [St.append, upd, Ne.symm hk]
  · simp [waiting, St.append]
  · intro k' h'
    have : k' ≠ k := by rintro rfl; rw [hm] at h'; cases h'
    simp [St.append, upd, this]

theorem commitConstant_calm {W : World} {s s' : St} {o r}
    (h : commitConstant W s o = .ok (r, s')) : Calm s s' := by
  unfold commitConstant at h
  split at h
  · cases h; exact .refl _
  · split at h
    · cases h; exact .refl _
    · simp only at h
      split at h
      · cases h
      · rename_i hc
        cases h
        refine ((append_calm _ _ _ (by decide) rfl).trans (commitType_calm hc)).trans ?_
        exact set_calm _ _ (by decide) _ (by simp)

theorem commitAssembly_calm {s s' : St} {o r} (h : commitAssembly s o = .ok (r, s')) :
    Calm s s' := by
  unfold commitAssembly at h
  split at h
  · cases h
  · exact commitOne_calm' rfl h

/-- New rows of one table. -/
def Grow (k : Kind) (n : Nat) (s s' : St) : Prop := Frame s s' ∧
  ∀ k', member k' = true → (s'.rows k').length = (s.rows k').length + if k' = k then n else 0

theorem Calm.grow {s s' : St} (h : Calm s s') (k : Kind) : Grow k 0 s s' :=
  ⟨h.1, fun k' m => by rw [h.2 k' m]; split <;> rfl⟩

theorem acquire_grow (s : St) (k : Kind) (es : List Id) (hk : k ≠ .type) :
    Grow k es.length s (acquire s k es).2 := by
  unfold acquire
  split
  · rename_i he
    rw [List.isEmpty_iff.mp he]
    exact (Calm.refl s).grow k
  · refine ⟨⟨0, ?_, ?_⟩, ?_⟩
    · simp [upd, Ne.symm hk]
    · simp [waiting, List.filterMap_append, hk]
    · intro k' _
      by_cases h : k' = k
      · subst h; simp [upd]
      · simp [upd, h]

/-- The statement makes rows of table `k`. -/
def makes (k : Kind) : Act → Bool
  | .many k' => k' == k
  | .nest => k == .nestType
  | .arguments => k == .attributeArgument
  | _ => false

theorem act_calm {W : World} {s s' : St} {e f a c} (h : act W s e f a = .ok (c, s'))
    (ha : a ≠ .many .type) :
    Frame s s' ∧ ∀ k, member k = true → makes k a = false →
      (s'.rows k).length = (s.rows k).length := by
  have calm : ∀ {s s' : St}, Calm s s' → Frame s s' ∧ ∀ k, member k = true →
      makes k a = false → (s'.rows k).length = (s.rows k).length :=
    fun h => ⟨h.1, fun k m _ => h.2 k m⟩
  cases a with
  | text must =>
    simp only [act] at h
    split at h
    · cases h
    · cases h; exact calm (.refl _)
  | num => cases h; exact calm (.refl _)
  | type must =>
    simp only [act] at h
    split at h
    · cases h
    · split at h
      · cases h
      · rename_i hc; cases h; exact calm (commitType_calm hc)
  | itself =>
    simp only [act] at h
    split at h
    · cases h
    · rename_i hc; cases h; exact calm (commitType_calm hc)
  | touch =>
    simp only [act] at h
    split at h
    · cases h
    · rename_i hc; cases h; exact calm (commitType_calm hc)
  | method must =>
    simp only [act] at h
    split at h
    · cases h
    · split at h
      · cases h
      · rename_i hc; cases h; exact calm (commitMethod_calm hc)
  | constant =>
    simp only [act] at h
    split at h
    · cases h
    · rename_i hc; cases h; exact calm (commitConstant_calm hc)
  | assembly =>
    simp only [act] at h
    split at h
    · cases h
    · rename_i hc; cases h; exact calm (commitAssembly_calm hc)
  | many k' =>
    simp only [act] at h
    cases h
    have g := acquire_grow s k' (W.many e f) (fun h => ha (by rw [h]))
    refine ⟨g.1, fun k m hk => ?_⟩
    have : k ≠ k' := by
      rintro rfl; simp [makes] at hk
    rw [g.2 k m, if_neg this, Nat.add_zero]
  | nest =>
    simp only [act] at h
    split at h
    · cases h
    · cases h
      have g := acquire_grow s .nestType (W.many e f) (by decide)
      refine ⟨g.1, fun k m hk => ?_⟩
      have : k ≠ .nestType := by
        rintro rfl; simp [makes] at hk
      rw [g.2 k m, if_neg this, Nat.add_zero]
  | arguments =>
    simp only [act] at h
    split at h
    · cases h
    · split at h
      · cases h
      · cases h
        have g := acquire_grow s .attributeArgument (W.many e f) (by decide)
        refine ⟨g.1, fun k m hk => ?_⟩
        have : k ≠ .attributeArgument := by
          rintro rfl; simp [makes] at hk
        rw [g.2 k m, if_neg this, Nat.add_zero]
  | attributeType =>
    simp only [act] at h
    split at h
    · cases h
    · split at h
      · split at h
        · split at h
          · cases h
          · rename_i hc; cases h; exact calm (commitType_calm hc)
        · cases h
      · cases h
  | refParam =>
    simp only [act] at h
    split at h
    · cases h
    · split at h
      · cases h; exact calm (.refl _)
      · split at h
        · cases h
        · rename_i hc; cases h; exact calm (commitType_calm hc)

theorem fill_calm {W : World} {e : Id} : ∀ (l : List (String × Act)) {s s' : St} {row},
    fill W e l s = .ok (row, s') → (∀ p ∈ l, p.2 ≠ .many .type) →
    Frame s s' ∧ ∀ k, member k = true → (∀ p ∈ l, makes k p.2 = false) →
      (s'.rows k).length = (s.rows k).length
  | [], s, s', row, h, _ => by
    cases h
    exact ⟨.refl _, fun _ _ _ => rfl⟩
  | (f, a) :: l, s, s', row, h, hl => by
    simp only [fill] at h
    split at h
    · cases h
    · rename_i ha
      split at h
      · cases h
      · rename_i hf
        cases h
        have h1 := act_calm ha (hl _ (List.mem_cons_self ..))
        have h2 := fill_calm l hf (fun p m => hl p (List.mem_cons_of_mem _ m))
        refine ⟨h1.1.trans h2.1, fun k m hk => ?_⟩
        rw [h2.2 k m (fun p q => hk p (List.mem_cons_of_mem _ q)),
          h1.2 k m (hk _ (List.mem_cons_self ..))]

/-- Filling with one statement that makes rows of `k`. -/
theorem fill_makes {W : World} {e : Id} {k : Kind} {f : String} (hk : member k = true)
    (a : Act) (ha : a = .many k ∨ a = .nest ∧ k = .nestType) :
    ∀ (l1 l2 : List (String × Act)) {s s' : St} {row},
    fill W e (l1 ++ (f, a) :: l2) s = .ok (row, s') →
    (∀ p ∈ l1 ++ (f, a) :: l2, p.2 ≠ .many .type) →
    (∀ p ∈ l1, makes k p.2 = false ∧ p.1 ≠ f) → (∀ p ∈ l2, makes k p.2 = false) →
    Frame s s' ∧ ∃ n x, (s'.rows k).length = (s.rows k).length + n ∧
      n = (W.many e f).length ∧
      row.lookup f = some (.ref (Ref.of (s.rows k).length n x))
  | [], l2, s, s', row, h, hl, _, h2 => by
    simp only [List.nil_append, fill] at h
    split at h
    · cases h
    · rename_i c s1 hact
      split at h
      · cases h
      · rename_i hf
        cases h
        have hne : a ≠ .many .type := hl (f, a) (by simp)
        have g := fill_calm l2 hf (fun p m => hl p (by simp [m]))
        have cell : ∃ x, c = .ref (Ref.of (s.rows k).length (W.many e f).length x) ∧
            s1 = (acquire s k (W.many e f)).2 := by
          have key : ∃ x, (acquire s k (W.many e f)).1 =
              Ref.of (s.rows k).length (W.many e f).length x := by
            unfold acquire
            split
            · rename_i he
              exact ⟨0, by rw [List.isEmpty_iff.mp he]; rfl⟩
            · exact ⟨_, rfl⟩
          obtain ⟨x, hx⟩ := key
          rcases ha with rfl | ⟨rfl, rfl⟩
          · simp only [act] at hact
            cases hact
            exact ⟨x, by rw [hx], rfl⟩
          · simp only [act] at hact
            split at hact
            · cases hact
            · cases hact
              exact ⟨x, by rw [hx], rfl⟩
        obtain ⟨x, hc, hs1⟩ := cell
        have hkt : k ≠ .type := by rintro rfl; cases hk
        have gr := acquire_grow s k (W.many e f) hkt
        rw [← hs1] at gr
        refine ⟨gr.1.trans g.1, (W.many e f).length, x, ?_, rfl, ?_⟩
        · rw [g.2 k hk h2, gr.2 k hk, if_pos rfl]
        · rw [hc]; simp [List.lookup]
  | (f', a') :: l1, l2, s, s', row, h, hl, h1, h2 => by
    simp only [List.cons_append, fill] at h
    split at h
    · cases h
    · rename_i c s1 hact
      split at h
      · cases h
      · rename_i hf
        cases h
        have c1 := act_calm hact (hl (f', a') (List.mem_cons_self ..))
        obtain ⟨fr, n, x, e1, e2, e3⟩ := fill_makes hk a ha l1 l2 hf
          (fun p m => hl p (List.mem_cons_of_mem _ m))
          (fun p m => h1 p (List.mem_cons_of_mem _ m)) h2
        have q := h1 _ (List.mem_cons_self ..)
        rw [c1.2 k hk q.1] at e1 e3
        refine ⟨c1.1.trans fr, n, x, e1, e2, ?_⟩
        have hb : (f == f') = false := by
          rw [beq_eq_false_iff_ne]; exact fun h => q.2 h.symm
        rw [List.lookup_cons, hb]
        exact e3

/-- The first `n` classes are filled, their lists of members in table `k` follow one another,
    and the rest of the classes waits in order. -/
structure Chain (f : String) (k : Kind) (s : St) (n : Nat) (base : Nat → Nat) : Prop where
  len : n ≤ (s.rows .type).length
  wait : waiting s = List.range' n ((s.rows .type).length - n)
  zero : base 0 = 0
  top : base n = (s.rows k).length
  mono : ∀ i, base i ≤ base (i + 1)
  cells : ∀ i, i < n → base (i + 1) - base i < 512 ∧ ∃ row x, (s.rows .type)[i]? = some row ∧
    row.lookup f = some (.ref (Ref.of (base i) (base (i + 1) - base i) x))

theorem Chain.frame {f k s s' n base} (h : Chain f k s n base) (hf : Frame s s')
    (hk : (s'.rows k).length = (s.rows k).length) : Chain f k s' n base := by
  obtain ⟨m, h1, h2⟩ := hf
  have hl : (s'.rows .type).length = (s.rows .type).length + m := by simp [h1]
  have := h.len
  refine ⟨by omega, ?_, h.zero, by rw [h.top, hk], h.mono, ?_⟩
  · rw [h2, h.wait, hl]
    have e1 : (s.rows .type).length = n + ((s.rows .type).length - n) := by omega
    conv => lhs; arg 2; rw [e1]
    rw [List.range'_append_1]
    congr 1
    omega
  · intro i hi
    obtain ⟨a, row, x, b, c⟩ := h.cells i hi
    refine ⟨a, row, x, ?_, c⟩
    rw [h1, List.getElem?_append_left (by omega)]
    exact b

/-- The statements for classes around the one for a list of members. -/
theorem type_split (f : String) (k : Kind) (hf : (f, k) ∈ Spec.memberLists) :
    ∃ l1 a l2, steps .type = l1 ++ (f, a) :: l2 ∧ (a = .many k ∨ a = .nest ∧ k = .nestType) ∧
      (∀ p ∈ l1, makes k p.2 = false ∧ p.1 ≠ f) ∧ (∀ p ∈ l2, makes k p.2 = false) ∧
      member k = true := by
  simp only [Spec.memberLists, List.mem_cons, List.not_mem_nil, or_false, Prod.mk.injEq] at hf
  rcases hf with ⟨rfl, rfl⟩ | ⟨rfl, rfl⟩ | ⟨rfl, rfl⟩ | ⟨rfl, rfl⟩ | ⟨rfl, rfl⟩
  · exact ⟨(steps .type).take 5, _, (steps .type).drop 6, rfl, .inl rfl, by decide, by decide, rfl⟩
  · exact ⟨(steps .type).take 7, _, (steps .type).drop 8, rfl, .inl rfl, by decide, by decide, rfl⟩
  · exact ⟨(steps .type).take 10, _, (steps .type).drop 11, rfl, .inr ⟨rfl, rfl⟩, by decide,
      by decide, rfl⟩
  · exact ⟨(steps .type).take 6, _, (steps .type).drop 7, rfl, .inl rfl, by decide, by decide, rfl⟩
  · exact ⟨(steps .type).take 8, _, (steps .type).drop 9, rfl, .inl rfl, by decide, by decide, rfl⟩

theorem steps_no_type (k : Kind) : ∀ p ∈ steps k, p.2 ≠ .many .type := by
  cases k <;> decide

theorem steps_other (k k' : Kind) (hk : member k = true) (h : k' ≠ .type) :
    ∀ p ∈ steps k', makes k p.2 = false := by
  cases k <;> first | (cases hk; done) | skip
  all_goals (cases k' <;> first | exact absurd rfl h | decide)

theorem waiting_cons (s : St) (k : Kind) (i : Nat) (e : Id) (q) (h : s.queue = (k, i, e) :: q) :
    waiting s = if k = .type then i :: waiting { s with queue := q }
      else waiting { s with queue := q } := by
  simp only [waiting, h, List.filterMap_cons]
  by_cases hk : k = .type <;> simp [hk]

theorem step_chain {W : World} (hw : Asm.Spec.ShortLists W) {f k} (hf : (f, k) ∈ Spec.memberLists)
    {s s1 : St} {n base k' i e q row} (h : Chain f k s n base)
    (hq : s.queue = (k', i, e) :: q)
    (hfill : fill W e (steps k') { s with queue := q } = .ok (row, s1)) :
    ∃ n' base', Chain f k { s1 with rows := upd s1.rows k' ((s1.rows k').set i row) } n' base' := by
  obtain ⟨l1, a, l2, hs, ha, h1, h2, hm⟩ := type_split f k hf
  have hkt : k ≠ .type := by rintro rfl; cases hm
  by_cases hk : k' = .type
  · subst hk
    rw [hs] at hfill
    obtain ⟨⟨m, f1, f2⟩, c, x, g1, g2, g3⟩ := fill_makes hm a ha l1 l2 hfill
      (by rw [← hs]; exact steps_no_type .type) h1 h2
    simp only at f1 f2 g1 g3
    have hw1 := waiting_cons s .type i e q hq
    rw [if_pos rfl, h.wait] at hw1
    have hlen := h.len
    have hpos : n < (s.rows .type).length := by
      rcases Nat.lt_or_ge n (s.rows .type).length with c | c
      · exact c
      · have : (s.rows .type).length - n = 0 := by omega
        rw [this] at hw1; cases hw1
    have hr : List.range' n ((s.rows .type).length - n) =
        n :: List.range' (n + 1) ((s.rows .type).length - (n + 1)) := by
      have : (s.rows .type).length - n = ((s.rows .type).length - (n + 1)) + 1 := by omega
      rw [this, List.range'_succ]
    rw [hr] at hw1
    have hi : n = i := (List.cons.inj hw1).1
    have hwq := (List.cons.inj hw1).2
    subst hi
    have hl1 : (s1.rows .type).length = (s.rows .type).length + m := by simp [f1]
    have hset : (upd s1.rows .type ((s1.rows .type).set n row) .type) =
        (s1.rows .type).set n row := by simp [upd]
    refine ⟨n + 1, fun j => if j ≤ n then base j else (s1.rows k).length, ?_⟩
    refine ⟨?_, ?_, ?_, ?_, ?_, ?_⟩
    · simp only [hset, List.length_set]; omega
    · simp only [hset, List.length_set]
      have : waiting { s1 with rows := upd s1.rows .type ((s1.rows .type).set n row) } =
          waiting s1 := rfl
      rw [this, f2, ← hwq, hl1]
      have e1 : (s.rows .type).length = n + 1 + ((s.rows .type).length - (n + 1)) := by omega
      conv => lhs; arg 2; arg 1; rw [e1]
      rw [List.range'_append_1]
      congr 1
      omega
    · simp only [Nat.zero_le, if_true, h.zero]
    · have : ¬ n + 1 ≤ n := by omega
      simp only [this, if_false]
      simp [upd, hkt]
    · intro j
      have htop := h.top
      by_cases c1 : j + 1 ≤ n
      · have c2 : j ≤ n := by omega
        simp only [c1, c2, if_true]; exact h.mono j
      · by_cases c2 : j ≤ n
        · have : j = n := by omega
          subst this
          simp only [c1, if_false, Nat.le_refl, if_true]
          omega
        · simp only [c1, c2, if_false]; omega
    · intro j hj
      simp only [hset]
      by_cases c1 : j + 1 ≤ n
      · have c2 : j ≤ n := by omega
        simp only [c1, c2, if_true]
        obtain ⟨b, r, y, d, e'⟩ := h.cells j (by omega)
        refine ⟨b, r, y, ?_, e'⟩
        rw [List.getElem?_set_ne (by omega), f1, List.getElem?_append_left (by omega)]
        exact d
      · have : j = n := by omega
        subst this
        have htop := h.top
        have hd : (s1.rows k).length - base j = c := by omega
        simp only [c1, if_false, Nat.le_refl, if_true, hd]
        refine ⟨?_, row, x, ?_, ?_⟩
        · rw [g2]; exact hw _ _
        · rw [List.getElem?_set_self (by omega)]
        · rw [h.top]; exact g3
  · obtain ⟨fr, hlen⟩ := fill_calm (steps k') hfill (steps_no_type k')
    have hlen := hlen k hm (steps_other k k' hm hk)
    have hw1 := waiting_cons s k' i e q hq
    rw [if_neg hk] at hw1
    have hc : Chain f k { s with queue := q } n base :=
      ⟨h.len, hw1 ▸ h.wait, h.zero, h.top, h.mono, h.cells⟩
    have hc1 := hc.frame fr hlen
    have := set_calm s1 k' hk ((s1.rows k').set i row) (by simp)
    exact ⟨n, base, hc1.frame this.1 (this.2 k hm)⟩

theorem drain_chain {W : World} (hw : Asm.Spec.ShortLists W) {f k} (hf : (f, k) ∈ Spec.memberLists) :
    ∀ (fuel : Nat) {s s' : St} {n base}, Chain f k s n base → drain W fuel s = .ok s' →
    ∃ n' base', Chain f k s' n' base'
  | 0, s, s', n, base, h, hd => by
    simp only [drain] at hd
    split at hd
    · cases hd; exact ⟨n, base, h⟩
    · cases hd
  | fuel + 1, s, s', n, base, h, hd => by
    simp only [drain] at hd
    cases hq : s.queue with
    | nil => simp only [hq] at hd; cases hd; exact ⟨n, base, h⟩
    | cons p q =>
      obtain ⟨k', i, e⟩ := p
      simp only [hq] at hd
      cases hfi : fill W e (steps k') { s with queue := q } with
      | error x => simp only [hfi] at hd; cases hd
      | ok r =>
        obtain ⟨row, s1⟩ := r
        simp only [hfi] at hd
        obtain ⟨n', base', h'⟩ := step_chain hw hf h hq hfi
        exact drain_chain hw hf fuel h' hd

theorem drain_empty {W : World} : ∀ (fuel : Nat) {s s' : St}, drain W fuel s = .ok s' →
    s'.queue = []
  | 0, s, s', hd => by
    simp only [drain] at hd
    split at hd
    · rename_i h; cases hd; exact List.isEmpty_iff.mp h
    · cases hd
  | fuel + 1, s, s', hd => by
    simp only [drain] at hd
    cases hq : s.queue with
    | nil => simp only [hq] at hd; cases hd; exact hq
    | cons p q =>
      obtain ⟨k', i, e⟩ := p
      simp only [hq] at hd
      cases hfi : fill W e (steps k') { s with queue := q } with
      | error x => simp only [hfi] at hd; cases hd
      | ok r =>
        obtain ⟨row, s1⟩ := r
        simp only [hfi] at hd
        exact drain_empty fuel hd

theorem commitTypes_calm : ∀ (l : List Id) (s : St), Calm s (commitTypes s l)
  | [], s => .refl s
  | t :: l, s => (commitOne_calm s .type t rfl).trans (commitTypes_calm l _)

theorem commitTypeDefs_calm {W : World} : ∀ (l : List Id) {s s' : St},
    commitTypeDefs W s l = .ok s' → Calm s s'
  | [], s, s', h => by cases h; exact .refl _
  | d :: l, s, s', h => by
    simp only [commitTypeDefs] at h
    split at h
    · cases h
    · rename_i hc
      exact (commitTypeDef_calm hc).trans (commitTypeDefs_calm l h)

theorem load_calm {W : World} {l : Load} {s s' : St} {r} (h : load W s l = .ok (r, s')) :
    Calm s s' := by
  cases l with
  | type t => exact commitType_calm (o := some t) (by simpa only [load] using h)
  | method m => exact commitMethod_calm (o := some m) (by simpa only [load] using h)
  | field f => exact commitField_calm h

theorem loads_calm {W : World} : ∀ (ls : List Load) {s s' : St} {rs},
    loads W ls s = .ok (rs, s') → Calm s s'
  | [], s, s', rs, h => by cases h; exact .refl _
  | l :: ls, s, s', rs, h => by
    simp only [loads] at h
    split at h
    · cases h
    · rename_i hc
      split at h
      · cases h
      · rename_i hd
        cases h
        exact (load_calm hc).trans (loads_calm ls hd)

/-- The lists of members of a written assembly. -/
theorem write_chain {W : World} (hw : Asm.Spec.ShortLists W) {f k} (hf : (f, k) ∈ Spec.memberLists)
    {fuel : Nat} {t : Tables} {rs} (h : write W fuel = .ok (t, rs)) :
    ∃ base : Nat → Nat, base 0 = 0 ∧ base (t .type).length = (t k).length ∧
      (∀ i, base i ≤ base (i + 1)) ∧
      ∀ i, i < (t .type).length → base (i + 1) - base i < 512 ∧
        ∃ row x, (t .type)[i]? = some row ∧
          row.lookup f = some (.ref (Ref.of (base i) (base (i + 1) - base i) x)) := by
  have hm : member k = true := by
    obtain ⟨_, _, _, _, _, _, _, hm⟩ := type_split f k hf
    exact hm
  simp only [write, commitAll] at h
  have c0 : Chain f k empty 0 (fun _ => 0) :=
    ⟨Nat.le_refl _, rfl, rfl, rfl, fun _ => Nat.le_refl _, fun i hi => absurd hi (Nat.not_lt_zero _)⟩
  cases hd : commitTypeDefs W (commitTypes empty W.types) W.typeDefs with
  | error x => simp only [hd] at h; cases h
  | ok s2 =>
    simp only [hd] at h
    have k2 := (commitTypes_calm W.types empty).trans (commitTypeDefs_calm W.typeDefs hd)
    have k3 := k2.trans (append_enque_calm s2 .assembly W.self rfl)
    have c3 := c0.frame k3.1 (k3.2 k hm)
    cases hr : drain W fuel ((s2.append .assembly W.self).enque .assembly
        (s2.rows .assembly).length W.self) with
    | error x => simp only [hr] at h; cases h
    | ok s4 =>
      simp only [hr] at h
      obtain ⟨n4, b4, c4⟩ := drain_chain hw hf fuel c3 hr
      cases hl : loads W W.loads s4 with
      | error x => simp only [hl] at h; cases h
      | ok p =>
        obtain ⟨rs', s5⟩ := p
        simp only [hl] at h
        have k5 := loads_calm W.loads hl
        have c5 := c4.frame k5.1 (k5.2 k hm)
        cases hr2 : drain W fuel s5 with
        | error x => simp only [hr2] at h; cases h
        | ok s6 =>
          simp only [hr2] at h
          cases h
          obtain ⟨n6, b6, c6⟩ := drain_chain hw hf fuel c5 hr2
          have hq := drain_empty fuel hr2
          have hwt : waiting s6 = [] := by simp [waiting, hq]
          have hn : n6 = (s6.rows .type).length := by
            have := congrArg List.length c6.wait
            rw [hwt, List.length_range'] at this
            have := c6.len
            simp only [List.length_nil] at *
            omega
          subst hn
          exact ⟨b6, c6.zero, c6.top, c6.mono, c6.cells⟩

/-- As `write_chain`, with the numbers that are in the cells. -/
theorem write_ranges {W : World} (hw : Asm.Spec.ShortLists W) {f k}
    (hf : (f, k) ∈ Spec.memberLists) {fuel : Nat} {t : Tables} {rs}
    (h : write W fuel = .ok (t, rs)) (small : (t k).length < 2 ^ 20) :
    ∃ base : Nat → Nat, base 0 = 0 ∧ base (t .type).length = (t k).length ∧
      (∀ i j, i ≤ j → base i ≤ base j) ∧
      ∀ i, i < (t .type).length → (refAt (rowOf t (.type, i)) f).index = base i ∧
        (refAt (rowOf t (.type, i)) f).count = base (i + 1) - base i := by
  obtain ⟨base, z, top, mono, cells⟩ := write_chain hw hf h
  have mono' : ∀ i j, i ≤ j → base i ≤ base j := by
    intro i j hij
    induction hij with
    | refl => exact Nat.le_refl _
    | step _ ih => exact Nat.le_trans ih (mono _)
  refine ⟨base, z, top, mono', ?_⟩
  intro i hi
  obtain ⟨h1, row, x, h2, h3⟩ := cells i hi
  rw [rowOf_eq h2, refAt_eq h3, ref_index, ref_count]
  have := mono' i _ (Nat.le_of_lt hi)
  have h9 : (2 : Nat) ^ 9 = 512 := rfl
  exact ⟨Nat.mod_eq_of_lt (by omega), Nat.mod_eq_of_lt (by omega)⟩

/-- A point in a range between two neighbours. -/
theorem range_of (base : Nat → Nat) (j : Nat) : ∀ n, base 0 ≤ j → j < base n →
    ∃ i, i < n ∧ base i ≤ j ∧ j < base (i + 1)
  | 0, h0, h1 => by omega
  | n + 1, h0, h1 => by
    by_cases c : j < base n
    · obtain ⟨i, a, b, d⟩ := range_of base j n h0 c
      exact ⟨i, by omega, b, d⟩
    · exact ⟨n, by omega, by omega, h1⟩

theorem listed_iff {t : Tables} {i : Nat} {f k} {base : Nat → Nat} {j : Nat}
    (top : base (t .type).length = (t k).length) (mono : ∀ i j, i ≤ j → base i ≤ base j)
    (cells : ∀ i, i < (t .type).length → (refAt (rowOf t (.type, i)) f).index = base i ∧
        (refAt (rowOf t (.type, i)) f).count = base (i + 1) - base i) :
    Spec.Listed t i f k j ↔ i < (t .type).length ∧ base i ≤ j ∧ j < base (i + 1) := by
  constructor
  · rintro ⟨hi, l, hl, hm⟩
    obtain ⟨c1, c2⟩ := cells i hi
    refine ⟨hi, ?_⟩
    simp only [getMany] at hl
    split at hl
    · cases hl; cases hm
    · split at hl
      · cases hl
      · cases hl
        rw [List.mem_map] at hm
        obtain ⟨x, hx, he⟩ := hm
        rw [List.mem_range] at hx
        have := (Prod.mk.inj he).2
        omega
  · rintro ⟨hi, h1, h2⟩
    obtain ⟨c1, c2⟩ := cells i hi
    refine ⟨hi, (List.range (base (i + 1) - base i)).map fun x => (k, base i + x), ?_, ?_⟩
    · have hle := mono (i + 1) _ (by omega : i + 1 ≤ (t .type).length)
      have hn : (refAt (rowOf t (.type, i)) f).isNull = false := by
        simp only [Ref.isNull, c2, beq_eq_false_iff_ne]; omega
      simp only [getMany, hn, c1, c2]
      rw [if_neg (by simp), if_neg (by omega)]
    · rw [List.mem_map]
      exact ⟨j - base i, List.mem_range.mpr (by omega), by congr 1; omega⟩

theorem search_eq {t : Tables} {i : Nat} {f} {base : Nat → Nat} {j : Nat}
    (mono : ∀ i j, i ≤ j → base i ≤ base j)
    (cells : ∀ i, i < (t .type).length → (refAt (rowOf t (.type, i)) f).index = base i ∧
        (refAt (rowOf t (.type, i)) f).count = base (i + 1) - base i)
    (hi : i < (t .type).length) (h1 : base i ≤ j) (h2 : j < base (i + 1)) :
    searchHost t f j = some i := by
  have hm := mono i (i + 1) (by omega)
  simp only [searchHost]
  apply binaryFind_eq _ i _ 0 _ (by omega) (Nat.zero_le _) hi
  · intro x _ hx
    obtain ⟨c1, c2⟩ := cells x (by omega)
    have a1 := mono (x + 1) i (by omega)
    have a2 := mono x (x + 1) (by omega)
    simp only [compare, c1, c2]
    rw [if_neg (by omega), if_pos (by omega)]
    decide
  · obtain ⟨c1, c2⟩ := cells i hi
    simp only [compare, c1, c2]
    rw [if_neg (by omega), if_neg (by omega)]
  · intro x hx hx2
    obtain ⟨c1, c2⟩ := cells x hx2
    have a1 := mono (i + 1) x (by omega)
    simp only [compare, c1, c2]
    rw [if_pos (by omega)]
    decide

/-- The declaration of a row in the list of a class. -/
theorem member_at {W : World} (hw : Asm.Spec.ShortLists W) {f k} (hfk : (f, k) ∈ Spec.memberLists)
    {ent : Ents} {t : Tables} (hf : Final W ent t) (small : (t k).length < 2 ^ 20)
    {base : Nat → Nat} {i j : Nat} (hi : i < (t .type).length)
    (c1 : (refAt (rowOf t (.type, i)) f).index = base i)
    (c2 : (refAt (rowOf t (.type, i)) f).count = base (i + 1) - base i)
    (h1 : base i ≤ j) (h2 : j < base (i + 1)) :
    ∃ c e, (ent .type)[i]? = some c ∧ (ent k)[j]? = some e ∧
      (W.many c f)[j - base i]? = some e := by
  have hi' : i < (ent .type).length := by rw [← hf.len]; exact hi
  obtain ⟨l1, a, l2, hs, ha, _, _, _⟩ := type_split f k hfk
  have hrow := List.getElem?_eq_getElem hi
  have hent := List.getElem?_eq_getElem hi'
  have hd := hf.done .type i _ _ hent hrow
  obtain ⟨cell, e1, e2⟩ := hd f a (by
    show (f, a) ∈ steps .type
    rw [hs]; simp)
  have hmany : ∃ r, cell = .ref r ∧ ManyOk ent k (W.many ((ent .type)[i]) f) r := by
    rcases ha with rfl | ⟨rfl, rfl⟩ <;> exact e2
  obtain ⟨r, rfl, hm⟩ := hmany
  rw [rowOf_eq hrow, refAt_eq e1] at c1 c2
  rcases hm with ⟨_, h0⟩ | ⟨hne, b, hr, hat⟩
  · exfalso
    simp only [Ref.isNull, c2, beq_iff_eq] at h0
    omega
  · have hlen := hw ((ent .type)[i]) f
    have hpos : 0 < (W.many ((ent .type)[i]) f).length := List.length_pos_iff.mpr hne
    have hb : b < 2 ^ 20 := by
      have := hat 0 _ (List.getElem?_eq_getElem hpos)
      have := (List.getElem?_eq_some_iff.mp this).1
      rw [← hf.len] at this
      omega
    have hcount : r.count = (W.many ((ent .type)[i]) f).length := by
      rw [hr, ref_count]; exact Nat.mod_eq_of_lt hlen
    have hindex : r.index = b := by rw [hr, ref_index]; exact Nat.mod_eq_of_lt hb
    have hj : j - base i < (W.many ((ent .type)[i]) f).length := by omega
    refine ⟨_, (W.many ((ent .type)[i]) f)[j - base i], hent, ?_, List.getElem?_eq_getElem hj⟩
    have := hat _ _ (List.getElem?_eq_getElem hj)
    have e3 : b + (j - base i) = j := by omega
    rw [e3] at this
    exact this

/-- The row of a nested class in the table of nested classes. -/
theorem nest_row {W : World} {ent : Ents} {t : Tables} (hf : Final W ent t) {j : Nat} {e : Id}
    (hj : (ent .nestType)[j]? = some e) : ∃ row r, (t .nestType)[j]? = some row ∧
      refAt row "type" = r ∧ TypeOk W ent (some e) r := by
  have hlt := (List.getElem?_eq_some_iff.mp hj).1
  rw [← hf.len] at hlt
  have hrow := List.getElem?_eq_getElem hlt
  obtain ⟨c, e1, r, rfl, e2⟩ := hf.done .nestType j e _ hj hrow "type" .itself (by
    show _ ∈ steps .nestType
    simp [steps])
  exact ⟨_, r, hrow, refAt_eq e1, e2⟩

/-- A reference that leads to a class of the assembly. -/
theorem type_ref {W : World} {ent : Ents} {t : Tables} (hf : Final W ent t)
    (small : (t .type).length ≤ 2 ^ 20) {e : Id} {r : Ref} (h : TypeOk W ent (some e) r)
    (hx : r.extra = 0) (hn : r.isNull = false) :
    ∃ c, (ent .type)[c]? = some e ∧ r = Ref.of c 1 0 ∧ r.index = c ∧ c < (t .type).length := by
  simp only [TypeOk] at h
  have key : ∀ k, Denotes ent k r e → r.extra = extra k := by
    rintro k ⟨i, _, rfl⟩
    exact extra_mod k
  have main : Denotes ent .type r e := by
    cases hg : W.gtype e with
    | general b =>
      rw [hg] at h
      cases b
      · have := key _ h; rw [hx] at this; cases this
      · exact h
    | generic => rw [hg] at h; have := key _ h; rw [hx] at this; cases this
    | array => rw [hg] at h; have := key _ h; rw [hx] at this; cases this
    | genericParam j =>
      rw [hg] at h
      rcases h with h | h
      · have := key _ h; rw [hx] at this; cases this
      · rw [h] at hx; cases hx
    | typeDefParam => rw [hg] at h; have := key _ h; rw [hx] at this; cases this
    | null =>
      rw [hg] at h
      have h : r = Ref.null := h
      rw [h] at hn; cases hn
  obtain ⟨c, h1, h2⟩ := main
  have hlt := (List.getElem?_eq_some_iff.mp h1).1
  rw [← hf.len] at hlt
  refine ⟨c, h1, h2, ?_, hlt⟩
  rw [h2, ref_index]
  exact Nat.mod_eq_of_lt (by omega)

theorem findIdx?_some_of {α : Type} (p : α → Bool) : ∀ (l : List α) (j : Nat) (a : α),
    l[j]? = some a → p a = true → ∃ i b, l.findIdx? p = some i ∧ l[i]? = some b ∧ p b = true
  | [], j, a, h, _ => by simp at h
  | x :: l, j, a, h, hp => by
    rw [List.findIdx?_cons]
    by_cases hx : p x = true
    · exact ⟨0, x, by simp [hx], rfl, hx⟩
    · cases j with
      | zero => cases h; exact absurd hp hx
      | succ j =>
        obtain ⟨i, b, h1, h2, h3⟩ := findIdx?_some_of p l j a h hp
        exact ⟨i + 1, b, by simp [hx, h1], h2, h3⟩

end Verif.Host
