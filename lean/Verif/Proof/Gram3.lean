/-
  The answers to the question whether a rule matches nothing, and ways through the nodes of a rule.
-/
import Verif.Proof.Gram2

namespace Verif.Gram.Proof

open Verif.Gram Verif.Gram.Spec

/-! ## Answers -/

section Answers

variable {X : Nat → Lang} {G : Grammar}

/-- What was answered with yes matches nothing. -/
def Right (X : Nat → Lang) (G : Grammar) (c : Cache) : Prop :=
  ∀ x, c.lookup x = some true → Sentence X G x []

/-- A question is answered rightly if with yes, and the table stays right. -/
def AskRight (X : Nat → Lang) (G : Grammar) (ask : Nat → Cache → Bool × Cache) : Prop :=
  ∀ x c, Right X G c → Right X G (ask x c).2 ∧ ((ask x c).1 = true → Sentence X G x [])

mutual

theorem askItem_right {ask : Nat → Cache → Bool × Cache} (h : AskRight X G ask) :
    ∀ (i : Item) (c : Cache), Right X G c → Right X G (askItem ask i c).2 ∧
      ((askItem ask i c).1 = true → ofItem (Sentence X G) i [])
  | .tok t r, c, hc => by
    simp only [askItem, ofItem]
    exact ⟨hc, repeated_opt⟩
  | .ref x r, c, hc => by
    simp only [askItem, ofItem]
    by_cases hr : r.opt = true
    · rw [if_pos hr]
      exact ⟨hc, fun _ => repeated_opt hr⟩
    · rw [if_neg hr]
      exact ⟨(h x c hc).1, fun h' => repeated_one r ((h x c hc).2 h')⟩
  | .group a r, c, hc => by
    simp only [askItem, ofItem]
    by_cases hr : r.opt = true
    · rw [if_pos hr]
      exact ⟨hc, fun _ => repeated_opt hr⟩
    · rw [if_neg hr]
      have ih := askAlts_right h a c hc
      exact ⟨ih.1, fun h' => repeated_one r (ih.2 h')⟩

theorem askSeq_right {ask : Nat → Cache → Bool × Cache} (h : AskRight X G ask) :
    ∀ (s : Seq) (c : Cache), Right X G c → Right X G (askSeq ask s c).2 ∧
      ((askSeq ask s c).1 = true → ofSeq (Sentence X G) s [])
  | .nil, c, hc => by
    simp only [askSeq, ofSeq]
    exact ⟨hc, fun _ => trivial⟩
  | .cons i s, c, hc => by
    have ih := askItem_right h i c hc
    rw [askSeq.eq_def]
    simp only
    cases hq : askItem ask i c with
    | mk b c' =>
      rw [hq] at ih
      cases b with
      | false => exact ⟨ih.1, fun h' => absurd h' (by simp)⟩
      | true =>
        have ih' := askSeq_right h s c' ih.1
        refine ⟨ih'.1, fun h' => ?_⟩
        simp only [ofSeq]
        exact ⟨[], [], rfl, ih.2 rfl, ih'.2 h'⟩

theorem askAlts_right {ask : Nat → Cache → Bool × Cache} (h : AskRight X G ask) :
    ∀ (a : Alts) (c : Cache), Right X G c → Right X G (askAlts ask a c).2 ∧
      ((askAlts ask a c).1 = true → ofAlts (Sentence X G) a [])
  | .nil, c, hc => by
    simp only [askAlts]
    exact ⟨hc, fun h' => absurd h' (by simp)⟩
  | .cons .nil a, c, hc => by
    simp only [askAlts, ofAlts, ofSeq]
    exact ⟨(askAlts_right h a c hc).1, fun _ => .inl trivial⟩
  | .cons (.cons i s) a, c, hc => by
    have ih := askSeq_right h (.cons i s) c hc
    rw [askAlts.eq_def]
    simp only
    cases hq : askSeq ask (.cons i s) c with
    | mk b c' =>
      rw [hq] at ih
      cases b with
      | true =>
        refine ⟨ih.1, fun _ => ?_⟩
        simp only [ofAlts]
        exact .inl (ih.2 rfl)
      | false =>
        have ih' := askAlts_right h a c' ih.1
        refine ⟨ih'.1, fun h' => ?_⟩
        simp only [ofAlts]
        exact .inr (ih'.2 h')

end

theorem right_cons {c : Cache} {x : Nat} {b : Bool} (hc : Right X G c)
    (hb : b = true → Sentence X G x []) : Right X G ((x, b) :: c) := by
  intro y hy
  rw [List.lookup_cons] at hy
  by_cases hx : y = x
  · subst hx
    simp at hy
    exact hb hy
  · have : (y == x) = false := by simp [hx]
    rw [this] at hy
    exact hc y hy

theorem askRule_right : ∀ (n : Nat), AskRight X G (askRule G n)
  | 0, x, c, hc => by
    simp only [askRule]
    exact ⟨hc, fun h => absurd h (by simp)⟩
  | n + 1, x, c, hc => by
    rw [askRule]
    cases hg : G x with
    | none => exact ⟨hc, fun h => absurd h (by simp)⟩
    | some a =>
      simp only
      cases hl : c.lookup x with
      | some b =>
        refine ⟨hc, fun h => ?_⟩
        simp only at h
        subst h
        exact hc x hl
      | none =>
        have ih := askAlts_right (askRule_right n) a ((x, false) :: c)
          (right_cons hc (fun h => absurd h (by simp)))
        simp only
        cases hq : askAlts (askRule G n) a ((x, false) :: c) with
        | mk b c' =>
          rw [hq] at ih
          have hs : b = true → Sentence X G x [] := fun h => (sentence_rule hg).mpr (ih.2 h)
          exact ⟨right_cons ih.1 hs, hs⟩

/-- Whatever was asked before. -/
theorem asked_right {c : Cache} (h : Asked G c) : Right X G c := by
  induction h with
  | none => intro x hx; simp at hx
  | ask n x _ ih => exact (askRule_right n x _ ih).1

theorem knows_null {e : Env} (h : Knows G e) (r : Nat) (hr : e.null r = true) :
    Sentence X G r [] := by
  obtain ⟨n, c, hc, he⟩ := h.2.2 r
  exact (askRule_right n r c (asked_right hc)).2 (he ▸ hr)

end Answers

/-! ## Ways through the nodes -/

inductive Kind where
  | enter
  | run
  | after

/-- What can be read from a node on: if it is entered, if it is entered or passed by, or if it is
    left. -/
inductive Run (T : List Node) (L : Nat → Lang) : Kind → Nat → List Nat → Prop where
  | tok {u t w} : (nodeAt T u).label = .tok t → Run T L .after u w → Run T L .enter u (t :: w)
  | ref {u r v w} : (nodeAt T u).label = .ref r → L r v → Run T L .after u w →
      Run T L .enter u (v ++ w)
  | group {u s w} : (nodeAt T u).label = .group → s ∈ (nodeAt T u).subnodes → Run T L .run s w →
      Run T L .enter u w
  | stop {u own} : (nodeAt T u).label = .stop own → (nodeAt T own).inner = false →
      Run T L .enter u []
  | out {u own w} : (nodeAt T u).label = .stop own → (nodeAt T own).inner = true →
      Run T L .after own w → Run T L .enter u w
  | enter {u w} : Run T L .enter u w → Run T L .run u w
  | skip {u n w} : (nodeAt T u).skip = true → n ∈ (nodeAt T u).nodes → Run T L .run n w →
      Run T L .run u w
  | next {u n w} : n ∈ (nodeAt T u).nodes → Run T L .run n w → Run T L .after u w
  | again {u w} : (nodeAt T u).loop = true → Run T L .enter u w → Run T L .after u w

/-! ## Where the nodes are -/

mutual

theorem length_layItem (e : Env) : ∀ (i : Item) (u : Nat), (layItem e u i).length = sizeItem i
  | .tok _ _, u => by simp [layItem, sizeItem]
  | .ref _ _, u => by simp [layItem, sizeItem]
  | .group a r, u => by
    simp only [layItem, sizeItem, List.length_cons, length_layAlts e a u (u + 1)]
    omega

theorem length_laySeq (e : Env) : ∀ (s : Seq) (own u : Nat),
    (laySeq e own u s).length = sizeSeq s
  | .nil, own, u => by simp [laySeq, sizeSeq]
  | .cons i s, own, u => by
    simp only [laySeq, sizeSeq, List.length_append, length_layItem e i u,
      length_laySeq e s own (u + sizeItem i)]

theorem length_layAlts (e : Env) : ∀ (a : Alts) (own u : Nat),
    (layAlts e own u a).length = sizeAlts a
  | .nil, own, u => by simp [layAlts, sizeAlts]
  | .cons .nil a, own, u => by
    simp only [layAlts, sizeAlts, length_layAlts e a own u]
  | .cons (.cons i s) a, own, u => by
    simp only [layAlts, sizeAlts, List.length_append, length_laySeq e (.cons i s) own u,
      length_layAlts e a own (u + sizeSeq (.cons i s))]

end

/-- The nodes `l` are in the table from `u` on. -/
def Seg (T : List Node) (u : Nat) (l : List Node) : Prop :=
  ∃ pre post, T = pre ++ l ++ post ∧ pre.length = u

theorem Seg.left {T : List Node} {u : Nat} {l l' : List Node} (h : Seg T u (l ++ l')) :
    Seg T u l := by
  obtain ⟨pre, post, hT, hp⟩ := h
  exact ⟨pre, l' ++ post, by simp [hT], hp⟩

theorem Seg.right {T : List Node} {u : Nat} {l l' : List Node} (h : Seg T u (l ++ l')) :
    Seg T (u + l.length) l' := by
  obtain ⟨pre, post, hT, hp⟩ := h
  exact ⟨pre ++ l, post, by simp [hT], by simp [hp]⟩

theorem Seg.head {T : List Node} {u : Nat} {x : Node} {l : List Node} (h : Seg T u (x :: l)) :
    nodeAt T u = x := by
  obtain ⟨pre, post, hT, hp⟩ := h
  subst hT; subst hp
  simp [nodeAt]

theorem Seg.tail {T : List Node} {u : Nat} {x : Node} {l : List Node} (h : Seg T u (x :: l)) :
    Seg T (u + 1) l := Seg.right (l := [x]) h

/-- Whether the node of an element can be passed by. -/
def skipOf (e : Env) : Item → Bool
  | .tok _ r => r.opt
  | .ref x r => (substract r (e.rep x)).opt || (r.opt || e.null x)
  | .group a r => r.opt || nullAlts e.null a

/-- Whether it can come again. -/
def loopOf (e : Env) : Item → Bool
  | .tok _ r => r.loops
  | .ref x r => (substract r (e.rep x)).loops
  | .group _ r => r.loops

/-- What it matches once. -/
def baseOf (e : Env) (L : Nat → Lang) : Item → Lang
  | .tok t _ => fun w => w = [t]
  | .ref x _ => L x
  | .group a _ => effAlts e L a

theorem effItem_eq (e : Env) (L : Nat → Lang) (i : Item) :
    effItem e L i = eff (skipOf e i) (loopOf e i) (baseOf e L i) := by
  cases i <;> simp [effItem, skipOf, loopOf, baseOf]

theorem item_node {T : List Node} {e : Env} {u : Nat} {i : Item} (h : Seg T u (layItem e u i)) :
    (nodeAt T u).skip = skipOf e i ∧ (nodeAt T u).loop = loopOf e i ∧
    (nodeAt T u).nodes = [u + sizeItem i] ∧ (nodeAt T u).inner = true := by
  cases i with
  | tok t r =>
    simp only [layItem] at h
    rw [h.head]
    exact ⟨rfl, rfl, rfl, rfl⟩
  | ref x r =>
    simp only [layItem] at h
    rw [h.head]
    exact ⟨rfl, rfl, rfl, rfl⟩
  | group a r =>
    simp only [layItem] at h
    rw [h.head]
    exact ⟨rfl, rfl, rfl, rfl⟩

theorem Seg.item {T : List Node} {e : Env} {own u : Nat} {i : Item} {s : Seq}
    (h : Seg T u (laySeq e own u (.cons i s))) : Seg T u (layItem e u i) := by
  simp only [laySeq] at h
  exact h.left

theorem Seg.rest {T : List Node} {e : Env} {own u : Nat} {i : Item} {s : Seq}
    (h : Seg T u (laySeq e own u (.cons i s))) :
    Seg T (u + sizeItem i) (laySeq e own (u + sizeItem i) s) := by
  simp only [laySeq] at h
  have := h.right
  rwa [length_layItem] at this

/-! ## What the nodes match can be read -/

/-- What can be read once an alternative of `own` is over. -/
def Leave (T : List Node) (L : Nat → Lang) (own : Nat) (w : List Nat) : Prop :=
  ((nodeAt T own).inner = false ∧ w = []) ∨ ((nodeAt T own).inner = true ∧ Run T L .after own w)

mutual

theorem run_item {T : List Node} {e : Env} {L : Nat → Lang} :
    ∀ (i : Item) (u : Nat), FullItem i → Seg T u (layItem e u i) → ∀ (v w : List Nat),
      baseOf e L i v → Run T L .after u w → Run T L .enter u (v ++ w)
  | .tok t r, u, _, hT, v, w, hv, hw => by
    simp only [layItem] at hT
    simp only [baseOf] at hv
    subst hv
    exact .tok (by rw [hT.head]) hw
  | .ref x r, u, _, hT, v, w, hv, hw => by
    simp only [layItem] at hT
    simp only [baseOf] at hv
    exact .ref (by rw [hT.head]) hv hw
  | .group a r, u, hf, hT, v, w, hv, hw => by
    have hin := (item_node hT).2.2.2
    simp only [layItem] at hT
    simp only [baseOf] at hv
    simp only [FullItem] at hf
    obtain ⟨s, hs, hr⟩ := run_alts a u (u + 1) hf hT.tail v w hv (.inr ⟨hin, hw⟩)
    exact .group (s := s) (by rw [hT.head]) (by rw [hT.head]; exact hs) hr

theorem run_seq {T : List Node} {e : Env} {L : Nat → Lang} :
    ∀ (s : Seq) (own u : Nat), FullSeq s → Seg T u (laySeq e own u s) → ∀ (v w : List Nat),
      effSeq e L s v → Leave T L own w → Run T L .run u (v ++ w)
  | .nil, own, u, _, hT, v, w, hv, hw => by
    simp only [laySeq] at hT
    simp only [effSeq] at hv
    subst hv
    refine .enter ?_
    rcases hw with ⟨hi, rfl⟩ | ⟨hi, hw⟩
    · exact .stop (own := own) (by rw [hT.head]) hi
    · exact .out (own := own) (by rw [hT.head]) hi hw
  | .cons i s, own, u, hf, hT, v, w, hv, hw => by
    simp only [FullSeq] at hf
    simp only [effSeq] at hv
    obtain ⟨a, b, rfl, ha, hb⟩ := hv
    have hrest := run_seq s own (u + sizeItem i) hf.2 hT.rest b w hb hw
    obtain ⟨hsk, hlo, hn, _⟩ := item_node hT.item
    have hmem : u + sizeItem i ∈ (nodeAt T u).nodes := by rw [hn]; simp
    rw [effItem_eq] at ha
    rw [List.append_assoc]
    have hafter := Run.next hmem hrest
    rcases ha with ⟨hs, rfl⟩ | ha
    · exact .skip (by rw [hsk, hs]) hmem hrest
    · refine .enter ?_
      by_cases hl : loopOf e i = true
      · rw [if_pos hl] at ha
        obtain ⟨c, d, rfl, hc, hd⟩ := ha
        rw [List.append_assoc]
        refine run_item i u hf.1 hT.item c _ hc ?_
        clear hc
        induction hd with
        | nil => exact hafter
        | cons hx _ ih =>
          rw [List.append_assoc]
          exact .again (by rw [hlo, hl]) (run_item i u hf.1 hT.item _ _ hx ih)
      · rw [if_neg hl] at ha
        exact run_item i u hf.1 hT.item a _ ha hafter

theorem run_alts {T : List Node} {e : Env} {L : Nat → Lang} :
    ∀ (a : Alts) (own u : Nat), FullAlts a → Seg T u (layAlts e own u a) → ∀ (v w : List Nat),
      effAlts e L a v → Leave T L own w → ∃ s ∈ firsts u a, Run T L .run s (v ++ w)
  | .nil, own, u, _, hT, v, w, hv, hw => by simp only [effAlts] at hv
  | .cons .nil a, own, u, hf, hT, v, w, hv, hw => by
    simp only [FullAlts] at hf
    exact absurd rfl hf.1
  | .cons (.cons i s) a, own, u, hf, hT, v, w, hv, hw => by
    simp only [FullAlts] at hf
    simp only [layAlts] at hT
    simp only [effAlts] at hv
    simp only [firsts]
    rcases hv with hv | hv
    · exact ⟨u, by simp, run_seq (.cons i s) own u hf.2.1 hT.left v w hv hw⟩
    · have hT' := hT.right
      rw [length_laySeq] at hT'
      obtain ⟨s', hs', hr⟩ := run_alts a own _ hf.2.2 hT' v w hv hw
      exact ⟨s', List.mem_cons_of_mem _ hs', hr⟩

end

/-! ## Nothing else can be read -/

/-- Words of one language and then of the other. -/
def cat (A B : Lang) : Lang := fun w => ∃ u v, w = u ++ v ∧ A u ∧ B v

theorem cat_assoc {A B C : Lang} {w : List Nat} : cat A (cat B C) w → cat (cat A B) C w := by
  rintro ⟨a, _, rfl, ha, b, c, rfl, hb, hc⟩
  exact ⟨a ++ b, c, by simp, ⟨a, b, rfl, ha, hb⟩, hc⟩

theorem cat_left {A B C : Lang} (h : ∀ w, A w → B w) {w : List Nat} : cat A C w → cat B C w := by
  rintro ⟨a, b, rfl, ha, hb⟩
  exact ⟨a, b, rfl, h _ ha, hb⟩

/-- Further matches of an element. -/
def more (e : Env) (L : Nat → Lang) (i : Item) : Lang := fun w =>
  w = [] ∨ (loopOf e i = true ∧ Many (baseOf e L i) w)

/-- The groups around a node: what is in them, their repetition and the elements after them. -/
inductive Ctx where
  | root
  | inner (a : Alts) (r : Rep) (s : Seq) (K : Ctx)

/-- The groups around the elements of `own` are these. -/
inductive In (e : Env) (T : List Node) : Nat → Ctx → Prop where
  | root {u} : (nodeAt T u).inner = false → In e T u .root
  | inner {u own a r s K} : Seg T u (laySeq e own u (.cons (.group a r) s)) → In e T own K →
      In e T u (.inner a r s K)

/-- What comes after the end of an alternative. -/
def rest (e : Env) (L : Nat → Lang) : Ctx → Lang
  | .root => fun w => w = []
  | .inner a r s K => cat (more e L (.group a r)) (cat (effSeq e L s) (rest e L K))

/-- What comes from the elements `s` on, if the first is entered. -/
def entered (e : Env) (L : Nat → Lang) : Seq → Ctx → Lang
  | .nil, K => rest e L K
  | .cons i s, K => cat (baseOf e L i) (cat (more e L i) (cat (effSeq e L s) (rest e L K)))

/-- What should come, by the kind. -/
def Says (e : Env) (T : List Node) (L : Nat → Lang) : Kind → Nat → List Nat → Prop
  | .enter, u, w => ∀ own s K, Seg T u (laySeq e own u s) → In e T own K → entered e L s K w
  | .run, u, w => ∀ own s K, Seg T u (laySeq e own u s) → In e T own K →
      cat (effSeq e L s) (rest e L K) w
  | .after, u, w => ∀ own i s K, Seg T u (laySeq e own u (.cons i s)) → In e T own K →
      cat (more e L i) (cat (effSeq e L s) (rest e L K)) w

theorem alt_of_first {T : List Node} {e : Env} {own : Nat} {x : Nat} :
    ∀ (a : Alts) (u : Nat), Seg T u (layAlts e own u a) → x ∈ firsts u a →
      ∃ s, Seg T x (laySeq e own x s) ∧ ∀ L w, effSeq e L s w → effAlts e L a w
  | .nil, u, _, h => by simp [firsts] at h
  | .cons .nil a, u, hT, h => by
    simp only [firsts] at h
    simp only [layAlts] at hT
    obtain ⟨s, hs, hw⟩ := alt_of_first a u hT h
    exact ⟨s, hs, fun L w h => by simp only [effAlts]; exact .inr (hw L w h)⟩
  | .cons (.cons i s) a, u, hT, h => by
    simp only [firsts, List.mem_cons] at h
    simp only [layAlts] at hT
    rcases h with rfl | h
    · exact ⟨_, hT.left, fun L w h => by simp only [effAlts]; exact .inl h⟩
    · have hT' := hT.right
      rw [length_laySeq] at hT'
      obtain ⟨s', hs, hw⟩ := alt_of_first a _ hT' h
      exact ⟨s', hs, fun L w h => by simp only [effAlts]; exact .inr (hw L w h)⟩

theorem base_more_eff (e : Env) (L : Nat → Lang) (i : Item) {w : List Nat}
    (h : cat (baseOf e L i) (more e L i) w) : effItem e L i w := by
  rw [effItem_eq]
  obtain ⟨a, b, rfl, ha, hb⟩ := h
  refine .inr ?_
  rcases hb with rfl | ⟨hl, hb⟩
  · by_cases hl : loopOf e i = true
    · rw [if_pos hl]; exact ⟨a, [], rfl, ha, .nil⟩
    · rw [if_neg hl]; simpa using ha
  · rw [if_pos hl]
    exact ⟨a, b, rfl, ha, hb⟩

theorem run_says {T : List Node} {e : Env} {L : Nat → Lang} {k : Kind} {u : Nat} {w : List Nat}
    (h : Run T L k u w) : Says e T L k u w := by
  induction h with
  | @tok u t w hl _ ih =>
    intro own s K hT hK
    cases s with
    | nil => simp only [laySeq] at hT; rw [hT.head] at hl; simp at hl
    | cons i s =>
      have hi := hT.item
      cases i with
      | tok t' r =>
        simp only [layItem] at hi
        rw [hi.head] at hl
        simp at hl
        subst hl
        exact ⟨[t'], w, rfl, rfl, ih own _ s K hT hK⟩
      | ref x r => simp only [layItem] at hi; rw [hi.head] at hl; simp at hl
      | group a r => simp only [layItem] at hi; rw [hi.head] at hl; simp at hl
  | @ref u r v w hl hv _ ih =>
    intro own s K hT hK
    cases s with
    | nil => simp only [laySeq] at hT; rw [hT.head] at hl; simp at hl
    | cons i s =>
      have hi := hT.item
      cases i with
      | ref x q =>
        simp only [layItem] at hi
        rw [hi.head] at hl
        simp at hl
        subst hl
        exact ⟨v, w, rfl, hv, ih own _ s K hT hK⟩
      | tok x r => simp only [layItem] at hi; rw [hi.head] at hl; simp at hl
      | group a r => simp only [layItem] at hi; rw [hi.head] at hl; simp at hl
  | @group u x w hl hx _ ih =>
    intro own s K hT hK
    cases s with
    | nil => simp only [laySeq] at hT; rw [hT.head] at hl; simp at hl
    | cons i s =>
      have hi := hT.item
      cases i with
      | tok t' r => simp only [layItem] at hi; rw [hi.head] at hl; simp at hl
      | ref x r => simp only [layItem] at hi; rw [hi.head] at hl; simp at hl
      | group a r =>
        simp only [layItem] at hi
        rw [hi.head] at hx
        obtain ⟨s', hs', hw⟩ := alt_of_first a (u + 1) hi.tail hx
        have := ih u s' (.inner a r s K) hs' (.inner hT hK)
        exact cat_left (fun w h => hw L w h) this
  | @stop u own hl hi =>
    intro own' s K hT hK
    cases s with
    | nil =>
      simp only [laySeq] at hT
      rw [hT.head] at hl
      simp at hl
      subst hl
      cases hK with
      | root _ => exact rfl
      | inner hs _ => rw [(item_node hs.item).2.2.2] at hi; simp at hi
    | cons i s =>
      have hi := hT.item
      cases i <;> · simp only [layItem] at hi; rw [hi.head] at hl; simp at hl
  | @out u own w hl hi _ ih =>
    intro own' s K hT hK
    cases s with
    | nil =>
      simp only [laySeq] at hT
      rw [hT.head] at hl
      simp at hl
      subst hl
      cases hK with
      | root h => rw [h] at hi; simp at hi
      | inner hs hK => exact ih _ _ _ _ hs hK
    | cons i s =>
      have hi := hT.item
      cases i <;> · simp only [layItem] at hi; rw [hi.head] at hl; simp at hl
  | @enter u w _ ih =>
    intro own s K hT hK
    have := ih own s K hT hK
    cases s with
    | nil => exact ⟨[], w, rfl, by simp only [effSeq], this⟩
    | cons i s =>
      have h' := cat_assoc (cat_left (fun w h => base_more_eff e L i h) (cat_assoc this))
      refine cat_left (fun w h => ?_) h'
      simp only [effSeq]
      exact h
  | @skip u n w hs hn _ ih =>
    intro own s K hT hK
    cases s with
    | nil => simp only [laySeq] at hT; rw [hT.head] at hs; simp at hs
    | cons i s =>
      obtain ⟨hsk, _, hno, _⟩ := item_node hT.item
      rw [hno, List.mem_singleton] at hn
      subst hn
      obtain ⟨a, b, rfl, ha, hb⟩ := ih own s K hT.rest hK
      refine ⟨a, b, rfl, ?_, hb⟩
      simp only [effSeq]
      exact ⟨[], a, rfl, by rw [effItem_eq]; exact .inl ⟨by rw [← hsk, hs], rfl⟩, ha⟩
  | @next u n w hn _ ih =>
    intro own i s K hT hK
    obtain ⟨_, _, hno, _⟩ := item_node hT.item
    rw [hno, List.mem_singleton] at hn
    subst hn
    exact ⟨[], w, rfl, .inl rfl, ih own s K hT.rest hK⟩
  | @again u w hl _ ih =>
    intro own i s K hT hK
    obtain ⟨_, hlo, _, _⟩ := item_node hT.item
    obtain ⟨a, _, rfl, ha, b, c, rfl, hb, hc⟩ := ih own (.cons i s) K hT hK
    refine ⟨a ++ b, c, by simp, .inr ⟨by rw [← hlo, hl], ?_⟩, hc⟩
    rcases hb with rfl | ⟨_, hb⟩
    · rw [List.append_nil]; exact Many.one ha
    · exact .cons ha hb

/-- What can be read from the first nodes of a rule is what its elements match. -/
theorem run_rule {e : Env} {L : Nat → Lang} {a : Alts} (hf : FullAlts a) {w : List Nat} :
    (∃ s ∈ (nodeAt (layRule e a) 0).subnodes, Run (layRule e a) L .run s w) ↔ effAlts e L a w := by
  have h0 : nodeAt (layRule e a) 0 =
      { label := .group, inner := false, subnodes := firsts 1 a } := rfl
  have hT : Seg (layRule e a) 1 (layAlts e 0 1 a) :=
    ⟨[{ label := .group, inner := false, subnodes := firsts 1 a }], [], by simp [layRule], rfl⟩
  have hin : (nodeAt (layRule e a) 0).inner = false := rfl
  constructor
  · rintro ⟨s, hs, hr⟩
    rw [h0] at hs
    obtain ⟨s', hs', hw⟩ := alt_of_first a 1 hT hs
    obtain ⟨x, y, rfl, hx, hy⟩ := run_says hr 0 s' .root hs' (.root hin)
    have hy' : y = [] := hy
    subst hy'
    rw [List.append_nil]
    exact hw L x hx
  · intro h
    obtain ⟨s, hs, hr⟩ := run_alts a 0 1 hf hT w [] h (.inl ⟨hin, rfl⟩)
    rw [List.append_nil] at hr
    exact ⟨s, by rw [h0]; exact hs, hr⟩

end Verif.Gram.Proof
