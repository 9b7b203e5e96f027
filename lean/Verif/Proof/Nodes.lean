/-
  Lemmas about what the builders get and what they make of it.
-/
import Verif.Spec.Nodes

namespace Verif.Nodes

open Verif.Gram Verif.Nodes.Spec
open scoped List

variable {ν : Type}

/-! ## What is in the rules -/

mutual

/-- The tokens of an element. -/
def toksItem : Item → List Nat
  | .tok t _ => [t]
  | .ref _ _ => []
  | .group a _ => toksAlts a

def toksSeq : Seq → List Nat
  | .nil => []
  | .cons i s => toksItem i ++ toksSeq s

def toksAlts : Alts → List Nat
  | .nil => []
  | .cons s a => toksSeq s ++ toksAlts a

end

mutual

/-- The references of an element. -/
def refsItem : Item → List Nat
  | .tok _ _ => []
  | .ref x _ => [x]
  | .group a _ => refsAlts a

def refsSeq : Seq → List Nat
  | .nil => []
  | .cons i s => refsItem i ++ refsSeq s

def refsAlts : Alts → List Nat
  | .nil => []
  | .cons s a => refsSeq s ++ refsAlts a

end

/-- How often at most, where 2 is any number. -/
def times : Rep → Nat → Nat
  | .once, c => c
  | .question, c => c
  | .star, c => if c = 0 then 0 else 2
  | .plus, c => if c = 0 then 0 else 2

mutual

/-- How often at most there is something, if it is `ct t` times in the token `t` and `cr x` times in
    what the reference `x` gives. -/
def cntItem (ct cr : Nat → Nat) : Item → Nat
  | .tok t r => times r (ct t)
  | .ref x r => times r (cr x)
  | .group a r => times r (cntAlts ct cr a)

def cntSeq (ct cr : Nat → Nat) : Seq → Nat
  | .nil => 0
  | .cons i s => cntItem ct cr i + cntSeq ct cr s

def cntAlts (ct cr : Nat → Nat) : Alts → Nat
  | .nil => 0
  | .cons s a => max (cntSeq ct cr s) (cntAlts ct cr a)

end

/-! ## All parts -/

/-- All parts have a property. -/
def AllSym (P : Sym → Prop) (w : List (Given ν)) : Prop := ∀ g ∈ w, P g.sym

theorem allSym_append {P : Sym → Prop} {u v : List (Given ν)} (hu : AllSym P u)
    (hv : AllSym P v) : AllSym P (u ++ v) := by
  intro g hg
  rcases List.mem_append.1 hg with h | h
  · exact hu g h
  · exact hv g h

theorem many_all {P : Sym → Prop} {M : Lang ν} (hM : ∀ w, M w → AllSym P w)
    {w : List (Given ν)} (h : Many M w) : AllSym P w := by
  induction h with
  | nil => intro g hg; cases hg
  | cons hu _ ih => exact allSym_append (hM _ hu) ih

theorem repeated_all {P : Sym → Prop} {M : Lang ν} (hM : ∀ w, M w → AllSym P w) (r : Rep)
    {w : List (Given ν)} (h : repeated r M w) : AllSym P w := by
  cases r with
  | once => exact hM w h
  | star => exact many_all hM h
  | plus =>
    obtain ⟨u, v, rfl, hu, hv⟩ := h
    exact allSym_append (hM _ hu) (many_all hM hv)
  | question =>
    rcases h with rfl | h
    · intro g hg; cases hg
    · exact hM w h

mutual

theorem item_all {P : Sym → Prop} {L : Nat → Lang ν} (i : Item)
    (hT : ∀ t ∈ toksItem i, P (.tok t)) (hR : ∀ x ∈ refsItem i, ∀ w, L x w → AllSym P w)
    {w : List (Given ν)} (h : ofItem L i w) : AllSym P w := by
  cases i with
  | tok t r =>
    refine repeated_all ?_ r h
    rintro w ⟨x, rfl⟩ g hg
    cases List.mem_singleton.1 hg
    exact hT t (by simp [toksItem])
  | ref x r => exact repeated_all (hR x (by simp [refsItem])) r h
  | group a r =>
    exact repeated_all (fun w hw => alts_all a (fun t ht => hT t (by simpa [toksItem] using ht))
      (fun x hx => hR x (by simpa [refsItem] using hx)) hw) r h

theorem seq_all {P : Sym → Prop} {L : Nat → Lang ν} (s : Seq)
    (hT : ∀ t ∈ toksSeq s, P (.tok t)) (hR : ∀ x ∈ refsSeq s, ∀ w, L x w → AllSym P w)
    {w : List (Given ν)} (h : ofSeq L s w) : AllSym P w := by
  cases s with
  | nil => cases h; intro g hg; cases hg
  | cons i s =>
    obtain ⟨u, v, rfl, hu, hv⟩ := h
    exact allSym_append
      (item_all i (fun t ht => hT t (by simp [toksSeq, ht]))
        (fun x hx => hR x (by simp [refsSeq, hx])) hu)
      (seq_all s (fun t ht => hT t (by simp [toksSeq, ht]))
        (fun x hx => hR x (by simp [refsSeq, hx])) hv)

theorem alts_all {P : Sym → Prop} {L : Nat → Lang ν} (a : Alts)
    (hT : ∀ t ∈ toksAlts a, P (.tok t)) (hR : ∀ x ∈ refsAlts a, ∀ w, L x w → AllSym P w)
    {w : List (Given ν)} (h : ofAlts L a w) : AllSym P w := by
  cases a with
  | nil => cases h
  | cons s a =>
    rcases h with h | h
    · exact seq_all s (fun t ht => hT t (by simp [toksAlts, ht]))
        (fun x hx => hR x (by simp [refsAlts, hx])) h
    · exact alts_all a (fun t ht => hT t (by simp [toksAlts, ht]))
        (fun x hx => hR x (by simp [refsAlts, hx])) h

end

/-! ## How many parts -/

/-- The number of parts with a property. -/
def num (f : Sym → Bool) (w : List (Given ν)) : Nat := w.countP fun g => f g.sym

theorem num_append (f : Sym → Bool) (u v : List (Given ν)) : num f (u ++ v) = num f u + num f v := by
  simp [num]

theorem many_zero {f : Sym → Bool} {M : Lang ν} (hM : ∀ w, M w → num f w ≤ 0)
    {w : List (Given ν)} (h : Many M w) : num f w ≤ 0 := by
  induction h with
  | nil => simp [num]
  | cons hu _ ih => rw [num_append]; have := hM _ hu; omega

theorem repeated_num {f : Sym → Bool} {M : Lang ν} {c : Nat}
    (hM : c ≤ 1 → ∀ w, M w → num f w ≤ c) (r : Rep) (hc : times r c ≤ 1)
    {w : List (Given ν)} (h : repeated r M w) : num f w ≤ times r c := by
  cases r with
  | once => exact hM hc w h
  | question =>
    rcases h with rfl | h
    · simp [num]
    · exact hM hc w h
  | star =>
    by_cases h0 : c = 0
    · subst h0
      simpa [times] using many_zero (hM (by omega)) h
    · simp [times, h0] at hc
  | plus =>
    by_cases h0 : c = 0
    · subst h0
      obtain ⟨u, v, rfl, hu, hv⟩ := h
      have h1 := hM (by omega) u hu
      have h2 := many_zero (hM (by omega)) hv
      rw [num_append]
      simp [times]
      omega
    · simp [times, h0] at hc

mutual

theorem item_num {f : Sym → Bool} {ct cr : Nat → Nat} {L : Nat → Lang ν}
    (hT : ∀ t, f (.tok t) → 1 ≤ ct t) (i : Item)
    (hR : ∀ x ∈ refsItem i, ∀ w, L x w → num f w ≤ cr x)
    (hc : cntItem ct cr i ≤ 1) {w : List (Given ν)} (h : ofItem L i w) :
    num f w ≤ cntItem ct cr i := by
  cases i with
  | tok t r =>
    refine repeated_num ?_ r hc h
    rintro _ w ⟨x, rfl⟩
    by_cases hf : f (.tok t)
    · simpa [num, hf] using hT t hf
    · simp [num, hf]
  | ref x r => exact repeated_num (fun _ => hR x (by simp [refsItem])) r hc h
  | group a r =>
    exact repeated_num (fun hc w hw => alts_num hT a
      (fun x hx => hR x (by simpa [refsItem] using hx)) hc hw) r hc h

theorem seq_num {f : Sym → Bool} {ct cr : Nat → Nat} {L : Nat → Lang ν}
    (hT : ∀ t, f (.tok t) → 1 ≤ ct t) (s : Seq)
    (hR : ∀ x ∈ refsSeq s, ∀ w, L x w → num f w ≤ cr x)
    (hc : cntSeq ct cr s ≤ 1) {w : List (Given ν)} (h : ofSeq L s w) :
    num f w ≤ cntSeq ct cr s := by
  cases s with
  | nil => cases h; simp [num]
  | cons i s =>
    obtain ⟨u, v, rfl, hu, hv⟩ := h
    simp only [cntSeq] at hc ⊢
    have h1 := item_num hT i (fun x hx => hR x (by simp [refsSeq, hx])) (by omega) hu
    have h2 := seq_num hT s (fun x hx => hR x (by simp [refsSeq, hx])) (by omega) hv
    rw [num_append]
    omega

theorem alts_num {f : Sym → Bool} {ct cr : Nat → Nat} {L : Nat → Lang ν}
    (hT : ∀ t, f (.tok t) → 1 ≤ ct t) (a : Alts)
    (hR : ∀ x ∈ refsAlts a, ∀ w, L x w → num f w ≤ cr x)
    (hc : cntAlts ct cr a ≤ 1) {w : List (Given ν)} (h : ofAlts L a w) :
    num f w ≤ cntAlts ct cr a := by
  cases a with
  | nil => cases h
  | cons s a =>
    simp only [cntAlts] at hc ⊢
    rcases h with h | h
    · have := seq_num hT s (fun x hx => hR x (by simp [refsAlts, hx])) (by omega) h
      omega
    · have := alts_num hT a (fun x hx => hR x (by simp [refsAlts, hx])) (by omega) h
      omega

end

/-! ## The rules without a builder inside a rule -/

/-- The symbol of a reference. -/
def symOf (x : Nat) : Sym := .node (valueOf (x % 100)) (x / 100)

/-- The rules without a builder that can be inside a rule. -/
def within : Nat → List Nat
  | 5 => [46, 47]
  | 7 => [6]
  | 15 => [14, 16]
  | 17 => [16]
  | 38 => [37]
  | 52 => [51]
  | _ => []

/-- The symbols that stand in a rule itself. -/
def ownSyms (G : Grammar) (r : Nat) : List Sym :=
  match G r with
  | none => []
  | some a => (toksAlts a).map .tok ++ ((refsAlts a).filter fun x => !bare (x % 100)).map symOf

/-- The rules without a builder that stand in a rule itself. -/
def ownBares (G : Grammar) (r : Nat) : List Nat :=
  match G r with
  | none => []
  | some a => ((refsAlts a).map (· % 100)).filter bare

/-- `C` has all rules without a builder inside `r`. -/
def closed (G : Grammar) (r : Nat) (C : List Nat) : Bool :=
  (r :: C).all fun c => (ownBares G c).all fun b => C.contains b

theorem part_all {G : Grammar} {P : Sym → Prop} {r : Nat} {C : List Nat} (hC : closed G r C)
    (hP : ∀ c ∈ r :: C, ∀ s ∈ ownSyms G c, P s) :
    ∀ (n c : Nat), c ∈ r :: C → ∀ (w : List (Given ν)), parts G n c w → AllSym P w := by
  intro n
  induction n with
  | zero => intro c _ w h; exact h.elim
  | succ n ih =>
    intro c hc w h
    simp only [parts] at h
    cases hG : G c with
    | none => simp only [hG] at h
    | some a =>
      simp only [hG] at h
      refine alts_all a ?_ ?_ h
      · intro t ht
        refine hP c hc _ ?_
        simp only [ownSyms, hG, List.mem_append, List.mem_map]
        exact Or.inl ⟨t, ht, rfl⟩
      · intro x hx w hw
        by_cases hb : bare (x % 100)
        · simp only [hb, if_true] at hw
          refine ih (x % 100) ?_ w hw
          have h1 := List.all_eq_true.1 hC c hc
          have h2 := List.all_eq_true.1 h1 (x % 100) (by
            simp only [ownBares, hG, List.mem_filter, List.mem_map]
            exact ⟨⟨x, hx, rfl⟩, hb⟩)
          exact List.mem_cons_of_mem _ (by simpa using h2)
        · simp only [hb, if_false, Bool.false_eq_true] at hw
          rcases hw with rfl | ⟨m, rfl⟩
          · intro g hg; cases hg
          · intro g hg
            cases List.mem_singleton.1 hg
            refine hP c hc _ ?_
            simp only [ownSyms, hG, List.mem_append, List.mem_map, List.mem_filter]
            exact Or.inr ⟨x, ⟨hx, by simp [hb]⟩, rfl⟩

theorem part_num {G : Grammar} {f : Sym → Bool} {r : Nat} {C : List Nat} {a : Alts}
    (hG : G r = some a) (hC : closed G r C)
    (h0 : ∀ c ∈ C, ∀ s ∈ ownSyms G c, f s = false)
    (hc : cntAlts (fun t => if f (.tok t) then 1 else 0)
      (fun x => if !bare (x % 100) && f (symOf x) then 1 else 0) a ≤ 1)
    {w : List (Given ν)} (h : Parts G r w) : num f w ≤ 1 := by
  obtain ⟨n, h⟩ := h
  cases n with
  | zero => exact h.elim
  | succ n =>
    simp only [parts, hG] at h
    refine Nat.le_trans (alts_num (ct := fun t => if f (.tok t) then 1 else 0)
      (cr := fun x => if !bare (x % 100) && f (symOf x) then 1 else 0) ?_ a ?_ hc h) hc
    · intro t ht; simp [ht]
    · intro x hx w hw
      by_cases hb : bare (x % 100)
      · simp only [hb, if_true] at hw
        have hin : x % 100 ∈ C := by
          have h1 := List.all_eq_true.1 hC r (List.mem_cons_self ..)
          have h2 := List.all_eq_true.1 h1 (x % 100) (by
            simp only [ownBares, hG, List.mem_filter, List.mem_map]
            exact ⟨⟨x, hx, rfl⟩, hb⟩)
          simpa using h2
        have hcl : closed G (x % 100) C := by
          refine List.all_eq_true.2 fun c hc => List.all_eq_true.1 hC c ?_
          rcases List.mem_cons.1 hc with rfl | hc
          · exact List.mem_cons_of_mem _ hin
          · exact List.mem_cons_of_mem _ hc
        have := part_all (P := fun s => f s = false) hcl (by
          intro c hc s hs
          rcases List.mem_cons.1 hc with rfl | hc
          · exact h0 _ hin s hs
          · exact h0 _ hc s hs) n (x % 100) (List.mem_cons_self ..) w hw
        have hz : num f w = 0 := by
          refine List.countP_eq_zero.2 ?_
          intro g hg
          simp [this g hg]
        omega
      · simp only [hb, if_false, Bool.false_eq_true] at hw
        rcases hw with rfl | ⟨m, rfl⟩
        · simp [num]
        · by_cases hf : f (symOf x)
          · simp [num, hb, hf, List.countP_cons]
            split <;> omega
          · have hf' : f (.node (valueOf (x % 100)) (x / 100)) = false := by
              simpa [symOf] using hf
            simp [num, hf']

/-! ## What is at the places -/

/-- The part changes what is at the place. -/
def touches (r p : Nat) (s : Sym) : Bool :=
  match act r s with
  | .put q => q == p
  | .add q => q == p
  | .keep q => q == p
  | .accessor ps => ps.any fun e => e.2 == p
  | .flush q => q == p
  | _ => false

/-- The part waits, or makes others stop waiting. -/
def waits (r : Nat) (s : Sym) : Bool :=
  match act r s with
  | .hold => true
  | .flush _ => true
  | _ => false

/-- Something was reported. -/
def Bad (m : Made ν) : Prop := 0 < m.errors ∨ m.failed = true

theorem mem_lookup {ps : List (Nat × Nat)} {k p : Nat} (h : ps.lookup k = some p) :
    ps.any (fun e => e.2 == p) = true := by
  induction ps with
  | nil => cases h
  | cons e ps ih =>
    obtain ⟨a, b⟩ := e
    simp only [List.lookup_cons] at h
    cases hk : k == a with
    | true => simp only [hk] at h; cases h; simp
    | false => simp only [hk] at h; simp [ih h]

theorem check_at (m : Made ν) (p q : Nat) (x : ν) (h : q ≠ p) : (m.check p x).at_ q = m.at_ q := by
  unfold Made.check
  split <;> simp [Made.set, h]

theorem step_at {kind : ν → Nat} {r p : Nat} {m : Made ν} {g : Given ν}
    (h : touches r p g.sym = false) : (step kind r m g).at_ p = m.at_ p := by
  unfold touches at h
  unfold step
  cases ha : act r g.sym with
  | drop => rfl
  | put q => simp only [ha] at h; have : p ≠ q := by rintro rfl; simp at h
             simp [Made.set, this]
  | add q => simp only [ha] at h; have : p ≠ q := by rintro rfl; simp at h
             simp [Made.set, this]
  | keep q => simp only [ha] at h; have : p ≠ q := by rintro rfl; simp at h
              exact check_at m q p g.it this
  | accessor ps =>
    simp only [ha] at h ⊢
    cases hl : ps.lookup (kind g.it) with
    | none => rfl
    | some q =>
      have : p ≠ q := by rintro rfl; rw [mem_lookup hl] at h; cases h
      exact check_at m q p g.it this
  | hold => rfl
  | flush q => simp only [ha] at h; have : p ≠ q := by rintro rfl; simp at h
               simp [Made.set, this]

theorem bad_check {m : Made ν} {p : Nat} {x : ν} (h : Bad m) : Bad (m.check p x) := by
  unfold Made.check
  split
  · exact h
  · rcases h with h | h
    · exact Or.inl (Nat.lt_succ_of_lt h)
    · exact Or.inr h

theorem bad_step {kind : ν → Nat} {r : Nat} {m : Made ν} {g : Given ν} (h : Bad m) :
    Bad (step kind r m g) := by
  unfold step
  cases ha : act r g.sym with
  | drop => exact h
  | put q => exact h
  | add q => exact h
  | keep q => exact bad_check h
  | accessor ps =>
    simp only
    cases hl : ps.lookup (kind g.it) with
    | none => exact Or.inr rfl
    | some q => exact bad_check h
  | hold => exact h
  | flush q => exact h

theorem bad_apply {kind : ν → Nat} {r : Nat} : ∀ (w : List (Given ν)) (m : Made ν), Bad m →
    Bad (apply kind r w m)
  | [], _, h => h
  | _ :: w, _, h => bad_apply w _ (bad_step h)

theorem has_check {m : Made ν} {p : Nat} {x : ν} : some x ∈ (m.check p x).at_ p ∨ Bad (m.check p x) := by
  unfold Made.check
  split
  · exact Or.inl (by simp [Made.set])
  · exact Or.inr (Or.inl (Nat.succ_pos _))

theorem keep_check {m : Made ν} {p q : Nat} {x y : ν} (h : some y ∈ m.at_ q) :
    some y ∈ (m.check p x).at_ q := by
  by_cases hq : q = p
  · subst hq
    unfold Made.check
    split
    · rename_i h0; rw [h0] at h; cases h
    · exact h
  · rw [check_at m p q x hq]; exact h

/-- A part stays where it is, if nothing is put there. -/
theorem step_keeps {kind : ν → Nat} {r p : Nat} {m : Made ν} {g : Given ν} {y : ν}
    (h : some y ∈ m.at_ p) (hp : act r g.sym ≠ .put p) : some y ∈ (step kind r m g).at_ p := by
  unfold step
  cases ha : act r g.sym with
  | drop => exact h
  | put q =>
    have : p ≠ q := by rintro rfl; exact hp ha
    simpa [Made.set, this] using h
  | add q =>
    by_cases hq : p = q
    · subst hq; simp [Made.set, h]
    · simpa [Made.set, hq] using h
  | keep q => exact keep_check h
  | accessor ps =>
    simp only
    cases hl : ps.lookup (kind g.it) with
    | none => exact h
    | some q => exact keep_check h
  | hold => exact h
  | flush q =>
    by_cases hq : p = q
    · subst hq; simp [Made.set, h]
    · simpa [Made.set, hq] using h

/-- A part that is neither ignored nor waits is at a place at first. -/
theorem step_has {kind : ν → Nat} {r : Nat} {m : Made ν} {g : Given ν}
    (hd : act r g.sym ≠ .drop) (hw : waits r g.sym = false) :
    (∃ p, touches r p g.sym = true ∧ some g.it ∈ (step kind r m g).at_ p) ∨
      Bad (step kind r m g) := by
  unfold waits at hw
  unfold step touches
  cases ha : act r g.sym with
  | drop => exact (hd ha).elim
  | put q => exact Or.inl ⟨q, by simp, by simp [Made.set]⟩
  | add q => exact Or.inl ⟨q, by simp, by simp [Made.set]⟩
  | keep q =>
    rcases has_check (m := m) (p := q) (x := g.it) with h | h
    · exact Or.inl ⟨q, by simp, h⟩
    · exact Or.inr h
  | accessor ps =>
    simp only
    cases hl : ps.lookup (kind g.it) with
    | none => exact Or.inr (Or.inr rfl)
    | some q =>
      rcases has_check (m := m) (p := q) (x := g.it) with h | h
      · exact Or.inl ⟨q, mem_lookup hl, h⟩
      · exact Or.inr h
  | hold => simp [ha] at hw
  | flush q => simp [ha] at hw

theorem num_cons (f : Sym → Bool) (g : Given ν) (w : List (Given ν)) :
    num f (g :: w) = num f w + if f g.sym then 1 else 0 := by
  simp [num, List.countP_cons]

theorem put_touches {r p : Nat} {s : Sym} (h : act r s = .put p) : touches r p s = true := by
  simp [touches, h]

/-- Where something is put there is nothing else. -/
def Room (r : Nat) (w : List (Given ν)) (m : Made ν) : Prop :=
  ∀ p, (∃ g ∈ w, act r g.sym = .put p) → num (touches r p) w ≤ 1 ∧ m.at_ p = []

theorem room_step {kind : ν → Nat} {r : Nat} {w : List (Given ν)} {m : Made ν} {g : Given ν}
    (h : Room r (g :: w) m) : Room r w (step kind r m g) := by
  rintro p ⟨k, hk, hput⟩
  obtain ⟨h1, h2⟩ := h p ⟨k, List.mem_cons_of_mem _ hk, hput⟩
  have hpos : 0 < num (touches r p) w :=
    List.countP_pos_iff.2 ⟨k, hk, put_touches hput⟩
  rw [num_cons] at h1
  have hg : touches r p g.sym = false := by
    cases ht : touches r p g.sym with
    | false => rfl
    | true => rw [ht] at h1; simp at h1; omega
  refine ⟨by omega, ?_⟩
  rw [step_at hg, h2]

theorem apply_keeps {kind : ν → Nat} {r : Nat} {y : ν} {p : Nat} :
    ∀ (w : List (Given ν)) (m : Made ν), Room r w m → some y ∈ m.at_ p →
      some y ∈ (apply kind r w m).at_ p := by
  intro w
  induction w with
  | nil => intro m _ h; exact h
  | cons g w ih =>
    intro m hR h
    refine ih _ (room_step hR) (step_keeps h ?_)
    intro hput
    have := (hR p ⟨g, List.mem_cons_self .., hput⟩).2
    rw [this] at h
    cases h

theorem apply_has {kind : ν → Nat} {r : Nat} :
    ∀ (w : List (Given ν)) (m : Made ν), Room r w m → ∀ g ∈ w, act r g.sym ≠ .drop →
      waits r g.sym = false → Bad (apply kind r w m) ∨ ∃ p, some g.it ∈ (apply kind r w m).at_ p := by
  intro w
  induction w with
  | nil => intro m _ g hg; cases hg
  | cons k w ih =>
    intro m hR g hg hd hw
    rcases List.mem_cons.1 hg with rfl | hg
    · rcases step_has (kind := kind) (m := m) hd hw with ⟨p, _, h⟩ | h
      · exact Or.inr ⟨p, apply_keeps w _ (room_step hR) h⟩
      · exact Or.inl (bad_apply w _ h)
    · exact ih _ (room_step hR) g hg hd hw

/-! ## The order, and where parts are -/

theorem check_sub {m : Made ν} {p q : Nat} {x : ν} :
    ((m.check p x).at_ q).filterMap id <+ (m.at_ q).filterMap id ++ [x] := by
  by_cases hq : q = p
  · subst hq
    unfold Made.check
    split
    · rename_i h0; simp [Made.set, h0]
    · exact List.sublist_append_left ..
  · rw [check_at m p q x hq]; exact List.sublist_append_left ..

theorem step_sub {kind : ν → Nat} {r p : Nat} {m : Made ν} {g : Given ν}
    (hw : waits r g.sym = false) :
    ((step kind r m g).at_ p).filterMap id <+ (m.at_ p).filterMap id ++ [g.it] := by
  unfold waits at hw
  unfold step
  cases ha : act r g.sym with
  | drop => exact List.sublist_append_left ..
  | put q =>
    by_cases hq : p = q
    · simp [Made.set, hq]
    · simp [Made.set, hq]
  | add q =>
    by_cases hq : p = q
    · simp [Made.set, hq]
    · simp [Made.set, hq]
  | keep q => exact check_sub
  | accessor ps =>
    simp only
    cases hl : ps.lookup (kind g.it) with
    | none => exact List.sublist_append_left ..
    | some q => exact check_sub
  | hold => simp [ha] at hw
  | flush q => simp [ha] at hw

theorem apply_sub {kind : ν → Nat} {r p : Nat} :
    ∀ (w : List (Given ν)) (m : Made ν), (∀ g ∈ w, waits r g.sym = false) →
      ((apply kind r w m).at_ p).filterMap id <+ (m.at_ p).filterMap id ++ w.map (·.it) := by
  intro w
  induction w with
  | nil => intro m _; simp [apply]
  | cons g w ih =>
    intro m h
    have h1 := ih (step kind r m g) (fun k hk => h k (List.mem_cons_of_mem _ hk))
    have h2 := step_sub (kind := kind) (p := p) (m := m) (h g (List.mem_cons_self ..))
    have h3 := h1.trans (h2.append_right (w.map (·.it)))
    simpa [apply, List.append_assoc] using h3

theorem apply_from {kind : ν → Nat} {r p : Nat} {x : ν} :
    ∀ (w : List (Given ν)) (m : Made ν), (∀ g ∈ w, waits r g.sym = false) →
      some x ∈ (apply kind r w m).at_ p →
      some x ∈ m.at_ p ∨ ∃ g ∈ w, g.it = x ∧ touches r p g.sym = true := by
  intro w
  induction w with
  | nil => intro m _ h; exact Or.inl h
  | cons g w ih =>
    intro m hw h
    rcases ih (step kind r m g) (fun k hk => hw k (List.mem_cons_of_mem _ hk)) h with h | ⟨k, hk, h⟩
    · cases ht : touches r p g.sym with
      | false => rw [step_at ht] at h; exact Or.inl h
      | true =>
        have h1 : x ∈ ((step kind r m g).at_ p).filterMap id :=
          List.mem_filterMap.2 ⟨some x, h, rfl⟩
        have h2 := (step_sub (kind := kind) (p := p) (m := m) (hw g (List.mem_cons_self ..))).subset h1
        rcases List.mem_append.1 h2 with h2 | h2
        · obtain ⟨o, ho, hx⟩ := List.mem_filterMap.1 h2
          cases hx
          exact Or.inl ho
        · exact Or.inr ⟨g, List.mem_cons_self .., (List.mem_singleton.1 h2).symm, ht⟩
    · exact Or.inr ⟨k, List.mem_cons_of_mem _ hk, h⟩

end Verif.Nodes
