import Verif.Proof.Codegen

/-! # Helper lemmas: single steps of the commands, and the search in a switch table -/

namespace Verif.Stmt

variable {A S : Type}

/-! ## Reaching -/

section
variable {M : Machine A S} {cmds : List (Cmd A)}

theorem steps_add (n m : Nat) (c : Conf S) :
    steps M cmds (n + m) c = steps M cmds m (steps M cmds n c) := by
  induction n generalizing c with
  | zero => simp [steps]
  | succ n ih => rw [show n + 1 + m = (n + m) + 1 by omega]; simp [steps, ih]

theorem Reach.refl (c : Conf S) : Reach M cmds c c := ⟨0, rfl⟩

theorem Reach.trans {a b c : Conf S} (h : Reach M cmds a b) (h' : Reach M cmds b c) :
    Reach M cmds a c := by
  obtain ⟨n, rfl⟩ := h
  obtain ⟨m, rfl⟩ := h'
  exact ⟨n + m, steps_add n m a⟩

/-- At least one command. -/
def ReachP (M : Machine A S) (cmds : List (Cmd A)) (c c' : Conf S) : Prop :=
  Reach M cmds (next M cmds c) c'

theorem ReachP.reach {a b : Conf S} (h : ReachP M cmds a b) : Reach M cmds a b := by
  obtain ⟨n, h⟩ := h
  exact ⟨n + 1, h⟩

theorem Reach.one {a b : Conf S} (h : next M cmds a = b) : ReachP M cmds a b := ⟨0, h⟩

theorem ReachP.trans {a b c : Conf S} (h : ReachP M cmds a b) (h' : Reach M cmds b c) :
    ReachP M cmds a c := Reach.trans h h'

theorem next_stop (c : Conf S) (h : ∀ pc s, c ≠ .at_ pc s) : next M cmds c = c := by
  cases c with
  | at_ pc s => exact absurd rfl (h pc s)
  | _ => rfl

theorem Reach.transP {a b c : Conf S} (h : Reach M cmds a b) (h' : ReachP M cmds b c) :
    ReachP M cmds a c := by
  obtain ⟨n, h⟩ := h
  obtain ⟨m, h'⟩ := h'
  refine ⟨n + m, ?_⟩
  have : steps M cmds (n + m) (next M cmds a) = steps M cmds (n + (m + 1)) a := rfl
  rw [this, steps_add, h]
  exact h'

theorem steps_stop (c : Conf S) (h : ∀ pc s, c ≠ .at_ pc s) (n : Nat) : steps M cmds n c = c := by
  induction n with
  | zero => rfl
  | succ n ih => rw [steps, next_stop c h, ih]

theorem Live.mono {n m : Nat} {c : Conf S} (h : Live M cmds n c) (hm : m ≤ n) : Live M cmds m c := by
  obtain ⟨pc, s, h⟩ := h
  cases hc : steps M cmds m c with
  | at_ pc' s' => exact ⟨pc', s', hc⟩
  | _ =>
    have : n = m + (n - m) := by omega
    rw [this, steps_add, hc, steps_stop _ (by intro _ _ h; cases h)] at h
    cases h

theorem Live.after {n : Nat} {a b : Conf S} (h : Reach M cmds a b) (hb : Live M cmds n b) :
    Live M cmds n a := by
  obtain ⟨m, rfl⟩ := h
  have : Live M cmds (m + n) a := by
    obtain ⟨pc, s, hb⟩ := hb
    exact ⟨pc, s, by rw [steps_add]; exact hb⟩
  exact this.mono (by omega)

theorem Live.afterP {n : Nat} {a b : Conf S} (h : ReachP M cmds a b) (hb : Live M cmds n b) :
    Live M cmds (n + 1) a := by
  obtain ⟨pc, s, hs⟩ := Live.after h hb
  exact ⟨pc, s, hs⟩

end

/-! ## The instructions of a committed program -/

/-- A program, its commands, and what is needed of them. -/
structure Placed (prog : List (X A)) (cmds : List (Cmd A)) : Prop where
  ok : commit prog = .ok cmds
  nodup : (labels prog).Nodup
  short : prog.length < 2 ^ 31

section
variable {prog : List (X A)} {cmds : List (Cmd A)} (P : Placed prog cmds) (I : Interp A S)
include P

theorem Placed.idx_lt {l t : Nat} (h : labelIdx prog 0 l = some t) : t < 2 ^ 31 := by
  have h1 := labelIdx_le _ _ _ _ h
  have h2 := size_le prog
  have h3 := P.short
  omega

theorem Placed.seg_lt {i : Nat} {xs : List (X A)} (h : Seg prog i xs) : i < 2 ^ 31 := by
  have h2 := h.le
  have h3 := P.short
  omega

theorem Placed.jmp {i l : Nat} {m : JmpModel} (h : Seg prog i [.jmp m l]) :
    ∃ t, labelIdx prog 0 l = some t ∧ cmds[i]? = some (.jmp m ((t : Int) - i)) := by
  obtain ⟨c, h1, h2⟩ := fetch P.ok h rfl
  simp only [place] at h1
  split at h1
  · cases h1
  · rename_i t ht
    split at h1
    · cases h1
    · rename_i d hd
      injection h1 with h1
      subst h1
      have hf : labelIdx prog 0 l = some t := by
        simp only [found] at ht
        split at ht
        · injection ht with ht; subst ht; assumption
        · cases ht
      refine ⟨t, hf, ?_⟩
      rw [h2, stored_ok hd, distance_toInt _ _ (P.seg_lt h) (P.idx_lt hf)]

theorem Placed.always {i l : Nat} (h : Seg prog i [.jmp .always l]) :
    ∃ t, labelIdx prog 0 l = some t ∧ ∀ s, ReachP I.machine cmds (.at_ i s) (.at_ t s) := by
  obtain ⟨t, h1, h2⟩ := P.jmp h
  exact ⟨t, h1, fun s => Reach.one (by simp [next, h2, exec, jumpTo_eq])⟩

theorem Placed.ifTrue {i l : Nat} (h : Seg prog i [.jmp .ifTrue l]) :
    ∃ t, labelIdx prog 0 l = some t ∧ ∀ s, ReachP I.machine cmds (.at_ i s)
      (.at_ (if (I.popBool s).1 then t else i + 1) (I.popBool s).2) := by
  obtain ⟨t, h1, h2⟩ := P.jmp h
  refine ⟨t, h1, fun s => Reach.one ?_⟩
  simp only [next, h2, exec, jumpTo_eq, Interp.machine]
  split <;> rfl

theorem Placed.ifFalse {i l : Nat} (h : Seg prog i [.jmp .ifFalse l]) :
    ∃ t, labelIdx prog 0 l = some t ∧ ∀ s, ReachP I.machine cmds (.at_ i s)
      (.at_ (if (I.popBool s).1 then i + 1 else t) (I.popBool s).2) := by
  obtain ⟨t, h1, h2⟩ := P.jmp h
  refine ⟨t, h1, fun s => Reach.one ?_⟩
  simp only [next, h2, exec, jumpTo_eq, Interp.machine]
  split <;> rfl

theorem Placed.point {i : Nat} {p : Point} (h : Seg prog i [.point p]) : False := by
  obtain ⟨c, h1, h2⟩ := fetch P.ok h rfl
  cases h1

theorem Placed.fail {i : Nat} (h : Seg prog i [.fail]) : False := by
  obtain ⟨c, h1, h2⟩ := fetch P.ok h rfl
  cases h1

theorem Placed.ret {i : Nat} (h : Seg prog i [.ret]) (s : S) :
    Reach I.machine cmds (.at_ i s) (.returned s) := by
  obtain ⟨c, h1, h2⟩ := fetch P.ok h rfl
  simp only [place] at h1
  injection h1 with h1; subst h1
  exact (Reach.one (by simp [next, h2, exec])).reach

theorem Placed.thr {i : Nat} (h : Seg prog i [.thr]) (s : S) :
    Reach I.machine cmds (.at_ i s) (.thrown s) := by
  obtain ⟨c, h1, h2⟩ := fetch P.ok h rfl
  simp only [place] at h1
  injection h1 with h1; subst h1
  exact (Reach.one (by simp [next, h2, exec])).reach

theorem Placed.drop {i : Nat} (h : Seg prog i [.drop]) (s : S) :
    Reach I.machine cmds (.at_ i s) (.at_ (i + 1) (I.popInt s).2) := by
  obtain ⟨c, h1, h2⟩ := fetch P.ok h rfl
  simp only [place] at h1
  injection h1 with h1; subst h1
  exact (Reach.one (by simp [next, h2, exec, Interp.machine])).reach

theorem Placed.eqInt {i : Nat} {k : BitVec 32} (h : Seg prog i [.eqInt k]) (s : S) :
    Reach I.machine cmds (.at_ i s)
      (.at_ (i + 1) (I.pushBool ((I.popInt s).1 == k) (I.popInt s).2)) := by
  obtain ⟨c, h1, h2⟩ := fetch P.ok h rfl
  simp only [place] at h1
  injection h1 with h1; subst h1
  exact (Reach.one (by simp [next, h2, exec, Interp.machine])).reach

/-- An expression. -/
theorem Placed.acts {i : Nat} {e : List A} (h : Seg prog i (acts e)) (s : S) :
    match I.eval e s with
    | .ok s' => Reach I.machine cmds (.at_ i s) (.at_ (i + e.length) s')
    | .error s' => Reach I.machine cmds (.at_ i s) (.thrown s') := by
  induction e generalizing i s with
  | nil => exact Reach.refl _
  | cons a e ih =>
    obtain ⟨c, h1, h2⟩ := fetch P.ok h.head rfl
    simp only [place] at h1
    injection h1 with h1; subst h1
    have ht := h.tail rfl
    simp only [Interp.eval]
    cases ha : I.act a s with
    | error s' =>
      exact (Reach.one (by simp [next, h2, exec, Interp.machine, ha])).reach
    | ok s' =>
      have hr : Reach I.machine cmds (.at_ i s) (.at_ (i + 1) s') :=
        (Reach.one (by simp [next, h2, exec, Interp.machine, ha])).reach
      have := ih ht s'
      simp only
      split at this
      · refine hr.trans ?_
        rw [List.length_cons, show i + (e.length + 1) = i + 1 + e.length by omega]
        exact this
      · exact hr.trans this

theorem Placed.acts_ok {i : Nat} {e : List A} (h : Seg prog i (Verif.Stmt.acts e)) {s s' : S}
    (he : I.eval e s = .ok s') : Reach I.machine cmds (.at_ i s) (.at_ (i + e.length) s') := by
  have := P.acts I h s
  rwa [he] at this

theorem Placed.acts_error {i : Nat} {e : List A} (h : Seg prog i (Verif.Stmt.acts e)) {s s' : S}
    (he : I.eval e s = .error s') : Reach I.machine cmds (.at_ i s) (.thrown s') := by
  have := P.acts I h s
  rwa [he] at this

end

/-! ## The search -/

/-- Rows in strictly increasing order of their values. -/
def Sorted {α : Type} (rows : List (BitVec 32 × α)) : Prop :=
  rows.Pairwise (fun a b => a.1.toInt < b.1.toInt)

theorem search_mem {α : Type} (rows : List (BitVec 32 × α)) (v : BitVec 32) (hs : Sorted rows) :
    (∀ a, (v, a) ∈ rows → search rows v = some a) ∧
    ((∀ a, (v, a) ∉ rows) → search rows v = none) := by
  generalize hlen : rows.length = len
  induction len using Nat.strongRecOn generalizing rows with
  | ind len ih =>
    rw [search]
    split
    · rename_i h
      have : rows.length = 0 := by
        have := List.getElem?_eq_none_iff.mp h
        omega
      have : rows = [] := List.length_eq_zero_iff.mp this
      subst this
      simp
    · rename_i r h
      obtain ⟨hlt, hr⟩ := List.getElem?_eq_some_iff.mp h
      dsimp only
      clear h
      generalize hk : rows.length / 2 = k at *
      have hsplit : rows = rows.take k ++ r :: rows.drop (k + 1) := by
        rw [← hr, List.getElem_cons_drop, List.take_append_drop]
      have hs' := hs
      rw [Sorted, hsplit, List.pairwise_append] at hs'
      obtain ⟨s1, s2, s3⟩ := hs'
      rw [List.pairwise_cons] at s2
      have i1 := ih (rows.take k).length (by simp; omega) (rows.take k) s1 rfl
      have i2 := ih (rows.drop (k + 1)).length (by simp; omega) (rows.drop (k + 1)) s2.2 rfl
      have hmem : ∀ a, (v, a) ∈ rows ↔ (v, a) ∈ rows.take k ∨ (v, a) = r ∨ (v, a) ∈ rows.drop (k + 1) := by
        intro a
        constructor
        · intro hm; rw [hsplit] at hm; simpa using hm
        · intro hm; rw [hsplit]; simpa using hm
      have lo : ∀ a, (v, a) ∈ rows.take k → v.toInt < r.1.toInt :=
        fun a ha => s3 (v, a) ha r (by simp)
      have hi : ∀ a, (v, a) ∈ rows.drop (k + 1) → r.1.toInt < v.toInt :=
        fun a ha => s2.1 (v, a) ha
      by_cases c1 : v.slt r.1
      · rw [if_pos c1]
        have c1' : v.toInt < r.1.toInt := by simpa [BitVec.slt_iff_toInt_lt] using c1
        constructor
        · intro a ha
          rcases (hmem a).mp ha with ha | ha | ha
          · exact i1.1 a ha
          · rw [← ha] at c1'; simp at c1'
          · have := hi a ha; omega
        · intro hno
          exact i1.2 (fun a ha => hno a ((hmem a).mpr (Or.inl ha)))
      · rw [if_neg c1]
        have c1' : r.1.toInt ≤ v.toInt := by simpa [BitVec.slt_iff_toInt_lt] using c1
        by_cases c2 : r.1.slt v
        · rw [if_pos c2]
          have c2' : r.1.toInt < v.toInt := by simpa [BitVec.slt_iff_toInt_lt] using c2
          constructor
          · intro a ha
            rcases (hmem a).mp ha with ha | ha | ha
            · have := lo a ha; omega
            · rw [← ha] at c2'; simp at c2'
            · exact i2.1 a ha
          · intro hno
            exact i2.2 (fun a ha => hno a ((hmem a).mpr (Or.inr (Or.inr ha))))
        · rw [if_neg c2]
          have c2' : v.toInt ≤ r.1.toInt := by simpa [BitVec.slt_iff_toInt_lt] using c2
          have hv : r.1 = v := BitVec.eq_of_toInt_eq (by omega)
          constructor
          · intro a ha
            rcases (hmem a).mp ha with ha | ha | ha
            · have := lo a ha; omega
            · rw [← ha]
            · have := hi a ha; omega
          · intro hno
            exact absurd ((hmem r.2).mpr (Or.inr (Or.inl (by rw [← hv])))) (hno r.2)

theorem insertRow_perm (r : BitVec 32 × Nat) : ∀ rows, (insertRow r rows).Perm (r :: rows)
  | [] => List.Perm.refl _
  | r' :: rows => by
    rw [insertRow]
    split
    · exact List.Perm.refl _
    · exact ((insertRow_perm r rows).cons r').trans (List.Perm.swap _ _ _)

theorem sortRows_perm : ∀ rows : List (BitVec 32 × Nat), (sortRows rows).Perm rows
  | [] => List.Perm.refl _
  | r :: rows => by
    show (insertRow r (sortRows rows)).Perm (r :: rows)
    exact (insertRow_perm r _).trans ((sortRows_perm rows).cons r)

theorem insertRow_sorted (r : BitVec 32 × Nat) : ∀ rows : List (BitVec 32 × Nat),
    rows.Pairwise (fun a b => a.1.toInt ≤ b.1.toInt) →
    (insertRow r rows).Pairwise (fun a b => a.1.toInt ≤ b.1.toInt)
  | [], _ => List.pairwise_singleton _ _
  | r' :: rows, h => by
    rw [insertRow]
    rw [List.pairwise_cons] at h
    split
    · rename_i hle
      rw [BitVec.sle_iff_toInt_le] at hle
      rw [List.pairwise_cons]
      refine ⟨?_, List.pairwise_cons.mpr h⟩
      intro a ha
      rw [List.mem_cons] at ha
      rcases ha with rfl | ha
      · exact hle
      · exact Int.le_trans hle (h.1 a ha)
    · rename_i hle
      rw [BitVec.sle_iff_toInt_le] at hle
      rw [List.pairwise_cons]
      refine ⟨?_, insertRow_sorted r rows h.2⟩
      intro a ha
      rw [(insertRow_perm r rows).mem_iff, List.mem_cons] at ha
      rcases ha with rfl | ha
      · omega
      · exact h.1 a ha

theorem sortRows_sorted : ∀ rows : List (BitVec 32 × Nat),
    (sortRows rows).Pairwise (fun a b => a.1.toInt ≤ b.1.toInt)
  | [] => List.Pairwise.nil
  | r :: rows => insertRow_sorted r _ (sortRows_sorted rows)

/-- The table has all rows, in order. -/
theorem table_sorted (rows : List (BitVec 32 × Nat)) (hn : (rows.map (·.1)).Nodup)
    (hl : rows.length < 65536) : Sorted (table rows) ∧ ∀ r, r ∈ table rows ↔ r ∈ rows := by
  rw [table, Nat.mod_eq_of_lt hl, List.take_length]
  have hp := sortRows_perm rows
  refine ⟨?_, fun r => hp.mem_iff⟩
  have hnd : ((sortRows rows).map (·.1)).Nodup := (hp.map (·.1)).nodup_iff.mpr hn
  rw [List.Nodup, List.pairwise_map] at hnd
  refine ((sortRows_sorted rows).and hnd).imp ?_
  rintro a b ⟨h1, h2⟩
  have : a.1.toInt ≠ b.1.toInt := fun h => h2 (BitVec.eq_of_toInt_eq h)
  omega

end Verif.Stmt
