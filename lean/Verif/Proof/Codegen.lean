import Verif.Spec.Codegen
import Verif.Proof.Stmt
import Verif.Props.Bits

/-! # Helper lemmas about the translation of statements -/

namespace Verif.Stmt

open Verif.Bits

variable {A S : Type}

/-! ## Sizes, labels, segments -/

@[simp] theorem size_nil : size ([] : List (X A)) = 0 := rfl
@[simp] theorem size_append (xs ys : List (X A)) : size (xs ++ ys) = size xs + size ys := by
  simp [size]
@[simp] theorem size_label (l : Nat) (ys : List (X A)) : size (.label l :: ys) = size ys := by
  simp [size, X.isLabel]
theorem size_cons (x : X A) (ys : List (X A)) : size (x :: ys) = size [x] + size ys :=
  size_append [x] ys
theorem size_one (x : X A) (h : x.isLabel = false) : size [x] = 1 := by simp [size, h]
@[simp] theorem size_acts (e : List A) : size (acts e) = e.length := by
  induction e with
  | nil => rfl
  | cons a e ih => simp only [acts, List.map_cons] at ih ⊢; rw [size_cons, ih, size_one _ rfl]; simp; omega

theorem resolve_isLabel (b c : Option Nat) (x : X A) : (x.resolve b c).isLabel = x.isLabel := by
  cases x with
  | point p => cases p <;> cases b <;> cases c <;> rfl
  | _ => rfl

@[simp] theorem size_resolve (b c : Option Nat) (xs : List (X A)) : size (resolve b c xs) = size xs := by
  simp only [size, resolve, List.countP_map]
  congr 1
  funext x
  simp [resolve_isLabel]

@[simp] theorem labels_append (xs ys : List (X A)) : labels (xs ++ ys) = labels xs ++ labels ys := by
  simp [labels]
@[simp] theorem labels_nil : labels ([] : List (X A)) = [] := rfl
@[simp] theorem labels_label (l : Nat) (ys : List (X A)) : labels (.label l :: ys) = l :: labels ys := by
  simp [labels]
theorem labels_cons (x : X A) (ys : List (X A)) (h : x.isLabel = false) : labels (x :: ys) = labels ys := by
  cases x <;> first | rfl | simp [X.isLabel] at h
@[simp] theorem labels_jmp (m) (l : Nat) (ys : List (X A)) : labels (.jmp m l :: ys) = labels ys := rfl
@[simp] theorem labels_drop (ys : List (X A)) : labels (.drop :: ys) = labels ys := rfl
@[simp] theorem labels_eqInt (k) (ys : List (X A)) : labels (.eqInt k :: ys) = labels ys := rfl
@[simp] theorem labels_switch (r d) (ys : List (X A)) : labels (.switch r d :: ys) = labels ys := rfl
@[simp] theorem labels_ret (ys : List (X A)) : labels (.ret :: ys) = labels ys := rfl
@[simp] theorem labels_thr (ys : List (X A)) : labels (.thr :: ys) = labels ys := rfl
@[simp] theorem labels_fail (ys : List (X A)) : labels (.fail :: ys) = labels ys := rfl
@[simp] theorem labels_point (p) (ys : List (X A)) : labels (.point p :: ys) = labels ys := rfl
@[simp] theorem labels_acts (e : List A) : labels (acts e) = [] := by
  induction e with
  | nil => rfl
  | cons a e ih => simpa [acts, labels] using ih
@[simp] theorem labels_condJmp (c : Option (List A)) (m l) : labels (condJmp c m l) = [] := by
  cases c <;> simp [condJmp]
@[simp] theorem labels_resolve (b c : Option Nat) (xs : List (X A)) :
    labels (resolve b c xs) = labels xs := by
  induction xs with
  | nil => rfl
  | cons x xs ih =>
    have : resolve b c (x :: xs) = x.resolve b c :: resolve b c xs := rfl
    rw [this]
    cases hx : x.isLabel with
    | false => rw [labels_cons _ _ (by rw [resolve_isLabel, hx]), labels_cons _ _ hx, ih]
    | true =>
      cases x <;> simp [X.isLabel] at hx
      simp [X.resolve, ih]

theorem resolve_append (b c : Option Nat) (xs ys : List (X A)) :
    resolve b c (xs ++ ys) = resolve b c xs ++ resolve b c ys := by simp [resolve]
theorem resolve_cons (b c : Option Nat) (x : X A) (ys : List (X A)) :
    resolve b c (x :: ys) = x.resolve b c :: resolve b c ys := rfl
theorem resolve_acts (b c : Option Nat) (e : List A) : resolve b c (acts e) = acts e := by
  simp [resolve, acts, X.resolve]
theorem resolve_condJmp (b c : Option Nat) (e : Option (List A)) (m l) :
    resolve b c (condJmp e m l) = condJmp e m l := by
  cases e with
  | none => rfl
  | some e => simp [condJmp, resolve_append, resolve_acts]; rfl
theorem resolve_resolve (b c b' c' : Option Nat) (xs : List (X A)) :
    resolve b c (resolve b' c' xs) = resolve (b'.or b) (c'.or c) xs := by
  simp only [resolve, List.map_map]
  congr 1
  funext x
  cases x with
  | point p => cases p <;> cases b' <;> cases c' <;> simp [X.resolve]
  | _ => rfl

/-- A part of the program whose first instruction has the index `i`. -/
def Seg (prog : List (X A)) (i : Nat) (xs : List (X A)) : Prop :=
  ∃ pre post, prog = pre ++ xs ++ post ∧ size pre = i

theorem Seg.left {prog xs ys : List (X A)} {i} (h : Seg prog i (xs ++ ys)) : Seg prog i xs := by
  obtain ⟨pre, post, rfl, rfl⟩ := h
  exact ⟨pre, ys ++ post, by simp, rfl⟩

theorem Seg.right {prog xs ys : List (X A)} {i} (h : Seg prog i (xs ++ ys)) :
    Seg prog (i + size xs) ys := by
  obtain ⟨pre, post, rfl, rfl⟩ := h
  exact ⟨pre ++ xs, post, by simp, by simp⟩

theorem Seg.head {prog ys : List (X A)} {x i} (h : Seg prog i (x :: ys)) : Seg prog i [x] :=
  Seg.left (xs := [x]) h

theorem Seg.tail {prog ys : List (X A)} {x i} (h : Seg prog i (x :: ys)) (hx : x.isLabel = false) :
    Seg prog (i + 1) ys := by
  have := Seg.right (xs := [x]) h
  rwa [size_one _ hx] at this

theorem Seg.tail_label {prog ys : List (X A)} {l i} (h : Seg prog i (.label l :: ys)) :
    Seg prog i ys := by
  have := Seg.right (xs := [.label l]) h
  simpa using this

theorem size_le (xs : List (X A)) : size xs ≤ xs.length := List.countP_le_length

theorem Seg.le {prog xs : List (X A)} {i} (h : Seg prog i xs) : i ≤ prog.length := by
  obtain ⟨pre, post, rfl, rfl⟩ := h
  have := size_le pre
  simp; omega

/-! ## Where labels are -/

theorem labelIdx_none (xs : List (X A)) (i l : Nat) (h : l ∉ labels xs) : labelIdx xs i l = none := by
  induction xs generalizing i with
  | nil => rfl
  | cons x xs ih =>
    cases hx : x.isLabel with
    | false =>
      rw [labels_cons _ _ hx] at h
      cases x <;> first | exact ih _ h | simp [X.isLabel] at hx
    | true =>
      cases x <;> simp [X.isLabel] at hx
      rename_i l'
      simp at h
      simp [labelIdx, ih _ h.2, Ne.symm h.1]

theorem labelIdx_append (pre xs : List (X A)) (i l t : Nat)
    (h : labelIdx xs (i + size pre) l = some t) : labelIdx (pre ++ xs) i l = some t := by
  induction pre generalizing i with
  | nil => simpa using h
  | cons x pre ih =>
    cases hx : x.isLabel with
    | false =>
      rw [size_cons, size_one _ hx, show i + (1 + size pre) = i + 1 + size pre by omega] at h
      cases x <;> first | exact ih _ h | simp [X.isLabel] at hx
    | true =>
      cases x <;> simp [X.isLabel] at hx
      simp at h
      simp [labelIdx, ih _ h]

theorem labelIdx_le (xs : List (X A)) (i l t : Nat) (h : labelIdx xs i l = some t) :
    t ≤ i + size xs := by
  induction xs generalizing i with
  | nil => simp [labelIdx] at h
  | cons x xs ih =>
    cases hx : x.isLabel with
    | false =>
      rw [size_cons, size_one _ hx]
      have : labelIdx xs (i + 1) l = some t := by
        cases x <;> first | exact h | simp [X.isLabel] at hx
      have := ih _ this
      omega
    | true =>
      cases x <;> simp [X.isLabel] at hx
      simp only [labelIdx, Option.or_eq_some_iff] at h
      simp
      rcases h with h | ⟨_, h⟩
      · exact ih _ h
      · split at h
        · injection h; omega
        · cases h

theorem seg_label {prog : List (X A)} (hn : (labels prog).Nodup) {i l : Nat}
    (h : Seg prog i [.label l]) : labelIdx prog 0 l = some i := by
  obtain ⟨pre, post, rfl, rfl⟩ := h
  rw [List.append_assoc]
  apply labelIdx_append
  have hp : l ∉ labels post := by
    simp [List.nodup_append] at hn
    exact hn.2.1.1
  simp [labelIdx, labelIdx_none _ _ _ hp]

/-! ## Fetching -/

theorem placeAll_get (find : Nat → Option Nat) (pre : List (X A)) (x : X A) (post : List (X A))
    (i : Nat) (cmds : List (Cmd A)) (hx : x.isLabel = false)
    (h : placeAll find (pre ++ x :: post) i = .ok cmds) :
    ∃ c, place find (i + size pre) x = .ok c ∧ cmds[size pre]? = some c := by
  induction pre generalizing i cmds with
  | nil =>
    simp only [List.nil_append, placeAll, hx] at h
    simp only [Bool.false_eq_true, ↓reduceIte] at h
    split at h
    · cases h
    · rename_i c hc
      split at h
      · cases h
      · injection h with h; subst h
        exact ⟨c, by simpa using hc, by simp⟩
  | cons y pre ih =>
    simp only [List.cons_append, placeAll] at h
    cases hy : y.isLabel with
    | true =>
      rw [hy] at h
      simp only [↓reduceIte] at h
      have := ih _ _ h
      cases y <;> simp [X.isLabel] at hy
      simpa using this
    | false =>
      simp only [hy, Bool.false_eq_true, ↓reduceIte] at h
      split at h
      · cases h
      · split at h
        · cases h
        · rename_i cs hcs
          injection h with h; subst h
          obtain ⟨c, h1, h2⟩ := ih _ _ hcs
          refine ⟨c, ?_, ?_⟩
          · rw [size_cons, size_one _ hy, show i + (1 + size pre) = i + 1 + size pre by omega]; exact h1
          · rw [size_cons, size_one _ hy, Nat.add_comm 1]; simpa using h2

theorem fetch {prog : List (X A)} {cmds : List (Cmd A)} (hc : commit prog = .ok cmds) {i : Nat}
    {x : X A} (h : Seg prog i [x]) (hx : x.isLabel = false) :
    ∃ c, place (labelIdx prog 0) i x = .ok c ∧ cmds[i]? = some c := by
  obtain ⟨pre, post, hp, rfl⟩ := h
  rw [commit] at hc
  have hc' : placeAll (labelIdx prog 0) (pre ++ x :: post) 0 = .ok cmds := by
    rw [← hc]; congr 1; rw [hp]; simp
  simpa using placeAll_get _ _ _ _ _ _ hx hc'

theorem placeAll_length (find : Nat → Option Nat) (xs : List (X A)) (i : Nat) (cmds : List (Cmd A))
    (h : placeAll find xs i = .ok cmds) : cmds.length = size xs := by
  induction xs generalizing i cmds with
  | nil => simp [placeAll] at h; subst h; rfl
  | cons y xs ih =>
    simp only [placeAll] at h
    cases hy : y.isLabel with
    | true =>
      rw [hy] at h
      simp only [↓reduceIte] at h
      have := ih _ _ h
      cases y <;> simp [X.isLabel] at hy
      simpa using this
    | false =>
      simp only [hy, Bool.false_eq_true, ↓reduceIte] at h
      split at h
      · cases h
      · split at h
        · cases h
        · rename_i cs hcs
          injection h with h; subst h
          rw [size_cons, size_one _ hy]
          simp [ih _ _ hcs]; omega

theorem distance_toInt (i t : Nat) (hi : i < 2 ^ 31) (ht : t < 2 ^ 31) :
    (distance i t).toInt = (t : Int) - i := by
  rw [distance, BitVec.toInt_sub]
  have h1 : (BitVec.ofNat 32 t).toInt = (t : Int) := by
    rw [BitVec.toInt_ofNat']
    apply Int.bmod_eq_of_le <;> omega
  have h2 : (BitVec.ofNat 32 i).toInt = (i : Int) := by
    rw [BitVec.toInt_ofNat']
    apply Int.bmod_eq_of_le <;> omega
  rw [h1, h2]
  apply Int.bmod_eq_of_le <;> omega

theorem stored_ok {v : BitVec 32} {d : Int} (h : stored v = .ok d) : d = v.toInt := by
  rw [stored] at h
  by_cases hv : -(2 ^ 23) ≤ v.toInt ∧ v.toInt < 2 ^ 23
  · obtain ⟨y, h1, h2, _⟩ := (Bits.jmp_step_roundtrip ⟨0#4, 0#4, 0#8, 0#8, 0#8⟩ v).1 hv
    rw [h1] at h
    simp only [Option.bind_some, h2] at h
    injection h with h
    exact h.symm
  · rw [(Bits.jmp_step_roundtrip ⟨0#4, 0#4, 0#8, 0#8, 0#8⟩ v).2 hv] at h
    cases h

theorem jumpTo_eq (pc t : Nat) (s : S) : jumpTo pc ((t : Int) - pc) s = .at_ t s := by
  have h : (pc : Int) + 1 + ((t : Int) - pc - 1) = t := by omega
  simp only [jumpTo, h]
  rw [if_neg (by omega)]
  simp

end Verif.Stmt
