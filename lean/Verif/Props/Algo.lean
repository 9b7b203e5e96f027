import Verif.Model.Algo
import Verif.Spec.Order

/-!
# C36 composite keys, C39 selection, C51 splitting, C52 variadic minimum, maximum and comparison
-/

namespace Verif.Algo

open Verif.Spec

variable {α : Type}

/-! ## C39 -/

theorem selectLoop_spec {lt : α → α → Bool} (h : StrictTotal lt) (pre : List α) (p : Nat) (x : α)
    (hp : pre[p]? = some x) (hmax : ∀ (i : Nat) y, pre[i]? = some y → lt x y = false)
    (hfirst : ∀ (i : Nat) y, i < p → pre[i]? = some y → lt y x = true) (rest : List α) :
    ∃ x', (pre ++ rest)[selectLoop lt (p, x) pre.length rest]? = some x' ∧
      (∀ (i : Nat) y, (pre ++ rest)[i]? = some y → lt x' y = false) ∧
      (∀ (i : Nat) y, i < selectLoop lt (p, x) pre.length rest → (pre ++ rest)[i]? = some y → lt y x' = true) := by
  induction rest generalizing pre p x with
  | nil => exact ⟨x, by simpa [selectLoop] using hp, by simpa using hmax, by simpa [selectLoop] using hfirst⟩
  | cons z rest ih =>
    have hplt : p < pre.length := by
      rw [List.getElem?_eq_some_iff] at hp; exact hp.1
    have hcat : pre ++ z :: rest = (pre ++ [z]) ++ rest := by simp
    have hlen : (pre ++ [z]).length = pre.length + 1 := by simp
    have hget : ∀ (i : Nat) y, (pre ++ [z])[i]? = some y → pre[i]? = some y ∨ (i = pre.length ∧ y = z) := by
      intro i y hy
      by_cases hi : i < pre.length
      · rw [List.getElem?_append_left hi] at hy; exact Or.inl hy
      · rw [List.getElem?_append_right (by omega)] at hy
        rcases Nat.eq_or_lt_of_le (Nat.le_of_not_lt hi) with he | hlt
        · subst he; simp at hy; exact Or.inr ⟨rfl, hy.symm⟩
        · rw [List.getElem?_eq_none (by simp; omega)] at hy; cases hy
    rw [selectLoop]
    by_cases hc : lt x z = true
    · rw [if_pos hc, hcat, ← hlen]
      have := ih (pre ++ [z]) pre.length z (by simp) ?_ ?_
      · rwa [hlen] at this ⊢
      · intro i y hy
        rcases hget i y hy with hy | ⟨-, rfl⟩
        · cases hzy : lt z y with
          | false => rfl
          | true => have := h.trans x z y hc hzy; rw [hmax i y hy] at this; cases this
        · exact h.irrefl _
      · intro i y hi hy
        rcases hget i y hy with hy' | ⟨he, -⟩
        · rcases h.total y z with h1 | h1 | h1
          · exact h1
          · rw [← h1, hmax i y hy'] at hc; cases hc
          · have := h.trans x z y hc h1; rw [hmax i y hy'] at this; cases this
        · omega
    · rw [if_neg hc, hcat, ← hlen]
      refine ih (pre ++ [z]) p x (by rw [List.getElem?_append_left hplt]; exact hp) ?_ ?_
      · intro i y hy
        rcases hget i y hy with hy | ⟨-, rfl⟩
        · exact hmax i y hy
        · simpa using hc
      · intro i y hi hy
        rcases hget i y hy with hy | ⟨he, -⟩
        · exact hfirst i y hi hy
        · omega

/-- **C39, what the helpers compute.**  `select` with a strict total order returns the position of the first
element that no element exceeds: a maximum, the first one. -/
theorem select_first_max {lt : α → α → Bool} (h : StrictTotal lt) (xs : List α) (hne : xs ≠ []) :
    ∃ x, xs[select lt xs]? = some x ∧ (∀ y ∈ xs, lt x y = false) ∧
      ∀ (i : Nat) y, i < select lt xs → xs[i]? = some y → lt y x = true := by
  cases xs with
  | nil => exact absurd rfl hne
  | cons a rest =>
    obtain ⟨x, h1, h2, h3⟩ := selectLoop_spec h [a] 0 a rfl
      (by intro i y hy; cases i with
          | zero => simp at hy; subst hy; exact h.irrefl _
          | succ i => simp at hy)
      (by intro i y hi; omega) rest
    refine ⟨x, h1, ?_, h3⟩
    intro y hy
    obtain ⟨i, hi⟩ := List.getElem?_of_mem hy
    exact h2 i y hi

theorem StrictTotal.swap {lt : α → α → Bool} (h : StrictTotal lt) : StrictTotal (fun x y => lt y x) where
  irrefl := h.irrefl
  trans := fun a b c h1 h2 => h.trans c b a h2 h1
  total := fun a b => by rcases h.total a b with h1 | h1 | h1 <;> simp [h1]

/-- `select_max` returns a smallest element of every non-empty sequence (the first one). -/
theorem selectMax_is_min {lt : α → α → Bool} (h : StrictTotal lt) (xs : List α) (hne : xs ≠ []) :
    ∃ x, xs[selectMax lt xs]? = some x ∧ ∀ y ∈ xs, lt y x = false := by
  obtain ⟨x, h1, h2, -⟩ := select_first_max (StrictTotal.swap h) xs hne
  exact ⟨x, h1, h2⟩

/-- `select_min` returns a largest element of every non-empty sequence (the first one). -/
theorem selectMin_is_max {lt : α → α → Bool} (h : StrictTotal lt) (xs : List α) (hne : xs ≠ []) :
    ∃ x, xs[selectMin lt xs]? = some x ∧ ∀ y ∈ xs, lt x y = false := by
  obtain ⟨x, h1, h2, -⟩ := select_first_max h xs hne
  exact ⟨x, h1, h2⟩

/-- **C39 is false, exactly here**: `select_min` returns a smallest element only for sequences all of whose
elements are equal. -/
theorem selectMin_correct_iff {lt : α → α → Bool} (h : StrictTotal lt) (xs : List α) (hne : xs ≠ []) :
    (∃ x, xs[selectMin lt xs]? = some x ∧ ∀ y ∈ xs, lt y x = false) ↔ ∀ x ∈ xs, ∀ y ∈ xs, x = y := by
  obtain ⟨m, h1, h2⟩ := selectMin_is_max h xs hne
  have hm : m ∈ xs := List.mem_of_getElem? h1
  constructor
  · rintro ⟨x, hx, hmin⟩ a ha b hb
    rw [h1] at hx; cases hx
    have e : ∀ c ∈ xs, c = m := fun c hc => by
      rcases h.total c m with h3 | h3 | h3
      · rw [hmin c hc] at h3; cases h3
      · exact h3
      · rw [h2 c hc] at h3; cases h3
    rw [e a ha, e b hb]
  · intro hall
    exact ⟨m, h1, fun y hy => by rw [hall y hy m hm]; exact h.irrefl _⟩

/-- The same for `select_max`. -/
theorem selectMax_correct_iff {lt : α → α → Bool} (h : StrictTotal lt) (xs : List α) (hne : xs ≠ []) :
    (∃ x, xs[selectMax lt xs]? = some x ∧ ∀ y ∈ xs, lt x y = false) ↔ ∀ x ∈ xs, ∀ y ∈ xs, x = y :=
  selectMin_correct_iff (StrictTotal.swap h) xs hne

/-- **C39 is false**: of 3, 1, 2 `select_min` returns 3 and `select_max` returns 1. -/
theorem select_refuted :
    selectMin (fun a b : Nat => decide (a < b)) [3, 1, 2] = 0 ∧
    selectMax (fun a b : Nat => decide (a < b)) [3, 1, 2] = 1 := by decide

example : StrictTotal (fun a b : Nat => decide (a < b)) ∧ [3, 1, 2] ≠ [] := ⟨natStrictTotal, by simp⟩

/-! ## C36 -/

theorem keyLoop_eq_zero {lt : α → α → Bool} (h : StrictTotal lt) (a b : List α)
    (hl : a.length = b.length) : keyLoop lt a b = 0 ↔ a = b := by
  induction a generalizing b with
  | nil => cases b with
    | nil => simp [keyLoop]
    | cons => simp at hl
  | cons x a ih => cases b with
    | nil => simp at hl
    | cons y b =>
      rw [keyLoop]
      rcases h.total x y with h1 | h1 | h1
      · have : x ≠ y := by rintro rfl; rw [h.irrefl] at h1; cases h1
        simp [h1, this]
      · subst h1; simp [h.irrefl, ih b (by simpa using hl)]
      · have : x ≠ y := by rintro rfl; rw [h.irrefl] at h1; cases h1
        simp [h1, h.asymm h1, this]

theorem keyLoop_antisymm {lt : α → α → Bool} (h : StrictTotal lt) (a b : List α) :
    keyLoop lt a b = - keyLoop lt b a := by
  induction a generalizing b with
  | nil => cases b <;> rfl
  | cons x a ih => cases b with
    | nil => rfl
    | cons y b =>
      rw [keyLoop, keyLoop]
      by_cases h1 : lt x y = true
      · simp [h1, h.asymm h1]
      · by_cases h2 : lt y x = true
        · simp [h1, h2]
        · simp [h1, h2, ih]

theorem keyLoop_trans {lt : α → α → Bool} (h : StrictTotal lt) (a b c : List α)
    (h1 : a.length = b.length) (h2 : b.length = c.length) (hab : keyLoop lt a b < 0)
    (hbc : keyLoop lt b c < 0) : keyLoop lt a c < 0 := by
  induction a generalizing b c with
  | nil => cases b with
    | nil => simp [keyLoop] at hab
    | cons => simp at h1
  | cons x a ih => cases b with
    | nil => simp at h1
    | cons y b => cases c with
      | nil => simp at h2
      | cons z c =>
        rw [keyLoop] at hab hbc ⊢
        rcases h.total x y with hxy | hxy | hxy
        · rcases h.total y z with hyz | hyz | hyz
          · simp [h.trans x y z hxy hyz]
          · subst hyz; simp [hxy]
          · simp [hyz, h.asymm hyz] at hbc
        · subst hxy
          rcases h.total x z with hyz | hyz | hyz
          · simp [hyz]
          · subst hyz
            simp only [h.irrefl, Bool.false_eq_true, if_false] at hab hbc ⊢
            exact ih b c (by simpa using h1) (by simpa using h2) hab hbc
          · simp [hyz, h.asymm hyz] at hbc
        · simp [hxy, h.asymm hxy] at hab

theorem toInt32_small (n : Nat) (h : n < 2 ^ 31) : toInt32 n = n := by
  rw [toInt32, BitVec.toInt_ofNat']
  rw [Int.bmod_eq_of_le] <;> omega

/-- **C36.**  Composite keys (of fewer than 2^31 components) are strictly totally ordered by `<`, for every
component type whose `<` is a strict total order. -/
theorem multikey_strict_total {lt : α → α → Bool} (h : StrictTotal lt) (a b c : List α)
    (ha : a.length < 2 ^ 31) (hb : b.length < 2 ^ 31) (hc : c.length < 2 ^ 31) :
    keyLt lt a a = false ∧ (keyLt lt a b = true → keyLt lt b c = true → keyLt lt a c = true) ∧
    (keyLt lt a b = true ∨ a = b ∨ keyLt lt b a = true) := by
  have ia := toInt32_small _ ha
  have ib := toInt32_small _ hb
  have ic := toInt32_small _ hc
  refine ⟨?_, ?_, ?_⟩
  · simp [keyLt, keyCmp, (keyLoop_eq_zero h a a rfl).2 rfl]
  · simp only [keyLt, keyCmp, ia, ib, ic, decide_eq_true_eq]
    by_cases h1 : a.length = b.length <;> by_cases h2 : b.length = c.length
    · have h3 : a.length = c.length := by omega
      simp only [h1, h2, ne_eq, not_true, if_false]
      exact keyLoop_trans h a b c h1 h2
    · have h3 : a.length ≠ c.length := by omega
      simp only [ne_eq, h1, h2, h3, not_true, not_false_eq_true, if_true, if_false]
      omega
    · have h3 : a.length ≠ c.length := by omega
      simp only [ne_eq, h1, h2, h3, not_true, not_false_eq_true, if_true, if_false]
      omega
    · by_cases h3 : a.length = c.length
      · simp only [ne_eq, h1, h2, not_false_eq_true, if_true]; omega
      · simp only [ne_eq, h1, h2, h3, not_false_eq_true, if_true]; omega
  · simp only [keyLt, keyCmp, ia, ib, decide_eq_true_eq]
    by_cases h1 : a.length = b.length
    · simp only [ne_eq, h1, not_true, if_false]
      rw [keyLoop_antisymm h b a, ← keyLoop_eq_zero h a b h1]
      omega
    · have h1' : b.length ≠ a.length := fun e => h1 e.symm
      simp only [ne_eq, h1, h1', not_false_eq_true, if_true]
      omega

/-- **C36.**  Two composite keys compare equal exactly when all their components are equal. -/
theorem multikey_eq_iff {lt : α → α → Bool} (h : StrictTotal lt) (a b : List α)
    (ha : a.length < 2 ^ 31) (hb : b.length < 2 ^ 31) : keyEq lt a b = true ↔ a = b := by
  have ia := toInt32_small _ ha
  have ib := toInt32_small _ hb
  simp only [keyEq, keyCmp, ia, ib, decide_eq_true_eq]
  by_cases h1 : a.length = b.length
  · simp only [ne_eq, h1, not_true, if_false]; exact keyLoop_eq_zero h a b h1
  · simp only [ne_eq, h1, not_false_eq_true, if_true]
    constructor
    · intro; omega
    · rintro rfl; exact absurd rfl h1

/-- **C36.**  The six comparison operators agree with each other. -/
theorem multikey_operators {lt : α → α → Bool} (h : StrictTotal lt) (a b : List α) :
    keyNe lt a b = !keyEq lt a b ∧ keyLe lt a b = (keyLt lt a b || keyEq lt a b) ∧
    keyGe lt a b = !keyLt lt a b ∧ keyGt lt a b = keyLt lt b a := by
  refine ⟨?_, ?_, ?_, ?_⟩
  · simp [keyNe, keyEq]
  · simp only [keyLe, keyLt, keyEq]
    rw [← Bool.decide_or, decide_eq_decide]; omega
  · simp only [keyGe, keyLt]
    rw [← decide_not, decide_eq_decide]; omega
  · simp only [keyGt, keyLt, decide_eq_decide]
    have : keyCmp lt a b = - keyCmp lt b a := by
      rw [keyCmp, keyCmp]
      by_cases h1 : a.length = b.length
      · rw [if_neg (by simp [h1]), if_neg (by simp [h1]), keyLoop_antisymm h]
      · rw [if_pos h1, if_pos (fun e => h1 e.symm)]; omega
    omega

/-- A shorter key always comes first. -/
theorem multikey_shorter_first {lt : α → α → Bool} (a b : List α) (hab : a.length < b.length)
    (hb : b.length < 2 ^ 31) : keyLt lt a b = true := by
  simp only [keyLt, keyCmp, toInt32_small _ hb, toInt32_small a.length (by omega), decide_eq_true_eq]
  rw [if_pos (by omega)]; omega

/-- Non-vacuity: [1,2,3] is before [1,3,0], after [9,9]. -/
example : keyLt (fun a b : Nat => decide (a < b)) [1, 2, 3] [1, 3, 0] = true ∧
    keyLt (fun a b : Nat => decide (a < b)) [9, 9] [1, 2, 3] = true := by decide

/-! ## C51 -/

theorem splitLoop_spec (pred : α → Bool) (cur xs : List α) (hcur : ∀ x ∈ cur, pred x = false) :
    (∀ piece ∈ splitLoop pred cur xs, ∀ x ∈ piece, pred x = false) ∧
    ∃ seps : List α, (∀ x ∈ seps, pred x = true) ∧ (splitLoop pred cur xs).length = seps.length + 1 ∧
      cur ++ xs = (splitLoop pred cur xs).headD [] ++
        (List.zipWith (fun s piece => s :: piece) seps (splitLoop pred cur xs).tail).flatten := by
  induction xs generalizing cur with
  | nil => exact ⟨by simpa [splitLoop] using hcur, [], by simp, by simp [splitLoop], by simp [splitLoop]⟩
  | cons x xs ih =>
    rw [splitLoop]
    by_cases hx : pred x = true
    · obtain ⟨h1, seps, h2, h3, h4⟩ := ih [] (by simp)
      simp only [hx, if_true]
      refine ⟨?_, x :: seps, ?_, by simp [h3], ?_⟩
      · intro piece hp
        rcases List.mem_cons.1 hp with rfl | hp
        · exact hcur
        · exact h1 piece hp
      · intro y hy
        rcases List.mem_cons.1 hy with rfl | hy
        · exact hx
        · exact h2 y hy
      · generalize splitLoop pred [] xs = r at *
        cases r with
        | nil => simp at h3
        | cons p ps =>
          simp only [List.nil_append, List.headD_cons, List.tail_cons] at h4
          simp only [List.headD_cons, List.tail_cons, List.zipWith_cons_cons, List.flatten_cons,
            List.cons_append]
          rw [h4]
    · simp only [hx, Bool.false_eq_true, if_false]
      obtain ⟨h1, seps, h2, h3, h4⟩ := ih (cur ++ [x]) (by
        intro y hy
        rcases List.mem_append.1 hy with hy | hy
        · exact hcur y hy
        · simp at hy; subst hy; simpa using hx)
      exact ⟨h1, seps, h2, h3, by simpa using h4⟩

/-- **C51 (split).**  Splitting a non-empty sequence hands out pieces that contain no separator, one more
than there are separators, and the pieces with the separators put back between them are the sequence. -/
theorem split_pieces (pred : α → Bool) (xs : List α) (hne : xs ≠ []) :
    (∀ piece ∈ splitIf pred xs, ∀ x ∈ piece, pred x = false) ∧
    ∃ seps : List α, (∀ x ∈ seps, pred x = true) ∧ (splitIf pred xs).length = seps.length + 1 ∧
      xs = (splitIf pred xs).headD [] ++
        (List.zipWith (fun s piece => s :: piece) seps (splitIf pred xs).tail).flatten := by
  cases xs with
  | nil => exact absurd rfl hne
  | cons x xs => exact splitLoop_spec pred [] (x :: xs) (by simp)

/-- An empty sequence gives no piece at all (not one empty piece). -/
theorem split_empty (pred : α → Bool) : splitIf pred [] = [] := rfl

example : splitIf (fun x : Nat => x == 0) [1, 2, 0, 3, 0] = [[1, 2], [3], []] := by decide

theorem splitArrayLoop_spec {κ : Type} [DecidableEq κ] (key : α → κ) (key0 : κ) (run xs : List α)
    (hrun : run ≠ []) (hk : ∀ x ∈ run, key x = key0) :
    let r := splitArrayLoop (fun a b => decide (a = b)) key key0 run xs
    (r.map Prod.snd).flatten = run ++ xs ∧ (∀ p ∈ r, p.2 ≠ [] ∧ ∀ x ∈ p.2, key x = p.1) ∧
    (∃ run' t, r = (key0, run') :: t) ∧
    ∀ (i : Nat) a b, r[i]? = some a → r[i + 1]? = some b → a.1 ≠ b.1 := by
  induction xs generalizing key0 run with
  | nil =>
    refine ⟨by simp [splitArrayLoop], by simpa [splitArrayLoop] using ⟨hrun, hk⟩, ⟨run, [], rfl⟩, ?_⟩
    intro i a b h1 h2; simp [splitArrayLoop] at h2
  | cons x xs ih =>
    simp only [splitArrayLoop]
    by_cases hx : key x = key0
    · simp only [hx, decide_true, if_true]
      obtain ⟨h1, h2, h3, h4⟩ := ih key0 (run ++ [x]) (by simp) (by
        intro y hy
        rcases List.mem_append.1 hy with hy | hy
        · exact hk y hy
        · simp at hy; subst hy; exact hx)
      exact ⟨by simpa using h1, h2, h3, h4⟩
    · simp only [hx, decide_false, Bool.false_eq_true, if_false]
      obtain ⟨h1, h2, ⟨run', t, h3⟩, h4⟩ := ih (key x) [x] (by simp) (by simp)
      refine ⟨by simp [h1], ?_, ⟨run, _, rfl⟩, ?_⟩
      · intro p hp
        rcases List.mem_cons.1 hp with rfl | hp
        · exact ⟨hrun, hk⟩
        · exact h2 p hp
      · intro i a b ha hb
        cases i with
        | zero =>
          simp only [List.getElem?_cons_zero, Option.some.injEq, Nat.zero_add,
            List.getElem?_cons_succ] at ha hb
          rw [h3] at hb
          simp only [List.getElem?_cons_zero, Option.some.injEq] at hb
          subst ha; subst hb
          exact fun e => hx e.symm
        | succ i => exact h4 i a b (by simpa using ha) (by simpa using hb)

/-- **C51 (runs).**  Splitting a sequence by key hands out non-empty runs which, one after the other, are the
sequence; all elements of a run have the run's key, and neighbouring runs have different keys. -/
theorem split_array_runs {κ : Type} [DecidableEq κ] (key : α → κ) (xs : List α) :
    let r := splitArray (fun a b => decide (a = b)) key xs
    (r.map Prod.snd).flatten = xs ∧ (∀ p ∈ r, p.2 ≠ [] ∧ ∀ x ∈ p.2, key x = p.1) ∧
    ∀ (i : Nat) a b, r[i]? = some a → r[i + 1]? = some b → a.1 ≠ b.1 := by
  cases xs with
  | nil => simp [splitArray]
  | cons x xs =>
    obtain ⟨h1, h2, -, h4⟩ := splitArrayLoop_spec key (key x) [x] xs (by simp) (by simp)
    exact ⟨by simpa [splitArray] using h1, h2, h4⟩

example : splitArray (fun a b => decide (a = b)) (fun x : Nat => x % 2) [1, 3, 2, 4, 5] =
    [(1, [1, 3]), (0, [2, 4]), (1, [5])] := by decide

/-! ## C52 -/

/-- **C52.**  The variadic maximum is one of its arguments and none of them exceeds it. -/
theorem maxOf_spec {lt : α → α → Bool} (h : StrictTotal lt) (v : α) (vs : List α) :
    maxOf lt v vs ∈ v :: vs ∧ ∀ x ∈ v :: vs, lt (maxOf lt v vs) x = false := by
  induction vs generalizing v with
  | nil => simp [maxOf, h.irrefl]
  | cons r rest ih =>
    obtain ⟨h1, h2⟩ := ih r
    simp only [maxOf]
    by_cases hc : lt v (maxOf lt r rest) = true
    · simp only [hc, if_true]
      refine ⟨List.mem_cons_of_mem _ h1, fun x hx => ?_⟩
      rcases List.mem_cons.1 hx with rfl | hx
      · exact h.asymm hc
      · exact h2 x hx
    · simp only [hc, Bool.false_eq_true, if_false]
      refine ⟨by simp, fun x hx => ?_⟩
      rcases List.mem_cons.1 hx with rfl | hx
      · exact h.irrefl _
      · cases hvx : lt v x with
        | false => rfl
        | true =>
          rcases h.total v (maxOf lt r rest) with h3 | h3 | h3
          · exact absurd h3 hc
          · rw [h3, h2 x hx] at hvx; cases hvx
          · have := h.trans _ _ _ h3 hvx; rw [h2 x hx] at this; cases this

/-- **C52.**  The variadic minimum is one of its arguments and it exceeds none of them. -/
theorem minOf_spec {lt : α → α → Bool} (h : StrictTotal lt) (v : α) (vs : List α) :
    minOf lt v vs ∈ v :: vs ∧ ∀ x ∈ v :: vs, lt x (minOf lt v vs) = false := by
  induction vs generalizing v with
  | nil => simp [minOf, h.irrefl]
  | cons r rest ih =>
    obtain ⟨h1, h2⟩ := ih r
    simp only [minOf]
    by_cases hc : lt v (minOf lt r rest) = true
    · simp only [hc, if_true]
      refine ⟨by simp, fun x hx => ?_⟩
      rcases List.mem_cons.1 hx with rfl | hx
      · exact h.irrefl _
      · cases hxv : lt x v with
        | false => rfl
        | true => have := h.trans _ _ _ hxv hc; rw [h2 x hx] at this; cases this
    · simp only [hc, Bool.false_eq_true, if_false]
      refine ⟨List.mem_cons_of_mem _ h1, fun x hx => ?_⟩
      rcases List.mem_cons.1 hx with rfl | hx
      · simpa using hc
      · exact h2 x hx

/-- **C52.**  The variadic comparison is 0 exactly when all pairs are equal; otherwise its sign is that of
the first pair that differs. -/
theorem cmpPairs_spec {lt : α → α → Bool} (h : StrictTotal lt) (ps : List (α × α)) :
    (cmpPairs lt ps = 0 ↔ ∀ p ∈ ps, p.1 = p.2) ∧
    (cmpPairs lt ps = -1 ↔ ∃ pre p post, ps = pre ++ p :: post ∧ (∀ q ∈ pre, q.1 = q.2) ∧ lt p.1 p.2 = true) ∧
    (cmpPairs lt ps = 1 ↔ ∃ pre p post, ps = pre ++ p :: post ∧ (∀ q ∈ pre, q.1 = q.2) ∧ lt p.2 p.1 = true) := by
  induction ps with
  | nil => simp [cmpPairs]
  | cons p ps ih =>
    obtain ⟨a, b⟩ := p
    have key : ∀ P : α × α → Prop, (a = b → ¬ P (a, b)) → (a ≠ b → True) →
        ((∃ pre p post, (a, b) :: ps = pre ++ p :: post ∧ (∀ q ∈ pre, q.1 = q.2) ∧ P p) ↔
          P (a, b) ∨ (a = b ∧ ∃ pre p post, ps = pre ++ p :: post ∧ (∀ q ∈ pre, q.1 = q.2) ∧ P p)) := by
      intro P hP _
      constructor
      · rintro ⟨pre, p, post, h1, h2, h3⟩
        cases pre with
        | nil => simp at h1; rw [h1.1]; exact Or.inl h3
        | cons q pre =>
          simp at h1
          obtain ⟨rfl, h1⟩ := h1
          exact Or.inr ⟨h2 (a, b) (by simp), pre, p, post, h1, fun q hq => h2 q (by simp [hq]), h3⟩
      · rintro (hp | ⟨hab, pre, p, post, h1, h2, h3⟩)
        · exact ⟨[], (a, b), ps, rfl, by simp, hp⟩
        · refine ⟨(a, b) :: pre, p, post, by simp [h1], ?_, h3⟩
          intro q hq
          rcases List.mem_cons.1 hq with rfl | hq
          · exact hab
          · exact h2 q hq
    rw [key (fun p => lt p.1 p.2 = true) (by rintro rfl; simp [h.irrefl]) (fun _ => trivial),
      key (fun p => lt p.2 p.1 = true) (by rintro rfl; simp [h.irrefl]) (fun _ => trivial), cmpPairs]
    rcases h.total a b with h1 | h1 | h1
    · have : a ≠ b := by rintro rfl; rw [h.irrefl] at h1; cases h1
      simp [h1, this, h.asymm h1]
    · subst h1; simp [h.irrefl, ih.1, ih.2.1, ih.2.2]
    · have : a ≠ b := by rintro rfl; rw [h.irrefl] at h1; cases h1
      simp [h1, this, h.asymm h1]

example : maxOf (fun a b : Nat => decide (a < b)) 3 [9, 2] = 9 ∧
    minOf (fun a b : Nat => decide (a < b)) 3 [9, 2] = 2 ∧
    cmpPairs (fun a b : Nat => decide (a < b)) [(1, 1), (5, 2)] = 1 := by decide

end Verif.Algo
