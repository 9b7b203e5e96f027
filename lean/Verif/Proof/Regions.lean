import Verif.Spec.Regions
import Verif.Spec.Layout

/-! Lemmas about regions. -/

namespace Verif.Regions

open Verif.Layout (Def Storage m16 Sees)

theorem lookup_eq_find (name : Nat) : ∀ vars : List (Nat × Var), vars.lookup name = (vars.find? (·.1 == name)).map (·.2)
  | [] => rfl
  | (x, v) :: vars => by
    by_cases h : name = x
    · subst h; simp
    · have h1 : (name == x) = false := by simpa using h
      have h2 : (x == name) = false := by simpa using fun e => h e.symm
      simp [List.lookup, List.find?, h1, h2, lookup_eq_find name vars]

theorem lookup_none_iff (name : Nat) (vars : List (Nat × Var)) :
    vars.lookup name = none ↔ vars.any (·.1 == name) = false := by
  rw [lookup_eq_find, Option.map_eq_none_iff, List.find?_eq_none, List.any_eq_false]

theorem get_eq_find (name : Nat) : ∀ rs : List Region, get name rs = Blocks.find name (rs.map (·.vars))
  | [] => rfl
  | r :: rs => by
    have ih := get_eq_find name rs
    unfold Blocks.find at ih ⊢
    rw [get, List.map_cons, List.flatten_cons, List.find?_append, lookup_eq_find]
    cases h : r.vars.find? (·.1 == name) with
    | some x => simp
    | none => simp [ih]

theorem locals_cons (b : List (Nat × Var)) (bs : Blocks) :
    Blocks.locals (b :: bs) = Blocks.locals [b] ++ Blocks.locals bs := by
  simp [Blocks.locals]

/-- The number of local variables in scope. -/
def count (rs : List Region) : Nat := (Blocks.locals (rs.map (·.vars))).length

theorem count_cons (r : Region) (rs : List Region) : count (r :: rs) = count [r] + count rs := by
  unfold count
  rw [List.map_cons, locals_cons, List.length_append]
  rfl

/-- The indices that regions have already are the numbers of variables. -/
def Indexed : List Region → Prop
  | [] => True
  | r :: rs => Indexed rs ∧ (∀ v, r.index = some v → v = count (r :: rs)) ∧ (r.index = none → count [r] = 0)

theorem currentIndex_ok : ∀ rs : List Region, Indexed rs →
    (currentIndex rs).1 = count rs ∧ Indexed (currentIndex rs).2 ∧
      (currentIndex rs).2.map (·.vars) = rs.map (·.vars)
  | [], _ => ⟨rfl, trivial, rfl⟩
  | r :: rs, h => by
    obtain ⟨h1, h2, h3⟩ := h
    rw [currentIndex]
    cases hi : r.index with
    | some i => exact ⟨h2 i hi, ⟨h1, h2, h3⟩, rfl⟩
    | none =>
      obtain ⟨c1, c2, c3⟩ := currentIndex_ok rs h1
      have h4 := h3 hi
      have h5 : count (r :: rs) = count rs := by rw [count_cons, h4]; omega
      have h6 : ∀ x, count ({ r with index := some x } :: (currentIndex rs).2) = count (r :: rs) := by
        intro x; unfold count; simp [c3]
      refine ⟨by rw [h5]; exact c1, ⟨c2, ?_, ?_⟩, by simp [c3]⟩
      · intro v hv
        simp only [Option.some.injEq] at hv
        rw [h6, h5, ← hv, c1]
      · intro hv; simp at hv

theorem defineLocal_ok {name identity : Nat} {r : Region} {rs : List Region} (h : Indexed (r :: rs))
    (hc : count (r :: rs) + 1 < 65536) (hn : r.vars.lookup name = none) :
    ∃ rs', defineLocal name identity (r :: rs) = some (rs', count (r :: rs)) ∧ Indexed rs' ∧
      rs'.map (·.vars) = ((name, .loc identity) :: r.vars) :: rs.map (·.vars) := by
  obtain ⟨h1, h2, h3⟩ := h
  obtain ⟨c1, c2, c3⟩ := currentIndex_ok rs h1
  have hm : m16 (count (r :: rs) + 1) = count (r :: rs) + 1 := by unfold m16; rw [Nat.mod_eq_of_lt hc]
  have hnew : ∀ x (rs2 : List Region), rs2.map (·.vars) = rs.map (·.vars) →
      count (⟨(name, .loc identity) :: r.vars, x⟩ :: rs2) = count (r :: rs) + 1 := by
    intro x rs2 he
    unfold count
    rw [List.map_cons, he, locals_cons, List.map_cons, locals_cons r.vars]
    simp [Blocks.locals]
  rw [defineLocal, hn]
  simp only
  rw [currentIndex]
  cases hi : r.index with
  | some i =>
    have hic := h2 i hi
    subst hic
    refine ⟨_, rfl, ⟨h1, ?_, ?_⟩, rfl⟩
    · intro v hv
      simp only [Option.some.injEq] at hv
      rw [hnew _ rs rfl, ← hv, hm]
    · intro hv; simp at hv
  | none =>
    have h4 := h3 hi
    have h5 : count (r :: rs) = count rs := by rw [count_cons, h4]; omega
    simp only [c1, ← h5]
    refine ⟨_, rfl, ⟨c2, ?_, ?_⟩, by simp [c3]⟩
    · intro v hv
      simp only [Option.some.injEq] at hv
      rw [hnew _ _ c3, ← hv, hm]
    · intro hv; simp at hv

/-- What relates the walk and the blocks. -/
structure Rel (w : Walk) (bs : Blocks) (n : Nat) : Prop where
  vars : w.regions.map (·.vars) = bs
  indexed : Indexed w.regions
  next : w.next = n
  length : w.defs.length = n
  live : ∀ (j a : Nat), bs.locals.reverse[j]? = some a →
    ∃ d, w.defs[a]? = some d ∧ d.index = j ∧
      ∀ (m : Nat) (dm : Def), a < m → w.defs[m]? = some dm → j < dm.index
  dead : ∀ (a : Nat) (d : Def), w.defs[a]? = some d → a ∉ bs.locals →
    bs.locals.length ≤ d.index ∨ ∃ m dm, a < m ∧ w.defs[m]? = some dm ∧ dm.index ≤ d.index

theorem Rel.start : Rel Walk.start [[]] 0 := by
  refine ⟨rfl, ⟨trivial, ?_, ?_⟩, rfl, rfl, ?_, ?_⟩
  · intro v h; simp [Region.new] at h
  · intro _; rfl
  · intro j a h; simp [Blocks.locals] at h
  · intro a d h; simp [Walk.start] at h

theorem getElem?_snoc {α : Type} {xs : List α} {x y : α} {k : Nat} (h : (xs ++ [x])[k]? = some y) :
    xs[k]? = some y ∨ (k = xs.length ∧ y = x) := by
  rcases Nat.lt_trichotomy k xs.length with h1 | h1 | h1
  · rw [List.getElem?_append_left h1] at h; exact .inl h
  · subst h1; simp at h; exact .inr ⟨rfl, h.symm⟩
  · have : (xs ++ [x])[k]? = none := by rw [List.getElem?_eq_none_iff]; simp; omega
    rw [this] at h; cases h

theorem getElem?_snoc_of {α : Type} {xs : List α} {x y : α} {k : Nat} (h : xs[k]? = some y) :
    (xs ++ [x])[k]? = some y := by
  rw [List.getElem?_append_left (List.getElem?_eq_some_iff.1 h).1]; exact h

/-- The number of local variables in scope is not greater than that of all. -/
theorem Rel.count_le {w : Walk} {bs : Blocks} {n : Nat} (h : Rel w bs n) : bs.locals.length ≤ n := by
  have hlen : bs.locals.reverse.length = bs.locals.length := List.length_reverse
  rcases Nat.eq_zero_or_pos bs.locals.length with h0 | h0
  · omega
  · -- the last has the greatest index; indices of defs are positions
    have hb : ∀ (j a : Nat), bs.locals.reverse[j]? = some a → j ≤ a := by
      intro j
      induction j with
      | zero => intro a _; exact Nat.zero_le _
      | succ j ih =>
        intro a ha
        have hj : j < bs.locals.reverse.length := by have := (List.getElem?_eq_some_iff.1 ha).1; omega
        have e := List.getElem?_eq_getElem hj
        have hja := ih _ e
        obtain ⟨d, d1, d2, d3⟩ := h.live (j + 1) a ha
        obtain ⟨d', d1', d2', d3'⟩ := h.live j _ e
        rcases Nat.lt_trichotomy (bs.locals.reverse[j]) a with h1 | h1 | h1
        · omega
        · rw [h1] at d1'; rw [d1] at d1'
          simp only [Option.some.injEq] at d1'
          subst d1'; omega
        · have := d3 _ d' h1 d1'
          omega
    have e := List.getElem?_eq_getElem (l := bs.locals.reverse) (i := bs.locals.length - 1) (by omega)
    have h1 := hb _ _ e
    obtain ⟨d, d1, _⟩ := h.live _ _ e
    have h2 := (List.getElem?_eq_some_iff.1 d1).1
    have h3 := h.length
    omega

theorem Rel.step {w : Walk} {bs : Blocks} {n : Nat} (h : Rel w bs n) (op : Op) (hn : n + 1 < 65536) :
    match Blocks.step n bs op with
    | none => step w op = none
    | some bs' => ∃ w', step w op = some w' ∧ Rel w' bs' (n + op.declares) := by
  have hcl := h.count_le
  have hcount : count w.regions = bs.locals.length := by unfold count; rw [h.vars]
  cases op with
  | enter =>
    simp only [Blocks.step]
    refine ⟨_, rfl, ?_, ⟨h.indexed, ?_, ?_⟩, h.next, h.length, ?_, ?_⟩
    · simp [h.vars, Region.new]
    · intro v hv; simp [Region.new] at hv
    · intro _; rfl
    · intro j a hj
      have : Blocks.locals ([] :: bs) = bs.locals := by simp [Blocks.locals]
      rw [this] at hj; exact h.live j a hj
    · intro a d hd
      have : Blocks.locals ([] :: bs) = bs.locals := by simp [Blocks.locals]
      rw [this]; exact h.dead a d hd
  | leave =>
    rcases hr : w.regions with _ | ⟨r, _ | ⟨r2, rs⟩⟩
    · have : bs = [] := by rw [← h.vars, hr]; rfl
      subst this
      simp [Blocks.step, Regions.step, hr]
    · have : bs = [r.vars] := by rw [← h.vars, hr]; rfl
      subst this
      simp [Blocks.step, Regions.step, hr]
    · have hbs : bs = r.vars :: r2.vars :: rs.map (·.vars) := by rw [← h.vars, hr]; rfl
      subst hbs
      have hx := h.indexed
      rw [hr] at hx
      have hl := locals_cons r.vars (r2.vars :: rs.map (·.vars))
      simp only [Blocks.step]
      refine ⟨{ w with regions := r2 :: rs }, by simp [Regions.step, hr], rfl, hx.1, h.next, h.length, ?_, ?_⟩
      · intro j a hj
        refine h.live j a ?_
        rw [hl, List.reverse_append, List.getElem?_append_left (List.getElem?_eq_some_iff.1 hj).1]
        exact hj
      · intro a d hd hnot
        by_cases hin : a ∈ Blocks.locals (r.vars :: r2.vars :: rs.map (·.vars))
        · left
          obtain ⟨j, hj⟩ := List.mem_iff_getElem?.1 (List.mem_reverse.2 hin)
          obtain ⟨d', e1, e2, _⟩ := h.live j a hj
          rw [hd] at e1
          simp only [Option.some.injEq] at e1
          subst e1
          rcases Nat.lt_or_ge j (Blocks.locals (r2.vars :: rs.map (·.vars))).length with h1 | h1
          · exfalso
            rw [hl, List.reverse_append, List.getElem?_append_left (by rw [List.length_reverse]; exact h1)] at hj
            exact hnot (List.mem_reverse.1 (List.mem_iff_getElem?.2 ⟨j, hj⟩))
          · rw [e2]; exact h1
        · rcases h.dead a d hd hin with h1 | h1
          · left
            rw [hl, List.length_append] at h1; omega
          · exact .inr h1
  | param name position =>
    rcases hr : w.regions with _ | ⟨r, rs⟩
    · have : bs = [] := by rw [← h.vars, hr]; rfl
      subst this
      simp [Blocks.step, Regions.step, hr, defineParam]
    · have hbs : bs = r.vars :: rs.map (·.vars) := by rw [← h.vars, hr]; rfl
      subst hbs
      have hx := h.indexed
      rw [hr] at hx
      have hloc : ∀ bs', Blocks.locals (((name, .param position) :: r.vars) :: bs') = Blocks.locals (r.vars :: bs') := by
        intro bs'; simp [Blocks.locals]
      simp only [Blocks.step]
      cases hl : r.vars.lookup name with
      | some v =>
        have ha : r.vars.any (·.1 == name) = true := by
          cases hb : r.vars.any (·.1 == name) with
          | true => rfl
          | false => rw [(lookup_none_iff _ _).2 hb] at hl; cases hl
        rw [if_pos ha]
        simp [Regions.step, hr, defineParam, hl]
      | none =>
        rw [if_neg (by rw [(lookup_none_iff _ _).1 hl]; decide)]
        refine ⟨{ w with regions := { r with vars := (name, .param position) :: r.vars } :: rs }, ?_, rfl, ⟨hx.1, ?_, ?_⟩,
          h.next, h.length, ?_, ?_⟩
        · simp [Regions.step, hr, defineParam, hl]
        · intro v hv
          have := hx.2.1 v hv
          rw [this]; unfold count
          rw [List.map_cons, List.map_cons, hloc]
        · intro hv
          have := hx.2.2 hv
          unfold count at this ⊢
          rw [List.map_cons, List.map_nil, hloc]; exact this
        · intro j a hj
          rw [hloc] at hj; exact h.live j a hj
        · intro a d hd
          rw [hloc]; exact h.dead a d hd
  | declare name size storage =>
    rcases hr : w.regions with _ | ⟨r, rs⟩
    · have : bs = [] := by rw [← h.vars, hr]; rfl
      subst this
      simp [Blocks.step, Regions.step, hr, defineLocal]
    · have hbs : bs = r.vars :: rs.map (·.vars) := by rw [← h.vars, hr]; rfl
      have hx := h.indexed
      rw [hr] at hx
      have hloc : ∀ bs', Blocks.locals (((name, .loc n) :: r.vars) :: bs') = n :: Blocks.locals (r.vars :: bs') := by
        intro bs'; simp [Blocks.locals]
      rw [hr] at hcount
      subst hbs
      simp only [Blocks.step]
      cases hl : r.vars.lookup name with
      | some v =>
        have ha : r.vars.any (·.1 == name) = true := by
          cases hb : r.vars.any (·.1 == name) with
          | true => rfl
          | false => rw [(lookup_none_iff _ _).2 hb] at hl; cases hl
        rw [if_pos ha]
        simp [Regions.step, hr, defineLocal, hl]
      | none =>
        rw [if_neg (by rw [(lookup_none_iff _ _).1 hl]; decide)]
        obtain ⟨rs', d1, d2, d3⟩ := defineLocal_ok (identity := n) hx (by omega) hl
        have hm : m16 (n + 1) = n + 1 := by unfold m16; rw [Nat.mod_eq_of_lt hn]
        refine ⟨⟨rs', n + 1, w.defs ++ [⟨count (r :: rs), size, storage⟩]⟩, ?_, d3, d2, rfl, by simp [h.length, Op.declares], ?_, ?_⟩
        · simp [Regions.step, hr, h.next, d1, hm]
        · intro j a hj
          rw [hloc, List.reverse_cons] at hj
          rcases getElem?_snoc hj with h1 | ⟨h1, h2⟩
          · obtain ⟨d, e1, e2, e3⟩ := h.live j a h1
            refine ⟨d, getElem?_snoc_of e1, e2, ?_⟩
            intro m dm hm1 hm2
            rcases getElem?_snoc hm2 with h3 | ⟨_, h3⟩
            · exact e3 m dm hm1 h3
            · subst h3
              have := (List.getElem?_eq_some_iff.1 h1).1
              rw [List.length_reverse] at this
              simp only; omega
          · subst h2
            rw [List.length_reverse] at h1
            refine ⟨⟨count (r :: rs), size, storage⟩, ?_, by simp only; omega, ?_⟩
            · rw [← h.length]; simp
            · intro m dm hm1 hm2
              have := (List.getElem?_eq_some_iff.1 hm2).1
              rw [List.length_append, List.length_singleton, h.length] at this
              omega
        · intro a d hd hnot
          rw [hloc, List.mem_cons, not_or] at hnot
          rcases getElem?_snoc hd with h1 | ⟨h1, _⟩
          · right
            rcases h.dead a d h1 hnot.2 with h2 | ⟨m, dm, h2, h3, h4⟩
            · refine ⟨n, ⟨count (r :: rs), size, storage⟩, ?_, ?_, by simp only; omega⟩
              · have := (List.getElem?_eq_some_iff.1 h1).1
                rw [h.length] at this; exact this
              · rw [← h.length]; simp
            · exact ⟨m, dm, h2, getElem?_snoc_of h3, h4⟩
          · rw [h.length] at h1; exact absurd h1 hnot.1

/-- How many local variables are declared. -/
def declared (ops : List Op) : Nat := (ops.map Op.declares).sum

theorem Rel.walk : ∀ (ops : List Op) {w : Walk} {bs : Blocks} {n : Nat}, Rel w bs n → n + declared ops + 1 < 65536 →
    match Blocks.steps n bs ops with
    | none => walk w ops = none
    | some bs' => ∃ w', walk w ops = some w' ∧ Rel w' bs' (n + declared ops)
  | [], w, bs, n, h, _ => ⟨w, rfl, by simpa [declared] using h⟩
  | op :: ops, w, bs, n, h, hn => by
    have hd : declared (op :: ops) = op.declares + declared ops := by simp [declared]
    rw [hd] at hn ⊢
    have hs := h.step op (by omega)
    rw [Blocks.steps]
    cases hb : Blocks.step n bs op with
    | none =>
      rw [hb] at hs
      simp only at hs ⊢
      simp [Regions.walk, hs]
    | some bs' =>
      rw [hb] at hs
      simp only at hs ⊢
      obtain ⟨w', h1, h2⟩ := hs
      have ih := Rel.walk ops h2 (by omega)
      have hw : Regions.walk w (op :: ops) = Regions.walk w' ops := by simp [Regions.walk, h1]
      rw [hw, ← Nat.add_assoc]
      exact ih

end Verif.Regions
