import Verif.Spec.Zips

namespace Verif.Zips

variable {α : Type}

/-- A column that has moved. -/
def moved (c : Col α) : Col α := ⟨c.left.tail, c.left.head?⟩

theorem col_moves {c : Col α} (h : c.left ≠ []) : Col.moveNext c = (true, moved c) := by
  unfold Col.moveNext moved
  cases e : c.left with
  | nil => exact absurd e h
  | cons v l => rfl

theorem col_stays {c : Col α} (h : c.left = []) : Col.moveNext c = (false, c) := by
  unfold Col.moveNext
  rw [h]

theorem moves : ∀ cs : List (Col α), (∀ c ∈ cs, c.left ≠ []) → moveNext cs = (true, cs.map moved)
  | [], _ => rfl
  | [c], h => by simp [moveNext, col_moves (h c List.mem_cons_self)]
  | c :: d :: cs, h => by
    have h1 := col_moves (h c List.mem_cons_self)
    have h2 := moves (d :: cs) (fun x hx => h x (List.mem_cons_of_mem _ hx))
    rw [moveNext]
    · simp only [h1, if_true, h2]
      rfl
    · simp

theorem stays : ∀ cs : List (Col α), (∃ c ∈ cs, c.left = []) →
    (moveNext cs).1 = false ∧ ∃ c ∈ (moveNext cs).2, c.left = []
  | [], h => by simp at h
  | [c], h => by
    obtain ⟨d, hd, e⟩ := h
    simp only [List.mem_singleton] at hd
    subst hd
    simp [moveNext, col_stays e, e]
  | c :: d :: cs, h => by
    rw [moveNext]
    · by_cases hc : c.left = []
      · simp [col_stays hc, hc]
      · have h' : ∃ x ∈ d :: cs, x.left = [] := by
          obtain ⟨x, hx, e⟩ := h
          rcases List.mem_cons.1 hx with rfl | hx
          · exact absurd e hc
          · exact ⟨x, hx, e⟩
        obtain ⟨i1, x, hx, e⟩ := stays (d :: cs) h'
        simp only [col_moves hc, if_true, i1]
        exact ⟨trivial, x, List.mem_cons_of_mem _ hx, e⟩
    · simp

theorem setValue_moved (cs : List (Col α)) : setValue (cs.map moved) = cs.map fun c => c.left.head? := by
  induction cs with
  | nil => rfl
  | cons c cs ih => simp only [List.map_cons, setValue, ih]; rfl

/-- The rows of columns up to a position. -/
def rowsOf (cs : List (Col α)) (n : Nat) : List (List (Option α)) :=
  (List.range n).map fun k => cs.map fun c => c.left[k]?

theorem rowsOf_succ (cs : List (Col α)) (n : Nat) :
    rowsOf cs (n + 1) = (cs.map fun c => c.left.head?) :: rowsOf (cs.map moved) n := by
  unfold rowsOf
  rw [List.range_succ_eq_map, List.map_cons, List.map_map]
  congr 1
  · simp [List.head?_eq_getElem?]
  · apply List.map_congr_left
    intro k _
    simp [moved, Function.comp_def]

theorem common_tail {cs : List (Col α)} {n : Nat} (h : Common (cs.map (·.left)) (n + 1)) :
    (∀ c ∈ cs, c.left ≠ []) ∧ Common ((cs.map moved).map (·.left)) n := by
  constructor
  · intro c hc e
    have := (h 0).1 (by omega) c.left (List.mem_map.2 ⟨c, hc, rfl⟩)
    simp [e] at this
  · intro k
    have hk := h (k + 1)
    constructor
    · intro hkn c hc
      simp only [List.map_map, List.mem_map] at hc
      obtain ⟨d, hd, rfl⟩ := hc
      have := hk.1 (by omega) d.left (List.mem_map.2 ⟨d, hd, rfl⟩)
      simp [moved]
      omega
    · intro hall
      have : k + 1 < n + 1 := hk.2 (fun c hc => by
        obtain ⟨d, hd, rfl⟩ := List.mem_map.1 hc
        have := hall (moved d).left (by
          simp only [List.map_map, List.mem_map]
          exact ⟨d, hd, rfl⟩)
        simp [moved] at this
        omega)
      omega

theorem common_zero {cs : List (Col α)} (h : Common (cs.map (·.left)) 0) : ∃ c ∈ cs, c.left = [] := by
  apply Classical.byContradiction
  intro hn
  have := (h 0).2 (fun l hl => by
    obtain ⟨c, hc, rfl⟩ := List.mem_map.1 hl
    have : c.left ≠ [] := fun e => hn ⟨c, hc, e⟩
    exact List.length_pos_iff.2 this)
  omega

theorem loop_end {cs : List (Col α)} (h : ∃ c ∈ cs, c.left = []) (it : Itor α) (ha : it.active = true)
    (fuel : Nat) : ∃ cs', loop (fuel + 2) it cs = some ([it.value], cs') ∧ ∃ c ∈ cs', c.left = [] := by
  obtain ⟨h1, h2⟩ := stays cs h
  refine ⟨(moveNext cs).2, ?_, h2⟩
  simp [loop, Itor.atEnd, ha, Itor.next, h1]

theorem loop_rows : ∀ (n : Nat) (cs : List (Col α)) (it : Itor α), it.active = true →
    Common (cs.map (·.left)) n → ∀ fuel, n + 2 ≤ fuel →
    ∃ cs', loop fuel it cs = some (it.value :: rowsOf cs n, cs') ∧ ∃ c ∈ cs', c.left = []
  | 0, cs, it, ha, hc, fuel, hf => by
    obtain ⟨f, rfl⟩ : ∃ f, fuel = f + 2 := ⟨fuel - 2, by omega⟩
    exact loop_end (common_zero hc) it ha f
  | n + 1, cs, it, ha, hc, fuel, hf => by
    obtain ⟨f, rfl⟩ : ∃ f, fuel = f + 1 := ⟨fuel - 1, by omega⟩
    obtain ⟨h1, h2⟩ := common_tail hc
    obtain ⟨cs', e, hx⟩ := loop_rows n (cs.map moved) ⟨it.active, setValue (cs.map moved)⟩ ha h2 f (by omega)
    refine ⟨cs', ?_, hx⟩
    simp only [loop, Itor.atEnd, ha, Itor.next, moves cs h1, if_true]
    rw [ha] at e
    rw [e, setValue_moved, rowsOf_succ]
    simp

theorem common_exists : ∀ cols : List (List α), cols ≠ [] → ∃ n, Common cols n
  | [], h => absurd rfl h
  | [c], _ => ⟨c.length, fun k => by simp⟩
  | c :: d :: cs, _ => by
    obtain ⟨n, hn⟩ := common_exists (d :: cs) (by simp)
    refine ⟨min c.length n, fun k => ?_⟩
    have := hn k
    rw [List.forall_mem_cons, ← this]
    omega

theorem common_unique {cols : List (List α)} {m n : Nat} (h1 : Common cols m) (h2 : Common cols n) : m = n := by
  apply Classical.byContradiction
  intro hne
  rcases Nat.lt_or_gt_of_ne hne with h | h
  · exact absurd ((h1 m).2 ((h2 m).1 h)) (by omega)
  · exact absurd ((h2 n).2 ((h1 n).1 h)) (by omega)

/-- The columns at the start. -/
def start (cols : List (List α)) : List (Col α) := cols.map fun l => ⟨l, none⟩

theorem start_left (cols : List (List α)) : (start cols).map (·.left) = cols := by
  simp [start, Function.comp_def]

theorem walk_rows {cols : List (List α)} {n : Nat} (hn : Common cols n) :
    ∀ fuel, n + 2 ≤ fuel → ∃ z', walk fuel (zip cols) = some (rowsOf (start cols) n, z') ∧
      z'.first = (zip cols).first ∧ ((zip cols).first.active = true ↔ 0 < n) ∧
      (0 < n → (zip cols).first.value = (start cols).map fun c => c.left.head?) ∧
      ∃ c ∈ z'.impl, c.left = [] := by
  intro fuel hf
  have hs : Common ((start cols).map (·.left)) n := by rw [start_left]; exact hn
  cases n with
  | zero =>
    obtain ⟨f, rfl⟩ : ∃ f, fuel = f + 1 := ⟨fuel - 1, by omega⟩
    obtain ⟨h1, h2⟩ := stays _ (common_zero hs)
    have hz : zip cols = ⟨(moveNext (start cols)).2, ⟨false, cols.map fun _ => none⟩⟩ := by
      unfold zip Itor.next
      change Zip.mk _ _ = _
      simp only [start] at h1
      simp [h1, start]
    rw [hz]
    exact ⟨⟨(moveNext (start cols)).2, ⟨false, cols.map fun _ => none⟩⟩, by
      simp [walk, loop, Itor.atEnd, rowsOf], rfl, by simp, by simp, h2⟩
  | succ n =>
    obtain ⟨h1, h2⟩ := common_tail hs
    have hm := moves _ h1
    have hz : zip cols = ⟨(start cols).map moved, ⟨true, setValue ((start cols).map moved)⟩⟩ := by
      unfold zip Itor.next
      simp only [start] at hm
      simp only [hm, start, if_true]
    rw [hz]
    obtain ⟨cs', e, hx⟩ := loop_rows n ((start cols).map moved) ⟨true, setValue ((start cols).map moved)⟩ rfl h2
      fuel (by omega)
    refine ⟨⟨cs', ⟨true, setValue ((start cols).map moved)⟩⟩, ?_, rfl, by simp, fun _ => setValue_moved _, hx⟩
    unfold walk
    rw [e, rowsOf_succ]
    simp only [Option.map_some, setValue_moved]

theorem rows_rowsOf {cols : List (List α)} {n : Nat} (hn : Common cols n) : Rows cols (rowsOf (start cols) n) := by
  refine ⟨by simpa [rowsOf] using hn, ?_, ?_⟩
  · intro r hr
    simp only [rowsOf, List.mem_map] at hr
    obtain ⟨k, _, rfl⟩ := hr
    simp [start]
  · intro k j c hc hk
    have hk' : k < n := by simpa [rowsOf] using hk
    have hlt := (hn k).1 hk' c (List.mem_of_getElem? hc)
    refine ⟨c[k], List.getElem?_eq_getElem hlt, ?_⟩
    simp [rowsOf, start, hk', hc, hlt]

theorem tie_other {vs : List Nat} : ∀ (store : Nat → Option α) (xs : List (Option α)) (a : Nat), a ∉ vs →
    tie store vs xs a = store a := by
  induction vs with
  | nil => intro store xs a _; cases xs <;> rfl
  | cons v vs ih =>
    intro store xs a ha
    cases xs with
    | nil => rfl
    | cons x xs =>
      simp only [List.mem_cons, not_or] at ha
      simp [tie, ih _ _ _ ha.2, ha.1]

theorem tie_item : ∀ (vs : List Nat) (store : Nat → Option α) (xs : List (Option α)), vs.Nodup →
    xs.length = vs.length → ∀ (j v : Nat) (x : Option α), vs[j]? = some v → xs[j]? = some x → tie store vs xs v = x
  | [], _, _, _, _, j, v, x, h, _ => by simp at h
  | w :: vs, store, [], _, hl, j, v, x, _, h => by simp at h
  | w :: vs, store, y :: xs, hn, hl, j, v, x, hv, hx => by
    rw [List.nodup_cons] at hn
    cases j with
    | zero =>
      simp only [List.getElem?_cons_zero, Option.some.injEq] at hv hx
      subst hv; subst hx
      simp [tie, tie_other _ _ _ hn.1]
    | succ j =>
      simp only [List.getElem?_cons_succ] at hv hx
      simp only [tie]
      exact tie_item vs _ xs hn.2 (by simpa using hl) j v x hv hx

end Verif.Zips
