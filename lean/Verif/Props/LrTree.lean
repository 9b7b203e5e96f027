import Verif.Spec.LrTree

/-! # C34: the tree snapshot; C35: small and fixed maps -/

namespace Verif.LrTree.Props

variable {α : Type}

/-! ## Helper lemmas for C34 -/

theorem sizes_append (a b : List (Tree α)) : sizes (a ++ b) = sizes a + sizes b := by
  induction a with
  | nil => simp [sizes]
  | cons t a ih => simp [sizes, ih, Nat.add_assoc]

theorem narrows_append (a b : List (Tree α)) : Narrows (a ++ b) ↔ Narrows a ∧ Narrows b := by
  induction a with
  | nil => simp [Narrows]
  | cons t a ih => simp [Narrows, ih, and_assoc]

/-- The values of some trees. -/
def rootValues (ts : List (Tree α)) : List α := ts.map (fun | .node v _ => v)

/-- The data behind the values of the nodes in the queue. -/
def Data (fuel : Nat) (queue : List (Tree α)) (rest : List α) : Prop :=
  (storeLoop fuel queue).1 = rootValues queue ++ rest

theorem update_get {A : List (Node α)} {i : Nat} {n : Node α} (h : A[i]? = some n) (f : Node α → Node α) (j : Nat) :
    (update A i f)[j]? = if i = j then some (f n) else A[j]? := by
  have hlt : i < A.length := (List.getElem?_eq_some_iff.mp h).1
  rw [update, h]
  simp only [List.getElem?_set]
  by_cases hij : i = j
  · rw [if_pos hij, if_pos hij, if_pos hlt]
  · rw [if_neg hij, if_neg hij]

theorem update_length (A : List (Node α)) (i : Nat) (f : Node α → Node α) : (update A i f).length = A.length := by
  rw [update]; split <;> simp

/-- What the inner loop makes, when some children are there already, the last of them `l`. -/
theorem appendAll_sibs (node : Nat) : ∀ (xs : List α) (l : Nat) (A : List (Node α)) (n : Node α) (rest : List α),
    A[l]? = some n → n.next = none →
    ∃ A', appendAll node xs.length (some l) (xs ++ rest) A = .ok (A', (List.range xs.length).map (A.length + ·), rest) ∧
      A'.length = A.length + xs.length ∧
      (∀ j, j ≠ l → j < A.length → A'[j]? = A[j]?) ∧
      A'[l]? = some { n with next := if xs.length = 0 then none else some A.length } ∧
      ∀ k (hk : k < xs.length), A'[A.length + k]? =
        some ⟨xs[k], none, if k + 1 = xs.length then none else some (A.length + k + 1), n.parent⟩
  | [], l, A, n, rest, hl, hn => by
    refine ⟨A, rfl, rfl, fun _ _ _ => rfl, ?_, by simp⟩
    rw [hl]
    simp [← hn]
  | x :: xs, l, A, n, rest, hl, hn => by
    have hlt : l < A.length := (List.getElem?_eq_some_iff.mp hl).1
    have hl' : (A ++ [⟨x, none, none, n.parent⟩])[l]? = some n := by
      rw [List.getElem?_append_left hlt, hl]
    have e0 : appendSibling A l x = update (A ++ [⟨x, none, none, n.parent⟩]) l (fun n => { n with next := some A.length }) := by
      simp [appendSibling, hl, hn]
    have hlen : (appendSibling A l x).length = A.length + 1 := by rw [e0, update_length]; simp
    have hnew : (appendSibling A l x)[A.length]? = some ⟨x, none, none, n.parent⟩ := by
      rw [e0, update_get hl', if_neg (by omega)]; simp
    obtain ⟨A', h1, h2, h3, h4, h5⟩ := appendAll_sibs node xs A.length (appendSibling A l x) _ rest hnew rfl
    rw [hlen] at h1 h2 h3 h4 h5
    refine ⟨A', ?_, by simp [h2]; omega, ?_, ?_, ?_⟩
    · rw [List.length_cons, List.cons_append, appendAll]
      simp only [h1, List.range_succ_eq_map, List.map_cons, List.map_map, Nat.add_zero]
      congr 4
      apply List.map_congr_left
      intro a _
      simp; omega
    · intro j hj hjl
      rw [h3 j (by omega) (by omega), e0, update_get hl', if_neg (by omega), List.getElem?_append_left hjl]
    · rw [h3 l (by omega) (by omega), e0, update_get hl', if_pos rfl]
      simp
    · intro k hk
      cases k with
      | zero =>
        rw [Nat.add_zero, h4]
        simp only [List.getElem_cons_zero, List.length_cons]
        congr 2
        by_cases hx : xs.length = 0
        · rw [if_pos hx, if_pos (by omega)]
        · rw [if_neg hx, if_neg (by omega)]
      | succ k =>
        have := h5 k (by simpa using hk)
        rw [show A.length + (k + 1) = A.length + 1 + k by omega, this]
        simp only [List.getElem_cons_succ, List.length_cons]
        congr 2
        by_cases hx : k + 1 = xs.length
        · rw [if_pos hx, if_pos (by omega)]
        · rw [if_neg hx, if_neg (by omega)]

/-- What the inner loop makes of a node without children. -/
theorem appendAll_first (node : Nat) (xs : List α) (A : List (Node α)) (n : Node α) (rest : List α)
    (hn : A[node]? = some n) (hf : n.first = none) :
    ∃ A', appendAll node xs.length none (xs ++ rest) A = .ok (A', (List.range xs.length).map (A.length + ·), rest) ∧
      A'.length = A.length + xs.length ∧
      (∀ j, j ≠ node → j < A.length → A'[j]? = A[j]?) ∧
      A'[node]? = some { n with first := if xs.length = 0 then none else some A.length } ∧
      ∀ k (hk : k < xs.length), A'[A.length + k]? =
        some ⟨xs[k], none, if k + 1 = xs.length then none else some (A.length + k + 1), some node⟩ := by
  cases xs with
  | nil =>
    refine ⟨A, rfl, rfl, fun _ _ _ => rfl, ?_, by simp⟩
    rw [hn]
    simp [← hf]
  | cons x xs =>
    have hlt : node < A.length := (List.getElem?_eq_some_iff.mp hn).1
    have hl' : (A ++ [⟨x, none, none, some node⟩])[node]? = some n := by
      rw [List.getElem?_append_left hlt, hn]
    have e0 : appendChild A node x = update (A ++ [⟨x, none, none, some node⟩]) node (fun n => { n with first := some A.length }) := by
      simp [appendChild, hn, hf]
    have hlen : (appendChild A node x).length = A.length + 1 := by rw [e0, update_length]; simp
    have hnew : (appendChild A node x)[A.length]? = some ⟨x, none, none, some node⟩ := by
      rw [e0, update_get hl', if_neg (by omega)]; simp
    obtain ⟨A', h1, h2, h3, h4, h5⟩ := appendAll_sibs node xs A.length (appendChild A node x) _ rest hnew rfl
    rw [hlen] at h1 h2 h3 h4 h5
    refine ⟨A', ?_, by simp [h2]; omega, ?_, ?_, ?_⟩
    · rw [List.length_cons, List.cons_append, appendAll]
      simp only [h1, List.range_succ_eq_map, List.map_cons, List.map_map, Nat.add_zero]
      congr 4
      apply List.map_congr_left
      intro a _
      simp; omega
    · intro j hj hjl
      rw [h3 j (by omega) (by omega), e0, update_get hl', if_neg (by omega), List.getElem?_append_left hjl]
    · rw [h3 node (by omega) (by omega), e0, update_get hl', if_pos rfl]
      simp
    · intro k hk
      cases k with
      | zero =>
        rw [Nat.add_zero, h4]
        simp only [List.getElem_cons_zero, List.length_cons]
        congr 2
        by_cases hx : xs.length = 0
        · rw [if_pos hx, if_pos (by omega)]
        · rw [if_neg hx, if_neg (by omega)]
      | succ k =>
        have := h5 k (by simpa using hk)
        rw [show A.length + (k + 1) = A.length + 1 + k by omega, this]
        simp only [List.getElem_cons_succ, List.length_cons]
        congr 2
        by_cases hx : k + 1 = xs.length
        · rw [if_pos hx, if_pos (by omega)]
        · rw [if_neg hx, if_neg (by omega)]

/-- The data of a queue begins with the values of its nodes. -/
theorem storeLoop_data : ∀ (fuel : Nat) (queue : List (Tree α)), sizes queue ≤ fuel →
    ∃ rest, (storeLoop fuel queue).1 = rootValues queue ++ rest
  | 0, queue, h => by
    cases queue with
    | nil => exact ⟨[], rfl⟩
    | cons t ts => cases t; simp [sizes, Tree.size] at h
  | fuel + 1, [], _ => ⟨[], rfl⟩
  | fuel + 1, .node v cs :: queue, h => by
    have hs : sizes (queue ++ cs) ≤ fuel := by
      rw [sizes_append]
      simp only [sizes, Tree.size] at h
      omega
    obtain ⟨rest, hr⟩ := storeLoop_data fuel (queue ++ cs) hs
    refine ⟨rootValues cs ++ rest, ?_⟩
    rw [storeLoop]
    simp only [hr, rootValues, List.map_cons, List.map_append, List.append_assoc, List.cons_append]

/-- The nodes `ids`, which have no children yet, become the trees. -/
theorem restoreLoop_ok : ∀ (fuel : Nat) (ts : List (Tree α)) (ids : List Nat) (A : List (Node α)) (data : List α),
    sizes ts ≤ fuel → Narrows ts → ids.length = ts.length → ids.Nodup → (∀ i ∈ ids, i < A.length) →
    (∀ p ∈ ids.zip ts, ∃ n, A[p.1]? = some n ∧ n.first = none ∧ ∃ v cs, p.2 = .node v cs ∧ n.value = v) →
    (storeLoop fuel ts).1 = rootValues ts ++ data →
    ∃ A', restoreLoop (storeLoop fuel ts).2 ids data A = .ok A' ∧
      (∀ j, j < A.length → j ∉ ids → A'[j]? = A[j]?) ∧
      (∀ p ∈ ids.zip ts, ∃ n n', A[p.1]? = some n ∧ A'[p.1]? = some n' ∧ n'.next = n.next ∧
        Is A' n.parent p.1 p.2)
  | 0, ts, ids, A, data, hs, _, hl, _, _, _, _ => by
    cases ts with
    | nil =>
      refine ⟨A, rfl, fun _ _ _ => rfl, ?_⟩
      intro p hp
      cases ids with
      | nil => simp at hp
      | cons i ids => simp at hl
    | cons t ts => cases t; simp [sizes, Tree.size] at hs
  | fuel + 1, [], ids, A, data, hs, _, hl, _, _, _, _ => by
    refine ⟨A, rfl, fun _ _ _ => rfl, ?_⟩
    intro p hp
    cases ids with
    | nil => simp at hp
    | cons i ids => simp at hl
  | fuel + 1, .node v cs :: ts, [], A, data, hs, _, hl, _, _, _, _ => by simp at hl
  | fuel + 1, .node v cs :: ts, i :: ids, A, data, hs, hnar, hl, hnd, hlt, hn, hdata => by
    have hs' : sizes (ts ++ cs) ≤ fuel := by
      rw [sizes_append]
      simp only [sizes, Tree.size] at hs
      omega
    obtain ⟨rest, hrest⟩ := storeLoop_data fuel (ts ++ cs) hs'
    have hcs : cs.length % 256 = cs.length := by
      have := hnar.1.1
      omega
    have hdata' : data = rootValues cs ++ rest := by
      have : (storeLoop (fuel + 1) (.node v cs :: ts)).1 = v :: (storeLoop fuel (ts ++ cs)).1 := rfl
      rw [this, hrest] at hdata
      simp only [rootValues, List.map_cons, List.map_append, List.cons_append, List.append_assoc, List.cons.injEq,
        true_and] at hdata
      exact (List.append_cancel_left hdata).symm
    obtain ⟨n, hni, hnf, v', cs', he, hnv⟩ := hn (i, .node v cs) (by simp)
    simp only [Tree.node.injEq] at he
    obtain ⟨rfl, rfl⟩ := he
    obtain ⟨A1, a1, a2, a3, a4, a5⟩ := appendAll_first i (rootValues cs) A n rest hni hnf
    have hlen : (rootValues cs).length = cs.length := by simp [rootValues]
    simp only [hlen] at a1 a2 a4 a5
    rw [List.nodup_cons] at hnd
    have hilt := hlt i List.mem_cons_self
    -- the new queue
    have hids : ∀ j ∈ ids, j ≠ i ∧ j < A.length := fun j hj =>
      ⟨fun h => hnd.1 (h ▸ hj), hlt j (List.mem_cons_of_mem _ hj)⟩
    obtain ⟨A', b1, b2, b3⟩ := restoreLoop_ok fuel (ts ++ cs) (ids ++ (List.range cs.length).map (A.length + ·)) A1 rest
      hs' ((narrows_append _ _).mpr ⟨hnar.2, hnar.1.2⟩)
      (by simp only [List.length_cons] at hl; simp; omega)
      (by
        rw [List.nodup_append]
        refine ⟨hnd.2, ?_, ?_⟩
        · rw [List.nodup_iff_pairwise_ne] 
          rw [List.pairwise_map]
          exact (List.nodup_iff_pairwise_ne.mp List.nodup_range).imp (fun h => by omega)
        · intro a ha b hb hab
          rw [List.mem_map] at hb
          obtain ⟨k, _, rfl⟩ := hb
          have := (hids a ha).2
          omega)
      (by
        intro j hj
        rw [List.mem_append] at hj
        rcases hj with hj | hj
        · have := (hids j hj).2; omega
        · rw [List.mem_map] at hj
          obtain ⟨k, hk, rfl⟩ := hj
          rw [List.mem_range] at hk
          omega)
      (by
        intro p hp
        rw [List.zip_append (by simp only [List.length_cons] at hl; omega), List.mem_append] at hp
        rcases hp with hp | hp
        · obtain ⟨m, h1, h2⟩ := hn p (by rw [List.zip_cons_cons]; exact List.mem_cons_of_mem _ hp)
          refine ⟨m, ?_, h2⟩
          have := hids p.1 (List.of_mem_zip hp).1
          rw [a3 p.1 this.1 this.2, h1]
        · obtain ⟨k, hk, hp⟩ := List.mem_iff_getElem.mp hp
          have hk' : k < cs.length := by
            rw [List.length_zip, List.length_map, List.length_range] at hk
            omega
          rw [List.getElem_zip, List.getElem_map, List.getElem_range] at hp
          subst hp
          refine ⟨_, a5 k hk', rfl, ?_⟩
          simp only [rootValues, List.getElem_map]
          cases hck : cs[k] with
          | node v' cs' => exact ⟨v', cs', rfl, rfl⟩)
      hrest
    refine ⟨A', ?_, ?_, ?_⟩
    · rw [show (storeLoop (fuel + 1) (.node v cs :: ts)).2 = cs.length % 256 :: (storeLoop fuel (ts ++ cs)).2 from rfl,
        hcs, restoreLoop, hdata', a1]
      exact b1
    · intro j hj hnj
      rw [List.mem_cons] at hnj
      have hj1 : j ∉ ids ++ (List.range cs.length).map (A.length + ·) := by
        intro hm
        rw [List.mem_append] at hm
        rcases hm with hm | hm
        · exact hnj (Or.inr hm)
        · rw [List.mem_map] at hm
          obtain ⟨k, _, rfl⟩ := hm
          omega
      rw [b2 j (by omega) hj1, a3 j (fun h => hnj (Or.inl h)) hj]
    · intro p hp
      rw [List.zip_cons_cons, List.mem_cons] at hp
      have hzip : (ids ++ (List.range cs.length).map (A.length + ·)).zip (ts ++ cs) =
          ids.zip ts ++ ((List.range cs.length).map (A.length + ·)).zip cs :=
        List.zip_append (by simp only [List.length_cons] at hl; omega)
      rcases hp with rfl | hp
      · have hni1 : i ∉ ids ++ (List.range cs.length).map (A.length + ·) := by
          intro hm
          rw [List.mem_append] at hm
          rcases hm with hm | hm
          · exact hnd.1 hm
          · rw [List.mem_map] at hm
            obtain ⟨k, _, rfl⟩ := hm
            omega
        have hi' : A'[i]? = some { n with first := if cs.length = 0 then none else some A.length } := by
          rw [b2 i (by omega) hni1, a4]
        refine ⟨n, _, hni, hi', rfl, ?_⟩
        simp only [Is]
        refine ⟨_, hi', hnv, rfl, ?_⟩
        simp only
        -- the chain of the children
        have hchild : ∀ k (hk : k < cs.length), ∃ n', A'[A.length + k]? = some n' ∧
            n'.next = (if k + 1 = cs.length then none else some (A.length + k + 1)) ∧
            Is A' (some i) (A.length + k) cs[k] := by
          intro k hk
          have hmem : (A.length + k, cs[k]) ∈ (ids ++ (List.range cs.length).map (A.length + ·)).zip (ts ++ cs) := by
            rw [hzip]
            apply List.mem_append_right
            rw [List.mem_iff_getElem]
            refine ⟨k, by simp; omega, ?_⟩
            rw [List.getElem_zip, List.getElem_map, List.getElem_range]
          obtain ⟨m, m', h1, h2, h3, h4⟩ := b3 _ hmem
          simp only at h1 h2 h4
          rw [a5 k hk] at h1
          cases h1
          exact ⟨m', h2, h3, h4⟩
        have key : ∀ (l : List (Tree α)) (k : Nat), l = cs.drop k → k ≤ cs.length →
            Chain A' i (if k = cs.length then none else some (A.length + k)) l := by
          intro l
          induction l with
          | nil =>
            intro k hk hkl
            have := congrArg List.length hk
            simp at this
            rw [if_pos (by omega)]
            simp [Chain]
          | cons t l ih =>
            intro k hk hkl
            have hk' : k < cs.length := by
              have := congrArg List.length hk
              simp at this
              omega
            rw [List.drop_eq_getElem_cons hk'] at hk
            injection hk with e1 e2
            obtain ⟨n', h1, h2, h3⟩ := hchild k hk'
            rw [if_neg (by omega)]
            simp only [Chain]
            refine ⟨A.length + k, n', rfl, h1, e1 ▸ h3, ?_⟩
            rw [h2]
            exact ih (k + 1) e2 (by omega)
        have := key cs 0 (by simp) (by omega)
        rw [Nat.add_zero] at this
        by_cases hz : cs.length = 0
        · rw [if_pos hz]
          rwa [if_pos hz.symm] at this
        · rw [if_neg hz]
          rwa [if_neg (fun h => hz h.symm)] at this
      · obtain ⟨m, m', h1, h2, h3, h4⟩ := b3 p (by rw [hzip]; exact List.mem_append_left _ hp)
        have := hids p.1 (List.of_mem_zip hp).1
        rw [a3 p.1 this.1 this.2] at h1
        exact ⟨m, m', h1, h2, h3, h4⟩

/-! ## C34 -/

/-- **C34**.  A tree that is stored and restored is the same tree: the same values, the same shape, the
same order of children, and each child has its parent.  (For trees in which no node has more than 255
children; see `wide_tree_refuted`.) -/
theorem restore_store_partial (t : Tree α) (h : Narrow t) :
    ∃ A, restore (store (some t)) = .ok (some A) ∧ Is A none 0 t := by
  cases t with
  | node v cs =>
    obtain ⟨rest, hr⟩ := storeLoop_data (Tree.node v cs).size [.node v cs] (by simp [sizes])
    have hr' : (storeLoop (Tree.node v cs).size [.node v cs]).1 = v :: rest := hr
    obtain ⟨A', b1, _, b3⟩ := restoreLoop_ok (Tree.node v cs).size [.node v cs] [0] [⟨v, none, none, none⟩] rest
      (by simp [sizes]) ⟨h, trivial⟩ rfl (by simp) (by simp)
      (by
        intro p hp
        simp at hp
        subst hp
        exact ⟨_, rfl, rfl, v, cs, rfl, rfl⟩)
      hr
    obtain ⟨n, n', h1, h2, h3, h4⟩ := b3 (0, .node v cs) (by simp)
    cases h1
    refine ⟨A', ?_, h4⟩
    rw [restore, store, hr']
    simp only
    rw [b1]

/-- No tree is restored from no tree. -/
theorem restore_store_null : restore (store (none : Option (Tree α))) = .ok none := rfl

/-- **C34 refuted** for a node with 256 children: their number is kept in a byte, and the restoration
fails. -/
theorem wide_tree_refuted :
    (restore (store (some (.node 0 (List.replicate 256 (.node 1 [])))))).toOption = none := by
  decide +kernel

/-- A tree of three levels. -/
example : Narrow (.node 1 [.node 2 [.node 4 []], .node 3 [.node 5 [], .node 6 []]]) := by
  simp [Narrow, Narrows]
example : store (some (.node 1 [.node 2 [.node 4 []], .node 3 [.node 5 [], .node 6 []]])) =
    ([1, 2, 3, 4, 5, 6], [2, 1, 2, 0, 0, 0]) := by decide +kernel

/-! ## C35 -/

variable {κ ν : Type} [DecidableEq κ]

theorem smallGet_add (m : List (κ × ν)) (k : κ) (v : ν) (q : κ) :
    smallGet (smallAdd m k v) q = if k = q then some v else smallGet m q := by
  induction m with
  | nil => simp [smallAdd, smallGet]
  | cons it m ih =>
    rw [smallAdd]
    by_cases h : it.1 = k
    · rw [if_pos h]
      simp only [smallGet]
      by_cases hq : k = q
      · rw [if_pos hq, if_pos (h.trans hq)]
      · rw [if_neg hq, if_neg (fun e => hq (h.symm.trans e))]
        rw [if_neg (fun e => hq (h.symm.trans e))]
    · rw [if_neg h]
      simp only [smallGet, ih]
      by_cases hq : k = q
      · rw [if_pos hq, if_neg (fun e => h (e.trans hq.symm)), if_pos hq]
      · rw [if_neg hq, if_neg hq]

/-- **C35**, for the small map.  After any history of additions a key has the value that was added last
under it, and is not found if none was. -/
theorem small_map_last (hs : List (κ × ν)) (q : κ) :
    smallGet (hs.foldl (fun m p => smallAdd m p.1 p.2) []) q = lastValue hs q := by
  have key : ∀ (hs : List (κ × ν)) (m : List (κ × ν)),
      smallGet (hs.foldl (fun m p => smallAdd m p.1 p.2) m) q = (lastValue hs q).or (smallGet m q) := by
    intro hs
    induction hs with
    | nil => intro m; simp [lastValue]
    | cons p hs ih =>
      intro m
      obtain ⟨k, v⟩ := p
      rw [List.foldl_cons, ih, smallGet_add, lastValue]
      by_cases h : k = q
      · rw [if_pos h, if_pos h]; simp
      · rw [if_neg h, if_neg h]; simp
  rw [key]
  simp [smallGet]

/-- **C35**.  A key is there once, whatever was added. -/
theorem small_map_keys (hs : List (κ × ν)) :
    ((hs.foldl (fun m p => smallAdd m p.1 p.2) []).map (·.1)).Nodup := by
  have keys : ∀ (m : List (κ × ν)) (k : κ) (v : ν), (smallAdd m k v).map (·.1) =
      if k ∈ m.map (·.1) then m.map (·.1) else m.map (·.1) ++ [k] := by
    intro m k v
    induction m with
    | nil => simp [smallAdd]
    | cons it m ih =>
      rw [smallAdd]
      by_cases h : it.1 = k
      · rw [if_pos h]; simp [h]
      · rw [if_neg h, List.map_cons, ih]
        have : k ≠ it.1 := fun e => h e.symm
        simp only [List.map_cons, List.mem_cons, this, false_or]
        split <;> simp
  have key : ∀ (hs : List (κ × ν)) (m : List (κ × ν)), (m.map (·.1)).Nodup →
      ((hs.foldl (fun m p => smallAdd m p.1 p.2) m).map (·.1)).Nodup := by
    intro hs
    induction hs with
    | nil => intro m h; exact h
    | cons p hs ih =>
      intro m h
      apply ih
      rw [keys]
      split
      · exact h
      · rename_i hn
        rw [List.nodup_append]
        refine ⟨h, by simp, ?_⟩
        intro a ha b hb hab
        simp at hb
        subst hb
        exact hn (hab ▸ ha)
  exact key hs [] (by simp)

/-- `operator[]` gives the value of the key, and adds a missing key with the default value. -/
theorem small_map_at (dflt : ν) (m : List (κ × ν)) (k q : κ) :
    (smallAt dflt m k).2 = (smallGet m k).getD dflt ∧
    smallGet (smallAt dflt m k).1 q = if k = q then some ((smallGet m k).getD dflt) else smallGet m q := by
  have happ : ∀ (m : List (κ × ν)), smallGet (m ++ [(k, dflt)]) q = (smallGet m q).or (if k = q then some dflt else none) := by
    intro m
    induction m with
    | nil => simp [smallGet]
    | cons it m ih =>
      simp only [List.cons_append, smallGet, ih]
      split <;> simp
  rw [smallAt]
  cases h : smallGet m k with
  | some v =>
    refine ⟨rfl, ?_⟩
    simp only [Option.getD_some]
    split
    · rename_i e; rw [← e, h]
    · rfl
  | none =>
    refine ⟨rfl, ?_⟩
    simp only [Option.getD_none, happ]
    split
    · rename_i e; rw [← e, h]; rfl
    · simp

/-- In sorted items, those less than the key come first, then those equal to it. -/
theorem find_spec (lt : κ → κ → Bool) (ho : StrictWeak lt) (items : List (κ × ν))
    (hs : items.Pairwise (fun a b => lt b.1 a.1 = false)) (k : κ) :
    (∀ it ∈ items, (lt it.1 k = false ∧ lt k it.1 = false) → ∃ it', (⟨none, items⟩ : Fixed κ ν).find lt k = some it') ∧
    (∀ it, (⟨none, items⟩ : Fixed κ ν).find lt k = some it → it ∈ items ∧ lt it.1 k = false ∧ lt k it.1 = false) := by
  induction items with
  | nil => simp [Fixed.find]
  | cons a items ih =>
    rw [List.pairwise_cons] at hs
    obtain ⟨ha, hs⟩ := hs
    have ih := ih hs
    by_cases h1 : lt a.1 k = true
    · -- a is less than the key
      have h2 : lt k a.1 = false := by
        cases h : lt k a.1 with
        | false => rfl
        | true => have := ho.trans _ _ _ h1 h; rw [ho.irrefl] at this; cases this
      have hf : (⟨none, a :: items⟩ : Fixed κ ν).find lt k = (⟨none, items⟩ : Fixed κ ν).find lt k := by
        simp only [Fixed.find, List.takeWhile_cons, h1, h2, Bool.not_false, ↓reduceIte, List.length_cons,
          Nat.add_right_cancel_iff, List.getElem?_cons_succ]
      rw [hf]
      constructor
      · intro it hit he
        rw [List.mem_cons] at hit
        rcases hit with rfl | hit
        · rw [h1] at he; cases he.1
        · exact ih.1 it hit he
      · intro it hit
        have := ih.2 it hit
        exact ⟨List.mem_cons_of_mem _ this.1, this.2⟩
    · simp only [Bool.not_eq_true] at h1
      by_cases h2 : lt k a.1 = true
      · -- the key is less than a, and than all after it
        have hf : (⟨none, a :: items⟩ : Fixed κ ν).find lt k = none := by
          simp [Fixed.find, h1, h2]
        rw [hf]
        constructor
        · intro it hit he
          rw [List.mem_cons] at hit
          rcases hit with rfl | hit
          · rw [h2] at he; cases he.2
          · have := ho.incomp _ _ _ he.2 (ha it hit)
            rw [h2] at this
            cases this
        · intro it hit; cases hit
      · simp only [Bool.not_eq_true] at h2
        have hf : (⟨none, a :: items⟩ : Fixed κ ν).find lt k = some a := by
          simp [Fixed.find, h1, h2]
        rw [hf]
        constructor
        · intro it _ _; exact ⟨a, rfl⟩
        · intro it hit; cases hit; exact ⟨List.mem_cons_self, h1, h2⟩

/-- **C35**, for the fixed map.  Items that fit are all kept; whatever order the sort leaves among equal
keys, looking up a key after `commit` finds an item appended under an equal key, and finds none exactly
when none was appended. -/
theorem fixed_map_find (lt : κ → κ → Bool) (ho : StrictWeak lt) (size : Nat) (xs : List (κ × ν))
    (hx : xs.length ≤ size) :
    ∃ m0 m, (Fixed.empty : Fixed κ ν).init size = .ok m0 ∧ m0.appendAll xs = .ok m ∧
      ∀ m', m.Commits lt m' → ∀ k,
        match m'.find lt k with
        | some it => it ∈ xs ∧ lt it.1 k = false ∧ lt k it.1 = false
        | none => ∀ it ∈ xs, ¬ (lt it.1 k = false ∧ lt k it.1 = false) := by
  have happ : ∀ (xs acc : List (κ × ν)), acc.length + xs.length ≤ size →
      (⟨some size, acc⟩ : Fixed κ ν).appendAll xs = .ok ⟨some size, acc ++ xs⟩ := by
    intro xs
    induction xs with
    | nil => intro acc _; simp [Fixed.appendAll]
    | cons x xs ih =>
      intro acc h
      simp only [List.length_cons] at h
      rw [Fixed.appendAll, Fixed.append]
      simp only
      rw [if_neg (by omega)]
      simp only
      rw [ih _ (by simp; omega)]
      simp
  refine ⟨⟨some size, []⟩, ⟨some size, xs⟩, rfl, ?_, ?_⟩
  · simpa using happ xs [] (by simpa using hx)
  · intro m' ⟨_, hp, hs⟩ k
    obtain ⟨h1, h2⟩ := find_spec lt ho m'.items hs k
    have hfe : (⟨none, m'.items⟩ : Fixed κ ν).find lt k = m'.find lt k := rfl
    rw [hfe] at h2
    cases hf : m'.find lt k with
    | some it =>
      have := h2 it hf
      exact ⟨hp.mem_iff.mp this.1, this.2⟩
    | none =>
      intro it hit he
      obtain ⟨it', hit'⟩ := h1 it (hp.mem_iff.mpr hit) he
      rw [hfe, hf] at hit'
      cases hit'

/-- **C35**.  More items than the map was made for are refused. -/
theorem fixed_map_overflow (size : Nat) (xs : List (κ × ν)) (hx : size < xs.length) :
    (⟨some size, []⟩ : Fixed κ ν).appendAll xs = .error .overflow := by
  have happ : ∀ (xs acc : List (κ × ν)), acc.length ≤ size → size < acc.length + xs.length →
      (⟨some size, acc⟩ : Fixed κ ν).appendAll xs = .error .overflow := by
    intro xs
    induction xs with
    | nil => intro acc h1 h2; simp at h2; omega
    | cons x xs ih =>
      intro acc h1 h2
      simp only [List.length_cons] at h2
      rw [Fixed.appendAll, Fixed.append]
      simp only
      by_cases h : acc.length ≥ size
      · rw [if_pos h]
      · rw [if_neg h]
        exact ih _ (by simp; omega) (by simp; omega)
  exact happ xs [] (by simp) (by simpa using hx)

example : smallGet ([(1, 10), (2, 20), (1, 30)].foldl (fun m p => smallAdd m p.1 p.2) []) 1 = some 30 := by decide
example : StrictWeak (fun a b : Nat => decide (a < b)) :=
  ⟨by simp, by simp; omega, by simp; omega⟩
example : Fixed.Commits (fun a b : Nat => decide (a < b)) ⟨some 3, [(5, 'a'), (2, 'b'), (5, 'c')]⟩
    ⟨some 3, [(2, 'b'), (5, 'c'), (5, 'a')]⟩ := by
  refine ⟨rfl, ?_, by decide⟩
  decide
example : (⟨some 3, [(2, 'b'), (5, 'c'), (5, 'a')]⟩ : Fixed Nat Char).find (fun a b => decide (a < b)) 5 = some (5, 'c') := by
  decide

end Verif.LrTree.Props
