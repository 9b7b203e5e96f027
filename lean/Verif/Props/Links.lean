import Verif.Proof.Links
/-!
# C126: trees of linked nodes are trees

`Steps` (in `Spec/Links.lean`) says what the calls mean for lists of children; `run` is the program, with
its pointers.  All results are for every sequence of calls.
-/

namespace Verif.Links

variable {α : Type} [DecidableEq α]

/-- Whatever calls are made, each that may be made comes to its end and gives what it should, and the
memory holds afterwards just the trees that should be there. -/
theorem calls_mean (v : α) (any : Nat → Node α) {ops : List (Op α)} {F : Forest α} {rs : List Res}
    (st : Steps (Forest.empty v) ops F rs) :
    ∃ h, Holds h F ∧ ∃ N, ∀ fuel, N ≤ fuel → run fuel (start any) ops = some (h, rs) :=
  (steps_hold st (holds_start v any) (sound_empty v)).2

/-- The trees stay trees: no node is twice below another one or below two, a root is below none, and none
is below itself. -/
theorem stay_trees (v : α) (any : Nat → Node α) {ops : List (Op α)} {F : Forest α} {rs : List Res}
    (st : Steps (Forest.empty v) ops F rs) :
    (∀ p, (F.kids p).Nodup) ∧ (∀ p q c, c ∈ F.kids p → c ∈ F.kids q → p = q) ∧
      (∀ r ∈ F.roots, F.Free r) ∧ ∀ p c, c ∈ F.kids p → ¬ Under F c p := by
  have S := (steps_hold st (holds_start v any) (sound_empty v)).1
  refine ⟨S.nodup, S.one, S.rootFree, fun p c hc hu => ?_⟩
  obtain ⟨r, hr⟩ := S.rank
  have h1 := hr p c hc
  have h2 := under_rank hr hu
  omega

/-- Below every node there is one finite tree, and walking it gives each node of it once, each before
those below it and in the order of the children; `walk` leaves out what is below a refused node. -/
theorem walks (v : α) (any : Nat → Node α) {ops : List (Op α)} {F : Forest α} {rs : List Res}
    (st : Steps (Forest.empty v) ops F rs) {r : Nat} (hr : r < F.count) :
    ∃ T : Tree, T.id = r ∧ T.Fits F ∧ (∀ U : Tree, U.id = r → U.Fits F → U = T) ∧
      ∃ h N, ∀ fuel, N ≤ fuel → run fuel (start any) ops = some (h, rs) ∧
        walkTree h fuel r = some T.rest ∧
        (∀ pred, walk h pred fuel r = some (T.pruned pred)) ∧
        pickLeaves h fuel r = some (T.rest.filter fun n => (F.kids n).isEmpty) := by
  obtain ⟨S, h, H, N, hN⟩ := steps_hold st (holds_start v any) (sound_empty v)
  obtain ⟨rk, hrk⟩ := S.rank
  obtain ⟨T, hid, hfit⟩ := tree_exists hrk (rk r + 1) r (Nat.lt_succ_self _)
  refine ⟨T, hid, hfit, fun U h1 h2 => tree_unique U T h2 hfit (h1.trans hid.symm), h, max N T.rounds, ?_⟩
  intro fuel hf
  cases T with
  | node n ts =>
    have hid : n = r := hid
    subst hid
    have hfit' := hfit
    unfold Tree.Fits at hfit'
    have hc := H.kids n hr
    rw [hfit'.1] at hc
    have hround : roundss ts ≤ fuel := by
      have : Tree.rounds (.node n ts) = roundss ts + 1 := by unfold Tree.rounds; rfl
      omega
    have hw := fun pred => walkFrom_trees H S pred fuel ts _ hfit'.2 hc (ids_lt S hfit'.1) hround
    have hwt : walkTree h fuel n = some (Tree.node n ts).rest := by
      unfold walkTree
      rw [visit_walk, hw, pruneds_all]; rfl
    refine ⟨hN fuel (by omega), hwt, ?_, ?_⟩
    · intro pred
      unfold walk
      rw [hw]
      unfold Tree.pruned
      cases pred n <;> rfl
    · unfold pickLeaves
      rw [hwt]
      simp only [Option.map_some]
      congr 1
      refine List.filter_congr fun x hx => ?_
      exact isLeaf_iff H (all_bound S ts (ids_lt S hfit'.1) hfit'.2 x hx)

/-- The leaves that are picked are all leaves of the tree, in order, unless it is one node alone. -/
theorem leaves_partial (v : α) (any : Nat → Node α) {ops : List (Op α)} {F : Forest α} {rs : List Res}
    (st : Steps (Forest.empty v) ops F rs) {T : Tree} (hr : T.id < F.count) (hT : T.Fits F)
    (hk : F.kids T.id ≠ []) :
    ∃ h N, ∀ fuel, N ≤ fuel → run fuel (start any) ops = some (h, rs) ∧
      pickLeaves h fuel T.id = some T.leaves := by
  obtain ⟨S, h, H, N, hN⟩ := steps_hold st (holds_start v any) (sound_empty v)
  cases T with
  | node n ts =>
    refine ⟨h, max N (roundss ts), fun fuel hf => ⟨hN fuel (by omega), ?_⟩⟩
    have hT' := hT
    unfold Tree.Fits at hT'
    have hc := H.kids n hr
    rw [hT'.1] at hc
    unfold pickLeaves walkTree
    show (visit h fuel (h.cell n).first).map _ = _
    rw [visit_walk, walkFrom_trees H S _ fuel ts _ hT'.2 hc (ids_lt S hT'.1) (by omega), pruneds_all]
    simp only [Option.map_some]
    rw [leaves_trees H S ts hT'.2 (fits_bound S hT)]
    cases ts with
    | nil => exact absurd hT'.1 (by unfold ids; exact hk)
    | cons t ts => rw [Tree.leaves, leavess]

/-- The height of a node is how far it is below its root. -/
theorem heights (v : α) (any : Nat → Node α) {ops : List (Op α)} {F : Forest α} {rs : List Res}
    (st : Steps (Forest.empty v) ops F rs) {n k : Nat} (d : Depth F n k) :
    ∃ h N, ∀ fuel, N ≤ fuel → run fuel (start any) ops = some (h, rs) ∧ height h fuel n = some k ∧
      (isRoot h n = true ↔ k = 0) := by
  obtain ⟨_, h, H, N, hN⟩ := steps_hold st (holds_start v any) (sound_empty v)
  refine ⟨h, max N (k + 1), fun fuel hf => ⟨hN fuel (by omega), height_depth H d fuel (by omega), ?_⟩⟩
  unfold isRoot
  cases d with
  | root hr => rw [H.root _ hr]; simp
  | kid _ hc => rw [H.parent _ _ hc]; simp

/-- A search among the children gives the first with the value. -/
theorem finds (v : α) (any : Nat → Node α) {ops : List (Op α)} {F : Forest α} {rs : List Res}
    (st : Steps (Forest.empty v) ops F rs) {p : Nat} (hp : p < F.count) (w : α) :
    ∃ h N, ∀ fuel, N ≤ fuel → run fuel (start any) ops = some (h, rs) ∧
      findChild h fuel p w = some ((F.kids p).find? fun c => F.value c = w) := by
  obtain ⟨S, h, H, N, hN⟩ := steps_hold st (holds_start v any) (sound_empty v)
  exact ⟨h, max N ((F.kids p).length + 1), fun fuel hf =>
    ⟨hN fuel (by omega), findChild_eq H S w hp fuel (by omega)⟩⟩

/-- Memory that was used for other things. -/
def junk (n : Nat) : Node Nat := ⟨n, some 3, some n, some 1⟩

/-- A root, two children, one of them with a child: what the calls are and give. -/
def demoOps : List (Op Nat) := [.root 7, .child 0 8, .child 0 9, .child 1 5, .sibling 2 6, .findOrAdd 0 8]

theorem demo_runs : (run 10 (start junk) demoOps).map (·.2) = some [.node 0, .node 1, .node 2, .node 3, .node 4, .node 1] := by
  decide +kernel

/-- The calls of the sample may be made. -/
theorem demo_steps : ∃ F : Forest Nat, Steps (Forest.empty 0) demoOps F
    [.node 0, .node 1, .node 2, .node 3, .node 4, .node 1] ∧
    F.kids 0 = [2, 4, 1] ∧ F.kids 1 = [3] ∧ F.count = 5 ∧ F.roots = [0] := by
  refine ⟨_, .cons (.root 7) (.cons (.child (p := 0) 8 (by decide +kernel))
    (.cons (.child (p := 0) 9 (by decide +kernel)) (.cons (.child (p := 1) 5 (by decide +kernel))
      (.cons (.sibling (m := 2) (p := 0) 6 (by decide +kernel))
        (.cons (.found (p := 0) (n := 1) (v := 8) (by decide +kernel) (by decide +kernel)) (.nil _)))))), ?_, ?_, ?_, ?_⟩
  all_goals decide +kernel

example : ∃ h N, ∀ fuel, N ≤ fuel → (run fuel (start junk) demoOps).map (·.1) = some h ∧ height h fuel 3 = some 2 := by
  obtain ⟨F, st, k0, k1, _, hr⟩ := demo_steps
  obtain ⟨h, N, hN⟩ := heights 0 junk st (n := 3) (k := 2)
    (.kid (p := 1) (.kid (p := 0) (.root (by rw [hr]; simp)) (by rw [k0]; simp)) (by rw [k1]; simp))
  refine ⟨h, N, fun fuel hf => ?_⟩
  obtain ⟨h1, h2, _⟩ := hN fuel hf
  rw [h1]; exact ⟨rfl, h2⟩

example : (run 10 (start junk) demoOps).map (fun x => (walkTree x.1 10 0, pickLeaves x.1 10 0)) =
    some (some [2, 4, 1, 3], some [2, 4, 3]) := by decide +kernel

/-- A node alone is a leaf, but is not picked. -/
theorem leaf_alone_refuted :
    Steps (Forest.empty 0) [Op.root 7] { (Forest.empty 0).make 7 with roots := [0] } [.node 0] ∧
      (run 9 (start junk) [Op.root 7]).map (fun x => (isLeaf x.1 0, pickLeaves x.1 9 0)) =
        some (true, some []) :=
  ⟨.cons (.root 7) (.nil _), by decide +kernel⟩

/-- A node that was taken out of a tree is below none, but still says that it is no root and how deep it
was. -/
theorem removed_refuted :
    (∃ F : Forest Nat, Steps (Forest.empty 0) [.root 7, .child 0 8, .remove 0 1] F
      [.node 0, .node 1, .flag true] ∧ F.Free 1) ∧
    (run 9 (start junk) [.root 7, .child 0 8, .remove 0 1]).map (fun x => (isRoot x.1 1, height x.1 9 1)) =
      some (false, some 1) := by
  refine ⟨⟨_, .cons (.root 7) (.cons (.child (p := 0) 8 (by decide +kernel))
    (.cons (.remove (p := 0) (n := 1) (by decide +kernel)) (.nil _))), ?_⟩, by decide +kernel⟩
  intro p
  show 1 ∉ upd (upd (upd (upd (fun _ => []) 0 []) 1 []) 0 [1]) 0 _ p
  unfold upd
  by_cases h0 : p = 0
  · simp [h0]
  · by_cases h1 : p = 1
    · simp [h1]
    · simp [h0, h1]

/-- A node that is put below the node it is below already becomes its own sibling: walking the tree never
ends. -/
theorem twice_refuted : ∃ h : Heap Nat,
    run 9 (start junk) [.root 7, .child 0 8, .attach 0 1] = some (h, [.node 0, .node 1, .node 1]) ∧
      ∀ fuel, walkTree h fuel 0 = none := by
  refine ⟨_, rfl, ?_⟩
  intro fuel
  generalize hh : (appendChild _ 0 1 : Heap Nat) = h
  have c0 : (h.cell 0).first = some 1 := by rw [← hh]; rfl
  have c1 : (h.cell 1).next = some 1 := by rw [← hh]; rfl
  have c2 : (h.cell 1).first = none := by rw [← hh]; rfl
  have : ∀ k, visit h k (some 1) = none := by
    intro k
    induction k with
    | zero => rfl
    | succ k ih =>
      unfold visit
      rw [c1, c2, ih]
      cases visit h k none <;> rfl
  unfold walkTree
  rw [c0]; exact this fuel

end Verif.Links
