/-
  The graph of a rule accepts what the elements of the rule match, and merging does not change it.
-/
import Verif.Proof.Gram4

namespace Verif.Gram.Proof

open Verif.Gram Verif.Gram.Spec

/-! ## The table of a rule -/

/-- What is known of a node of a rule. -/
structure NodeOk (T : List Node) (j : Nat) : Prop where
  group : ∀ own, (nodeAt T j).label = .stop own → (nodeAt T own).label = .group
  other : j ∉ (nodeAt T j).nodes
  inner : (nodeAt T j).inner = true

mutual

theorem item_ok {T : List Node} {e : Env} : ∀ (i : Item) (u : Nat), Seg T u (layItem e u i) →
    ∀ j, u ≤ j → j < u + sizeItem i → NodeOk T j
  | .tok t r, u, h, j, h1, h2 => by
    simp only [sizeItem] at h2
    have hj : j = u := by omega
    subst hj
    simp only [layItem] at h
    exact ⟨fun own hl => by rw [h.head] at hl; simp at hl, by rw [h.head]; simp,
      by rw [h.head]⟩
  | .ref t r, u, h, j, h1, h2 => by
    simp only [sizeItem] at h2
    have hj : j = u := by omega
    subst hj
    simp only [layItem] at h
    exact ⟨fun own hl => by rw [h.head] at hl; simp at hl, by rw [h.head]; simp,
      by rw [h.head]⟩
  | .group a r, u, h, j, h1, h2 => by
    simp only [sizeItem] at h2
    simp only [layItem] at h
    by_cases hj : j = u
    · subst hj
      exact ⟨fun own hl => by rw [h.head] at hl; simp at hl, by rw [h.head]; simp,
        by rw [h.head]⟩
    · exact alts_ok a u (u + 1) (by rw [h.head]) h.tail j (by omega) (by omega)

theorem seq_ok {T : List Node} {e : Env} : ∀ (s : Seq) (own u : Nat),
    (nodeAt T own).label = .group → Seg T u (laySeq e own u s) →
    ∀ j, u ≤ j → j < u + sizeSeq s → NodeOk T j
  | .nil, own, u, hown, h, j, h1, h2 => by
    simp only [sizeSeq] at h2
    have hj : j = u := by omega
    subst hj
    simp only [laySeq] at h
    refine ⟨fun o hl => ?_, by rw [h.head]; simp, by rw [h.head]⟩
    rw [h.head] at hl
    simp at hl
    subst hl
    exact hown
  | .cons i s, own, u, hown, h, j, h1, h2 => by
    simp only [sizeSeq] at h2
    by_cases hj : j < u + sizeItem i
    · exact item_ok i u h.item j h1 hj
    · exact seq_ok s own _ hown h.rest j (by omega) (by omega)

theorem alts_ok {T : List Node} {e : Env} : ∀ (a : Alts) (own u : Nat),
    (nodeAt T own).label = .group → Seg T u (layAlts e own u a) →
    ∀ j, u ≤ j → j < u + sizeAlts a → NodeOk T j
  | .nil, own, u, hown, h, j, h1, h2 => by
    simp only [sizeAlts] at h2
    omega
  | .cons .nil a, own, u, hown, h, j, h1, h2 => by
    simp only [sizeAlts] at h2
    simp only [layAlts] at h
    exact alts_ok a own u hown h j h1 h2
  | .cons (.cons i s) a, own, u, hown, h, j, h1, h2 => by
    simp only [sizeAlts] at h2
    simp only [layAlts] at h
    by_cases hj : j < u + sizeSeq (.cons i s)
    · exact seq_ok (.cons i s) own u hown h.left j h1 hj
    · have h' := h.right
      rw [length_laySeq] at h'
      exact alts_ok a own _ hown h' j (by omega) (by omega)

end

theorem table_rule (e : Env) (a : Alts) : Table (layRule e a) := by
  have h0 : nodeAt (layRule e a) 0 =
      { label := .group, inner := false, subnodes := firsts 1 a } := rfl
  have hT : Seg (layRule e a) 1 (layAlts e 0 1 a) :=
    ⟨[{ label := .group, inner := false, subnodes := firsts 1 a }], [], by simp [layRule], rfl⟩
  have hlen : (layRule e a).length = 1 + sizeAlts a := by
    simp [layRule, length_layAlts]; omega
  have hok : ∀ j, j ≠ 0 → NodeOk (layRule e a) j := by
    intro j hj
    by_cases hj' : j < 1 + sizeAlts a
    · exact alts_ok a 0 1 (by rw [h0]) hT j (by omega) hj'
    · have hd : nodeAt (layRule e a) j = { label := .stop 0 } := by
        rw [nodeAt, List.getD_eq_getElem?_getD, List.getElem?_eq_none (by omega)]
        rfl
      refine ⟨fun own hl => ?_, by rw [hd]; simp, by rw [hd]⟩
      rw [hd] at hl
      simp at hl
      subst hl
      rw [h0]
  refine ⟨⟨fun u own hl => ?_, fun u => ?_, fun u hs => ?_⟩, by rw [h0], by rw [h0], by rw [h0],
    by rw [h0], by rw [h0], fun y hy => (hok y hy).inner⟩
  · by_cases hu : u = 0
    · subst hu; rw [h0] at hl; simp at hl
    · exact (hok u hu).group own hl
  · by_cases hu : u = 0
    · subst hu; rw [h0]; simp
    · exact (hok u hu).other
  · by_cases hu : u = 0
    · subst hu; rw [h0] at hs; simp at hs
    · exact (hok u hu).inner

/-! ## Ways through a graph -/

/-- What is read from one of the nodes `us` of the graph on. -/
inductive Path (L : Nat → Lang) (g : Graph) : List Nat → List Nat → Prop where
  | stop {us u o} : u ∈ us → g.label u = .stop o → Path L g us []
  | tok {us u t w} : u ∈ us → g.label u = .tok t → Path L g (g.next u) w → Path L g us (t :: w)
  | ref {us u r v w} : u ∈ us → g.label u = .ref r → L r v → Path L g (g.next u) w →
      Path L g us (v ++ w)

theorem Path.mono {L L' : Nat → Lang} (h : ∀ r w, L r w → L' r w) {g : Graph} {us w : List Nat}
    (hp : Path L g us w) : Path L' g us w := by
  induction hp with
  | stop h1 h2 => exact .stop h1 h2
  | tok h1 h2 _ ih => exact .tok h1 h2 ih
  | ref h1 h2 h3 _ ih => exact .ref h1 h2 (h _ _ h3) ih

/-- The same with what comes next by the table. -/
inductive Walk (T : List Node) (L : Nat → Lang) : Nat → List Nat → Prop where
  | stop {v o} : (nodeAt T v).label = .stop o → (nodeAt T o).inner = false → Walk T L v []
  | tok {v t v' w} : (nodeAt T v).label = .tok t → First T none .after v v' → Walk T L v' w →
      Walk T L v (t :: w)
  | ref {v r v' x w} : (nodeAt T v).label = .ref r → L r x → First T none .after v v' →
      Walk T L v' w → Walk T L v (x ++ w)

theorem run_walk {T : List Node} {L : Nat → Lang} {k : Kind} {u : Nat} {w : List Nat}
    (h : Run T L k u w) : ∃ v, First T none k u v ∧ Walk T L v w := by
  induction h with
  | @tok u t w hl _ ih =>
    obtain ⟨v, hf, hw⟩ := ih
    exact ⟨u, .leaf (by simp [Leaf, hl]), .tok hl hf hw⟩
  | @ref u r v w hl hv _ ih =>
    obtain ⟨v, hf, hw⟩ := ih
    exact ⟨u, .leaf (by simp [Leaf, hl]), .ref hl hv hf hw⟩
  | group h1 h2 _ ih =>
    obtain ⟨v, hf, hw⟩ := ih
    exact ⟨v, .group h1 h2 hf, hw⟩
  | @stop u own hl hi => exact ⟨u, .leaf (by simp [Leaf, hl, hi]), .stop hl hi⟩
  | out h1 h2 _ ih =>
    obtain ⟨v, hf, hw⟩ := ih
    exact ⟨v, .out h1 h2 hf, hw⟩
  | enter _ ih =>
    obtain ⟨v, hf, hw⟩ := ih
    exact ⟨v, .enter hf, hw⟩
  | skip h1 h2 _ ih =>
    obtain ⟨v, hf, hw⟩ := ih
    exact ⟨v, .skip h1 (by simp) h2 hf, hw⟩
  | next h1 _ ih =>
    obtain ⟨v, hf, hw⟩ := ih
    exact ⟨v, .next h1 hf, hw⟩
  | again h1 _ ih =>
    obtain ⟨v, hf, hw⟩ := ih
    exact ⟨v, .again h1 hf, hw⟩

theorem first_run {T : List Node} {L : Nat → Lang} {k : Kind} {u v : Nat} {w : List Nat}
    (h : First T none k u v) (hw : Run T L .enter v w) : Run T L k u w := by
  induction h with
  | leaf _ => exact hw
  | group h1 h2 _ ih => exact .group h1 h2 (ih hw)
  | out h1 h2 _ ih => exact .out h1 h2 (ih hw)
  | enter _ ih => exact .enter (ih hw)
  | skip h1 _ h2 _ ih => exact .skip h1 h2 (ih hw)
  | next h1 _ ih => exact .next h1 (ih hw)
  | again h1 _ ih => exact .again h1 (ih hw)

theorem walk_run {T : List Node} {L : Nat → Lang} {v : Nat} {w : List Nat} (h : Walk T L v w) :
    Run T L .enter v w := by
  induction h with
  | stop h1 h2 => exact .stop h1 h2
  | tok h1 h2 _ ih => exact .tok h1 (first_run h2 ih)
  | ref h1 h2 h3 _ ih => exact .ref h1 h2 (first_run h3 ih)

theorem leaf_word {T : List Node} {v : Nat} (h : Leaf T v) (hw : ¬ Word T v) :
    ∃ o, (nodeAt T v).label = .stop o ∧ (nodeAt T o).inner = false := by
  cases hl : (nodeAt T v).label with
  | tok t => exact absurd (by simp [Word, hl]) hw
  | ref t => exact absurd (by simp [Word, hl]) hw
  | group => simp [Leaf, hl] at h
  | stop o => exact ⟨o, rfl, by simpa [Leaf, hl] using h⟩

theorem path_walk {T : List Node} {g : Graph} (hg : Right' T g) {L : Nat → Lang}
    {us w : List Nat} (h : Path L g us w) (hus : ∀ v ∈ us, Leaf T v ∧ (Word T v → v ∈ g.nodes)) :
    ∃ v ∈ us, Walk T L v w := by
  have hnext : ∀ u, Word T u → u ∈ g.nodes → ∀ v ∈ g.next u,
      Leaf T v ∧ (Word T v → v ∈ g.nodes) := fun u _ hu v hv =>
    ⟨((hg.next u hu v).mp hv).isLeaf, hg.closed u hu v hv⟩
  induction h with
  | @stop us u o hu hl =>
    refine ⟨u, hu, ?_⟩
    rw [hg.label] at hl
    have := (hus u hu).1
    simp only [Leaf, hl] at this
    exact .stop hl this
  | @tok us u t w hu hl _ ih =>
    rw [hg.label] at hl
    have hw : Word T u := by simp [Word, hl]
    have hn := (hus u hu).2 hw
    obtain ⟨v, hv, hr⟩ := ih (hnext u hw hn)
    exact ⟨u, hu, .tok hl ((hg.next u hn v).mp hv) hr⟩
  | @ref us u r x w hu hl hx _ ih =>
    rw [hg.label] at hl
    have hw : Word T u := by simp [Word, hl]
    have hn := (hus u hu).2 hw
    obtain ⟨v, hv, hr⟩ := ih (hnext u hw hn)
    exact ⟨u, hu, .ref hl hx ((hg.next u hn v).mp hv) hr⟩

theorem walk_path {T : List Node} {g : Graph} (hg : Right' T g) {L : Nat → Lang} {v : Nat}
    {w : List Nat} (h : Walk T L v w) : ∀ us, v ∈ us → (Word T v → v ∈ g.nodes) →
    Path L g us w := by
  induction h with
  | @stop v o hl _ =>
    intro us hv _
    exact .stop hv (by rw [hg.label]; exact hl)
  | @tok v t v' w hl hf _ ih =>
    intro us hv hn
    have hw : Word T v := by simp [Word, hl]
    have hv' := (hg.next v (hn hw) v').mpr hf
    exact .tok hv (by rw [hg.label]; exact hl) (ih _ hv' (hg.closed v (hn hw) v' hv'))
  | @ref v r v' x w hl hx hf _ ih =>
    intro us hv hn
    have hw : Word T v := by simp [Word, hl]
    have hv' := (hg.next v (hn hw) v').mpr hf
    exact .ref hv (by rw [hg.label]; exact hl) hx (ih _ hv' (hg.closed v (hn hw) v' hv'))

/-- What is read on the graph of a rule is what its elements match. -/
theorem path_rule {e : Env} {a : Alts} (hf : FullAlts a) {n : Nat} {g : Graph}
    (h : exchange (layRule e a) n = .ok g) (L : Nat → Lang) (w : List Nat) :
    Path L g g.start w ↔ effAlts e L a w := by
  have hg := exchange_right (table_rule e a) h
  rw [← run_rule hf]
  constructor
  · intro hp
    obtain ⟨v, hv, hw⟩ := path_walk hg hp fun v hv => by
      obtain ⟨s, _, hs⟩ := (hg.first v).mp hv
      exact ⟨hs.isLeaf, hg.starts v hv⟩
    obtain ⟨s, hs, hf⟩ := (hg.first v).mp hv
    exact ⟨s, hs, first_run hf (walk_run hw)⟩
  · rintro ⟨s, hs, hr⟩
    obtain ⟨v, hv, hw⟩ := run_walk hr
    have hv' := (hg.first v).mpr ⟨s, hs, hv⟩
    exact walk_path hg hw _ hv' (hg.starts v hv')

/-! ## Merging -/

/-- What is known of a graph. -/
structure Sane (g : Graph) : Prop where
  nodes : ∀ u ∈ g.nodes, ∀ o, g.label u ≠ .stop o
  starts : ∀ u ∈ g.start, (∃ o, g.label u = .stop o) ∨ u ∈ g.nodes
  next : ∀ x ∈ g.nodes, ∀ u ∈ g.next x, (∃ o, g.label u = .stop o) ∨ u ∈ g.nodes

theorem sane_exchange {e : Env} {a : Alts} {n : Nat} {g : Graph}
    (h : exchange (layRule e a) n = .ok g) : Sane g := by
  have hg := exchange_right (table_rule e a) h
  have hleaf : ∀ v, Leaf (layRule e a) v → (Word (layRule e a) v → v ∈ g.nodes) →
      (∃ o, g.label v = .stop o) ∨ v ∈ g.nodes := by
    intro v hl hv
    by_cases hw : Word (layRule e a) v
    · exact .inr (hv hw)
    · obtain ⟨o, ho, _⟩ := leaf_word hl hw
      exact .inl ⟨o, by rw [hg.label]; exact ho⟩
  refine ⟨fun u hu o ho => ?_, fun u hu => ?_, fun x hx u hu => ?_⟩
  · have := hg.word u hu
    rw [hg.label] at ho
    simp [Word, ho] at this
  · obtain ⟨s, _, hs⟩ := (hg.first u).mp hu
    exact hleaf u hs.isLeaf (hg.starts u hu)
  · exact hleaf u ((hg.next x hx u).mp hu).isLeaf (hg.closed x hx u hu)

theorem mem_dedup (x : Nat) : ∀ (l : List Nat), x ∈ dedup l ↔ x ∈ l
  | [] => by simp [dedup]
  | y :: l => by
    rw [dedup]
    have ih := mem_dedup x l
    have ih' := mem_dedup y l
    split
    · rename_i h
      rw [ih, List.mem_cons]
      constructor
      · exact .inr
      · rintro (rfl | h')
        · exact ih'.mp h
        · exact h'
    · rw [List.mem_cons, List.mem_cons, ih]

variable {g : Graph}

theorem rename_mem {n : Nat} (h : n ∈ g.nodes) :
    g.rename n ∈ g.nodes ∧ g.label (g.rename n) = g.label n ∧ (g.froms n = [] → g.rename n = n) ∧
      g.froms (g.rename n) = g.froms n := by
  rw [Graph.rename, Graph.peers]
  by_cases hf : g.froms n = []
  · rw [if_pos hf]
    exact ⟨h, rfl, fun _ => rfl, rfl⟩
  · rw [if_neg hf]
    have hn : n ∈ g.nodes.filter fun m => g.label m = g.label n ∧ g.froms m = g.froms n := by
      simp [h]
    cases hl : g.nodes.filter fun m => g.label m = g.label n ∧ g.froms m = g.froms n with
    | nil => rw [hl] at hn; simp at hn
    | cons y l =>
      have hy : y ∈ g.nodes.filter fun m => g.label m = g.label n ∧ g.froms m = g.froms n := by
        rw [hl]; simp
      simp only [List.mem_filter, decide_eq_true_eq] at hy
      exact ⟨hy.1, hy.2.1, fun h => absurd h hf, hy.2.2⟩

/-- An end keeps its number. -/
theorem rename_stop (hg : Sane g) {n o : Nat} (h : g.label n = .stop o) : g.rename n = n := by
  rw [Graph.rename, Graph.peers]
  split
  · rfl
  · have : (g.nodes.filter fun m => g.label m = g.label n ∧ g.froms m = g.froms n) = [] := by
      rw [List.filter_eq_nil_iff]
      intro m hm hc
      simp only [decide_eq_true_eq] at hc
      exact hg.nodes m hm o (hc.1.trans h)
    rw [this]
    rfl

theorem mem_froms {n x : Nat} : x ∈ g.froms n ↔ x ∈ g.nodes ∧ n ∈ g.next x := by
  simp [Graph.froms]

/-- Nodes that become one follow the same nodes. -/
theorem next_same {n m x : Nat} (hn : n ∈ g.nodes) (hm : m ∈ g.nodes)
    (h : g.rename n = g.rename m) (hx : x ∈ g.nodes) (hnx : n ∈ g.next x) : m ∈ g.next x := by
  have h1 := (rename_mem hn).2.2.2
  have h2 := (rename_mem hm).2.2.2
  have : g.froms n = g.froms m := by rw [← h1, h, h2]
  exact (mem_froms.mp (this ▸ mem_froms.mpr ⟨hx, hnx⟩)).2

/-- A set of nodes that has all or none of those that become one. -/
def Whole (g : Graph) (us : List Nat) : Prop :=
  (∀ u ∈ us, (∃ o, g.label u = .stop o) ∨ u ∈ g.nodes) ∧
  ∀ n ∈ g.nodes, ∀ m ∈ g.nodes, g.rename n = g.rename m → n ∈ us → m ∈ us

theorem whole_next (hg : Sane g) {x : Nat} (hx : x ∈ g.nodes) : Whole g (g.next x) :=
  ⟨hg.next x hx, fun _ hn _ hm h hnx => next_same hn hm h hx hnx⟩

theorem whole_flatMap {l : List Nat} {f : Nat → List Nat} (h : ∀ x ∈ l, Whole g (f x)) :
    Whole g (l.flatMap f) := by
  refine ⟨fun u hu => ?_, fun n hn m hm he hnu => ?_⟩
  · obtain ⟨x, hx, hux⟩ := List.mem_flatMap.mp hu
    exact (h x hx).1 u hux
  · obtain ⟨x, hx, hnx⟩ := List.mem_flatMap.mp hnu
    exact List.mem_flatMap.mpr ⟨x, hx, (h x hx).2 n hn m hm he hnx⟩

/-- The graph after a round. -/
def merged (g : Graph) : Graph := {
  label := g.label
  start := dedup (g.start.map g.rename)
  next := fun n => dedup (((g.nodes.filter fun m => g.rename m = n).flatMap g.next).map g.rename)
  nodes := g.nodes.filter fun n => g.rename n = n }

theorem round_merged {g' : Graph} (h : g.round = some g') : g' = merged g := by
  rw [Graph.round] at h
  split at h
  · simp at h
  · cases h; rfl

/-- Nothing new can be read after a round. -/
theorem merged_path (hg : Sane g) {L : Nat → Lang} {us' w : List Nat}
    (h : Path L (merged g) us' w) : ∀ us, Whole g us → (∀ v, v ∈ us' ↔ ∃ u ∈ us, g.rename u = v) →
    Path L g us w := by
  have hone : ∀ {u m : Nat} {us : List Nat}, Whole g us → u ∈ us → u ∈ g.nodes →
      m ∈ g.nodes.filter (fun m => g.rename m = g.rename u) → m ∈ us ∧ g.label m = g.label u := by
    intro u m us hus hu hun hm
    simp only [List.mem_filter, decide_eq_true_eq] at hm
    refine ⟨hus.2 u hun m hm.1 hm.2.symm hu, ?_⟩
    rw [← (rename_mem hm.1).2.1, hm.2, (rename_mem hun).2.1]
  have split : ∀ {l w : List Nat}, Path L g (l.flatMap g.next) w → ∃ m ∈ l, Path L g (g.next m) w := by
    intro l w hp
    cases hp with
    | stop hu hl =>
      obtain ⟨m, hm, hmu⟩ := List.mem_flatMap.mp hu
      exact ⟨m, hm, .stop hmu hl⟩
    | tok hu hl hp =>
      obtain ⟨m, hm, hmu⟩ := List.mem_flatMap.mp hu
      exact ⟨m, hm, .tok hmu hl hp⟩
    | ref hu hl hx hp =>
      obtain ⟨m, hm, hmu⟩ := List.mem_flatMap.mp hu
      exact ⟨m, hm, .ref hmu hl hx hp⟩
  have wh : ∀ v, Whole g ((g.nodes.filter fun m => g.rename m = v).flatMap g.next) := fun v =>
    whole_flatMap fun x hx => whole_next hg (by simp at hx; exact hx.1)
  have im : ∀ v x, x ∈ (merged g).next v ↔
      ∃ u ∈ (g.nodes.filter fun m => g.rename m = v).flatMap g.next, g.rename u = x := by
    intro v x
    simp only [merged, mem_dedup, List.mem_map]
  -- the node before the round
  have back : ∀ {us : List Nat} {v : Nat}, Whole g us → (∀ o, g.label v ≠ .stop o) → (∃ u ∈ us, g.rename u = v) →
      ∃ u ∈ us, u ∈ g.nodes ∧ g.rename u = v ∧ g.label u = g.label v := by
    rintro us v hus hv ⟨u, hu, he⟩
    rcases hus.1 u hu with ⟨o, ho⟩ | hun
    · rw [rename_stop hg ho] at he
      subst he
      exact absurd ho (hv o)
    · exact ⟨u, hu, hun, he, by rw [← he, (rename_mem hun).2.1]⟩
  induction h with
  | @stop us' v o hv hl =>
    intro us hus hm
    obtain ⟨u, hu, he⟩ := (hm v).mp hv
    have hl : g.label v = .stop o := hl
    rcases hus.1 u hu with ⟨o', ho⟩ | hun
    · exact .stop hu ho
    · rw [← he, (rename_mem hun).2.1] at hl
      exact .stop hu hl
  | @tok us' v t w hv hl _ ih =>
    intro us hus hm
    have hl : g.label v = .tok t := hl
    obtain ⟨u, hu, hun, he, hul⟩ := back hus (by simp [hl]) ((hm v).mp hv)
    obtain ⟨m, hml, hp⟩ := split (ih _ (wh v) (im v))
    rw [← he] at hml
    obtain ⟨hmu, hmlab⟩ := hone hus hu hun hml
    exact .tok hmu (by rw [hmlab, hul, hl]) hp
  | @ref us' v r x w hv hl hx _ ih =>
    intro us hus hm
    have hl : g.label v = .ref r := hl
    obtain ⟨u, hu, hun, he, hul⟩ := back hus (by simp [hl]) ((hm v).mp hv)
    obtain ⟨m, hml, hp⟩ := split (ih _ (wh v) (im v))
    rw [← he] at hml
    obtain ⟨hmu, hmlab⟩ := hone hus hu hun hml
    exact .ref hmu (by rw [hmlab, hul, hl]) hx hp

/-- Nothing is lost in a round. -/
theorem path_merged (hg : Sane g) {L : Nat → Lang} {us w : List Nat} (h : Path L g us w) :
    (∀ u ∈ us, (∃ o, g.label u = .stop o) ∨ u ∈ g.nodes) →
    ∀ us', (∀ u ∈ us, g.rename u ∈ us') → Path L (merged g) us' w := by
  have step : ∀ {u}, u ∈ g.nodes → ∀ v ∈ g.next u, g.rename v ∈ (merged g).next (g.rename u) := by
    intro u hu v hv
    simp only [merged, mem_dedup, List.mem_map]
    exact ⟨v, List.mem_flatMap.mpr ⟨u, by simp [hu], hv⟩, rfl⟩
  have nodes : ∀ {us : List Nat} {u : Nat}, (∀ u ∈ us, (∃ o, g.label u = .stop o) ∨ u ∈ g.nodes) → u ∈ us →
      (∀ o, g.label u ≠ .stop o) → u ∈ g.nodes := by
    intro us u hus hu hn
    rcases hus u hu with ⟨o, ho⟩ | h
    · exact absurd ho (hn o)
    · exact h
  induction h with
  | @stop us u o hu hl =>
    intro hus us' hm
    have := hm u hu
    rw [rename_stop hg hl] at this
    exact .stop this hl
  | @tok us u t w hu hl _ ih =>
    intro hus us' hm
    have hun := nodes hus hu (by simp [hl])
    refine .tok (hm u hu) ?_ (ih (hg.next u hun) _ (step hun))
    show g.label (g.rename u) = _
    rw [(rename_mem hun).2.1, hl]
  | @ref us u r x w hu hl hx _ ih =>
    intro hus us' hm
    have hun := nodes hus hu (by simp [hl])
    refine .ref (hm u hu) ?_ hx (ih (hg.next u hun) _ (step hun))
    show g.label (g.rename u) = _
    rw [(rename_mem hun).2.1, hl]

theorem sane_merged (hg : Sane g) : Sane (merged g) := by
  have hren : ∀ u, ((∃ o, g.label u = .stop o) ∨ u ∈ g.nodes) →
      (∃ o, (merged g).label (g.rename u) = .stop o) ∨ g.rename u ∈ (merged g).nodes := by
    intro u hu
    rcases hu with ⟨o, ho⟩ | hu
    · exact .inl ⟨o, by rw [rename_stop hg ho]; exact ho⟩
    · refine .inr ?_
      simp only [merged, List.mem_filter, decide_eq_true_eq]
      refine ⟨(rename_mem hu).1, ?_⟩
      -- the first of the peers is its own first
      have h1 := rename_mem hu
      rw [Graph.rename, Graph.rename, Graph.peers, Graph.peers]
      by_cases hf : g.froms u = []
      · simp [hf]
      · have he : (List.headD (if g.froms u = [] then [u] else g.nodes.filter fun m =>
            decide (g.label m = g.label u ∧ g.froms m = g.froms u)) u) = g.rename u := by
          rw [Graph.rename, Graph.peers]
        rw [he, h1.2.1, h1.2.2.2, if_neg hf]
        have he' := he
        rw [if_neg hf] at he'
        cases hl : g.nodes.filter fun m => decide (g.label m = g.label u ∧ g.froms m = g.froms u) with
        | nil => rfl
        | cons y l => rw [hl] at he'; exact he'
  refine ⟨fun u hu o => ?_, fun u hu => ?_, fun x hx u hu => ?_⟩
  · simp only [merged, List.mem_filter] at hu
    exact hg.nodes u hu.1 o
  · simp only [merged, mem_dedup, List.mem_map] at hu
    obtain ⟨v, hv, rfl⟩ := hu
    exact hren v (hg.starts v hv)
  · simp only [merged, mem_dedup, List.mem_map, List.mem_flatMap, List.mem_filter] at hu
    obtain ⟨v, ⟨y, ⟨hy, _⟩, hv⟩, rfl⟩ := hu
    exact hren v (hg.next y hy v hv)

theorem path_round (hg : Sane g) (he : Even g) (L : Nat → Lang) (w : List Nat) :
    Path L (merged g) (merged g).start w ↔ Path L g g.start w := by
  constructor
  · intro h
    refine merged_path hg h g.start ⟨hg.starts, fun n hn m hm h hs => (he n hn m hm h).mp hs⟩ ?_
    intro v
    simp only [merged, mem_dedup, List.mem_map]
  · intro h
    refine path_merged hg h hg.starts _ fun u hu => ?_
    simp only [merged, mem_dedup, List.mem_map]
    exact ⟨u, hu, rfl⟩

/-- Merging does not change what is read, if it is even. -/
theorem path_merge (L : Nat → Lang) (w : List Nat) : ∀ (n : Nat) (g : Graph), Sane g →
    Steady n g → (Path L (g.merge n) (g.merge n).start w ↔ Path L g g.start w)
  | 0, g, _, _ => by rw [Graph.merge]
  | n + 1, g, hg, hs => by
    rw [Steady] at hs
    rw [Graph.merge]
    cases hr : g.round with
    | none => exact Iff.rfl
    | some g' =>
      have hm := round_merged hr
      simp only
      have h1 := hs.2 g' hr
      rw [path_merge L w n g' (by rw [hm]; exact sane_merged hg) h1, hm]
      exact path_round hg hs.1 L w

/-- Merging loses nothing. -/
theorem path_merge_ge (L : Nat → Lang) (w : List Nat) : ∀ (n : Nat) (g : Graph), Sane g →
    Path L g g.start w → Path L (g.merge n) (g.merge n).start w
  | 0, g, _, h => by rw [Graph.merge]; exact h
  | n + 1, g, hg, h => by
    rw [Graph.merge]
    cases hr : g.round with
    | none => exact h
    | some g' =>
      have hm := round_merged hr
      simp only
      refine path_merge_ge L w n g' (by rw [hm]; exact sane_merged hg) ?_
      rw [hm]
      refine path_merged hg h hg.starts _ fun u hu => ?_
      simp only [merged, mem_dedup, List.mem_map]
      exact ⟨u, hu, rfl⟩

end Verif.Gram.Proof
