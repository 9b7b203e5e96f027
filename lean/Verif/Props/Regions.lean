import Verif.Proof.Regions
import Verif.Props.Layout

/-!
# C76: blocks, the names in them, and the memory of the variables in scope
-/

namespace Verif.Regions.Props

open Verif.Regions
open Verif.Layout (Def Storage Sees DisjointBytes Faithful Flat commit layoutOf)

/-- A method is walked without an error exactly when no block declares a name twice, and then each name stands for
the declaration in the innermost block around it that has one. -/
theorem names (ops : List Op) (hn : declared ops + 1 < 65536) :
    match Blocks.steps 0 [[]] ops with
    | none => walk Walk.start ops = none
    | some blocks => ∃ w, walk Walk.start ops = some w ∧ w.defs.length = declared ops ∧
        ∀ name, get name w.regions = blocks.find name := by
  have h := Rel.walk ops Rel.start (by omega)
  cases hb : Blocks.steps 0 [[]] ops with
  | none => rw [hb] at h; exact h
  | some bs =>
    rw [hb] at h
    obtain ⟨w, h1, h2⟩ := h
    refine ⟨w, h1, by rw [h2.length]; omega, ?_⟩
    intro name
    rw [get_eq_find, h2.vars]

/-- The index that is written for a variable tells the virtual machine exactly which variables are in scope where it is
declared. -/
theorem index_tells_scope (ops : List Op) (name size : Nat) (storage : Storage) (hn : declared ops + 2 < 65536)
    {blocks : Blocks} {w : Walk} (hb : Blocks.steps 0 [[]] ops = some blocks)
    (hw : walk Walk.start (ops ++ [.declare name size storage]) = some w) (a : Nat) (ha : a < declared ops) :
    Sees w.defs a (declared ops) ↔ a ∈ blocks.locals := by
  have h := Rel.walk ops Rel.start (by omega)
  rw [hb] at h
  obtain ⟨w1, h1, h2⟩ := h
  rw [Nat.zero_add] at h2
  have hw' : step w1 (.declare name size storage) = some w := by
    simp only [walk, List.foldlM_append] at hw h1
    rw [h1] at hw
    simpa using hw
  have hs := h2.step (.declare name size storage) (by omega)
  cases hbs : Blocks.step (declared ops) blocks (.declare name size storage) with
  | none => rw [hbs] at hs; simp only at hs; rw [hs] at hw'; cases hw'
  | some bs2 =>
    rw [hbs] at hs
    obtain ⟨w2, e1, e2⟩ := hs
    rw [hw'] at e1
    simp only [Option.some.injEq] at e1
    subst e1
    have hloc : bs2.locals = declared ops :: blocks.locals := by
      cases blocks with
      | nil => simp [Blocks.step] at hbs
      | cons b bs =>
        simp only [Blocks.step] at hbs
        split at hbs
        · cases hbs
        · simp only [Option.some.injEq] at hbs
          subst hbs
          simp [Blocks.locals]
    have hlen : w.defs.length = declared ops + 1 := e2.length
    constructor
    · intro hsee
      refine Classical.byContradiction fun hnot => ?_
      have hn2 : a ∉ bs2.locals := by
        rw [hloc, List.mem_cons, not_or]; exact ⟨by omega, hnot⟩
      have ea := List.getElem?_eq_getElem (l := w.defs) (i := a) (by omega)
      rcases e2.dead a _ ea hn2 with h3 | ⟨m, dm, h3, h4, h5⟩
      · -- the variable just declared has the greatest index in scope
        have hl : bs2.locals.reverse[bs2.locals.length - 1]? = some (declared ops) := by
          rw [hloc, List.reverse_cons]; simp
        obtain ⟨d, d1, d2, _⟩ := e2.live _ _ hl
        have h6 := hsee.2 (declared ops) _ d ha (Nat.le_refl _) ea d1
        omega
      · have := (List.getElem?_eq_some_iff.1 h4).1
        have h6 := hsee.2 m _ dm h3 (by omega) ea h4
        omega
    · intro hin
      refine ⟨ha, ?_⟩
      intro m da dm hm1 hm2 hda hdm
      have hin2 : a ∈ bs2.locals := by rw [hloc]; exact List.mem_cons_of_mem _ hin
      obtain ⟨j, hj⟩ := List.mem_iff_getElem?.1 (List.mem_reverse.2 hin2)
      obtain ⟨d, d1, d2, d3⟩ := e2.live j a hj
      rw [hda] at d1
      simp only [Option.some.injEq] at d1
      subst d1
      have := d3 m dm hm1 hdm
      omega

theorem walk_append (w : Walk) (pre post : List Op) : walk w (pre ++ post) = (walk w pre).bind fun w' => walk w' post := by
  simp [walk, List.foldlM_append]

theorem step_defs {w w' : Walk} {op : Op} (h : step w op = some w') : ∃ ds, w'.defs = w.defs ++ ds := by
  cases op with
  | enter => simp only [step, Option.some.injEq] at h; subst h; exact ⟨[], by simp⟩
  | leave =>
    simp only [step] at h
    split at h
    · simp only [Option.some.injEq] at h; subst h; exact ⟨[], by simp⟩
    · cases h
  | param n p =>
    simp only [step, Option.map_eq_some_iff] at h
    obtain ⟨rs, _, h2⟩ := h
    subst h2; exact ⟨[], by simp⟩
  | declare n z s =>
    simp only [step, Option.map_eq_some_iff] at h
    obtain ⟨r, _, h2⟩ := h
    subst h2; exact ⟨_, rfl⟩

theorem walk_defs : ∀ (ops : List Op) {w w' : Walk}, walk w ops = some w' → ∃ ds, w'.defs = w.defs ++ ds
  | [], w, w', h => by simp [walk] at h; subst h; exact ⟨[], by simp⟩
  | op :: ops, w, w', h => by
    simp only [walk, List.foldlM_cons, Option.bind_eq_bind] at h
    rw [Option.bind_eq_some_iff] at h
    obtain ⟨w1, h1, h2⟩ := h
    obtain ⟨ds1, e1⟩ := step_defs h1
    obtain ⟨ds2, e2⟩ := walk_defs ops h2
    exact ⟨ds1 ++ ds2, by rw [e2, e1, List.append_assoc]⟩

/-- The local variables in scope at any point of a method (after the steps `pre`) have no byte of the frame in common.

Partial: with the conditions of `Verif.Layout.Props.locals_partial`, and without the temporary variables that are defined
when code is generated (`temporary_refuted`). -/
theorem in_scope_disjoint_partial (pre post : List Op) {w : Walk} (hw : walk Walk.start (pre ++ post) = some w)
    {blocks : Blocks} (hb : Blocks.steps 0 [[]] pre = some blocks)
    (sort : List Nat → List Nat) (hsort : ∀ xs, (sort xs).Perm xs)
    (fits : (w.defs.map fun d => d.size + 7).sum + 7 < 65536) (ref : Faithful w.defs .ref)
    (value : Faithful w.defs .value) (mixture : Flat w.defs .mixture) (hn : declared pre + 1 < 65536) :
    ∃ places units, commit sort (layoutOf w.defs) = some (places, units) ∧
      ∀ (a b : Nat), a ∈ blocks.locals → b ∈ blocks.locals → a < b →
        ∃ da db, w.defs[a]? = some da ∧ w.defs[b]? = some db ∧ places a + da.size ≤ units * 8 ∧
          places b + db.size ≤ units * 8 ∧ DisjointBytes (places a) da.size (places b) db.size := by
  have h := Rel.walk pre Rel.start (by omega)
  rw [hb] at h
  obtain ⟨w1, h1, h2⟩ := h
  rw [walk_append, h1] at hw
  obtain ⟨ds, hds⟩ := walk_defs post hw
  obtain ⟨places, units, c1, c2, c3⟩ := Verif.Layout.Props.locals_partial w.defs sort hsort fits ref value mixture
  refine ⟨places, units, c1, ?_⟩
  intro a b ha hb hab
  obtain ⟨j, hj⟩ := List.mem_iff_getElem?.1 (List.mem_reverse.2 ha)
  obtain ⟨k, hk⟩ := List.mem_iff_getElem?.1 (List.mem_reverse.2 hb)
  obtain ⟨da, a1, a2, a3⟩ := h2.live j a hj
  obtain ⟨db, b1, _, _⟩ := h2.live k b hk
  have hup : ∀ (m : Nat) (d : Def), w1.defs[m]? = some d → w.defs[m]? = some d := by
    intro m d hm
    rw [hds, List.getElem?_append_left (List.getElem?_eq_some_iff.1 hm).1]; exact hm
  refine ⟨da, db, hup a da a1, hup b db b1, c2 a da (hup a da a1), c2 b db (hup b db b1),
    c3 a b da db ⟨hab, ?_⟩ (hup a da a1) (hup b db b1)⟩
  intro m da' dm hm1 hm2 hda hdm
  rw [hup a da a1] at hda
  simp only [Option.some.injEq] at hda
  subst hda
  have hml : m < w1.defs.length := by have := (List.getElem?_eq_some_iff.1 b1).1; omega
  have e := List.getElem?_eq_getElem hml
  rw [hup m _ e] at hdm
  simp only [Option.some.injEq] at hdm
  subst hdm
  have := a3 m _ hm1 e
  omega

/-! ## A case -/

/-- `void f(int p) { int a; { long b; { int a; } } { byte c; … } }`, up to the last block. -/
def pre : List Op :=
  [.param 7 0, .declare 1 4 .value, .enter, .declare 2 8 .value, .enter, .declare 1 4 .value, .leave, .leave, .enter,
   .declare 3 1 .value]

/-- What follows. -/
def post : List Op := [.leave, .declare 2 8 .value]

example : Blocks.steps 0 [[]] pre = some [[(3, .loc 3)], [(1, .loc 0), (7, .param 0)]] := by decide
example : (walk Walk.start pre).map (fun w => (get 1 w.regions, get 2 w.regions, get 3 w.regions, get 7 w.regions)) =
    some (some (.loc 0), none, some (.loc 3), some (.param 0)) := by decide
example : (walk Walk.start (pre ++ post)).map (·.defs) =
    some [⟨0, 4, .value⟩, ⟨1, 8, .value⟩, ⟨2, 4, .value⟩, ⟨1, 1, .value⟩, ⟨1, 8, .value⟩] := by decide
/-- A name twice in a block. -/
example : walk Walk.start [.declare 1 4 .value, .declare 1 4 .value] = none := by decide

/-- `in_scope_disjoint_partial` applies to it: the variables 0 and 3 are in scope, and have different bytes. -/
example : ∃ w, walk Walk.start (pre ++ post) = some w ∧ (w.defs.map fun d => d.size + 7).sum + 7 < 65536 ∧
    Faithful w.defs .ref ∧ Faithful w.defs .value ∧ Flat w.defs .mixture ∧ declared pre + 1 < 65536 := by
  have h : ∃ w, walk Walk.start (pre ++ post) = some w ∧
      w.defs = [⟨0, 4, .value⟩, ⟨1, 8, .value⟩, ⟨2, 4, .value⟩, ⟨1, 1, .value⟩, ⟨1, 8, .value⟩] := ⟨_, rfl, rfl⟩
  obtain ⟨w, h1, h2⟩ := h
  refine ⟨w, h1, ?_⟩
  rw [h2]
  exact ⟨by decide, Verif.Layout.Props.faithful_of _ _ (by decide +kernel),
    Verif.Layout.Props.faithful_of _ _ (by decide +kernel), Verif.Layout.Props.flat_of _ _ (by decide +kernel), by decide⟩

/-! ## Temporary variables -/

/-- `{ long x; … f().y … } int b;`: the walk of the block, with `x` in scope. -/
def block : List Op := [.enter, .declare 1 8 .value]

/-- What follows the expression. -/
def behind : List Op := [.leave, .declare 2 4 .value]

/-- The temporary variable of `f().y`, a struct of 8 bytes, is put over `x`, which is in scope. -/
theorem temporary_refuted : ∃ w1 w w', walk Walk.start block = some w1 ∧ walk w1 behind = some w ∧
    get 1 w1.regions = some (.loc 0) ∧ defineTemp w w1.regions 3 8 .value = some w' ∧
    ∃ places units, commit (Verif.Layout.Props.sorted w'.defs) (layoutOf w'.defs) = some (places, units) ∧
      w'.defs.map (·.size) = [8, 4, 8] ∧ ¬ DisjointBytes (places 0) 8 (places 2) 8 := by
  refine ⟨_, _, _, rfl, rfl, rfl, rfl, ?_⟩
  obtain ⟨places, h1, h2⟩ := Verif.Layout.Props.placesOf_some
    (defs := [⟨0, 8, .value⟩, ⟨0, 4, .value⟩, ⟨1, 8, .value⟩]) (ps := [0, 8, 0]) (units := 2) (by decide +kernel)
  have h3 : (List.range 3).map places = [0, 8, 0] := h2
  simp only [List.range, List.range.loop, List.map_cons, List.map_nil, List.cons.injEq, and_true] at h3
  obtain ⟨e0, _, e2⟩ := h3
  refine ⟨places, 2, h1, rfl, ?_⟩
  rw [e0, e2]
  intro h
  exact h 4 (by omega)

end Verif.Regions.Props
