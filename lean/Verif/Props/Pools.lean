import Verif.Proof.Pools
/-!
# C133: what is made in a pool lives as long as the pool

`run` are the calls of a pool, `Pool.close` is its end.  `Kept` and `Ended` (in `Spec/Pools.lean`) say what
is seen of memory before and at the end.
-/

namespace Verif.Pools

/-- Memory that always has one more block. -/
def above (l : List Nat) : Nat := l.foldr max 0 + 1

theorem above_fresh : Fresh above := by
  intro l h
  have : ∀ (l : List Nat) (x : Nat), x ∈ l → x ≤ l.foldr max 0 := by
    intro l
    induction l with
    | nil => simp
    | cons b l ih =>
      intro x hx
      simp only [List.foldr_cons]
      rcases List.mem_cons.1 hx with rfl | hx
      · exact Nat.le_max_left _ _
      · exact Nat.le_trans (ih x hx) (Nat.le_max_right _ _)
  have := this l _ h
  unfold above at this
  omega

/-- However many objects and blocks of bytes are made in a pool, and whatever addresses they get, each has
memory of its own and none goes before the pool; then the destructor of each object runs once, its memory
is given back once, after that, and nothing is done to memory that is not of objects of the pool. -/
theorem objects_partial {pick : List Nat → Nat} (fresh : Fresh pick) {w0 : World} (S : w0.Sane)
    {calls : List Call} (M : Makes calls) :
    ∃ p w as w', run pick calls Pool.empty w0 = some (p, w, as) ∧ Kept calls as w0 w ∧
      p.close w = some w' ∧ Ended calls as w0 w w' := by
  have I : Inv Pool.empty w0 := ⟨S, by simp [Pool.empty], by simp [Pool.empty]⟩
  obtain ⟨p, w, as, h1, I', K, ho⟩ := run_makes fresh calls _ _ I M
  obtain ⟨w', h2, E⟩ := close_ends I' K S (fun a => by rw [ho a]; simp [Pool.empty])
  exact ⟨p, w, as, w', h1, K, h2, E⟩

/-- A pool of two objects and some bytes beside an object of another. -/
def demoWorld : World := ⟨[7], [7], []⟩

example : World.Sane demoWorld := ⟨by decide, by decide, by decide⟩
example : Makes [.object false, .plain, .object false] := by unfold Makes; decide
example : (run above [.object false, .plain, .object false] Pool.empty demoWorld).bind
      (fun r => (r.1.close r.2.1).map fun w => (r.2.2, w)) =
    some ([8, 9, 10], ⟨[9, 7], [7], [.made 8, .given 9, .made 10, .gone 8, .back 8, .gone 10, .back 10]⟩) := by
  decide

/-- Bytes that are not an object are not given back: after any calls that make something, what was asked
for without being an object is still in use when the pool has gone. -/
theorem bytes_refuted {pick : List Nat → Nat} (fresh : Fresh pick) {w0 : World} (S : w0.Sane)
    {calls : List Call} (M : Makes calls) (b : Call.plain ∈ calls) :
    ∃ p w as w', run pick calls Pool.empty w0 = some (p, w, as) ∧ p.close w = some w' ∧
      ∃ a ∈ as, a ∉ w0.live ∧ a ∈ w'.live := by
  obtain ⟨p, w, as, w', h1, K, h2, E⟩ := objects_partial fresh S M
  refine ⟨p, w, as, w', h1, h2, ?_⟩
  obtain ⟨k, hk, hc⟩ := List.getElem_of_mem b
  have hk' : k < as.length := by rw [K.all]; exact hk
  have hm : as[k] ∈ as := List.getElem_mem hk'
  refine ⟨as[k], hm, K.own _ hm, (E.live _).2 (.inr ⟨hm, fun ho => ?_⟩)⟩
  obtain ⟨j, hj, e⟩ := List.getElem_of_mem ho
  have hj1 : j < calls.length := by
    have := hj; rw [List.length_zip] at this; omega
  have hj2 : j < as.length := by rw [K.all]; exact hj1
  rw [List.getElem_zip] at e
  injection e with e1 e2
  have : j = k := (List.getElem_inj K.apart).1 e2
  subst this
  rw [hc] at e1
  exact absurd e1 (by decide)

example : Call.plain ∈ [Call.object false, .plain] := by decide

/-- Giving something back to a pool before its end is undefined, always: of what is in the pool the iterator
is read after it was erased, of anything else the one at the end is. -/
theorem free_refuted (pick : List Nat → Nat) (p : Pool) (w : World) (a : Nat) :
    step pick p w (.free a) = none ∧ step pick p w (.delete a) = none := by
  constructor
  · simp [step, free_none]
  · simp only [step, Pool.deleteObj]
    cases w.destroy a with
    | none => rfl
    | some w1 => simp [free_none]

/-- When a constructor throws, the end of the pool runs the destructor of what is no object. -/
theorem throwing_refuted {pick : List Nat → Nat} (fresh : Fresh pick) {w0 : World} (S : w0.Sane) :
    ∃ p w as, run pick [.object true] Pool.empty w0 = some (p, w, as) ∧ p.close w = none := by
  have hf : pick w0.live ∉ w0.live := fresh w0.live
  have hnb : pick w0.live ∉ w0.built := fun h => hf (S.held _ h)
  refine ⟨⟨[pick w0.live]⟩, ⟨pick w0.live :: w0.live, w0.built, w0.log⟩, [pick w0.live], ?_, ?_⟩
  · rfl
  · simp [Pool.close, closeList, World.destroy, hnb]

/-- With the memory manager that is used when none is named, an object can be deleted just when it is
there; then its destructor runs and its memory is given back. -/
theorem default_delete {w : World} (S : w.Sane) (a : Nat) :
    (a ∈ w.built → defaultDelete w a =
      some ⟨w.live.erase a, w.built.erase a, w.log ++ [.gone a, .back a]⟩) ∧
    (a ∉ w.built → defaultDelete w a = none) := by
  constructor
  · intro hb
    have hl := S.held a hb
    simp [defaultDelete, World.destroy, World.delete, hb, hl]
  · intro hb
    simp [defaultDelete, World.destroy, hb]

/-- Whatever objects are made and deleted with it, what is there is what was made and has not gone, and every
destructor is followed by giving back the memory. -/
theorem default_balanced {pick : List Nat → Nat} (fresh : Fresh pick) {cs : List DCall} {w w' : World}
    {as : List Nat} (S : w.Sane) (h : defaultRun pick cs w = some (w', as)) : w'.Sane ∧ Balanced w w' :=
  default_balanced' fresh cs w w' as S h

example : defaultRun above [.new, .new, .delete 8, .new, .delete 7] demoWorld =
    some (⟨[10, 9], [10, 9], [.made 8, .made 9, .gone 8, .back 8, .made 10, .gone 7, .back 7]⟩, [8, 9, 10]) := by
  decide

/-- Making a block larger does not keep what it holds: for every block that is not empty there is a content
of new memory that replaces its first byte. -/
theorem realloc_refuted {pick : List Nat → Nat} (fresh : Fresh pick) (m : Bytes) (a size : Nat)
    (bs : List UInt8) (h : (a, bs) ∈ m) (hb : bs ≠ []) (hs : bs.length ≤ size) :
    ∃ fill m' n, realloc pick fill m a size = some (m', n) ∧ ¬ Keeps m m' a n size := by
  obtain ⟨b, bt, rfl⟩ : ∃ b bt, bs = b :: bt := by
    cases bs with
    | nil => exact absurd rfl hb
    | cons b bt => exact ⟨b, bt, rfl⟩
  have hin : a ∈ m.map (·.1) := List.mem_map.2 ⟨_, h, rfl⟩
  refine ⟨fun _ => b + 1, _, _, by simp only [realloc, hin, if_true]; rfl, fun K => ?_⟩
  obtain ⟨bs', h1, h2, h3⟩ := K _ h
  rcases List.mem_cons.1 h1 with e | e
  · injection e with _ e
    subst e
    have hmin : min size (b :: bt).length = bt.length + 1 := by
      simp only [List.length_cons] at hs ⊢; omega
    rw [hmin] at h3
    have := congrArg List.head? h3
    obtain ⟨s', rfl⟩ : ∃ s', size = s' + 1 := ⟨size - 1, by simp only [List.length_cons] at hs; omega⟩
    simp [List.range_succ_eq_map] at this
  · exact fresh ((m.filter fun b => b.1 ≠ a).map (·.1)) (List.mem_map.2 ⟨_, e, rfl⟩)

example : (3, [5, 6]) ∈ ([(3, [5, 6]), (4, [1])] : Bytes) ∧ ([5, 6] : List UInt8) ≠ [] ∧
    ([5, 6] : List UInt8).length ≤ 4 := by decide

end Verif.Pools
