import Verif.Spec.Respool

/-! # C33: the resource pool -/

namespace Verif.Respool.Props

/-! ## Helper lemmas -/

theorem trim_perm (capacity : Nat) : ∀ (q gone : List Nat),
    ((trim capacity q gone).2 ++ (trim capacity q gone).1).Perm (gone ++ q)
  | [], gone => by simp [trim]
  | obj :: rest, gone => by
    rw [trim]
    split
    · refine (trim_perm capacity rest (gone ++ [obj])).trans ?_
      simp
    · simp

theorem trim_length (capacity : Nat) : ∀ (q gone : List Nat), (trim capacity q gone).1.length ≤ capacity ∨
    (trim capacity q gone).1.length ≤ 0
  | [], gone => by simp [trim]
  | obj :: rest, gone => by
    rw [trim]
    split
    · exact trim_length capacity rest _
    · left; simp only; omega

/-- What is true of a pool: `held` are the objects in use. -/
structure Inv (p : Pool) (held : List Nat) : Prop where
  same : p.acquired.Perm held
  live : p.made.Perm (p.gone ++ (p.acquired ++ p.queue))
  nodup : (p.acquired ++ p.queue).Nodup
  bound : p.queue.length ≤ p.capacity * 3 / 2

theorem inv_empty (capacity : Nat) : Inv (Pool.empty capacity) [] :=
  ⟨.refl _, .refl _, List.nodup_nil, Nat.zero_le _⟩

/-- The event of a call, and the objects in use after it. -/
def after (held : List Nat) : Event → List Nat
  | .got obj => obj :: held
  | .released obj => held.erase obj
  | _ => held

theorem step_ok (p : Pool) (held : List Nat) (hi : Inv p held) (c : Call) (hf : FreshAt p c) :
    Inv (p.step c).1 (after held (p.step c).2) ∧ (p.step c).1.capacity = p.capacity ∧
    match (p.step c).2 with
    | .got obj => obj ∉ held
    | .released obj => obj ∈ held ∧ c = .release obj
    | .refused obj => obj ∉ held ∧ c = .release obj ∧ (p.step c).1 = p
    | .assertion => False := by
  cases c with
  | acquire fresh =>
    cases hq : p.queue with
    | nil =>
      have hc := hi.live.count_eq fresh
      rw [hf, List.count_append, hq, List.append_nil] at hc
      have hna : fresh ∉ p.acquired := fun h => by
        have := List.count_pos_iff.mpr h; omega
      have hnh : fresh ∉ held := fun h => hna (hi.same.mem_iff.mpr h)
      have e : p.step (.acquire fresh) =
          ({ p with made := fresh :: p.made, acquired := fresh :: p.acquired }, .got fresh) := by
        simp only [Pool.step, Pool.acquire, hq, Pool.use, if_neg hna]
      rw [e]
      refine ⟨⟨hi.same.cons _, ?_, ?_, hi.bound⟩, rfl, hnh⟩
      · simp only
        exact (hi.live.cons fresh).trans List.perm_middle.symm
      · simp only [List.cons_append, List.nodup_cons]
        refine ⟨?_, hi.nodup⟩
        rw [hq, List.append_nil]
        exact hna
    | cons obj rest =>
      have hnd := hi.nodup
      rw [hq, List.nodup_append] at hnd
      have hna : obj ∉ p.acquired := fun h => hnd.2.2 obj h obj List.mem_cons_self rfl
      have hnh : obj ∉ held := fun h => hna (hi.same.mem_iff.mpr h)
      have e : p.step (.acquire fresh) =
          ({ p with queue := rest, acquired := obj :: p.acquired }, .got obj) := by
        simp only [Pool.step, Pool.acquire, hq, Pool.use, if_neg hna]
      rw [e]
      refine ⟨⟨hi.same.cons _, ?_, ?_, ?_⟩, rfl, hnh⟩
      · simp only
        refine hi.live.trans (List.Perm.append_left _ ?_)
        rw [hq]
        exact List.perm_middle
      · have : (p.acquired ++ p.queue).Perm (obj :: p.acquired ++ rest) := by rw [hq]; exact List.perm_middle
        exact this.nodup_iff.mp hi.nodup
      · have := hi.bound
        rw [hq] at this
        simp only [List.length_cons] at this
        simp only
        omega
  | release obj =>
    by_cases hm : obj ∈ p.acquired
    · have hmh : obj ∈ held := hi.same.mem_iff.mp hm
      have hmove : (p.acquired ++ p.queue).Perm (p.acquired.erase obj ++ (p.queue ++ [obj])) := by
        refine ((List.perm_cons_erase hm).append_right _).trans ?_
        rw [List.cons_append, ← List.append_assoc]
        exact (List.perm_append_singleton obj _).symm
      by_cases hlen : (p.queue ++ [obj]).length > p.capacity * 3 / 2
      · have e : p.step (.release obj) = (⟨p.capacity, p.acquired.erase obj,
            (trim p.capacity (p.queue ++ [obj]) p.gone).1,
            (trim p.capacity (p.queue ++ [obj]) p.gone).2, p.made⟩, .released obj) := by
          simp only [Pool.step, Pool.release, if_pos hm, if_pos hlen]
        rw [e]
        have hp := trim_perm p.capacity (p.queue ++ [obj]) p.gone
        have hl := trim_length p.capacity (p.queue ++ [obj]) p.gone
        refine ⟨⟨hi.same.erase obj, ?_, ?_, ?_⟩, rfl, hmh, rfl⟩
        · simp only
          refine (hi.live.trans (hmove.append_left _)).trans ?_
          have h1 : (p.gone ++ (p.acquired.erase obj ++ (p.queue ++ [obj]))).Perm
              (p.acquired.erase obj ++ (p.gone ++ (p.queue ++ [obj]))) := by
            generalize p.queue ++ [obj] = q
            rw [← List.append_assoc, ← List.append_assoc]
            exact List.perm_append_comm.append_right _
          refine h1.trans ((hp.symm.append_left _).trans ?_)
          rw [← List.append_assoc, ← List.append_assoc]
          exact List.perm_append_comm.append_right _
        · have key : ∀ (q gone : List Nat), (trim p.capacity q gone).1 <:+ q := by
            intro q
            induction q with
            | nil => intro gone; exact List.suffix_refl _
            | cons a q ih =>
              intro gone
              rw [trim]
              split
              · exact (ih _).trans (List.suffix_cons _ _)
              · exact List.suffix_refl _
          have hnd := hmove.nodup_iff.mp hi.nodup
          exact hnd.sublist ((key _ _).sublist.append_left _)
        · simp only
          omega
      · have e : p.step (.release obj) = (⟨p.capacity, p.acquired.erase obj, p.queue ++ [obj], p.gone, p.made⟩,
            .released obj) := by
          simp only [Pool.step, Pool.release, if_pos hm, if_neg hlen]
        rw [e]
        refine ⟨⟨hi.same.erase obj, hi.live.trans (hmove.append_left _), hmove.nodup_iff.mp hi.nodup, ?_⟩, rfl,
          hmh, rfl⟩
        simp only
        omega
    · have e : p.step (.release obj) = (p, .refused obj) := by
        simp only [Pool.step, Pool.release, if_neg hm]
      rw [e]
      exact ⟨hi, rfl, fun h => hm (hi.same.mem_iff.mpr h), rfl, rfl⟩

theorem run_ok : ∀ (cs : List Call) (p : Pool) (held : List Nat), Inv p held → Fresh p cs →
    Exclusive held (p.run cs).2 ∧ (∃ held', Inv (p.run cs).1 held') ∧ (p.run cs).1.capacity = p.capacity
  | [], p, held, hi, _ => ⟨trivial, ⟨held, hi⟩, rfl⟩
  | c :: cs, p, held, hi, hf => by
    obtain ⟨h1, h2, h3⟩ := step_ok p held hi c hf.1
    obtain ⟨k1, k2, k3⟩ := run_ok cs _ _ h1 hf.2
    rw [Pool.run]
    simp only
    refine ⟨?_, k2, k3.trans h2⟩
    cases he : (p.step c).2 with
    | got obj => rw [he] at h3 k1; exact ⟨h3, k1⟩
    | released obj => rw [he] at h3 k1; exact ⟨h3.1, k1⟩
    | refused obj => rw [he] at h3 k1; exact ⟨h3.1, k1⟩
    | assertion => rw [he] at h3; exact h3.elim

/-! ## The property -/

/-- **C33**.  In every interleaving of calls, an object is handed out only when it is not in use; a
release is accepted exactly for an object in use; no assertion fails. -/
theorem pool_exclusive (capacity : Nat) (cs : List Call) (hf : Fresh (Pool.empty capacity) cs) :
    Exclusive [] ((Pool.empty capacity).run cs).2 :=
  (run_ok cs _ _ (inv_empty capacity) hf).1

/-- **C33**.  When the pool goes, every object that was made has been destroyed exactly once. -/
theorem pool_destroys_once (capacity : Nat) (cs : List Call) (hf : Fresh (Pool.empty capacity) cs) :
    ((Pool.empty capacity).run cs).1.made.Perm
      (((Pool.empty capacity).run cs).1.gone ++ ((Pool.empty capacity).run cs).1.destructor) := by
  obtain ⟨held, hi⟩ := (run_ok cs _ _ (inv_empty capacity) hf).2.1
  exact hi.live

/-- **C33**.  At most one and a half times the capacity objects wait to be used again. -/
theorem pool_bounded (capacity : Nat) (cs : List Call) (hf : Fresh (Pool.empty capacity) cs) :
    ((Pool.empty capacity).run cs).1.queue.length ≤ capacity * 3 / 2 := by
  obtain ⟨h1, ⟨held, hi⟩, h2⟩ := run_ok cs _ _ (inv_empty capacity) hf
  have := hi.bound
  rwa [h2] at this

/-- An object that is released is handed out again (here the first one released), a second release is
refused, and objects are destroyed when too many wait. -/
example : ((Pool.empty 1).run [.acquire 5, .acquire 6, .release 5, .release 5, .acquire 7, .release 6, .release 5,
    .acquire 6]).2 =
    [.got 5, .got 6, .released 5, .refused 5, .got 5, .released 6, .released 5, .got 5] := by decide
example : ((Pool.empty 1).run [.acquire 5, .acquire 6, .release 6, .release 5]).1.gone = [6] := by decide
example : Fresh (Pool.empty 1) [.acquire 5, .acquire 6, .release 5, .release 5, .acquire 7, .release 6, .release 5,
    .acquire 6, .acquire 6] := by
  simp only [Fresh, FreshAt]
  decide

end Verif.Respool.Props
