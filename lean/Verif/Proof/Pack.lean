import Verif.Spec.Pack

/-! Lemmas about the places of arguments. -/

namespace Verif.Pack

open Verif.Layout (m16)
open Verif.Fields (Bytes unitSize)

/-- What is known of a layout after arguments of these units. -/
def Inv (l : Lay) (us : List Nat) : Prop :=
  l.offsets.length = us.length ∧ (∀ i, i < us.length → l.offsets[i]? = some (us.take i).sum) ∧ l.cur = us.sum ∧ l.ext = 65535

theorem append_inv {l : Lay} {us : List Nat} (h : Inv l us) (addr : Bool) (size : Nat)
    (hs : us.sum + (if addr then 1 else unitSize size) < 65536) : Inv (l.append addr size) (us ++ [if addr then 1 else unitSize size]) := by
  obtain ⟨h1, h2, h3, h4⟩ := h
  refine ⟨by simp [Lay.append, h1], ?_, ?_, h4⟩
  · intro i hi
    simp only [List.length_append, List.length_cons, List.length_nil] at hi
    simp only [Lay.append]
    by_cases hlt : i < us.length
    · rw [List.getElem?_append_left (by omega), h2 i hlt, List.take_append_of_le_length (by omega)]
    · have : i = us.length := by omega
      subst this
      rw [List.getElem?_append_right (by omega), h1]
      simp [h3]
  · simp only [Lay.append, h3, m16, List.sum_append, List.sum_cons, List.sum_nil, Nat.add_zero]
    exact Nat.mod_eq_of_lt hs

theorem many_inv : ∀ (sizes : List Nat) (l : Lay) (us : List Nat), Inv l us → us.sum + (sizes.map unitSize).sum < 65536 →
    Inv (sizes.foldl (fun l s => l.append false s) l) (us ++ sizes.map unitSize)
  | [], l, us, h, _ => by simpa using h
  | s :: sizes, l, us, h, hs => by
    simp only [List.map_cons, List.sum_cons] at hs
    have h1 := append_inv h false s (by simp; omega)
    simp only [Bool.false_eq_true, if_false] at h1
    have h2 := many_inv sizes _ _ h1 (by simp; omega)
    simpa using h2

theorem add_inv {l : Lay} {us : List Nat} (h : Inv l us) (p : Param) (hs : us.sum + (unitsOf p).sum < 65536) :
    Inv (l.add p) (us ++ unitsOf p) := by
  cases p with
  | one addr size =>
    have : l.add (.one addr size) = l.append addr size := by simp [Lay.add, Lay.appendRef]
    rw [this]
    exact append_inv h addr size (by simpa [unitsOf] using hs)
  | many sizes => exact many_inv sizes l us h hs

theorem fold_inv : ∀ (ps : List Param) (l : Lay) (us : List Nat), Inv l us → us.sum + (ps.flatMap unitsOf).sum < 65536 →
    Inv (ps.foldl Lay.add l) (us ++ ps.flatMap unitsOf)
  | [], l, us, h, _ => by simpa using h
  | p :: ps, l, us, h, hs => by
    simp only [List.flatMap_cons, List.sum_append] at hs
    have h1 := add_inv h p (by omega)
    have h2 := fold_inv ps _ _ h1 (by simp; omega)
    simpa using h2

theorem layout_inv (static : Bool) (ps : List Param) (hs : (allUnits static ps).sum < 65536) : Inv (layout static ps) (allUnits static ps) := by
  unfold layout allUnits at *
  have h0 : Inv {} [] := ⟨rfl, fun i hi => by simp at hi, rfl, rfl⟩
  cases static with
  | true =>
    have := fold_inv ps {} [] h0 (by simpa using hs)
    simpa using this
  | false =>
    have h1 := append_inv h0 true 8 (by simp)
    have := fold_inv ps _ _ h1 (by simpa using hs)
    simpa using this

theorem fit_length {us : List Nat} {args : List Bytes} (h : Fit us args) : args.flatten.length = 8 * us.sum := by
  unfold Fit at h
  rw [List.length_flatten, h]
  clear h
  induction us with
  | nil => rfl
  | cons u us ih => simp only [List.map_cons, List.sum_cons, ih]; omega

theorem fit_take {us : List Nat} {args : List Bytes} (h : Fit us args) (i : Nat) : Fit (us.take i) (args.take i) := by
  unfold Fit at *
  rw [List.map_take, h, List.map_take]

theorem bytesAt_split {below mid rest : Bytes} {b u : Nat} (hb : below.length = 8 * b) (hm : mid.length = 8 * u) {place : Int}
    (hp : place = (b + u : Nat)) : bytesAt (below ++ mid ++ rest) place = some rest := by
  subst hp
  unfold bytesAt
  have h1 : ((b + u : Nat) : Int).toNat = b + u := rfl
  rw [h1, if_pos ⟨by omega, by simp; omega⟩]
  rw [List.drop_left' (by simp; omega)]

end Verif.Pack
