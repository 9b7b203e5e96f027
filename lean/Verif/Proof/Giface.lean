import Verif.Spec.Giface
import Verif.Proof.Gvirt

/-! # Proofs: classes that implement generic interfaces -/

namespace Verif.Giface

open Verif.Gvirt

/-- What `keyAt` replaces type parameters by. -/
def sub (l : Link) : Nat → Ty := fun n => ((l.1.typeParams.zip l.2).lookup n).getD (.param n)

theorem keyAt_sub (l : Link) (m : Method) :
    keyAt l.1 l.2 m = (m.name, m.typeParams, m.ret.replace (sub l), m.params.map (fun p => (p.1, p.2.replace (sub l)))) := rfl

theorem getType_replace {e : Env} {f : Nat → Ty} : ∀ {t : Ty}, (∀ n ∈ mentions t, e n = some (f n)) →
    getType (some e) t = some (some (t.replace f))
  | .param n, h => by rw [getType, h n List.mem_cons_self]; rfl
  | .cls _, _ => rfl
  | .app g a, h => by
    have h1 := getType_replace (t := g) (fun n hn => h n (List.mem_append_left _ hn))
    have h2 := getType_replace (t := a) (fun n hn => h n (List.mem_append_right _ hn))
    simp only [getType, h1, h2, Ty.replace]

/-- A prototype without type parameters. -/
def protoAt (k : Key) : Prototype := ⟨k.1, k.2.1, some k.2.2.1, k.2.2.2.map (fun p => (p.1, some p.2))⟩

theorem protoParams_replace {e : Env} {f : Nat → Ty} : ∀ {ps : List (Nat × Ty)}, (∀ p ∈ ps, ∀ n ∈ mentions p.2, e n = some (f n)) →
    protoParams (some e) ps = some ((ps.map (fun p => (p.1, p.2.replace f))).map (fun p => (p.1, some p.2)))
  | [], _ => rfl
  | (k, t) :: ps, h => by
    rw [protoParams, getType_replace (h (k, t) List.mem_cons_self)]
    simp only
    rw [protoParams_replace (fun p hp => h p (List.mem_cons_of_mem _ hp))]
    rfl

theorem getPrototype_replace {e : Env} {l : Link} {m : Method} (h : ∀ n, Mentions m n → e n = some (sub l n)) :
    getPrototype (some e) m = some (protoAt (keyAt l.1 l.2 m)) := by
  rw [getPrototype, protoParams_replace (f := sub l) (fun p hp n hn => h n (Or.inr ⟨p, hp, hn⟩))]
  simp only
  rw [getType_replace (f := sub l) (fun n hn => h n (Or.inl hn))]
  rfl

theorem compareParams_replace {e : Env} {f : Nat → Ty} : ∀ {ps qs : List (Nat × Ty)},
    (∀ p ∈ ps, ∀ n ∈ mentions p.2, e n = some (f n)) → ps.length = qs.length →
    compareParams (some e) ps (qs.map (fun p => (p.1, some p.2))) = some (decide (ps.map (fun p => (p.1, p.2.replace f)) = qs))
  | [], [], _, _ => rfl
  | [], _ :: _, _, h => by simp at h
  | _ :: _, [], _, h => by simp at h
  | (k, t) :: ps, (k', t') :: qs, h, hl => by
    rw [List.map_cons, compareParams, getType_replace (h (k, t) List.mem_cons_self)]
    simp only
    rw [compareParams_replace (fun p hp => h p (List.mem_cons_of_mem _ hp)) (by simpa using hl)]
    by_cases hk : k = k'
    · by_cases ht : t.replace f = t'
      · subst hk ht
        simp
      · simp [hk, ht]
    · simp [hk]

theorem compare_replace {e : Env} {l : Link} {m : Method} (h : ∀ n, Mentions m n → e n = some (sub l n)) (k : Key) :
    compareTo (some e) m (protoAt k) = some (decide (keyAt l.1 l.2 m = k)) := by
  obtain ⟨k1, k2, k3, k4⟩ := k
  rw [compareTo, protoAt, keyAt_sub]
  simp only [List.length_map]
  by_cases h1 : m.name = k1
  · by_cases h2 : k2 = m.typeParams
    · by_cases h3 : k4.length = m.params.length
      · rw [if_neg (by simp [h1]), if_neg (by simp [h2]), if_neg (by simp [h3]),
          getType_replace (f := sub l) (fun n hn => h n (Or.inl hn))]
        simp only
        by_cases h4 : k3 = m.ret.replace (sub l)
        · rw [if_neg (by simp [h4]), compareParams_replace (f := sub l) (fun p hp n hn => h n (Or.inr ⟨p, hp, hn⟩)) h3.symm]
          simp [h1, h2, h4]
        · rw [if_pos (by simp [h4])]
          have : ¬ m.ret.replace (sub l) = k3 := fun hk => h4 hk.symm
          simp [this]
      · rw [if_neg (by simp [h1]), if_neg (by simp [h2]), if_pos (by simp [h3])]
        have : ¬ m.params.map (fun p => (p.1, p.2.replace (sub l))) = k4 := fun hk => h3 (by rw [← hk, List.length_map])
        simp [this]
    · rw [if_neg (by simp [h1]), if_pos (by simp [h2])]
      have : ¬ m.typeParams = k2 := fun hk => h2 hk.symm
      simp [this]
  · rw [if_pos h1]
    simp [h1]

theorem manager_agrees {iface object l : Link} {chain : List Link} (hu : Unambiguous iface object chain) (hl : l ∈ chain)
    {m : Method} (hm : m ∈ l.1.methods) : ∀ n, Mentions m n → manager iface object n = some (sub l n) := by
  intro n hn
  obtain ⟨t, h1, h2⟩ := hu l hl m hm n hn
  have hs : sub l n = t := by
    have h1' : (l.1.typeParams.zip l.2).lookup n = some t := h1
    rw [sub, h1']
    rfl
  rw [hs, manager]
  rcases h2 with h2 | ⟨h2, h3⟩
  · have h2' : (iface.1.typeParams.zip iface.2).lookup n = some t := h2
    rw [h2']
  · have h2' : (iface.1.typeParams.zip iface.2).lookup n = none := h2
    rw [h2']
    have h3' : (object.1.typeParams.zip object.2).lookup n = some t := h3
    have hg : object.1.generic = true := by
      rw [Class.generic]
      cases he : object.1.typeParams with
      | nil => rw [he] at h3'; cases h3'
      | cons a b => rfl
    simp only [managerOf, hg, if_true]
    exact h3'

theorem searchImpl_spec {e : Env} {l : Link} (k : Key) : ∀ {ms : List Method} (i : Nat) (acc : Option Entry),
    (∀ m ∈ ms, ∀ n, Mentions m n → e n = some (sub l n)) → (ms.map (keyAt l.1 l.2)).Nodup →
    searchImpl e (protoAt k) l.1 i ms acc =
      .ok (((ms.zipIdx i).find? (fun x => decide (keyAt l.1 l.2 x.1 = k))).map (fun x => (⟨l.1.id, x.2, x.1⟩ : Entry)) |>.or acc)
  | [], _, acc, _, _ => by simp [searchImpl]
  | m :: ms, i, acc, h, hn => by
    rw [List.map_cons, List.nodup_cons] at hn
    have hms : ∀ x ∈ ms, ∀ n, Mentions x n → e n = some (sub l n) := fun x hx => h x (List.mem_cons_of_mem _ hx)
    rw [searchImpl, compare_replace (h m List.mem_cons_self) k, List.zipIdx_cons, List.find?_cons]
    by_cases hk : keyAt l.1 l.2 m = k
    · simp only [hk, decide_true]
      rw [searchImpl_spec k (i + 1) _ hms hn.2]
      have : (ms.zipIdx (i + 1)).find? (fun x => decide (keyAt l.1 l.2 x.1 = k)) = none := by
        rw [List.find?_eq_none]
        intro x hx
        rw [decide_eq_true_eq]
        intro hxk
        apply hn.1
        rw [hk]
        exact List.mem_map.mpr ⟨x.1, by rw [(List.mem_zipIdx hx).2.2]; exact List.getElem_mem _, hxk⟩
      rw [this]
      rfl
    · simp only [hk, decide_false]
      exact searchImpl_spec k (i + 1) acc hms hn.2

theorem buildInterface_spec {iface object : Link} (k : Key) : ∀ {chain : List Link}, Unambiguous iface object chain → Distinct chain →
    buildInterface (manager iface object) (protoAt k) chain = .ok (implements k chain)
  | [], _, _ => rfl
  | l :: bases, hu, hd => by
    have hu' : Unambiguous iface object bases := fun x hx => hu x (List.mem_cons_of_mem _ hx)
    have hd' : Distinct bases := fun x hx => hd x (List.mem_cons_of_mem _ hx)
    obtain ⟨c, args⟩ := l
    rw [buildInterface, buildInterface_spec k hu' hd', implements]
    simp only
    have hs := searchImpl_spec (l := (c, args)) (e := manager iface object) k 0 none
      (fun m hm => manager_agrees hu List.mem_cons_self hm) (hd (c, args) List.mem_cons_self)
    simp only at hs
    rw [hs, Option.or_none]
    rw [show ((c.methods.zipIdx 0).find? (fun x => decide (keyAt c args x.1 = k))).map (fun x => (⟨c.id, x.2, x.1⟩ : Entry)) =
      declaredAt (c, args) k from rfl]
    cases declaredAt (c, args) k <;> rfl

theorem interface_prototype {iface object : Link} {m : Method} (hm : ∀ n, Mentions m n → meaning iface n ≠ none) :
    getPrototype (some (manager iface object)) m = some (protoAt (keyAt iface.1 iface.2 m)) := by
  apply getPrototype_replace
  intro n hn
  have h : (iface.1.typeParams.zip iface.2).lookup n ≠ none := hm n hn
  rw [manager, sub]
  cases hl : (iface.1.typeParams.zip iface.2).lookup n with
  | none => exact absurd hl h
  | some t => rfl

end Verif.Giface
