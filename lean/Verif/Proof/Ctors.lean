import Verif.Spec.Ctors

/-! Lemmas about the construction of objects. -/

namespace Verif.Ctors

open Spec

theorem findIdx_unique {l : List Ctor} {n k : Nat} {K : Ctor}
    (hd : ∀ (i j : Nat) (K K' : Ctor), l[i]? = some K → l[j]? = some K' → K.params = K'.params → i = j)
    (hk : l[k]? = some K) (hn : K.params = n) : l.findIdx? (·.params == n) = some k := by
  obtain ⟨hlt, he⟩ := List.getElem?_eq_some_iff.1 hk
  rw [List.findIdx?_eq_some_iff_getElem]
  refine ⟨hlt, by rw [he]; simp [hn], ?_⟩
  intro j hj
  have hj' : j < l.length := by omega
  intro hp
  have := hd j k l[j] K (List.getElem?_eq_getElem hj') hk (by rw [hn]; simpa using hp)
  omega

theorem own_of {C : Class} {n : Nat} {K : Ctor}
    (hd : ∀ (i j : Nat) (K K' : Ctor), C.ctors[i]? = some K → C.ctors[j]? = some K' → K.params = K'.params → i = j)
    (hk : IsCtor C n K) : ∃ k, C.own n = some k ∧ C.all[k]? = some K := by
  rcases hk with ⟨hm, hn⟩ | ⟨he, h0, hK⟩
  · obtain ⟨k, hk⟩ := List.mem_iff_getElem?.1 hm
    have hne : C.ctors.isEmpty = false := by
      cases h : C.ctors with
      | nil => rw [h] at hm; cases hm
      | cons a l => rfl
    refine ⟨k, ?_, ?_⟩
    · unfold Class.own Class.all
      rw [hne]
      exact findIdx_unique hd hk hn
    · unfold Class.all
      rw [hne]
      exact hk
  · subst h0; subst hK
    exact ⟨0, by simp [Class.own, Class.all, he], by simp [Class.all, he]⟩

theorem isCtor_all {C : Class} {K : Ctor} (h : K ∈ C.all) : IsCtor C K.params K := by
  unfold Class.all at h
  cases hc : C.ctors with
  | nil =>
    rw [hc] at h
    have : K = { params := 0 } := by simpa using h
    subst this
    exact .inr ⟨hc, rfl, rfl⟩
  | cons a l =>
    rw [hc] at h
    exact .inl ⟨by rw [hc]; simpa using h, rfl⟩

theorem isCtor_unique {C : Class} {n : Nat} {K K' : Ctor}
    (hd : ∀ (i j : Nat) (K K' : Ctor), C.ctors[i]? = some K → C.ctors[j]? = some K' → K.params = K'.params → i = j)
    (hk : IsCtor C n K) (hk' : IsCtor C n K') : K = K' := by
  obtain ⟨k, h1, h2⟩ := own_of hd hk
  obtain ⟨k', h1', h2'⟩ := own_of hd hk'
  rw [h1] at h1'
  cases h1'
  rw [h2] at h2'
  exact Option.some.inj h2'

theorem find_own {P : Prog} {c n k : Nat} {C : Class} (hc : P[c]? = some C) (hk : C.own n = some k) :
    findCtor P c n = some (c, k) := by
  unfold findCtor find
  simp only [hc, hk]

theorem set_same {o : Obj} {c i : Nat} (h : o.flds c i = 0) : o.set c i 0 = o := by
  cases o with
  | mk f out =>
    simp only [Obj.set, Obj.mk.injEq, and_true]
    funext c' i'
    by_cases hc : c' = c ∧ i' = i
    · rw [if_pos hc, hc.1, hc.2]; exact h.symm
    · rw [if_neg hc]

theorem set_other {o : Obj} {c i c' i' : Nat} {v : Int} (h : ¬(c' = c ∧ i' = i)) : (o.set c i v).flds c' i' = o.flds c' i' := by
  simp [Obj.set, h]

theorem set_at {o : Obj} {c i : Nat} {v : Int} : (o.set c i v).flds c i = v := by
  simp [Obj.set]

theorem initFields_ok (c : Nat) : ∀ (fs : List (Option Init)) (i : Nat),
    (∀ f ∈ fs, ∀ x, f = some x → ∃ v, x = .const v) →
    ∃ ops, initFields c i fs = .ok ops ∧
      ∀ (call : Nat → Nat → List Int → Obj → Option Obj) (args : List Int) (o : Obj), (∀ j, i ≤ j → o.flds c j = 0) →
        runOps call args ops o = some (initial c i fs o)
  | [], i, _ => ⟨[], rfl, fun _ _ _ _ => rfl⟩
  | none :: fs, i, h => by
    obtain ⟨ops, h1, h2⟩ := initFields_ok c fs (i + 1) fun f hf => h f (List.mem_cons_of_mem _ hf)
    exact ⟨ops, h1, fun call args o hz => h2 call args o fun j hj => hz j (by omega)⟩
  | some .other :: fs, i, h => by
    obtain ⟨v, hv⟩ := h _ List.mem_cons_self _ rfl
    cases hv
  | some (.const v) :: fs, i, h => by
    obtain ⟨ops, h1, h2⟩ := initFields_ok c fs (i + 1) fun f hf => h f (List.mem_cons_of_mem _ hf)
    refine ⟨if v ≠ 0 then .assign c i v :: ops else ops, by simp only [initFields, h1], ?_⟩
    intro call args o hz
    have hz' : ∀ j, i + 1 ≤ j → (o.set c i v).flds c j = 0 := fun j hj => by
      rw [set_other (by omega)]; exact hz j (by omega)
    by_cases hv : v = 0
    · subst hv
      have hs := set_same (hz i (Nat.le_refl _))
      simp only [ne_eq, not_true_eq_false, if_false, initial, hs]
      exact h2 call args o fun j hj => hz j (by omega)
    · simp only [ne_eq, hv, not_false_eq_true, if_true, runOps, initial]
      exact h2 call args _ hz'

theorem runOps_append (call : Nat → Nat → List Int → Obj → Option Obj) (args : List Int) : ∀ (l l' : List Op) (o : Obj),
    runOps call args (l ++ l') o = (runOps call args l o).bind (runOps call args l')
  | [], _, _ => rfl
  | .call c k as :: l, l', o => by
    simp only [List.cons_append, runOps]
    cases h : call c k (as.map fun f => f args o) o with
    | none => rfl
    | some o' => exact runOps_append call args l l' o'
  | .assign c i v :: l, l', o => runOps_append call args l l' _

theorem above_le {P : Prog} (hb : BaseOk P) {c a : Nat} (h : Above P c a) : a ≤ c := by
  induction h with
  | self => exact Nat.le_refl _
  | base h1 h2 _ ih => have := hb _ _ _ h1 h2; omega

theorem initial_other (c : Nat) {a j : Nat} : ∀ (fs : List (Option Init)) (i : Nat) (o : Obj), a ≠ c ∨ j < i →
    (initial c i fs o).flds a j = o.flds a j
  | [], _, _, _ => rfl
  | none :: fs, i, o, h => initial_other c fs (i + 1) o (by omega)
  | some .other :: fs, i, o, h => initial_other c fs (i + 1) o (by omega)
  | some (.const v) :: fs, i, o, h => by
    simp only [initial]
    rw [initial_other c fs (i + 1) _ (by omega), set_other (by omega)]

/-- The value written for a field. -/
theorem initial_at (c : Nat) {j : Nat} : ∀ (fs : List (Option Init)) (i : Nat) (o : Obj),
    (initial c i fs o).flds c (i + j) = match fs[j]? with
      | some (some (.const v)) => v
      | _ => o.flds c (i + j) := by
  induction j with
  | zero =>
    intro fs i o
    match fs with
    | [] => rfl
    | none :: fs => exact initial_other c fs (i + 1) o (by omega)
    | some .other :: fs => exact initial_other c fs (i + 1) o (by omega)
    | some (.const v) :: fs =>
      simp only [initial]
      rw [initial_other c fs (i + 1) _ (by omega)]
      exact set_at
  | succ j ih =>
    intro fs i o
    have e : i + (j + 1) = i + 1 + j := by omega
    match fs with
    | [] => rfl
    | none :: fs => simp only [initial, e, List.getElem?_cons_succ]; exact ih fs (i + 1) o
    | some .other :: fs => simp only [initial, e, List.getElem?_cons_succ]; exact ih fs (i + 1) o
    | some (.const v) :: fs =>
      simp only [initial, e, List.getElem?_cons_succ]
      rw [ih fs (i + 1) _, set_other (by omega)]

theorem revise_ok {P : Prog} (hd : Distinct P) (hk : Constant P) (ho : OwnBase P) {c n : Nat} {C : Class} {K : Ctor}
    (hc : P[c]? = some C) (hK : IsCtor C n K) : ∃ ops ops', revise P c C K = .ok (ops ++ ops') ∧ baseCall P C K = .ok ops ∧
      initFields c 0 C.fields = .ok ops' := by
  obtain ⟨ops', h1, _⟩ := initFields_ok c C.fields 0 (hk c C hc)
  have := ho c C n K hc hK
  cases hb : C.base with
  | none =>
    rw [hb] at this
    dsimp only at this
    refine ⟨[], ops', ?_, ?_, h1⟩ <;> simp [revise, baseCall, hb, this, h1]
  | some b =>
    rw [hb] at this
    obtain ⟨B, K', hB, hK'⟩ := this
    obtain ⟨k, hk1, hk2⟩ := own_of (hd b B hB) hK'
    have hf := find_own hB hk1
    refine ⟨[.call b k (K.base.getD [])], ops', ?_, ?_, h1⟩ <;> simp [revise, baseCall, hb, hf, h1]

theorem compiles_ok {P : Prog} (hd : Distinct P) (hk : Constant P) (ho : OwnBase P) : compiles P = true := by
  unfold compiles
  rw [List.all_eq_true]
  intro c _
  cases hc : P[c]? with
  | none => rfl
  | some C =>
    simp only [List.all_eq_true]
    intro K hK
    obtain ⟨ops, ops', h, _⟩ := revise_ok hd hk ho hc (isCtor_all hK)
    simp [reviseOk, h]

theorem run_made {P : Prog} (hB : BaseOk P) (hd : Distinct P) (hk : Constant P) (ho : OwnBase P) (hl : Local P) :
    ∀ (d c k : Nat) (C : Class) (K : Ctor) (args : List Int) (o : Obj), c < d → P[c]? = some C → C.all[k]? = some K →
      IsCtor C args.length K → (∀ a, Above P c a → ∀ i, o.flds a i = 0) →
      ∃ o', run P d c k args o = some o' ∧ Made P c args o o' ∧ ∀ a, ¬ Above P c a → ∀ i, o'.flds a i = o.flds a i
  | 0, _, _, _, _, _, _, h, _, _, _, _ => absurd h (Nat.not_lt_zero _)
  | d + 1, c, k, C, K, args, o, hcd, hc, hk', hK, hz => by
    obtain ⟨ops, ops', hr, hb, hi⟩ := revise_ok hd hk ho hc hK
    obtain ⟨ops'', hi', hrun⟩ := initFields_ok c C.fields 0 (hk c C hc)
    rw [hi] at hi'
    cases hi'
    have hown := ho c C _ K hc hK
    cases hbase : C.base with
    | none =>
      rw [hbase] at hown
      dsimp only at hown
      have : ops = [] := by
        simp [baseCall, hbase, hown] at hb
        exact hb
      subst this
      refine ⟨K.body args (initial c 0 C.fields o), ?_, .root hc hK hbase hown, ?_⟩
      · simp only [run, hc, hk', hr, List.nil_append]
        rw [hrun _ args o fun j _ => hz c (.self c) j]
      · intro a ha i
        rw [hl c C _ K hc hK a ha, initial_other]
        exact .inl fun e => ha (by subst e; exact .self _)
    | some b =>
      rw [hbase] at hown
      obtain ⟨B, K', hPb, hK'⟩ := hown
      obtain ⟨k2, hk1, hk2⟩ := own_of (hd b B hPb) hK'
      have hf := find_own hPb hk1
      have : ops = [.call b k2 (K.base.getD [])] := by
        simp [baseCall, hbase, hf] at hb
        exact hb.symm
      subst this
      have hbc := hB c C b hc hbase
      obtain ⟨o1, h1, h2, h3⟩ := run_made hB hd hk ho hl d b k2 B K' ((K.base.getD []).map fun f => f args o) o (by omega) hPb hk2
        (by simpa using hK') fun a ha => hz a (.base hc hbase ha)
      have hnot : ¬ Above P b c := fun h => by have := above_le hB h; omega
      refine ⟨K.body args (initial c 0 C.fields o1), ?_, .derived hc hK hbase h2, ?_⟩
      · simp only [run, hc, hk', hr]
        rw [runOps_append]
        simp only [runOps, h1, Option.bind_some]
        rw [hrun _ args o1 fun j _ => by rw [h3 c hnot]; exact hz c (.self c) j]
      · intro a ha i
        rw [hl c C _ K hc hK a ha, initial_other, h3 a fun h => ha (.base hc hbase h)]
        exact .inl fun e => ha (by subst e; exact .self _)

theorem made_unique {P : Prog} (hd : Distinct P) {c : Nat} {args : List Int} {o o1 o2 : Obj} (h1 : Made P c args o o1)
    (h2 : Made P c args o o2) : o1 = o2 := by
  induction h1 generalizing o2 with
  | root hc hk hb ha =>
    cases h2 with
    | root hc' hk' hb' ha' =>
      rw [hc] at hc'; cases hc'
      rw [isCtor_unique (hd _ _ hc) hk hk']
    | derived hc' hk' hb' hm' =>
      rw [hc] at hc'; cases hc'
      rw [hb] at hb'; cases hb'
  | derived hc hk hb hm ih =>
    cases h2 with
    | root hc' hk' hb' ha' =>
      rw [hc] at hc'; cases hc'
      rw [hb] at hb'; cases hb'
    | derived hc' hk' hb' hm' =>
      rw [hc] at hc'; cases hc'
      rw [hb] at hb'; cases hb'
      have := isCtor_unique (hd _ _ hc) hk hk'
      subst this
      rw [ih hm']

theorem made_keeps {P : Prog} (hB : BaseOk P) {a i : Nat} {A : Class} (hA : P[a]? = some A) (hkeep : Keeps P a i) {c : Nat}
    {args : List Int} {o o' : Obj} (h : Made P c args o o') :
    (Above P c a → o'.flds a i = match A.fields[i]? with | some (some (.const v)) => v | _ => o.flds a i) ∧
      (¬ Above P c a → o'.flds a i = o.flds a i) := by
  induction h with
  | @root c C K args o hc hk hb ha =>
    refine ⟨fun h => ?_, fun h => ?_⟩
    · have : a = c := by
        cases h with
        | self => rfl
        | base h1 h2 _ => rw [hc] at h1; cases h1; rw [hb] at h2; cases h2
      subst this
      rw [hA] at hc; cases hc
      rw [hkeep _ _ _ _ hA hk]
      have := initial_at a (j := i) A.fields 0 o
      rw [Nat.zero_add] at this
      exact this
    · rw [hkeep _ _ _ _ hc hk, initial_other]
      exact .inl fun e => h (by subst e; exact .self _)
  | @derived c b C K args o o1 hc hk hb hm ih =>
    have hlt := hB _ _ _ hc hb
    refine ⟨fun h => ?_, fun h => ?_⟩
    · cases h with
      | self =>
        rw [hA] at hc; cases hc
        rw [hkeep _ _ _ _ hA hk]
        have := initial_at a (j := i) A.fields 0 o1
        rw [Nat.zero_add] at this
        rw [this, ih.2 fun h => by have := above_le hB h; omega]
      | base h1 h2 h3 =>
        rw [hc] at h1; cases h1
        rw [hb] at h2; cases h2
        have hle := above_le hB h3
        rw [hkeep _ _ _ _ hc hk, initial_other _ _ _ _ (.inl (by omega))]
        exact ih.1 h3
    · rw [hkeep _ _ _ _ hc hk, initial_other, ih.2 fun h' => h (.base hc hb h')]
      exact .inl fun e => h (by subst e; exact .self _)

theorem own_none {C : Class} {n : Nat} (h : ∀ K, ¬ IsCtor C n K) : C.own n = none := by
  unfold Class.own
  rw [List.findIdx?_eq_none_iff]
  intro K hK
  cases hp : (K.params == n) with
  | false => rfl
  | true =>
    have : K.params = n := by simpa using hp
    exact absurd (this ▸ isCtor_all hK) (h K)

theorem find_none {P : Prog} {n : Nat} : ∀ (d c : Nat), (∀ a A, Above P c a → P[a]? = some A → ∀ K, ¬ IsCtor A n K) →
    find P d c n = none
  | 0, _, _ => rfl
  | d + 1, c, h => by
    unfold find
    cases hc : P[c]? with
    | none => rfl
    | some C =>
      simp only [own_none (h c C (.self c) hc)]
      cases hb : C.base with
      | none => rfl
      | some b => exact find_none d b fun a A ha => h a A (.base hc hb ha)

end Verif.Ctors
