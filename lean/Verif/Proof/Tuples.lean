import Verif.Spec.Tuples

/-!
# Proofs about the items of tuples
-/

namespace Verif.Tuples

open Verif.Fields

theorem numbered_inj {a : Name} {i j : Nat} (h : numbered a i = numbered a j) : i = j := by
  have h := List.append_cancel_left h
  have := congrArg (fun l => Nat.ofDigitChars 10 l 0) h
  simp only [Nat.ofDigitChars_ten_toDigits] at this
  omega

theorem itemProperties_get (ts : List Nat) (k i : Nat) :
    (itemProperties k ts)[i]? = ts[i]?.map (fun t =>
      ⟨numbered "Item".toList (k + i), t, numbered "get_Item".toList (k + i)⟩) := by
  induction ts generalizing k i with
  | nil => simp [itemProperties]
  | cons t ts ih =>
    cases i with
    | zero => simp [itemProperties]
    | succ i => simp only [itemProperties, List.getElem?_cons_succ, ih]; rw [show k + 1 + i = k + (i + 1) by omega]

theorem itemFields_name {ts : List Nat} {k : Nat} {f : Name × Nat} (h : f ∈ itemFields k ts) : f.1.head? = some '_' := by
  induction ts generalizing k with
  | nil => simp [itemFields] at h
  | cons t ts ih =>
    simp only [itemFields, List.mem_cons] at h
    rcases h with rfl | h
    · rfl
    · exact ih h

/-- The property of an item is found by its name. -/
theorem find_item {ts : List Nat} {own : List Property} {k i t : Nat} (h : ts[i]? = some t) :
    (itemProperties k ts ++ own).find? (fun p => decide (p.name = numbered "Item".toList (k + i))) =
      some ⟨numbered "Item".toList (k + i), t, numbered "get_Item".toList (k + i)⟩ := by
  induction ts generalizing k i with
  | nil => simp at h
  | cons u ts ih =>
    cases i with
    | zero => simp at h; subst h; simp [itemProperties]
    | succ i =>
      have hne : ¬ numbered "Item".toList k = numbered "Item".toList (k + (i + 1)) := fun e => by
        have := numbered_inj e; omega
      simp only [itemProperties, List.cons_append]
      rw [List.find?_cons_of_neg (by simpa using hne)]
      have := ih (k := k + 1) (i := i) (by simpa using h)
      rw [show k + 1 + i = k + (i + 1) by omega] at this
      exact this

theorem no_field {args : List Nat} {n : Name} (h : n.head? ≠ some '_') :
    (itemFields 0 args).find? (fun f => decide (f.1 = n)) = none := by
  rw [List.find?_eq_none]
  intro f hf he
  have := itemFields_name hf
  simp only [decide_eq_true_eq] at he
  rw [he] at this
  exact h this

theorem findMember_item {intType : Nat} {args : List Nat} {i t : Nat} (h : args[i]? = some t) :
    findMember intType args (numbered "Item".toList i) =
      some (.property ⟨numbered "Item".toList i, t, numbered "get_Item".toList i⟩) := by
  rw [findMember, no_field (by simp [numbered])]
  have := find_item (own := ownProperties intType) (k := 0) h
  rw [Nat.zero_add] at this
  simp only [this, Option.map_some]

/-! ## Bodies -/

theorem bytesOf_length (n x : Nat) : (bytesOf n x).length = n := by
  induction n generalizing x with
  | zero => rfl
  | succ n ih => simp [bytesOf, ih]

theorem numberOf_bytesOf (n x : Nat) (h : x < 256 ^ n) : numberOf (bytesOf n x) = x := by
  induction n generalizing x with
  | zero => simp at h; subst h; rfl
  | succ n ih =>
    simp only [bytesOf, numberOf]
    rw [ih (x / 256) (by rw [Nat.div_lt_iff_lt_mul (by decide)]; rwa [Nat.pow_succ] at h)]
    omega

theorem ofImage_image {c : RtCommand} (h : Small c) : ofImage (image c) = some c := by
  cases c with
  | pushArgument i =>
    simp only [image, List.cons_append, List.nil_append, ofImage]
    rw [List.take_of_length_le (by rw [bytesOf_length]; omega), numberOf_bytesOf 2 i h]
  | pushField a =>
    simp only [image, List.cons_append, List.nil_append, ofImage, List.drop_succ_cons, List.drop_zero]
    rw [List.take_of_length_le (by rw [bytesOf_length]; omega), numberOf_bytesOf 8 a h]
  | ret => rfl

theorem image_length (c : RtCommand) : (image c).length < 255 := by
  cases c <;> simp [image, bytesOf_length]

theorem body_read {cs : List RtCommand} (h : ∀ c ∈ cs, Small c) :
    ∃ b, toBody cs = some b ∧ readAll b = some cs := by
  induction cs with
  | nil => exact ⟨[], rfl, by simp [readAll]⟩
  | cons c cs ih =>
    obtain ⟨b, h1, h2⟩ := ih (fun c hc => h c (List.mem_cons_of_mem _ hc))
    refine ⟨(image c).length :: (image c ++ b), by simp [toBody, image_length, h1], ?_⟩
    rw [readAll]
    simp [ofImage_image (h c (List.mem_cons_self ..)), h2]

/-! ## Methods -/

theorem tupleMethods_spec {address : Nat → Nat} (ts : List Nat) (k : Nat)
    (ha : ∀ j, k ≤ j → j < k + ts.length → address j < 2 ^ 64) :
    ∃ ds, tupleMethods address k ts = some ds ∧ ds.length = ts.length ∧
      ∀ (i : Nat) (d : Dynamic), ds[i]? = some d → d.name = numbered "get_Item".toList (k + i) ∧ ts[i]? = some d.ret ∧
        readAll d.body = some [.pushArgument 0, .pushField (address (k + i)), .ret] := by
  induction ts generalizing k with
  | nil => exact ⟨[], rfl, rfl, by simp⟩
  | cons t ts ih =>
    simp only [List.length_cons] at ha
    obtain ⟨ds, h1, h2, h3⟩ := ih (k + 1) (fun j h1 h2 => ha j (by omega) (by omega))
    obtain ⟨b, b1, b2⟩ := body_read (cs := [.pushArgument 0, .pushField (address k), .ret]) (by
      intro c hc
      simp only [List.mem_cons, List.not_mem_nil, or_false] at hc
      rcases hc with rfl | rfl | rfl
      · exact (by decide : 0 < 65536)
      · exact ha k (by omega) (by omega)
      · trivial)
    refine ⟨⟨numbered "get_Item".toList k, t, b⟩ :: ds, by simp only [tupleMethods, b1, h1], by simp [h2], ?_⟩
    intro i d hd
    cases i with
    | zero => simp at hd; subst hd; exact ⟨rfl, rfl, b2⟩
    | succ i =>
      have := h3 i d (by simpa using hd)
      rw [show k + 1 + i = k + (i + 1) by omega] at this
      exact ⟨this.1, by simpa using this.2.1, this.2.2⟩

theorem searchDynamic_none {n : Name} {ret : Nat} {ds : List Dynamic} {acc : Option Found}
    (h : ∀ d ∈ ds, d.name ≠ n) : searchDynamic n ret ds acc = acc := by
  induction ds with
  | nil => rfl
  | cons d ds ih =>
    rw [searchDynamic, if_neg (fun e => h d (List.mem_cons_self ..) e.1)]
    exact ih (fun d hd => h d (List.mem_cons_of_mem _ hd))

theorem searchDynamic_found {n : Name} {ds : List Dynamic} {acc : Option Found} {i : Nat} {d : Dynamic}
    (hd : ds[i]? = some d) (hn : d.name = n) (hu : ∀ j e, ds[j]? = some e → e.name = n → j = i) :
    searchDynamic n d.ret ds acc = some (.dynamic d) := by
  induction ds generalizing i acc with
  | nil => simp at hd
  | cons x ds ih =>
    cases i with
    | zero =>
      simp at hd; subst hd
      rw [searchDynamic, if_pos ⟨hn, rfl⟩]
      apply searchDynamic_none
      intro e he hen
      obtain ⟨j, hj⟩ := List.mem_iff_getElem?.1 he
      have := hu (j + 1) e (by simpa using hj) hen
      omega
    | succ i =>
      rw [searchDynamic]
      exact ih (by simpa using hd) (fun j e hj he => by
        have := hu (j + 1) e (by simpa using hj) he
        omega)

theorem getMethod_item {intType : Nat} {address : Nat → Nat} {args : List Nat}
    (ha : ∀ k < args.length, address k < 2 ^ 64) {i t : Nat} (h : args[i]? = some t) :
    ∃ d, getMethod intType address args (numbered "get_Item".toList i) t = some (.dynamic d) ∧ d.ret = t ∧
      readAll d.body = some [.pushArgument 0, .pushField (address i), .ret] := by
  obtain ⟨ds, h1, h2, h3⟩ := tupleMethods_spec (address := address) args 0 (fun j _ h => ha j (by omega))
  simp only [Nat.zero_add] at h3
  have hlt : i < ds.length := by
    rw [h2]; exact (List.getElem?_eq_some_iff.1 h).1
  have hd := List.getElem?_eq_getElem hlt
  obtain ⟨g1, g2, g3⟩ := h3 i _ hd
  rw [h] at g2
  cases g2
  refine ⟨ds[i], ?_, rfl, g3⟩
  have := searchDynamic_found (acc := none) hd g1 (fun j e hj he => by
    have := (h3 j e hj).1
    rw [he] at this
    exact (numbered_inj this).symm)
  simp only [getMethod, h1, this]
  have q1 : ∀ m ∈ ownMethods intType, m.name ≠ numbered "get_Item".toList i := by
    intro m hm
    simp only [ownMethods, List.mem_cons, List.not_mem_nil, or_false] at hm
    rcases hm with rfl | rfl | rfl | rfl <;> simp [numbered]
  generalize ownMethods intType = ms at q1
  induction ms with
  | nil => rfl
  | cons m ms ih =>
    rw [searchOwn, if_neg (fun e => q1 m (List.mem_cons_self ..) e.1)]
    exact ih (fun m hm => q1 m (List.mem_cons_of_mem _ hm))

theorem fieldAt_item {address : Nat → Nat} {args : List Nat}
    (hi : ∀ j < args.length, ∀ k < args.length, address j = address k → j = k) {i : Nat}
    (h : i < args.length) : fieldAt address args (address i) = some i := by
  rw [fieldAt]
  cases hf : (List.range args.length).find? (fun k => decide (address k = address i)) with
  | none =>
    rw [List.find?_eq_none] at hf
    exact absurd (by simp) (hf i (List.mem_range.2 h))
  | some k =>
    have := List.find?_some hf
    simp only [decide_eq_true_eq] at this
    rw [hi _ (List.mem_range.1 (List.mem_of_find?_eq_some hf)) _ h this]

/-- What reading an item does. -/
theorem readMember_item {W : World} {sort : List Item → List Item} {fuel intType : Nat} {address : Nat → Nat}
    {tuple : Nat} {sb : Bool} {base : Option Nat} {args : List Nat} (hp : Placed address args.length) (hk : W.kind tuple = .obj sb base args) {m place : Bytes} {i t : Nat}
    (h : args[i]? = some t) {o : Nat} (ho : fieldOffset W sort fuel tuple i = some o) {v : Bytes}
    (hv : read m o (width W t) = some v) :
    readMember W sort fuel intType address tuple m place (numbered "Item".toList i) =
      some (if isStruct W t then .place place else .value v) := by
  obtain ⟨d, h1, h2, h3⟩ := getMethod_item (intType := intType) hp.1 h
  have hlt := (List.getElem?_eq_some_iff.1 h).1
  simp only [readMember, hk, findMember_item h, h1, h3, run, if_true, fieldAt_item hp.2 hlt, h, ho, hv, h2]
  split <;> rfl

theorem itemName_eq (i : Nat) : itemName (i + 1) = numbered "Item".toList i := by
  simp [itemName, numbered, Nat.toList_repr]

theorem fieldName_eq (i : Nat) : fieldName (i + 1) = numbered "__item".toList i := by
  simp [fieldName, numbered, Nat.toList_repr]

theorem itemFields_get (ts : List Nat) (k i : Nat) :
    (itemFields k ts)[i]? = ts[i]?.map (fun _ => (numbered "__item".toList (k + i), k + i)) := by
  induction ts generalizing k i with
  | nil => simp [itemFields]
  | cons t ts ih =>
    cases i with
    | zero => simp [itemFields]
    | succ i => simp only [itemFields, List.getElem?_cons_succ, ih]; rw [show k + 1 + i = k + (i + 1) by omega]

theorem width_of {W : World} {sort : List Item → List Item} {n t s : Nat} {sto : Verif.Layout.Storage}
    (hns : isStruct W t = false) (h : varSize W (Verif.Fields.sizeOf W sort n) t = some (s, sto)) : width W t = s := by
  rw [varSize] at h
  rw [width]
  rw [isStruct] at hns
  cases hk : W.kind t with
  | prim x =>
    rw [hk] at h
    cases n with
    | zero => simp [Verif.Fields.sizeOf] at h
    | succ n =>
      simp only [Verif.Fields.sizeOf, hk, known] at h
      split at h
      · cases h
      · cases h; rfl
  | array => rw [hk] at h; cases h; rfl
  | iface => rw [hk] at h; cases h; rfl
  | obj b base fields =>
    rw [hk] at h hns
    cases b with
    | true => simp at hns
    | false => cases h; rfl

theorem find_none {ts : List Nat} {k : Nat} {n : Name} (h : ∀ i < ts.length, n ≠ numbered "Item".toList (k + i)) :
    (itemProperties k ts).find? (fun p => decide (p.name = n)) = none := by
  rw [List.find?_eq_none]
  intro p hp
  obtain ⟨i, hi⟩ := List.mem_iff_getElem?.1 hp
  rw [itemProperties_get] at hi
  cases ht : ts[i]? with
  | none => simp [ht] at hi
  | some t =>
    simp only [ht, Option.map_some, Option.some.injEq] at hi
    subst hi
    simp only [decide_eq_true_eq]
    exact fun e => h i (List.getElem?_eq_some_iff.1 ht).1 e.symm

theorem find_field {ts : List Nat} {k i : Nat} (h : i < ts.length) :
    (itemFields k ts).find? (fun f => decide (f.1 = numbered "__item".toList (k + i))) =
      some (numbered "__item".toList (k + i), k + i) := by
  induction ts generalizing k i with
  | nil => simp at h
  | cons u ts ih =>
    cases i with
    | zero => simp [itemFields]
    | succ i =>
      have hne : ¬ numbered "__item".toList k = numbered "__item".toList (k + (i + 1)) := fun e => by
        have := numbered_inj e; omega
      simp only [itemFields]
      rw [List.find?_cons_of_neg (by simpa using hne)]
      have := ih (k := k + 1) (i := i) (by simpa using h)
      rw [show k + 1 + i = k + (i + 1) by omega] at this
      exact this

theorem find_field_none {ts : List Nat} {n : Name} (h : ∀ i < ts.length, n ≠ numbered "__item".toList i) :
    (itemFields 0 ts).find? (fun f => decide (f.1 = n)) = none := by
  rw [List.find?_eq_none]
  intro p hp
  obtain ⟨i, hi⟩ := List.mem_iff_getElem?.1 hp
  rw [itemFields_get] at hi
  cases ht : ts[i]? with
  | none => simp [ht] at hi
  | some t =>
    simp only [ht, Option.map_some, Option.some.injEq, Nat.zero_add] at hi
    subst hi
    simp only [decide_eq_true_eq]
    exact fun e => h i (List.getElem?_eq_some_iff.1 ht).1 e.symm

end Verif.Tuples
