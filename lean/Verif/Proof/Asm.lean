import Verif.Model.Asm
import Verif.Spec.Asm

namespace Verif.Asm

open Verif.Asm.Spec

/-! ## What a row must hold -/

/-- `ent k` lists, row by row, the objects the rows of table `k` are for. -/
abbrev Ents := Kind → List Id

def Denotes (ent : Ents) (k : Kind) (r : Ref) (e : Id) : Prop :=
  ∃ i, (ent k)[i]? = some e ∧ r = Ref.of i 1 (extra k)

def TypeOf (ent : Ents) (t : Id) (r : Ref) : GType → Prop
  | .general true => Denotes ent .type r t
  | .general false => Denotes ent .typeRef r t
  | .generic => Denotes ent .genericType r t
  | .array => Denotes ent .arrayType r t
  | .genericParam j => Denotes ent .genericParam r t ∨ r = Ref.of j 1 paramIndex
  | .typeDefParam => Denotes ent .typeDefParam r t
  | .null => r = Ref.null

def TypeOk (W : World) (ent : Ents) (o : Option Id) (r : Ref) : Prop :=
  match o with
  | none => r = Ref.null
  | some t => TypeOf ent t r (W.gtype t)

def MethodOk (W : World) (ent : Ents) (o : Option Id) (r : Ref) : Prop :=
  match o with
  | none => r = Ref.null
  | some m => if W.own m then Denotes ent .method r m else Denotes ent .methodRef r m

def ConstOk (ent : Ents) (o : Option Id) (r : Ref) : Prop :=
  match o with
  | none => r.isNull = true
  | some c => Denotes ent .constant r c

def ManyOk (ent : Ents) (k : Kind) (es : List Id) (r : Ref) : Prop :=
  (es = [] ∧ r.isNull = true) ∨
  (es ≠ [] ∧ ∃ base, r = Ref.of base es.length (extra k) ∧
    ∀ j e, es[j]? = some e → (ent k)[base + j]? = some e)

def CellOk (W : World) (ent : Ents) (e : Id) (f : String) : Act → Cell → Prop
  | .text _, c => c = .text (W.text e f)
  | .num, c => c = .num (W.num e f)
  | .type _, c => ∃ r, c = .ref r ∧ TypeOk W ent (W.one e f) r
  | .itself, c => ∃ r, c = .ref r ∧ TypeOk W ent (some e) r
  | .touch, _ => True
  | .method _, c => ∃ r, c = .ref r ∧ MethodOk W ent (W.one e f) r
  | .constant, c => ∃ r, c = .ref r ∧ ConstOk ent (W.one e f) r
  | .assembly, c => ∃ r a, c = .ref r ∧ W.one e f = some a ∧ Denotes ent .assemblyRef r a
  | .many k, c => ∃ r, c = .ref r ∧ ManyOk ent k (W.many e f) r
  | .nest, c => ∃ r, c = .ref r ∧ ManyOk ent .nestType (W.many e f) r
  | .arguments, c => ∃ r, c = .ref r ∧ ManyOk ent .attributeArgument (W.many e f) r
  | .attributeType, c => ∃ r, c = .ref r ∧ TypeOk W ent (W.one e f) r
  | .refParam, c => ∃ r, c = .ref r ∧ TypeOk W ent (W.one e f) r

/-- The columns of a table. -/
def cols : Kind → List (String × Act)
  | .constant => [("value", .num), ("type", .type false)]
  | k => steps k

def Done (W : World) (ent : Ents) (k : Kind) (e : Id) (row : Row) : Prop :=
  ∀ f a, (f, a) ∈ cols k → ∃ c, row.lookup f = some c ∧ CellOk W ent e f a c

/-- More rows. -/
def Ext (ent ent' : Ents) : Prop := ∀ k (i : Nat) e, (ent k)[i]? = some e → (ent' k)[i]? = some e

theorem Ext.refl (ent : Ents) : Ext ent ent := fun _ _ _ h => h

theorem Ext.trans {a b c : Ents} (h : Ext a b) (g : Ext b c) : Ext a c :=
  fun k i e x => g k i e (h k i e x)

theorem Denotes.mono {ent ent' : Ents} {k r e} (h : Ext ent ent') :
    Denotes ent k r e → Denotes ent' k r e
  | ⟨i, a, b⟩ => ⟨i, h _ _ _ a, b⟩

theorem TypeOf.mono {ent ent' : Ents} {t r} {g : GType} (h : Ext ent ent')
    (d : TypeOf ent t r g) : TypeOf ent' t r g := by
  cases g with
  | general b => cases b <;> exact Denotes.mono h d
  | generic => exact Denotes.mono h d
  | array => exact Denotes.mono h d
  | genericParam j => exact d.imp (Denotes.mono h) id
  | typeDefParam => exact Denotes.mono h d
  | null => exact d

theorem TypeOk.mono {W : World} {ent ent' : Ents} {o r} (h : Ext ent ent')
    (d : TypeOk W ent o r) : TypeOk W ent' o r := by
  cases o with
  | none => exact d
  | some t => exact TypeOf.mono h d

theorem MethodOk.mono {W : World} {ent ent' : Ents} {o r} (h : Ext ent ent')
    (d : MethodOk W ent o r) : MethodOk W ent' o r := by
  cases o with
  | none => exact d
  | some m =>
    simp only [MethodOk] at d ⊢
    split at d <;> rename_i hm <;> simp only [hm, if_true, Bool.false_eq_true, if_false] <;>
      exact Denotes.mono h d

theorem ConstOk.mono {ent ent' : Ents} {o r} (h : Ext ent ent')
    (d : ConstOk ent o r) : ConstOk ent' o r := by
  cases o with
  | none => exact d
  | some c => exact Denotes.mono h d

theorem ManyOk.mono {ent ent' : Ents} {k es r} (h : Ext ent ent')
    (d : ManyOk ent k es r) : ManyOk ent' k es r := by
  rcases d with d | ⟨n, b, hr, hb⟩
  · exact .inl d
  · exact .inr ⟨n, b, hr, fun j e hj => h _ _ _ (hb j e hj)⟩

theorem CellOk.mono {W : World} {ent ent' : Ents} {e f a c} (h : Ext ent ent')
    (d : CellOk W ent e f a c) : CellOk W ent' e f a c := by
  cases a with
  | text m => exact d
  | num => exact d
  | type m => obtain ⟨r, hc, x⟩ := d; exact ⟨r, hc, x.mono h⟩
  | itself => obtain ⟨r, hc, x⟩ := d; exact ⟨r, hc, x.mono h⟩
  | touch => trivial
  | method m => obtain ⟨r, hc, x⟩ := d; exact ⟨r, hc, x.mono h⟩
  | constant => obtain ⟨r, hc, x⟩ := d; exact ⟨r, hc, x.mono h⟩
  | assembly => obtain ⟨r, a, hc, x, y⟩ := d; exact ⟨r, a, hc, x, y.mono h⟩
  | many k => obtain ⟨r, hc, x⟩ := d; exact ⟨r, hc, x.mono h⟩
  | nest => obtain ⟨r, hc, x⟩ := d; exact ⟨r, hc, x.mono h⟩
  | arguments => obtain ⟨r, hc, x⟩ := d; exact ⟨r, hc, x.mono h⟩
  | attributeType => obtain ⟨r, hc, x⟩ := d; exact ⟨r, hc, x.mono h⟩
  | refParam => obtain ⟨r, hc, x⟩ := d; exact ⟨r, hc, x.mono h⟩

theorem Done.mono {W : World} {ent ent' : Ents} {k e row} (h : Ext ent ent')
    (d : Done W ent k e row) : Done W ent' k e row := fun f a m =>
  let ⟨c, x, y⟩ := d f a m; ⟨c, x, y.mono h⟩

/-! ## The invariant -/

/-- The tables whose rows come one at a time, each for an object not seen before. -/
def single : Kind → Bool
  | .type | .typeRef | .genericType | .arrayType | .methodRef | .assemblyRef | .constant =>
    true
  | _ => false

structure Inv (W : World) (s : St) (ent : Ents) (pend : List (Kind × Nat)) : Prop where
  len : ∀ k, (s.rows k).length = (ent k).length
  map : ∀ k e r, s.search k e = some r → Denotes ent k r e
  que : ∀ k (i : Nat) e, (k, i, e) ∈ s.queue → (ent k)[i]? = some e
  noc : ∀ p ∈ s.queue, p.1 ≠ .constant
  done : ∀ k (i : Nat) e row, (ent k)[i]? = some e → (s.rows k)[i]? = some row →
    (k, i, e) ∈ s.queue ∨ (k, i) ∈ pend ∨ Done W ent k e row
  mapped : ∀ k (i : Nat) e, single k = true → (ent k)[i]? = some e → (s.search k e).isSome
  uniq : ∀ k (i j : Nat) e, single k = true → (ent k)[i]? = some e → (ent k)[j]? = some e →
    i = j
  own : ∀ (i : Nat) e, (ent .type)[i]? = some e → e ∈ W.types ∨ W.gtype e = .general true

theorem upd_same {α : Type} (f : Kind → α) (k : Kind) (v : α) : upd f k v k = v := by
  simp [upd]

theorem upd_ne {α : Type} (f : Kind → α) {k k' : Kind} (v : α) (h : k' ≠ k) :
    upd f k v k' = f k' := by
  simp [upd, h]

theorem empty_inv (W : World) : Inv W empty (fun _ => []) [] where
  len _ := rfl
  map k e r h := by simp [St.search, empty] at h
  que k i e h := by simp [empty] at h
  noc p h := by simp [empty] at h
  done k i e row h := by simp at h
  mapped k i e _ h := by simp at h
  uniq k i j e _ h := by simp at h
  own i e h := by simp at h

theorem ext_upd_append (ent : Ents) (k : Kind) (es : List Id) :
    Ext ent (upd ent k (ent k ++ es)) := by
  intro k' i e h
  by_cases hk : k' = k
  · subst hk
    rw [upd_same]
    rw [List.getElem?_append_left (List.getElem?_eq_some_iff.mp h).1]; exact h
  · rw [upd_ne _ _ hk]; exact h

theorem search_append (s : St) (k k' : Kind) (e e' : Id) :
    (s.append k e).search k' e' =
      if k' = k ∧ e' = e then some (Ref.of (s.rows k).length 1 (extra k))
      else s.search k' e' := by
  by_cases hk : k' = k
  · subst hk
    by_cases he : e' = e
    · subst he; simp [St.search, St.append, upd_same, List.lookup]
    · simp [St.search, St.append, upd_same, List.lookup, he, beq_eq_false_iff_ne.mpr he]
  · simp [St.search, St.append, upd_ne _ _ hk, hk]

theorem append_inv {W : World} {s : St} {ent : Ents} {pend} (h : Inv W s ent pend)
    (k : Kind) (e : Id) (hs : single k = true → s.search k e = none)
    (ho : k = .type → e ∈ W.types ∨ W.gtype e = .general true) :
    Inv W (s.append k e) (upd ent k (ent k ++ [e])) ((k, (s.rows k).length) :: pend) where
  len k' := by
    by_cases hk : k' = k
    · subst hk; simp [St.append, upd_same, h.len]
    · simp [St.append, upd_ne _ _ hk, h.len]
  map k' e' r hr := by
    rw [search_append] at hr
    split at hr
    · rename_i hk
      obtain ⟨rfl, rfl⟩ := hk
      refine ⟨(s.rows k').length, ?_, (Option.some.inj hr).symm⟩
      rw [upd_same, h.len, List.getElem?_concat_length]
    · exact (h.map k' e' r hr).mono (ext_upd_append ent k [e])
  que k' i e' hq := ext_upd_append ent k [e] _ _ _ (h.que k' i e' hq)
  noc := h.noc
  done k' i e' row he hr := by
    by_cases hk : k' = k
    · subst hk
      rw [upd_same] at he
      simp only [St.append, upd_same] at hr
      by_cases hi : i < (s.rows k').length
      · rw [List.getElem?_append_left (by rw [← h.len]; exact hi)] at he
        rw [List.getElem?_append_left hi] at hr
        rcases h.done k' i e' row he hr with a | a | a
        · exact .inl a
        · exact .inr (.inl (List.mem_cons_of_mem _ a))
        · exact .inr (.inr (a.mono (ext_upd_append ent k' [e])))
      · have : i < (s.rows k').length + 1 := by
          have := (List.getElem?_eq_some_iff.mp hr).1
          simpa using this
        have : i = (s.rows k').length := by omega
        subst this
        exact .inr (.inl (List.mem_cons_self ..))
    · rw [upd_ne _ _ hk] at he
      simp only [St.append, upd_ne _ _ hk] at hr
      rcases h.done k' i e' row he hr with a | a | a
      · exact .inl a
      · exact .inr (.inl (List.mem_cons_of_mem _ a))
      · exact .inr (.inr (a.mono (ext_upd_append ent k [e])))
  mapped k' i e' hk' he := by
    rw [search_append]
    split
    · rfl
    · rename_i hn
      by_cases hk : k' = k
      · subst hk
        rw [upd_same] at he
        rcases List.mem_append.mp (List.mem_of_getElem? he) with m | m
        · obtain ⟨j, hj⟩ := List.mem_iff_getElem?.mp m
          exact h.mapped k' j e' hk' hj
        · exact absurd ⟨rfl, List.mem_singleton.mp m⟩ hn
      · rw [upd_ne _ _ hk] at he
        exact h.mapped k' i e' hk' he
  uniq k' i j e' hk' hi hj := by
    by_cases hk : k' = k
    · subst hk
      rw [upd_same] at hi hj
      have no : ∀ x, (ent k')[x]? = some e → False := fun x hx => by
        have := h.mapped k' x e hk' hx
        rw [hs hk'] at this
        cases this
      have bi : i < (ent k').length + 1 := by
        have := (List.getElem?_eq_some_iff.mp hi).1; simpa using this
      have bj : j < (ent k').length + 1 := by
        have := (List.getElem?_eq_some_iff.mp hj).1; simpa using this
      by_cases ci : i < (ent k').length
      · by_cases cj : j < (ent k').length
        · rw [List.getElem?_append_left ci] at hi
          rw [List.getElem?_append_left cj] at hj
          exact h.uniq k' i j e' hk' hi hj
        · have : j = (ent k').length := by omega
          subst this
          rw [List.getElem?_concat_length] at hj
          rw [List.getElem?_append_left ci] at hi
          rw [← Option.some.inj hj] at hi
          exact (no i hi).elim
      · have : i = (ent k').length := by omega
        subst this
        rw [List.getElem?_concat_length] at hi
        by_cases cj : j < (ent k').length
        · rw [List.getElem?_append_left cj] at hj
          rw [← Option.some.inj hi] at hj
          exact (no j hj).elim
        · omega
    · rw [upd_ne _ _ hk] at hi hj
      exact h.uniq k' i j e' hk' hi hj
  own i e' he := by
    by_cases hk : k = .type
    · subst hk
      rw [upd_same] at he
      rcases List.mem_append.mp (List.mem_of_getElem? he) with m | m
      · obtain ⟨j, hj⟩ := List.mem_iff_getElem?.mp m
        exact h.own j e' hj
      · rw [List.mem_singleton.mp m]; exact ho rfl
    · rw [upd_ne _ _ (Ne.symm hk)] at he
      exact h.own i e' he

theorem enque_inv {W : World} {s : St} {ent : Ents} {pend} {k : Kind} {i : Nat} {e : Id}
    (h : Inv W s ent ((k, i) :: pend)) (he : (ent k)[i]? = some e) (hk : k ≠ .constant) :
    Inv W (s.enque k i e) ent pend where
  len := h.len
  map := h.map
  que k' i' e' hq := by
    rcases List.mem_append.mp hq with a | a
    · exact h.que k' i' e' a
    · cases List.mem_singleton.mp a
      exact he
  noc p hp := by
    rcases List.mem_append.mp hp with a | a
    · exact h.noc p a
    · rw [List.mem_singleton.mp a]; exact hk
  done k' i' e' row a b := by
    rcases h.done k' i' e' row a b with x | x | x
    · exact .inl (List.mem_append_left _ x)
    · rcases List.mem_cons.mp x with x | x
      · cases x
        rw [he] at a
        cases a
        exact .inl (List.mem_append_right _ (List.mem_singleton.mpr rfl))
      · exact .inr (.inl x)
    · exact .inr (.inr x)
  mapped := h.mapped
  uniq := h.uniq
  own := h.own

theorem pop_inv {W : World} {s : St} {ent : Ents} {pend} {k : Kind} {i : Nat} {e : Id} {q}
    (h : Inv W s ent pend) (hq : s.queue = (k, i, e) :: q) :
    Inv W { s with queue := q } ent ((k, i) :: pend) where
  len := h.len
  map := h.map
  que k' i' e' a := h.que k' i' e' (by rw [hq]; exact List.mem_cons_of_mem _ a)
  noc p hp := h.noc p (by rw [hq]; exact List.mem_cons_of_mem _ hp)
  done k' i' e' row a b := by
    rcases h.done k' i' e' row a b with x | x | x
    · rw [hq] at x
      rcases List.mem_cons.mp x with x | x
      · cases x
        exact .inr (.inl (List.mem_cons_self ..))
      · exact .inl x
    · exact .inr (.inl (List.mem_cons_of_mem _ x))
    · exact .inr (.inr x)
  mapped := h.mapped
  uniq := h.uniq
  own := h.own

theorem set_inv {W : World} {s : St} {ent : Ents} {pend} {k : Kind} {i : Nat} {e : Id}
    {row : Row} (h : Inv W s ent ((k, i) :: pend)) (he : (ent k)[i]? = some e)
    (hd : Done W ent k e row) :
    Inv W { s with rows := upd s.rows k ((s.rows k).set i row) } ent pend where
  len k' := by
    by_cases hk : k' = k
    · subst hk; simp [upd_same, h.len]
    · simp [upd_ne _ _ hk, h.len]
  map := h.map
  que := h.que
  noc := h.noc
  done k' i' e' row' a b := by
    by_cases hk : k' = k
    · subst hk
      simp only [upd_same] at b
      by_cases hi : i' = i
      · subst hi
        rw [he] at a
        cases a
        have hl := (List.getElem?_eq_some_iff.mp he).1
        rw [← h.len] at hl
        rw [List.getElem?_set_self hl] at b
        cases b
        exact .inr (.inr hd)
      · rw [List.getElem?_set_ne (Ne.symm hi)] at b
        rcases h.done k' i' e' row' a b with x | x | x
        · exact .inl x
        · rcases List.mem_cons.mp x with x | x
          · cases x; exact absurd rfl hi
          · exact .inr (.inl x)
        · exact .inr (.inr x)
    · simp only [upd_ne _ _ hk] at b
      rcases h.done k' i' e' row' a b with x | x | x
      · exact .inl x
      · rcases List.mem_cons.mp x with x | x
        · cases x; exact absurd rfl hk
        · exact .inr (.inl x)
      · exact .inr (.inr x)
  mapped := h.mapped
  uniq := h.uniq
  own := h.own

/-! ## The commit functions keep it -/

/-- What a commit function does to the invariant: the state it leaves, and what its result
    means. -/
def Good (W : World) (ent : Ents) (pend : List (Kind × Nat)) (s : St)
    (ok : Ents → Prop) : Prop :=
  ∃ ent', Ext ent ent' ∧ Inv W s ent' pend ∧ ok ent'

theorem commitOne_good {W : World} {s : St} {ent : Ents} {pend} (h : Inv W s ent pend)
    (k : Kind) (e : Id) (hk : k ≠ .constant := by decide)
    (ho : k = .type → e ∈ W.types ∨ W.gtype e = .general true := by intro h; cases h) :
    Good W ent pend (commitOne s k e).2 fun ent' => Denotes ent' k (commitOne s k e).1 e := by
  unfold commitOne
  cases hs : s.search k e with
  | some r => exact ⟨ent, Ext.refl _, h, h.map k e r hs⟩
  | none =>
    have hb : (upd ent k (ent k ++ [e]) k)[(s.rows k).length]? = some e := by
      rw [upd_same, h.len, List.getElem?_concat_length]
    exact ⟨_, ext_upd_append ent k [e], enque_inv (append_inv h k e (fun _ => hs) ho) hb hk,
      _, hb, rfl⟩

theorem commitType_good {W : World} {s s' : St} {ent : Ents} {pend} {o r}
    (h : Inv W s ent pend) (hc : commitType W s o = .ok (r, s')) :
    Good W ent pend s' fun ent' => TypeOk W ent' o r := by
  cases o with
  | none =>
    cases hc
    exact ⟨ent, Ext.refl _, h, rfl⟩
  | some t =>
    simp only [commitType] at hc
    have key : ∀ k, k ≠ .constant → (k = .type → t ∈ W.types ∨ W.gtype t = .general true) →
        .ok (commitOne s k t) = (Except.ok (r, s') : Except Err _) →
        Good W ent pend s' fun ent' => Denotes ent' k r t := by
      intro k hc ho hk
      have hk := Except.ok.inj hk
      have := commitOne_good h k t hc ho
      rw [hk] at this
      exact this
    simp only [TypeOk]
    cases hg : W.gtype t with
    | general b =>
      rw [hg] at hc
      cases b
      · exact key _ (by decide) (by intro h; cases h) hc
      · exact key _ (by decide) (fun _ => .inr hg) hc
    | generic => rw [hg] at hc; exact key _ (by decide) (by intro h; cases h) hc
    | array => rw [hg] at hc; exact key _ (by decide) (by intro h; cases h) hc
    | genericParam j =>
      rw [hg] at hc
      cases hs : s.search .genericParam t with
      | some r' =>
        simp only [hs] at hc
        cases hc
        exact ⟨ent, Ext.refl _, h, .inl (h.map _ _ _ hs)⟩
      | none =>
        simp only [hs] at hc
        cases hc
        exact ⟨ent, Ext.refl _, h, .inr rfl⟩
    | typeDefParam =>
      rw [hg] at hc
      cases hs : s.search .typeDefParam t with
      | some r' =>
        simp only [hs] at hc
        cases hc
        exact ⟨ent, Ext.refl _, h, h.map _ _ _ hs⟩
      | none => simp only [hs] at hc; cases hc
    | null =>
      rw [hg] at hc
      cases hc
      exact ⟨ent, Ext.refl _, h, rfl⟩

theorem commitMethod_good {W : World} {s s' : St} {ent : Ents} {pend} {o r}
    (h : Inv W s ent pend) (hc : commitMethod W s o = .ok (r, s')) :
    Good W ent pend s' fun ent' => MethodOk W ent' o r := by
  cases o with
  | none =>
    cases hc
    exact ⟨ent, Ext.refl _, h, rfl⟩
  | some m =>
    simp only [commitMethod] at hc
    simp only [MethodOk]
    cases hm : W.own m with
    | false =>
      simp only [hm, Bool.false_eq_true, if_false] at hc ⊢
      have hk := Except.ok.inj hc
      have := commitOne_good h .methodRef m
      rw [hk] at this
      exact this
    | true =>
      simp only [hm, if_true] at hc ⊢
      cases hs : s.search .method m with
      | some r' =>
        simp only [hs] at hc
        cases hc
        exact ⟨ent, Ext.refl _, h, h.map _ _ _ hs⟩
      | none =>
        simp only [hs] at hc
        cases ho : W.one m "host" with
        | none => simp only [ho] at hc; cases hc
        | some x =>
          simp only [ho] at hc
          cases hg : W.gtype x with
          | general b =>
            simp only [hg] at hc
            cases ht : commitType W s (some x) with
            | error e => simp only [ht] at hc; cases hc
            | ok p =>
              obtain ⟨r1, s1⟩ := p
              simp only [ht] at hc
              obtain ⟨ent', he, hi, _⟩ := commitType_good h ht
              cases hs1 : s1.search .method m with
              | none => simp only [hs1] at hc; cases hc
              | some r' =>
                simp only [hs1] at hc
                cases hc
                exact ⟨ent', he, hi, hi.map _ _ _ hs1⟩
          | generic => simp only [hg] at hc; cases hc
          | array => simp only [hg] at hc; cases hc
          | genericParam j => simp only [hg] at hc; cases hc
          | typeDefParam => simp only [hg] at hc; cases hc
          | null => simp only [hg] at hc; cases hc

theorem commitField_good {W : World} {s s' : St} {ent : Ents} {pend} {f r}
    (h : Inv W s ent pend) (hc : commitField W s f = .ok (r, s')) :
    Good W ent pend s' fun ent' => Denotes ent' .field r f := by
  simp only [commitField] at hc
  cases hs : s.search .field f with
  | some r' =>
    simp only [hs] at hc
    cases hc
    exact ⟨ent, Ext.refl _, h, h.map _ _ _ hs⟩
  | none =>
    simp only [hs] at hc
    cases ht : commitType W s (W.one f "host") with
    | error e => simp only [ht] at hc; cases hc
    | ok p =>
      obtain ⟨r1, s1⟩ := p
      simp only [ht] at hc
      obtain ⟨ent', he, hi, _⟩ := commitType_good h ht
      cases hs1 : s1.search .field f with
      | none => simp only [hs1] at hc; cases hc
      | some r' =>
        simp only [hs1] at hc
        cases hc
        exact ⟨ent', he, hi, hi.map _ _ _ hs1⟩

theorem commitTypeDef_good {W : World} {s s' : St} {ent : Ents} {pend} {d r}
    (h : Inv W s ent pend) (hc : commitTypeDef W s d = .ok (r, s')) :
    Good W ent pend s' fun ent' => Denotes ent' .typeDef r d := by
  simp only [commitTypeDef] at hc
  cases hs : s.search .typeDef d with
  | some r' =>
    simp only [hs] at hc
    cases hc
    exact ⟨ent, Ext.refl _, h, h.map _ _ _ hs⟩
  | none =>
    simp only [hs] at hc
    cases ht : commitType W s (W.one d "host") with
    | error e => simp only [ht] at hc; cases hc
    | ok p =>
      obtain ⟨r1, s1⟩ := p
      simp only [ht] at hc
      obtain ⟨ent', he, hi, _⟩ := commitType_good h ht
      have hk := Except.ok.inj hc
      obtain ⟨ent2, he2, hi2, hd⟩ := commitOne_good hi .typeDef d
      rw [hk] at hi2 hd
      exact ⟨ent2, he.trans he2, hi2, hd⟩

theorem commitConstant_good {W : World} {s s' : St} {ent : Ents} {pend} {o r}
    (h : Inv W s ent pend) (hc : commitConstant W s o = .ok (r, s')) :
    Good W ent pend s' fun ent' => ConstOk ent' o r := by
  cases o with
  | none =>
    cases hc
    exact ⟨ent, Ext.refl _, h, rfl⟩
  | some c =>
    simp only [commitConstant] at hc
    cases hs : s.search .constant c with
    | some r' =>
      simp only [hs] at hc
      cases hc
      exact ⟨ent, Ext.refl _, h, h.map _ _ _ hs⟩
    | none =>
      simp only [hs] at hc
      cases ht : commitType W (s.append .constant c) (W.one c "type") with
      | error e => simp only [ht] at hc; cases hc
      | ok p =>
        obtain ⟨rt, s1⟩ := p
        simp only [ht] at hc
        have h1 := append_inv h .constant c (fun _ => hs) (by intro h; cases h)
        have hb : (upd ent .constant (ent .constant ++ [c]) .constant)[(s.rows .constant).length]?
            = some c := by
          rw [upd_same, h.len, List.getElem?_concat_length]
        obtain ⟨ent', he, hi, hty⟩ := commitType_good h1 ht
        have hb' := he _ _ _ hb
        cases hc
        refine ⟨ent', (ext_upd_append ent .constant [c]).trans he, set_inv hi hb' ?_, _, hb', rfl⟩
        intro f a hm
        simp only [cols, List.mem_cons, List.not_mem_nil, or_false, Prod.mk.injEq] at hm
        rcases hm with ⟨rfl, rfl⟩ | ⟨rfl, rfl⟩
        · exact ⟨_, rfl, rfl⟩
        · exact ⟨.ref rt, by simp [List.lookup], rt, rfl, hty⟩

theorem commitAssembly_good {W : World} {s s' : St} {ent : Ents} {pend} {o r}
    (h : Inv W s ent pend) (hc : commitAssembly s o = .ok (r, s')) :
    Good W ent pend s' fun ent' => ∃ a, o = some a ∧ Denotes ent' .assemblyRef r a := by
  cases o with
  | none => cases hc
  | some a =>
    have hk := Except.ok.inj hc
    obtain ⟨ent2, he2, hi2, hd⟩ := commitOne_good h .assemblyRef a
    rw [hk] at hi2 hd
    exact ⟨ent2, he2, hi2, a, rfl, hd⟩

/-! ## Lists -/

theorem lookup_append' (l l' : List (Id × Ref)) (e : Id) :
    (l ++ l').lookup e = (l.lookup e).or (l'.lookup e) := by
  induction l with
  | nil => simp
  | cons a l ih =>
    obtain ⟨x, r⟩ := a
    simp only [List.cons_append, List.lookup]
    split <;> simp_all

theorem mem_of_lookup (l : List (Id × Ref)) (e : Id) (r : Ref) (h : l.lookup e = some r) :
    (e, r) ∈ l := by
  induction l with
  | nil => cases h
  | cons a l ih =>
    obtain ⟨x, y⟩ := a
    simp only [List.lookup] at h
    split at h
    · rename_i hb
      rw [beq_iff_eq] at hb
      cases h; subst hb
      exact List.mem_cons_self ..
    · exact List.mem_cons_of_mem _ (ih h)

theorem mem_zip_range (es : List Id) (n : Nat) (p : Nat × Id)
    (h : p ∈ (List.range n).zip es) : es[p.1]? = some p.2 := by
  obtain ⟨i, hi⟩ := List.mem_iff_getElem?.mp h
  rw [List.getElem?_zip_eq_some] at hi
  obtain ⟨a, b⟩ := hi
  have := List.getElem?_eq_some_iff.mp a
  obtain ⟨h1, h2⟩ := this
  rw [List.getElem_range] at h2
  rw [← h2]; exact b

theorem zip_range_mem (es : List Id) (n i : Nat) (e : Id) (hi : i < n)
    (h : es[i]? = some e) : (i, e) ∈ (List.range n).zip es := by
  apply List.mem_iff_getElem?.mpr
  refine ⟨i, ?_⟩
  rw [List.getElem?_zip_eq_some]
  refine ⟨?_, h⟩
  rw [List.getElem?_range hi]

theorem ref_of_add (b i c x : Nat) : Ref.of (b % 2 ^ 20 + i) c x = Ref.of (b + i) c x := by
  simp [Ref.of, Nat.add_mod]

theorem ref_index (b c x : Nat) : (Ref.of b c x).index = b % 2 ^ 20 := rfl

theorem ref_count (b c x : Nat) : (Ref.of b c x).count = c % 2 ^ 9 := rfl

theorem acquire_good {W : World} {s : St} {ent : Ents} {pend} (h : Inv W s ent pend)
    (k : Kind) (hk : single k = false) (es : List Id) (hl : es.length < 512) :
    Good W ent pend (acquire s k es).2 fun ent' => ManyOk ent' k es (acquire s k es).1 := by
  unfold acquire
  cases hes : es with
  | nil => exact ⟨ent, Ext.refl _, h, .inl ⟨rfl, rfl⟩⟩
  | cons e0 es0 =>
  rw [← hes]
  have hne : es ≠ [] := by rw [hes]; simp
  have hemp : es.isEmpty = false := by rw [hes]; rfl
  simp only [hemp, Bool.false_eq_true, if_false]
  have hcount : (Ref.of (s.rows k).length es.length (extra k)).count = es.length := by
    rw [ref_count]; exact Nat.mod_eq_of_lt hl
  have hx := ext_upd_append ent k es
  have hb : ∀ j e, es[j]? = some e →
      (upd ent k (ent k ++ es) k)[(s.rows k).length + j]? = some e := by
    intro j e hj
    rw [upd_same, h.len, List.getElem?_append_right (by omega)]
    rw [Nat.add_sub_cancel_left]; exact hj
  refine ⟨upd ent k (ent k ++ es), hx, ?_, .inr ⟨hne, _, rfl, hb⟩⟩
  constructor
  · intro k'
    by_cases hk' : k' = k
    · subst hk'; simp [upd_same, h.len]
    · simp [upd_ne _ _ hk', h.len]
  · intro k' e r hr
    by_cases hk' : k' = k
    · subst hk'
      simp only [St.search, upd_same] at hr
      rw [lookup_append'] at hr
      cases hq : List.lookup e (List.map (fun p : Nat × Id => (p.2, Ref.of
          ((Ref.of (s.rows k').length es.length (extra k')).index + p.1) 1 (extra k')))
          ((List.range (Ref.of (s.rows k').length es.length (extra k')).count).zip es)).reverse with
      | some r' =>
        rw [hq] at hr
        simp only [Option.or] at hr
        cases hr
        have hm := mem_of_lookup _ _ _ hq
        rw [List.mem_reverse, List.mem_map] at hm
        obtain ⟨p, hp, hpe⟩ := hm
        obtain ⟨h1, h2⟩ := Prod.mk.inj hpe
        have := mem_zip_range _ _ _ hp
        rw [h1] at this
        refine ⟨_, hb _ _ this, ?_⟩
        rw [← h2, ref_index, ref_of_add]
      | none =>
        rw [hq] at hr
        simp only [Option.or] at hr
        exact (h.map k' e r hr).mono hx
    · simp only [St.search, upd_ne _ _ hk'] at hr
      exact (h.map k' e r hr).mono hx
  · intro k' i e hq
    rcases List.mem_append.mp hq with a | a
    · exact hx _ _ _ (h.que k' i e a)
    · obtain ⟨p, hp, hpe⟩ := List.mem_map.mp a
      cases hpe
      exact hb _ _ (mem_zip_range _ _ _ hp)
  · intro p hp
    rcases List.mem_append.mp hp with a | a
    · exact h.noc p a
    · obtain ⟨q, _, hq⟩ := List.mem_map.mp a
      rw [← hq]
      intro hc
      have hc : k = .constant := hc
      rw [hc] at hk; cases hk
  · intro k' i e row he hr
    by_cases hk' : k' = k
    · subst hk'
      rw [upd_same] at he
      simp only [upd_same] at hr
      by_cases hi : i < (s.rows k').length
      · rw [List.getElem?_append_left (by rw [← h.len]; exact hi)] at he
        rw [List.getElem?_append_left hi] at hr
        rcases h.done k' i e row he hr with a | a | a
        · exact .inl (List.mem_append_left _ a)
        · exact .inr (.inl a)
        · exact .inr (.inr (a.mono hx))
      · rw [List.getElem?_append_right (by rw [← h.len]; omega)] at he
        refine .inl (List.mem_append_right _ (List.mem_map.mpr ⟨(i - (s.rows k').length, e), ?_, ?_⟩))
        · rw [hcount]
          rw [← h.len] at he
          exact zip_range_mem _ _ _ _ (List.getElem?_eq_some_iff.mp he).1 he
        · simp only [Prod.mk.injEq, true_and, and_true]; omega
    · rw [upd_ne _ _ hk'] at he
      simp only [upd_ne _ _ hk'] at hr
      rcases h.done k' i e row he hr with a | a | a
      · exact .inl (List.mem_append_left _ a)
      · exact .inr (.inl a)
      · exact .inr (.inr (a.mono hx))
  · intro k' i e hs he
    have hk' : k' ≠ k := by intro hc; subst hc; rw [hk] at hs; cases hs
    rw [upd_ne _ _ hk'] at he
    simp only [St.search, upd_ne _ _ hk']
    exact h.mapped k' i e hs he
  · intro k' i j e hs hi hj
    have hk' : k' ≠ k := by intro hc; subst hc; rw [hk] at hs; cases hs
    rw [upd_ne _ _ hk'] at hi hj
    exact h.uniq k' i j e hs hi hj
  · intro i e he
    have hk' : Kind.type ≠ k := by intro hc; subst hc; cases hk
    rw [upd_ne _ _ hk'] at he
    exact h.own i e he

/-! ## The statements, the rows and the queue -/

/-- No statement takes consecutive rows of a table of single rows. -/
def Fine : Act → Prop
  | .many k => single k = false
  | _ => True

theorem steps_fine (k : Kind) : ∀ p ∈ steps k, Fine p.2 := by
  cases k <;> simp [steps, Fine, single]

theorem act_good {W : World} (hw : ShortLists W) {s s' : St} {ent : Ents} {pend} {e f a c}
    (h : Inv W s ent pend) (hf : Fine a) (hc : act W s e f a = .ok (c, s')) :
    Good W ent pend s' fun ent' => CellOk W ent' e f a c := by
  cases a with
  | text must =>
    simp only [act] at hc
    split at hc
    · cases hc
    · cases hc; exact ⟨ent, Ext.refl _, h, rfl⟩
  | num => cases hc; exact ⟨ent, Ext.refl _, h, rfl⟩
  | type must =>
    simp only [act] at hc
    split at hc
    · cases hc
    · cases ht : commitType W s (W.one e f) with
      | error x => simp only [ht] at hc; cases hc
      | ok p =>
        simp only [ht] at hc
        cases hc
        obtain ⟨ent', he, hi, ho⟩ := commitType_good h ht
        exact ⟨ent', he, hi, _, rfl, ho⟩
  | itself =>
    simp only [act] at hc
    cases ht : commitType W s (some e) with
    | error x => simp only [ht] at hc; cases hc
    | ok p =>
      simp only [ht] at hc
      cases hc
      obtain ⟨ent', he, hi, ho⟩ := commitType_good h ht
      exact ⟨ent', he, hi, _, rfl, ho⟩
  | touch =>
    simp only [act] at hc
    cases ht : commitType W s (W.one e f) with
    | error x => simp only [ht] at hc; cases hc
    | ok p =>
      simp only [ht] at hc
      cases hc
      obtain ⟨ent', he, hi, ho⟩ := commitType_good h ht
      exact ⟨ent', he, hi, trivial⟩
  | method must =>
    simp only [act] at hc
    split at hc
    · cases hc
    · cases ht : commitMethod W s (W.one e f) with
      | error x => simp only [ht] at hc; cases hc
      | ok p =>
        simp only [ht] at hc
        cases hc
        obtain ⟨ent', he, hi, ho⟩ := commitMethod_good h ht
        exact ⟨ent', he, hi, _, rfl, ho⟩
  | constant =>
    simp only [act] at hc
    cases ht : commitConstant W s (W.one e f) with
    | error x => simp only [ht] at hc; cases hc
    | ok p =>
      simp only [ht] at hc
      cases hc
      obtain ⟨ent', he, hi, ho⟩ := commitConstant_good h ht
      exact ⟨ent', he, hi, _, rfl, ho⟩
  | assembly =>
    simp only [act] at hc
    cases ht : commitAssembly s (W.one e f) with
    | error x => simp only [ht] at hc; cases hc
    | ok p =>
      simp only [ht] at hc
      cases hc
      obtain ⟨ent', he, hi, a, ha, ho⟩ := commitAssembly_good h ht
      exact ⟨ent', he, hi, _, a, rfl, ha, ho⟩
  | many k =>
    cases hc
    obtain ⟨ent', he, hi, ho⟩ := acquire_good h k hf (W.many e f) (hw e f)
    exact ⟨ent', he, hi, _, rfl, ho⟩
  | nest =>
    simp only [act] at hc
    split at hc
    · cases hc
    · cases hc
      obtain ⟨ent', he, hi, ho⟩ := acquire_good h .nestType rfl (W.many e f) (hw e f)
      exact ⟨ent', he, hi, _, rfl, ho⟩
  | arguments =>
    simp only [act] at hc
    cases hk : W.one e "constructor" with
    | none => simp only [hk] at hc; cases hc
    | some c' =>
      simp only [hk] at hc
      split at hc
      · cases hc
      · cases hc
        obtain ⟨ent', he, hi, ho⟩ := acquire_good h .attributeArgument rfl (W.many e f) (hw e f)
        exact ⟨ent', he, hi, _, rfl, ho⟩
  | attributeType =>
    simp only [act] at hc
    cases hk : W.one e f with
    | none => simp only [hk] at hc; cases hc
    | some t =>
      simp only [hk] at hc
      cases hg : W.gtype t with
      | general b =>
        simp only [hg] at hc
        split at hc
        · cases ht : commitType W s (some t) with
          | error x => simp only [ht] at hc; cases hc
          | ok p =>
            simp only [ht] at hc
            cases hc
            obtain ⟨ent', he, hi, ho⟩ := commitType_good h ht
            exact ⟨ent', he, hi, _, rfl, by rw [hk]; exact ho⟩
        · cases hc
      | generic => simp only [hg] at hc; cases hc
      | array => simp only [hg] at hc; cases hc
      | genericParam j => simp only [hg] at hc; cases hc
      | typeDefParam => simp only [hg] at hc; cases hc
      | null => simp only [hg] at hc; cases hc
  | refParam =>
    simp only [act] at hc
    cases hk : W.one e f with
    | none => simp only [hk] at hc; cases hc
    | some t =>
      simp only [hk] at hc
      have key : (match commitType W s (some t) with
          | .error x => .error x
          | .ok (r, s) => .ok (.ref r, s)) = (Except.ok (c, s') : Except Err (Cell × St)) →
          Good W ent pend s' fun ent' => CellOk W ent' e f .refParam c := by
        intro hc
        cases ht : commitType W s (some t) with
        | error x => simp only [ht] at hc; cases hc
        | ok p =>
          simp only [ht] at hc
          cases hc
          obtain ⟨ent', he, hi, ho⟩ := commitType_good h ht
          exact ⟨ent', he, hi, _, rfl, by rw [hk]; exact ho⟩
      cases hg : W.gtype t with
      | genericParam j =>
        simp only [hg] at hc
        cases hc
        refine ⟨ent, Ext.refl _, h, _, rfl, ?_⟩
        rw [hk]
        simp only [TypeOk, hg, TypeOf]
        exact .inr trivial
      | general b => simp only [hg] at hc; exact key hc
      | generic => simp only [hg] at hc; exact key hc
      | array => simp only [hg] at hc; exact key hc
      | typeDefParam => simp only [hg] at hc; exact key hc
      | null => simp only [hg] at hc; exact key hc

/-- The cells of a row are those of its columns. -/
def RowOk (W : World) (ent : Ents) (e : Id) : List (String × Act) → Row → Prop
  | [], row => row = []
  | (f, a) :: l, row => ∃ c rest, row = (f, c) :: rest ∧ CellOk W ent e f a c ∧
      RowOk W ent e l rest

theorem RowOk.mono {W : World} {ent ent' : Ents} {e} (h : Ext ent ent') :
    ∀ {l row}, RowOk W ent e l row → RowOk W ent' e l row
  | [], _, d => d
  | (_, _) :: _, _, ⟨c, rest, a, b, d⟩ => ⟨c, rest, a, b.mono h, RowOk.mono h d⟩

theorem RowOk.cell {W : World} {ent : Ents} {e} : ∀ {l : List (String × Act)} {row},
    (l.map Prod.fst).Nodup → RowOk W ent e l row → ∀ f a, (f, a) ∈ l →
    ∃ c, row.lookup f = some c ∧ CellOk W ent e f a c
  | [], _, _, _, f, a, m => by cases m
  | (g, b) :: l, row, hn, ⟨c, rest, hr, hc, hd⟩, f, a, m => by
    subst hr
    rw [List.map_cons, List.nodup_cons] at hn
    rcases List.mem_cons.mp m with m | m
    · cases m
      exact ⟨c, by simp [List.lookup], hc⟩
    · have hm : f ∈ l.map Prod.fst := List.mem_map.mpr ⟨(f, a), m, rfl⟩
      have hne : f ≠ g := fun he => hn.1 (he ▸ hm)
      obtain ⟨c', x, y⟩ := RowOk.cell hn.2 hd f a m
      refine ⟨c', ?_, y⟩
      simp only [List.lookup, beq_eq_false_iff_ne.mpr hne]
      exact x

theorem steps_nodup (k : Kind) : ((steps k).map Prod.fst).Nodup := by
  cases k <;> decide

theorem fill_good {W : World} (hw : ShortLists W) {e : Id} : ∀ (l : List (String × Act))
    {s s' : St} {ent : Ents} {pend} {row}, (∀ p ∈ l, Fine p.2) → Inv W s ent pend →
    fill W e l s = .ok (row, s') → Good W ent pend s' fun ent' => RowOk W ent' e l row
  | [], s, s', ent, pend, row, _, h, hc => by
    cases hc
    exact ⟨ent, Ext.refl _, h, rfl⟩
  | (f, a) :: l, s, s', ent, pend, row, hf, h, hc => by
    simp only [fill] at hc
    cases ha : act W s e f a with
    | error x => simp only [ha] at hc; cases hc
    | ok p =>
      obtain ⟨c, s1⟩ := p
      simp only [ha] at hc
      obtain ⟨ent1, e1, i1, o1⟩ := act_good hw h (hf _ (List.mem_cons_self ..)) ha
      cases hl : fill W e l s1 with
      | error x => simp only [hl] at hc; cases hc
      | ok q =>
        obtain ⟨rest, s2⟩ := q
        simp only [hl] at hc
        cases hc
        obtain ⟨ent2, e2, i2, o2⟩ :=
          fill_good hw l (fun p m => hf p (List.mem_cons_of_mem _ m)) i1 hl
        exact ⟨ent2, e1.trans e2, i2, c, rest, rfl, o1.mono e2, o2⟩

theorem rowOk_done {W : World} {ent : Ents} {k : Kind} {e : Id} {row : Row}
    (hk : k ≠ .constant) (h : RowOk W ent e (steps k) row) : Done W ent k e row := by
  intro f a m
  have : cols k = steps k := by cases k <;> first | rfl | exact absurd rfl hk
  rw [this] at m
  exact h.cell (steps_nodup k) f a m

theorem drain_good {W : World} (hw : ShortLists W) : ∀ (n : Nat) {s s' : St} {ent : Ents},
    Inv W s ent [] → drain W n s = .ok s' →
    Good W ent [] s' fun _ => s'.queue = []
  | 0, s, s', ent, h, hc => by
    simp only [drain] at hc
    split at hc
    · cases hc
      rename_i hq
      exact ⟨ent, Ext.refl _, h, List.isEmpty_iff.mp hq⟩
    · cases hc
  | n + 1, s, s', ent, h, hc => by
    simp only [drain] at hc
    cases hq : s.queue with
    | nil =>
      simp only [hq] at hc
      cases hc
      exact ⟨ent, Ext.refl _, h, hq⟩
    | cons p q =>
      obtain ⟨k, i, e⟩ := p
      simp only [hq] at hc
      cases hf : fill W e (steps k) { s with queue := q } with
      | error x => simp only [hf] at hc; cases hc
      | ok r =>
        obtain ⟨row, s1⟩ := r
        simp only [hf] at hc
        have he := h.que k i e (by rw [hq]; exact List.mem_cons_self ..)
        have hk := h.noc (k, i, e) (by rw [hq]; exact List.mem_cons_self ..)
        obtain ⟨ent1, e1, i1, o1⟩ := fill_good hw _ (steps_fine k) (pop_inv h hq) hf
        have i2 := set_inv i1 (e1 _ _ _ he) (rowOk_done hk o1)
        obtain ⟨ent2, e2, i3, o3⟩ := drain_good hw n i2 hc
        exact ⟨ent2, e1.trans e2, i3, o3⟩

theorem commitTypes_good {W : World} : ∀ (l : List Id) {s : St} {ent : Ents},
    (∀ t ∈ l, t ∈ W.types) → Inv W s ent [] →
    Good W ent [] (commitTypes s l) fun ent' => ∀ t ∈ l, ∃ i : Nat, (ent' .type)[i]? = some t
  | [], _, ent, _, h => ⟨ent, Ext.refl _, h, fun _ m => by cases m⟩
  | t :: l, s, ent, ho, h => by
    obtain ⟨ent1, e1, i1, j, hj, _⟩ := commitOne_good h .type t (by decide)
      (fun _ => .inl (ho t (List.mem_cons_self ..)))
    obtain ⟨ent2, e2, i2, o2⟩ := commitTypes_good l
      (fun x m => ho x (List.mem_cons_of_mem _ m)) i1
    refine ⟨ent2, e1.trans e2, i2, ?_⟩
    intro x m
    rcases List.mem_cons.mp m with rfl | m
    · exact ⟨j, e2 _ _ _ hj⟩
    · exact o2 x m

theorem commitTypeDefs_good {W : World} : ∀ (l : List Id) {s s' : St} {ent : Ents},
    Inv W s ent [] → commitTypeDefs W s l = .ok s' →
    Good W ent [] s' fun ent' => ∀ t ∈ l, ∃ i : Nat, (ent' .typeDef)[i]? = some t
  | [], _, _, ent, h, hc => by
    cases hc
    exact ⟨ent, Ext.refl _, h, fun _ m => by cases m⟩
  | t :: l, s, s', ent, h, hc => by
    simp only [commitTypeDefs] at hc
    cases ht : commitTypeDef W s t with
    | error x => simp only [ht] at hc; cases hc
    | ok p =>
      obtain ⟨r, s1⟩ := p
      simp only [ht] at hc
      obtain ⟨ent1, e1, i1, j, hj, _⟩ := commitTypeDef_good h ht
      obtain ⟨ent2, e2, i2, o2⟩ := commitTypeDefs_good l i1 hc
      refine ⟨ent2, e1.trans e2, i2, ?_⟩
      intro x m
      rcases List.mem_cons.mp m with rfl | m
      · exact ⟨j, e2 _ _ _ hj⟩
      · exact o2 x m

def LoadOk (W : World) (ent : Ents) : Load → Ref → Prop
  | .type t, r => TypeOk W ent (some t) r
  | .method m, r => MethodOk W ent (some m) r
  | .field f, r => Denotes ent .field r f

theorem LoadOk.mono {W : World} {ent ent' : Ents} {l r} (h : Ext ent ent')
    (d : LoadOk W ent l r) : LoadOk W ent' l r := by
  cases l with
  | type t => exact TypeOk.mono (o := some t) h d
  | method m => exact MethodOk.mono (o := some m) h d
  | field f => exact Denotes.mono h d

/-- The `i`-th reference is right for the `i`-th request. -/
def LoadsOk (W : World) (ent : Ents) (ls : List Load) (rs : List Ref) : Prop :=
  rs.length = ls.length ∧ ∀ (i : Nat) l r, ls[i]? = some l → rs[i]? = some r → LoadOk W ent l r

theorem LoadsOk.mono {W : World} {ent ent' : Ents} {l r} (h : Ext ent ent')
    (d : LoadsOk W ent l r) : LoadsOk W ent' l r :=
  ⟨d.1, fun i a b x y => (d.2 i a b x y).mono h⟩

theorem load_good {W : World} {s s' : St} {ent : Ents} {l r}
    (h : Inv W s ent []) (hc : load W s l = .ok (r, s')) :
    Good W ent [] s' fun ent' => LoadOk W ent' l r := by
  cases l with
  | type t => exact commitType_good (o := some t) h hc
  | method m => exact commitMethod_good (o := some m) h hc
  | field f => exact commitField_good h hc

theorem loads_good {W : World} : ∀ (ls : List Load) {s s' : St} {ent : Ents} {rs},
    Inv W s ent [] → loads W ls s = .ok (rs, s') →
    Good W ent [] s' fun ent' => LoadsOk W ent' ls rs
  | [], s, s', ent, rs, h, hc => by
    cases hc
    exact ⟨ent, Ext.refl _, h, rfl, fun i l r a => by simp at a⟩
  | l :: ls, s, s', ent, rs, h, hc => by
    simp only [loads] at hc
    cases hl : load W s l with
    | error x => simp only [hl] at hc; cases hc
    | ok p =>
      obtain ⟨r, s1⟩ := p
      simp only [hl] at hc
      cases hq : loads W ls s1 with
      | error x => simp only [hq] at hc; cases hc
      | ok p =>
        obtain ⟨rs', s2⟩ := p
        simp only [hq] at hc
        cases hc
        obtain ⟨ent1, e1, i1, o1⟩ := load_good h hl
        obtain ⟨ent2, e2, i2, o2⟩ := loads_good ls i1 hq
        refine ⟨ent2, e1.trans e2, i2, by simp [o2.1], ?_⟩
        intro i a b ha hb
        cases i with
        | zero =>
          simp only [List.getElem?_cons_zero, Option.some.injEq] at ha hb
          subst ha; subst hb
          exact o1.mono e2
        | succ i =>
          simp only [List.getElem?_cons_succ] at ha hb
          exact o2.2 i a b ha hb

/-- What is known about the tables at the end. -/
structure Final (W : World) (ent : Ents) (t : Tables) : Prop where
  len : ∀ k, (t k).length = (ent k).length
  done : ∀ k (i : Nat) e row, (ent k)[i]? = some e → (t k)[i]? = some row → Done W ent k e row
  uniq : ∀ k (i j : Nat) e, single k = true → (ent k)[i]? = some e → (ent k)[j]? = some e →
    i = j
  types : ∀ x ∈ W.types, ∃ i : Nat, (ent .type)[i]? = some x
  typeDefs : ∀ x ∈ W.typeDefs, ∃ i : Nat, (ent .typeDef)[i]? = some x
  self : ∃ i : Nat, (ent .assembly)[i]? = some W.self
  own : ∀ (i : Nat) e, (ent .type)[i]? = some e → e ∈ W.types ∨ W.gtype e = .general true

theorem write_good {W : World} (hw : ShortLists W) {n : Nat} {t : Tables} {rs : List Ref}
    (h : write W n = .ok (t, rs)) : ∃ ent, Final W ent t ∧ LoadsOk W ent W.loads rs := by
  simp only [write, commitAll] at h
  obtain ⟨ent1, _, i1, o1⟩ := commitTypes_good W.types (fun _ h => h) (empty_inv W)
  cases hd : commitTypeDefs W (commitTypes empty W.types) W.typeDefs with
  | error x => simp only [hd] at h; cases h
  | ok s2 =>
    simp only [hd] at h
    obtain ⟨ent2, e2, i2, o2⟩ := commitTypeDefs_good W.typeDefs i1 hd
    have hb : (upd ent2 .assembly (ent2 .assembly ++ [W.self]) .assembly)[
        (s2.rows .assembly).length]? = some W.self := by
      rw [upd_same, i2.len, List.getElem?_concat_length]
    have i3 := enque_inv (append_inv i2 .assembly W.self (fun h => by cases h) (by intro h; cases h)) hb (by decide)
    have e3 := ext_upd_append ent2 .assembly [W.self]
    cases hr : drain W n ((s2.append .assembly W.self).enque .assembly
        (s2.rows .assembly).length W.self) with
    | error x => simp only [hr] at h; cases h
    | ok s4 =>
      simp only [hr] at h
      obtain ⟨ent4, e4, i4, _⟩ := drain_good hw n i3 hr
      cases hl : loads W W.loads s4 with
      | error x => simp only [hl] at h; cases h
      | ok p =>
        obtain ⟨rs', s5⟩ := p
        simp only [hl] at h
        obtain ⟨ent5, e5, i5, o5⟩ := loads_good W.loads i4 hl
        cases hr2 : drain W n s5 with
        | error x => simp only [hr2] at h; cases h
        | ok s6 =>
          simp only [hr2] at h
          obtain ⟨ent6, e6, i6, o6⟩ := drain_good hw n i5 hr2
          cases h
          have e36 := e4.trans (e5.trans e6)
          refine ⟨ent6, ⟨i6.len, ?_, i6.uniq, ?_, ?_, ⟨_, e36 _ _ _ hb⟩, i6.own⟩, o5.mono e6⟩
          · intro k i e row he hw
            rcases i6.done k i e row he hw with a | a | a
            · rw [o6] at a; cases a
            · cases a
            · exact a
          · intro x m
            obtain ⟨i, hi⟩ := o1 x m
            exact ⟨i, e36 _ _ _ (e3 _ _ _ (e2 _ _ _ hi))⟩
          · intro x m
            obtain ⟨i, hi⟩ := o2 x m
            exact ⟨i, e36 _ _ _ (e3 _ _ _ hi)⟩

/-! ## The reader -/

/-- The declaration the object of a row stands for. -/
def backOf (ent : Ents) (n : Node) : Id := (ent n.1).getD n.2 0

theorem backOf_eq {ent : Ents} {k : Kind} {i : Nat} {e : Id} (h : (ent k)[i]? = some e) :
    backOf ent (k, i) = e := by
  simp only [backOf]
  rw [List.getD_eq_getElem?_getD, h]; rfl

/-- Type parameters have positions that fit into a reference. -/
theorem extra_mod (k : Kind) : extra k % 2 ^ 3 = extra k := by cases k <;> rfl

theorem isNull_of (i c x : Nat) : (Ref.of i c x).isNull = (c % 2 ^ 9 == 0) := rfl

theorem denotes_get {W : World} {ent : Ents} {t : Tables} (hf : Final W ent t)
    (hs : SmallTables t) {k : Kind} {r : Ref} {e : Id} (h : Denotes ent k r e) :
    ∃ i, getOne t k r = .ok (some (k, i)) ∧ backOf ent (k, i) = e ∧ r.isNull = false ∧
      r.extra = extra k ∧ r.index = i ∧ r.count = 1 ∧ i < (t k).length := by
  obtain ⟨i, he, hr⟩ := h
  have hi := (List.getElem?_eq_some_iff.mp he).1
  rw [← hf.len] at hi
  have h20 := hs k
  have hm : i % 2 ^ 20 = i := Nat.mod_eq_of_lt (by omega)
  refine ⟨i, ?_, backOf_eq he, ?_, ?_, ?_, ?_, hi⟩
  · subst hr
    have h1 : (Ref.of i 1 (extra k)).isNull = false := rfl
    have h2 : (Ref.of i 1 (extra k)).index = i := hm
    have h3 : (Ref.of i 1 (extra k)).count = 1 := rfl
    simp only [getOne, h1, h2, h3, Bool.false_eq_true, if_false]
    rw [if_neg (by omega)]
  · subst hr; rfl
  · subst hr; exact extra_mod k
  · subst hr; exact hm
  · subst hr; rfl

theorem typeOk_get {W : World} {ent : Ents} {t : Tables} (hf : Final W ent t)
    (hs : SmallTables t) {o : Option Id} {r : Ref} {n : Option Node}
    (h : TypeOk W ent o r) (hg : getType t r = .ok n) :
    n.map (backOf ent) = o.bind (present W) := by
  cases o with
  | none =>
    have : r = Ref.null := h
    subst this
    cases hg
    rfl
  | some x =>
    simp only [TypeOk] at h
    have key : ∀ k, Denotes ent k r x → W.gtype x ≠ .null →
        (r.extra = extra k → getType t r = getOne t k r) →
        n.map (backOf ent) = (some x).bind (present W) := by
      intro k hd hn he
      obtain ⟨i, h1, h2, h3, h4, _⟩ := denotes_get hf hs hd
      rw [he h4, h1] at hg
      cases hg
      simp [present, hn, h2]
    have nn : ∀ k, Denotes ent k r x → r.isNull = false := fun k hd =>
      (denotes_get hf hs hd).choose_spec.2.2.1
    cases hx : W.gtype x with
    | general b =>
      rw [hx] at h
      cases b
      · refine key .typeRef h (by rw [hx]; simp) (fun he => ?_)
        simp only [getType, nn _ h, he, extra, Bool.false_eq_true, if_false]; rfl
      · refine key .type h (by rw [hx]; simp) (fun he => ?_)
        simp only [getType, nn _ h, he, extra, Bool.false_eq_true, if_false]; rfl
    | generic =>
      rw [hx] at h
      refine key .genericType h (by rw [hx]; simp) (fun he => ?_)
      simp only [getType, nn _ h, he, extra, Bool.false_eq_true, if_false]; rfl
    | array =>
      rw [hx] at h
      refine key .arrayType h (by rw [hx]; simp) (fun he => ?_)
      simp only [getType, nn _ h, he, extra, Bool.false_eq_true, if_false]; rfl
    | genericParam j =>
      rw [hx] at h
      rcases h with h | h
      · refine key .genericParam h (by rw [hx]; simp) (fun he => ?_)
        simp only [getType, nn _ h, he, extra, Bool.false_eq_true, if_false]; rfl
      · subst h
        exfalso
        have h1 : (Ref.of j 1 paramIndex).isNull = false := rfl
        have h2 : (Ref.of j 1 paramIndex).extra = 5 := rfl
        simp [getType, h1, h2] at hg
    | typeDefParam =>
      rw [hx] at h
      refine key .typeDefParam h (by rw [hx]; simp) (fun he => ?_)
      simp only [getType, nn _ h, he, extra, Bool.false_eq_true, if_false]; rfl
    | null =>
      rw [hx] at h
      have : r = Ref.null := h
      subst this
      cases hg
      simp [present, hx]

theorem many_get {W : World} (hw : ShortLists W) {ent : Ents} {t : Tables}
    (hf : Final W ent t) (hs : SmallTables t) {k : Kind} {e : Id} {f : String} {r : Ref}
    {l : List Node} (h : ManyOk ent k (W.many e f) r) (hg : getMany t k r = .ok l) :
    l.map (backOf ent) = W.many e f ∧
      ∀ n ∈ l, n.1 = k ∧ (ent k)[n.2]? = some (backOf ent n) := by
  rcases h with ⟨h1, h2⟩ | ⟨h1, b, h2, h3⟩
  · simp only [getMany, h2, if_true] at hg
    cases hg
    exact ⟨h1.symm, fun n m => by cases m⟩
  · have hlen : (W.many e f).length < 512 := hw e f
    have hpos : 0 < (W.many e f).length := List.length_pos_iff.mpr h1
    have hcount : r.count = (W.many e f).length := by
      rw [h2, ref_count]; exact Nat.mod_eq_of_lt hlen
    have hnull : r.isNull = false := by
      simp only [Ref.isNull, hcount]
      rw [beq_eq_false_iff_ne]; omega
    have hat : ∀ j, j < (W.many e f).length → ∃ x, (W.many e f)[j]? = some x ∧
        (ent k)[b + j]? = some x := by
      intro j hj
      exact ⟨_, List.getElem?_eq_getElem hj, h3 j _ (List.getElem?_eq_getElem hj)⟩
    have hb : b < 2 ^ 20 := by
      obtain ⟨x, _, hx⟩ := hat 0 hpos
      have := (List.getElem?_eq_some_iff.mp hx).1
      rw [← hf.len] at this
      have := hs k
      omega
    have hindex : r.index = b := by
      rw [h2, ref_index]; exact Nat.mod_eq_of_lt hb
    simp only [getMany, hnull, Bool.false_eq_true, if_false] at hg
    split at hg
    · cases hg
    · cases hg
      rw [hindex, hcount]
      constructor
      · apply List.ext_getElem?
        intro j
        simp only [List.map_map, List.getElem?_map]
        by_cases hj : j < (W.many e f).length
        · rw [List.getElem?_range hj]
          obtain ⟨x, hx, hy⟩ := hat j hj
          rw [hx]
          simp only [Option.map_some, Function.comp]
          rw [backOf_eq hy]
        · rw [List.getElem?_eq_none (by simpa using hj), List.getElem?_eq_none (by simpa using hj)]
          rfl
      · intro n m
        obtain ⟨j, hj, rfl⟩ := List.mem_map.mp m
        obtain ⟨x, hx, hy⟩ := hat j (List.mem_range.mp hj)
        refine ⟨rfl, ?_⟩
        rw [backOf_eq hy]; exact hy

theorem mapE_map {α β γ : Type} (f : α → Except Err β) (g : β → γ) (h : α → γ) :
    ∀ (l : List α) (r : List β), mapE f l = .ok r → (∀ a ∈ l, ∀ b, f a = .ok b → g b = h a) →
    r.map g = l.map h
  | [], r, hr, _ => by cases hr; rfl
  | a :: l, r, hr, hg => by
    simp only [mapE] at hr
    cases ha : f a with
    | error x => simp only [ha] at hr; cases hr
    | ok b =>
      simp only [ha] at hr
      cases hl : mapE f l with
      | error x => simp only [hl] at hr; cases hr
      | ok bs =>
        simp only [hl] at hr
        cases hr
        rw [List.map_cons, List.map_cons, hg a (List.mem_cons_self ..) b ha,
          mapE_map f g h l bs hl (fun x m => hg x (List.mem_cons_of_mem _ m))]

theorem mapE_mem {α β : Type} (f : α → Except Err β) :
    ∀ (l : List α) (r : List β), mapE f l = .ok r → ∀ b ∈ r, ∃ a ∈ l, f a = .ok b
  | [], r, hr, b, m => by cases hr; cases m
  | a :: l, r, hr, b, m => by
    simp only [mapE] at hr
    cases ha : f a with
    | error x => simp only [ha] at hr; cases hr
    | ok b' =>
      simp only [ha] at hr
      cases hl : mapE f l with
      | error x => simp only [hl] at hr; cases hr
      | ok bs =>
        simp only [hl] at hr
        cases hr
        rcases List.mem_cons.mp m with rfl | m
        · exact ⟨a, List.mem_cons_self .., ha⟩
        · obtain ⟨x, hx, hy⟩ := mapE_mem f l bs hl b m
          exact ⟨x, List.mem_cons_of_mem _ hx, hy⟩

theorem mapE_all {α β : Type} (f : α → Except Err β) :
    ∀ (l : List α) (r : List β), mapE f l = .ok r → ∀ a ∈ l, ∃ b ∈ r, f a = .ok b
  | [], r, hr, a, m => by cases m
  | x :: l, r, hr, a, m => by
    simp only [mapE] at hr
    cases ha : f x with
    | error e => simp only [ha] at hr; cases hr
    | ok b' =>
      simp only [ha] at hr
      cases hl : mapE f l with
      | error e => simp only [hl] at hr; cases hr
      | ok bs =>
        simp only [hl] at hr
        cases hr
        rcases List.mem_cons.mp m with rfl | m
        · exact ⟨b', List.mem_cons_self .., ha⟩
        · obtain ⟨y, hy, hz⟩ := mapE_all f l bs hl a m
          exact ⟨y, List.mem_cons_of_mem _ hy, hz⟩

theorem refAt_eq {row : Row} {f : String} {r : Ref} (h : row.lookup f = some (.ref r)) :
    refAt row f = r := by simp [refAt, h]

theorem rowOf_eq {t : Tables} {k : Kind} {i : Nat} {row : Row}
    (h : (t k)[i]? = some row) : rowOf t (k, i) = row := by
  simp only [rowOf]; rw [List.getD_eq_getElem?_getD, h]; rfl

/-- The tables whose rows hold a type in the column "type". -/
def holder : Kind → Bool
  | .nestType | .superType | .genericArgument => true
  | _ => false

theorem holder_col (k : Kind) (h : holder k = true) : ("type", Act.itself) ∈ cols k := by
  cases k <;> first | (simp [cols, steps]; done) | cases h

theorem through_get {W : World} (hw : ShortLists W) {ent : Ents} {t : Tables}
    (hf : Final W ent t) (hs : SmallTables t) {k : Kind} (hk : holder k = true) {e : Id}
    {f : String} {r : Ref} {l : List (Option Node)}
    (h : ManyOk ent k (W.many e f) r) (hg : getThrough t k r = .ok l) :
    l.map (·.map (backOf ent)) = (W.many e f).map (present W) := by
  simp only [getThrough] at hg
  cases hm : getMany t k r with
  | error x => simp only [hm] at hg; cases hg
  | ok ns =>
    simp only [hm] at hg
    obtain ⟨h1, h2⟩ := many_get hw hf hs h hm
    rw [← h1, List.map_map]
    refine mapE_map _ _ _ ns l hg ?_
    intro n hn b hb
    obtain ⟨hn1, hn2⟩ := h2 n hn
    have hrow : ∃ row, (t k)[n.2]? = some row := by
      have := (List.getElem?_eq_some_iff.mp hn2).1
      rw [← hf.len] at this
      exact ⟨_, List.getElem?_eq_getElem this⟩
    obtain ⟨row, hrow⟩ := hrow
    have hd := hf.done k n.2 _ row hn2 hrow
    have hcol := holder_col k hk
    obtain ⟨c, hc, r', rfl, hty⟩ := hd "type" .itself hcol
    have hro : rowOf t n = row := by
      have : n = (k, n.2) := by rw [← hn1]
      rw [this]; exact rowOf_eq hrow
    rw [hro, refAt_eq hc] at hb
    split at hb
    · cases hb
    · have := typeOk_get hf hs hty hb
      simpa using this

/-- The statement of the reader and the statement of the writer about the same column. -/
def compat (f : String) : Get → Act → Bool
  | .text, .text _ => true
  | .num, .num => true
  | .type, .type _ => true
  | .type, .attributeType => true
  | .host, .type _ => true
  | .imported, .type _ => true
  | .imported, .refParam => true
  | .method, .method _ => methodColumns.contains f
  | .constant, .constant => true
  | .assembly, .assembly => true
  | .many k, .many k' => k == k'
  | .many k, .arguments => k == .attributeArgument
  | .through k, .many k' => k == k' && holder k
  | .through k, .nest => k == .nestType
  | _, _ => false

theorem reads_compat (k : Kind) : ∀ p ∈ reads k, ∃ a, (p.1, a) ∈ cols k ∧
    compat p.1 p.2 a = true := by
  have : (reads k).all (fun p => (cols k).any fun q => q.1 == p.1 && compat p.1 p.2 q.2)
      = true := by cases k <;> decide
  intro p hp
  rw [List.all_eq_true] at this
  have := this p hp
  rw [List.any_eq_true] at this
  obtain ⟨⟨f, a⟩, hq, h⟩ := this
  simp only [Bool.and_eq_true, beq_iff_eq] at h
  exact ⟨a, h.1 ▸ hq, h.2⟩

theorem reads_restored (k : Kind) : (reads k).map Prod.fst = restored k := by
  cases k <;> rfl

/-- Positions of type parameters fit into a reference. -/
def SmallParams (W : World) : Prop := ∀ t j, W.gtype t = .genericParam j → j < 2 ^ 20

theorem typeOk_param {W : World} {ent : Ents} {t : Tables} (hf : Final W ent t)
    (hs : SmallTables t) (hp : SmallParams W) {o : Option Id} {r : Ref}
    (h : TypeOk W ent o r) (he : r.extra = paramIndex) :
    ∃ x, o = some x ∧ W.gtype x = .genericParam r.index := by
  cases o with
  | none =>
    have : r = Ref.null := h
    subst this; cases he
  | some x =>
    refine ⟨x, rfl, ?_⟩
    simp only [TypeOk] at h
    have key : ∀ k, Denotes ent k r x → extra k ≠ paramIndex → False := by
      intro k hd hn
      obtain ⟨i, h1, h2, h3, h4, _⟩ := denotes_get hf hs hd
      exact hn (h4 ▸ he)
    cases hx : W.gtype x with
    | general b =>
      rw [hx] at h
      cases b
      · exact (key _ h (by decide)).elim
      · exact (key _ h (by decide)).elim
    | generic => rw [hx] at h; exact (key _ h (by decide)).elim
    | array => rw [hx] at h; exact (key _ h (by decide)).elim
    | genericParam j =>
      rw [hx] at h
      rcases h with h | h
      · exact (key _ h (by decide)).elim
      · rw [h, ref_index, Nat.mod_eq_of_lt (hp x j hx)]
    | typeDefParam => rw [hx] at h; exact (key _ h (by decide)).elim
    | null =>
      rw [hx] at h
      have : r = Ref.null := h
      subst this; cases he

theorem get_kept {W : World} (hw : ShortLists W) (hp : SmallParams W) (hm : OwnMethods W)
    {ent : Ents} {t : Tables} (hf : Final W ent t) (hs : SmallTables t) {e : Id}
    {f : String} {g : Get} {a : Act} {row : Row} {c : Cell} {v : Val}
    (hcompat : compat f g a = true) (hl : row.lookup f = some c)
    (hc : CellOk W ent e f a c) (hg : get t row f g = .ok v) :
    Kept W (backOf ent) e f v := by
  cases g with
  | text =>
    cases a <;> first | (exfalso; exact Bool.noConfusion hcompat; done) | skip
    cases hg
    have hc : c = _ := hc
    subst hc
    simp [Kept, textAt, hl]
  | num =>
    cases a <;> first | (exfalso; exact Bool.noConfusion hcompat; done) | skip
    cases hg
    have hc : c = _ := hc
    subst hc
    simp [Kept, numAt, hl]
  | type =>
    have ht : ∃ r, c = .ref r ∧ TypeOk W ent (W.one e f) r := by
      cases a <;> first | exact hc | cases hcompat
    obtain ⟨r, rfl, hty⟩ := ht
    simp only [get, refAt_eq hl] at hg
    cases hx : getType t r with
    | error x => simp only [hx] at hg; cases hg
    | ok n =>
      simp only [hx] at hg
      cases hg
      exact typeOk_get hf hs hty hx
  | host =>
    have ht : ∃ r, c = .ref r ∧ TypeOk W ent (W.one e f) r := by
      cases a <;> first | exact hc | cases hcompat
    obtain ⟨r, rfl, hty⟩ := ht
    simp only [get, refAt_eq hl] at hg
    cases hn : r.isNull with
    | true =>
      simp only [hn, if_true] at hg
      cases hg
      refine typeOk_get hf hs hty ?_
      simp [getType, hn]
    | false =>
      simp only [hn, Bool.false_eq_true, if_false] at hg
      split at hg
      · cases hg
      · rename_i hx
        have hx1 : r.extra = 1 := Classical.byContradiction fun h => hx (.inl h)
        cases ho : getOne t .typeRef r with
        | error x => simp only [ho] at hg; cases hg
        | ok n =>
          simp only [ho] at hg
          cases hg
          refine typeOk_get hf hs hty ?_
          simp [getType, hn, hx1, ho]
  | imported =>
    have ht : ∃ r, c = .ref r ∧ TypeOk W ent (W.one e f) r := by
      cases a <;> first | exact hc | cases hcompat
    obtain ⟨r, rfl, hty⟩ := ht
    simp only [get, refAt_eq hl] at hg
    split at hg
    · rename_i hx
      cases hg
      exact typeOk_param hf hs hp hty hx
    · cases hx : getType t r with
      | error x => simp only [hx] at hg; cases hg
      | ok n =>
        simp only [hx] at hg
        cases hg
        exact typeOk_get hf hs hty hx
  | method =>
    have ht : ∃ r, c = .ref r ∧ MethodOk W ent (W.one e f) r := by
      cases a <;> first | exact hc | cases hcompat
    have hmem : f ∈ methodColumns := by
      cases a <;> first | (exfalso; exact Bool.noConfusion hcompat; done) | skip
      simpa [compat] using hcompat
    obtain ⟨r, rfl, hty⟩ := ht
    simp only [get, refAt_eq hl] at hg
    cases ho : W.one e f with
    | none =>
      rw [ho] at hty
      have : r = Ref.null := hty
      subst this
      cases hg
      simp [Kept, ho]
    | some m =>
      rw [ho] at hty
      simp only [MethodOk, hm e f m hmem ho, if_true] at hty
      obtain ⟨i, h1, h2, _⟩ := denotes_get hf hs hty
      simp only [h1] at hg
      cases hg
      simp [Kept, ho, h2]
  | constant =>
    have ht : ∃ r, c = .ref r ∧ ConstOk ent (W.one e f) r := by
      cases a <;> first | exact hc | cases hcompat
    obtain ⟨r, rfl, hty⟩ := ht
    simp only [get, refAt_eq hl] at hg
    cases ho : W.one e f with
    | none =>
      rw [ho] at hty
      have hty : r.isNull = true := hty
      simp only [getOne, hty, if_true] at hg
      cases hg
      simp [Kept, ho]
    | some m =>
      rw [ho] at hty
      have hty : Denotes ent .constant r m := hty
      obtain ⟨i, h1, h2, _⟩ := denotes_get hf hs hty
      simp only [h1] at hg
      cases hg
      simp [Kept, ho, h2]
  | assembly =>
    have ht : ∃ r a, c = .ref r ∧ W.one e f = some a ∧ Denotes ent .assemblyRef r a := by
      cases a <;> first | exact hc | cases hcompat
    obtain ⟨r, x, rfl, hx, hty⟩ := ht
    simp only [get, refAt_eq hl] at hg
    obtain ⟨i, h1, h2, _⟩ := denotes_get hf hs hty
    simp only [h1] at hg
    cases hg
    simp [Kept, hx, h2]
  | many k =>
    have ht : ∃ r, c = .ref r ∧ ManyOk ent k (W.many e f) r := by
      cases a <;> first | (exfalso; exact Bool.noConfusion hcompat; done) | skip
      · rename_i k'
        have : k = k' := by simpa [compat] using hcompat
        subst this; exact hc
      · have : k = .attributeArgument := by simpa [compat] using hcompat
        subst this; exact hc
    obtain ⟨r, rfl, hty⟩ := ht
    simp only [get, refAt_eq hl] at hg
    cases hx : getMany t k r with
    | error x => simp only [hx] at hg; cases hg
    | ok n =>
      simp only [hx] at hg
      cases hg
      exact (many_get hw hf hs hty hx).1
  | through k =>
    have ht : holder k = true ∧ ∃ r, c = .ref r ∧ ManyOk ent k (W.many e f) r := by
      cases a <;> first | (exfalso; exact Bool.noConfusion hcompat; done) | skip
      · rename_i k'
        have : k = k' ∧ holder k = true := by simpa [compat] using hcompat
        obtain ⟨rfl, h2⟩ := this
        exact ⟨h2, hc⟩
      · have : k = .nestType := by simpa [compat] using hcompat
        subst this; exact ⟨rfl, hc⟩
    obtain ⟨hk, r, rfl, hty⟩ := ht
    simp only [get, refAt_eq hl] at hg
    cases hx : getThrough t k r with
    | error x => simp only [hx] at hg; cases hg
    | ok n =>
      simp only [hx] at hg
      cases hg
      exact through_get hw hf hs hk hty hx

theorem mem_nodes {t : Tables} {k : Kind} {i : Nat} :
    (k, i) ∈ nodes t ↔ k ∈ order ∧ i < (t k).length := by
  simp only [nodes, List.mem_flatMap, List.mem_map, List.mem_range, Prod.mk.injEq]
  constructor
  · rintro ⟨k', hk, j, hj, rfl, rfl⟩; exact ⟨hk, hj⟩
  · rintro ⟨hk, hi⟩; exact ⟨k, hk, i, hi, rfl, rfl⟩

theorem readRow_fst {t : Tables} {n : Node} {p} (h : readRow t n = .ok p) : p.1 = n ∧
    mapE (fun c : String × Get => match get t (rowOf t n) c.1 c.2 with
      | .error x => .error x
      | .ok v => .ok (c.1, v)) (reads n.1) = .ok p.2 := by
  simp only [readRow] at h
  split at h
  · cases h
  · rename_i hx
    cases h
    exact ⟨rfl, hx⟩

theorem read_kept {W : World} (hw : ShortLists W) (hp : SmallParams W) (hm : OwnMethods W)
    {ent : Ents} {t : Tables} (hf : Final W ent t) (hs : SmallTables t) {g}
    (hg : read t = .ok g) {n : Node} {fs} (hn : (n, fs) ∈ g) :
    fs.map Prod.fst = restored n.1 ∧
      ∀ f v, (f, v) ∈ fs → Kept W (backOf ent) (backOf ent n) f v := by
  obtain ⟨n', hn', hr⟩ := mapE_mem _ _ _ hg _ hn
  obtain ⟨h1, h2⟩ := readRow_fst hr
  simp only at h1 h2
  subst h1
  constructor
  · rw [← reads_restored]
    refine mapE_map _ _ _ _ _ h2 ?_
    intro c _ b hb
    split at hb
    · cases hb
    · cases hb; rfl
  · intro f v hv
    obtain ⟨⟨f', gt⟩, hc, hb⟩ := mapE_mem _ _ _ h2 _ hv
    split at hb
    · cases hb
    · rename_i v' hget
      cases hb
      obtain ⟨a, ha, hcompat⟩ := reads_compat n.1 _ hc
      obtain ⟨k, i⟩ := n
      have hi := (mem_nodes.mp hn').2
      have hi' := hi
      rw [hf.len] at hi'
      have hent := List.getElem?_eq_getElem hi'
      have hrow := List.getElem?_eq_getElem hi
      obtain ⟨c, hl, hcell⟩ := hf.done k i _ _ hent hrow _ a ha
      rw [rowOf_eq hrow] at hget
      rw [backOf_eq hent]
      exact get_kept hw hp hm hf hs hcompat hl hcell hget

theorem read_total {t : Tables} {g} (hg : read t = .ok g) {k : Kind} {i : Nat}
    (hk : k ∈ order) (hi : i < (t k).length) : ∃ fs, ((k, i), fs) ∈ g := by
  obtain ⟨b, hb, hr⟩ := mapE_all _ _ _ hg _ (mem_nodes.mpr ⟨hk, hi⟩)
  obtain ⟨h1, _⟩ := readRow_fst hr
  exact ⟨b.2, by rw [← h1]; exact hb⟩

end Verif.Asm
