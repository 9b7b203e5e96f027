/-
  C95: what is written is in the nodes of the syntax tree, in its order and in its role.
-/
import Verif.Proof.Nodes
import Verif.Props.Gram

namespace Verif.Props.Nodes

open Verif.Gram Verif.Nodes Verif.Nodes.Spec
open scoped List

variable {ν : Type}

/-! ## The grammar -/

mutual

/-- The element without flags. -/
def plainItem : Item → Item
  | .tok t r => .tok t r
  | .ref x r => .ref (x % 100) r
  | .group a r => .group (plainAlts a) r

def plainSeq : Seq → Seq
  | .nil => .nil
  | .cons i s => .cons (plainItem i) (plainSeq s)

def plainAlts : Alts → Alts
  | .nil => .nil
  | .cons s a => .cons (plainSeq s) (plainAlts a)

end

theorem plain_list : (List.range 84).map (fun r => (Nodes.Cs.grammar r).map plainAlts) =
    (List.range 84).map Gram.Cs.grammar := by rfl

/-- Without the flags the rules are those of Model/GramCs.lean. -/
theorem plain_grammar (r : Nat) : (Nodes.Cs.grammar r).map plainAlts = Gram.Cs.grammar r := by
  by_cases h : r < 84
  · have h1 := congrArg (fun l => l[r]?) plain_list
    simpa [List.getElem?_map, List.getElem?_range h] using h1
  · have h1 : Nodes.Cs.rules.length = 84 := by decide +kernel
    have h2 : Gram.Cs.rules.length = 84 := by decide +kernel
    simp [Nodes.Cs.grammar, Gram.Cs.grammar, List.getElem?_eq_none (show Nodes.Cs.rules.length ≤ r by
      omega), List.getElem?_eq_none (show Gram.Cs.rules.length ≤ r by omega)]

/-! ## The flags -/

/-- All nodes with a flag are left, with their flag. -/
def flagsLeft (g : Graph) (f : Nat → Nat) : Bool :=
  g.nodes.all fun n => f n == 0 ||
    ((g.merge g.nodes.length).nodes.contains n && flagsOf g.nodes.length g f n == f n)

theorem flags_left : ((List.range 84).all fun r =>
    match Nodes.Cs.grammar r, Gram.Cs.grammar r with
    | some b, some a =>
      match exchange (layRule Props.Gram.env (revise a)) 100 with
      | .ok g => flagsLeft g (flagAt Props.Gram.env b)
      | .error _ => false
    | _, _ => false) = true := by decide +kernel

/-- In no round the node is merged with another one. -/
def Lone : Nat → Graph → Nat → Prop
  | 0, _, _ => True
  | n + 1, g, u =>
    match g.round with
    | none => True
    | some g' => (g.peers u).length ≤ 1 ∧ Lone n g' u

/-- C95, for every graph: a node that is never merged with another one keeps its flag, whatever
    else is merged. -/
theorem lone_flag_kept (n : Nat) (g : Graph) (f : Nat → Nat) (u : Nat) (h : Lone n g u) :
    flagsOf n g f u = f u := by
  induction n generalizing g f with
  | zero => rfl
  | succ n ih =>
    rw [Lone.eq_def] at h
    rw [flagsOf.eq_def]
    cases hg : g.round with
    | none => simp only [hg]
    | some g' =>
      simp only [hg] at h ⊢
      rw [ih g' _ h.2, if_pos h.1]

/-- A graph in which the nodes 2 and 3 are merged and the flag of node 4 is kept. -/
def forked : Graph where
  label := fun n => if n = 2 ∨ n = 3 then .tok 7 else .ref n
  start := [1]
  next := fun n => if n = 1 then [2, 3, 4] else []
  nodes := [1, 2, 3, 4]

example : (forked.round.isSome = true) ∧ forked.peers 2 = [2, 3] ∧ flagsOf 4 forked (fun n => n) 4 = 4
    ∧ flagsOf 4 forked (fun n => n) 2 = 0 := by decide +kernel

example : Lone 4 forked 4 := by
  simp only [Lone]
  have h : forked.round.isSome = true := by decide +kernel
  cases hr : forked.round with
  | none => rw [hr] at h; cases h
  | some g' =>
    have h2 : g'.round.isNone = true := by
      have : (forked.round.bind fun g => if g.round.isNone then some () else none) = some () := by
        decide +kernel
      rw [hr] at this
      simpa using this
    refine ⟨by decide +kernel, ?_⟩
    cases hr' : g'.round with
    | none => trivial
    | some x => rw [hr'] at h2; cases h2

/-- C95: the flags, which tell the builders the role of a part, are not lost when the graphs are
    made, although a node that is made of several nodes gets none: no node with a flag is merged
    with another one. -/
theorem flags_survive {r : Nat} {a b : Alts} (ha : Gram.Cs.grammar r = some a)
    (hb : Nodes.Cs.grammar r = some b) :
    ∃ g, exchange (layRule (envOf Gram.Cs.grammar 100) (revise a)) 100 = .ok g ∧
      graphsOf Gram.Cs.grammar 100 r = some (g.merge g.nodes.length) ∧
      ∀ n ∈ g.nodes, flagAt (envOf Gram.Cs.grammar 100) b n ≠ 0 →
        n ∈ (g.merge g.nodes.length).nodes ∧
        flagsOf g.nodes.length g (flagAt (envOf Gram.Cs.grammar 100) b) n =
          flagAt (envOf Gram.Cs.grammar 100) b n := by
  have hr : r < 84 := by
    refine Decidable.byContradiction fun h => ?_
    have h1 : Gram.Cs.rules.length = 84 := by decide +kernel
    simp [Gram.Cs.grammar, List.getElem?_eq_none (show Gram.Cs.rules.length ≤ r by omega)] at ha
  have h := List.all_eq_true.1 flags_left r (List.mem_range.2 hr)
  rw [Props.Gram.env_eq]
  simp only [ha, hb] at h
  cases hx : exchange (layRule Props.Gram.env (revise a)) 100 with
  | error x => simp only [hx] at h; cases h
  | ok g =>
    simp only [hx] at h
    refine ⟨g, rfl, ?_, ?_⟩
    · simp only [graphsOf, ha, Props.Gram.env_eq, build, hx]
    · intro n hn hf
      have := List.all_eq_true.1 h n hn
      simpa [hf] using this

/-- In `for` the flags are 8, 9 and 10. -/
example : ((List.range 40).filterMap fun n =>
    let f := flagAt Props.Gram.env ((Nodes.Cs.grammar 63).getD .nil) n
    if f = 0 then none else some f) = [8, 9, 10] := by decide +kernel

/-! ## What is lost -/

/-- Parts that the builder of a rule does not look at: in 5 `new` names and expressions, which are
    there only between the braces after it, in 19 `namespace` the `using`, in 40 `generic_arg` the
    name. -/
def ignored (r : Nat) (s : Sym) : Bool :=
  (r == 5 && (s == .tok nameTok || s == .node 17 0)) ||
  (r == 19 && s == .node 20 0) ||
  (r == 40 && s == .tok nameTok)

/-- Parts that are put where there can be another part: in 50, an attribute, `name = value`, in 55
    `method` the type of a conversion, which has the flag `overload`. -/
def displaces (r : Nat) (s : Sym) : Bool :=
  (r == 50 && s == .node 49 0) || (r == 55 && s == .node 31 7)

/-- The rules whose builders let parts wait: 8 `array_lengths`, 29 `array_type_name`, 41
    `generic_args`. -/
def lists (r : Nat) : Bool := r == 8 || r == 29 || r == 41

def symMatters : Sym → Bool
  | .tok t => t == nameTok
  | .node _ _ => true

def putPlaces (r : Nat) : List Nat :=
  (table r).filterMap fun e => match e.2 with
    | .put p => some p
    | _ => none

/-- The part is put, but it does not displace. -/
def claims (r p : Nat) (s : Sym) : Bool := touches r p s && !displaces r s

def checkSyms (r : Nat) : Bool :=
  closed Nodes.Cs.grammar r (within r) &&
  (r :: within r).all fun c => (ownSyms Nodes.Cs.grammar c).all fun s =>
    !waits r s && (!symMatters s || ignored r s || act r s != .drop)

def checkPut (r : Nat) : Bool :=
  (putPlaces r).all fun p =>
    ((within r).all fun c => (ownSyms Nodes.Cs.grammar c).all fun s => !claims r p s) &&
    match Nodes.Cs.grammar r with
    | none => true
    | some a => decide (cntAlts (fun t => if claims r p (.tok t) then 1 else 0)
        (fun x => if !bare (x % 100) && claims r p (symOf x) then 1 else 0) a ≤ 1)

theorem all_checked : ((List.range 84).all fun r => bare r || lists r ||
    (checkSyms r && checkPut r)) = true := by decide +kernel

theorem rule_lt {r : Nat} {w : List (Given ν)} (h : Parts Nodes.Cs.grammar r w) : r < 84 := by
  refine Decidable.byContradiction fun hr => ?_
  have h1 : Nodes.Cs.rules.length = 84 := by decide +kernel
  obtain ⟨n, h⟩ := h
  cases n with
  | zero => exact h.elim
  | succ n =>
    have : Nodes.Cs.grammar r = none := by
      simp [Nodes.Cs.grammar, List.getElem?_eq_none (show Nodes.Cs.rules.length ≤ r by omega)]
    simp only [parts, this] at h

theorem checked {r : Nat} (hr : r < 84) (hb : bare r = false) (hl : lists r = false) :
    checkSyms r = true ∧ checkPut r = true := by
  have := List.all_eq_true.1 all_checked r (List.mem_range.2 hr)
  simpa [hb, hl] using this

theorem sym_checked {r : Nat} {w : List (Given ν)} (h : Parts Nodes.Cs.grammar r w)
    (hb : bare r = false) (hl : lists r = false) :
    ∀ g ∈ w, waits r g.sym = false ∧
      (matters g = true → ignored r g.sym = false → act r g.sym ≠ .drop) := by
  have hc := (checked (rule_lt h) hb hl).1
  obtain ⟨n, h⟩ := h
  simp only [checkSyms, Bool.and_eq_true] at hc
  have := part_all (P := fun s => waits r s = false ∧
      (symMatters s = true → ignored r s = false → act r s ≠ .drop)) hc.1 (by
    intro c hcm s hs
    have h1 := List.all_eq_true.1 (List.all_eq_true.1 hc.2 c hcm) s hs
    simp only [Bool.and_eq_true, Bool.not_eq_true', Bool.or_eq_true, bne_iff_ne] at h1
    refine ⟨h1.1, fun hm hi => ?_⟩
    rcases h1.2 with (h2 | h2) | h2
    · rw [hm] at h2; cases h2
    · rw [hi] at h2; cases h2
    · exact h2) n r (List.mem_cons_self ..) w h
  intro g hg
  refine ⟨(this g hg).1, fun hm => (this g hg).2 ?_⟩
  cases hs : g.sym with
  | tok t => simpa [matters, symMatters, hs] using hm
  | node v f => rfl

theorem put_mem {r p : Nat} {s : Sym} (h : act r s = .put p) : p ∈ putPlaces r := by
  unfold act at h
  cases hf : (table r).find? fun e => e.1.fits s with
  | none => simp [hf] at h
  | some e =>
    simp only [hf] at h
    exact List.mem_filterMap.2 ⟨e, List.mem_of_find?_eq_some hf, by simp [h]⟩

theorem room {r : Nat} {w : List (Given ν)} (h : Parts Nodes.Cs.grammar r w)
    (hb : bare r = false) (hl : lists r = false)
    (hd : ∀ g ∈ w, displaces r g.sym = false) : Room r w Made.new := by
  rintro p ⟨g, hg, hput⟩
  have hc := checked (rule_lt h) hb hl
  have hcl : closed Nodes.Cs.grammar r (within r) = true := by
    have := hc.1
    simp only [checkSyms, Bool.and_eq_true] at this
    exact this.1
  have hp := List.all_eq_true.1 hc.2 p (put_mem hput)
  rw [Bool.and_eq_true] at hp
  refine ⟨?_, rfl⟩
  cases hG : Nodes.Cs.grammar r with
  | none =>
    obtain ⟨n, h⟩ := h
    cases n with
    | zero => exact h.elim
    | succ n => simp only [parts, hG] at h
  | some a =>
    simp only [hG, decide_eq_true_eq] at hp
    have h1 := part_num (f := claims r p) hG hcl (by
      intro c hcm s hs
      have := List.all_eq_true.1 (List.all_eq_true.1 hp.1 c hcm) s hs
      simpa using this) hp.2 h
    have h2 : num (touches r p) w = num (claims r p) w := by
      unfold num
      refine List.countP_congr fun k hk => ?_
      simp [claims, hd k hk]
    omega

/-- C95: whatever is written for a rule, every node and name in it is at a place of the node that
    is made of it, or an error was reported or an assertion failed.  `ignored` and `displaces` say
    what is left out. -/
theorem parts_kept_partial (kind : ν → Nat) {r : Nat} {w : List (Given ν)}
    (h : Parts Nodes.Cs.grammar r w) (hb : bare r = false) (hl : lists r = false)
    (hd : ∀ g ∈ w, displaces r g.sym = false) {g : Given ν} (hg : g ∈ w)
    (hm : matters g = true) (hi : ignored r g.sym = false) :
    Made.has (make kind r w) g.it ∨ 0 < (make kind r w).errors ∨
      (make kind r w).failed = true := by
  obtain ⟨hw, hx⟩ := sym_checked h hb hl g hg
  have hr : make kind r w = apply kind r w Made.new := by
    unfold make complete
    have : r ≠ 8 := by rintro rfl; simp [lists] at hl
    simp [this]
  rw [hr]
  rcases apply_has (kind := kind) w Made.new (room h hb hl hd) g hg (hx hm hi) hw with h | h
  · exact Or.inr h
  · exact Or.inl h

/-- C95: at every place parts have the order of the source, and none is there twice. -/
theorem parts_in_order (kind : ν → Nat) {r : Nat} {w : List (Given ν)}
    (h : Parts Nodes.Cs.grammar r w) (hb : bare r = false) (hl : lists r = false) (p : Nat) :
    ((make kind r w).at_ p).filterMap id <+ w.map (·.it) := by
  have hr : make kind r w = apply kind r w Made.new := by
    unfold make complete
    have : r ≠ 8 := by rintro rfl; simp [lists] at hl
    simp [this]
  rw [hr]
  simpa [Made.new] using apply_sub (kind := kind) (p := p) w Made.new
    (fun g hg => (sym_checked h hb hl g hg).1)

/-! ## Roles -/

def placesOf (r : Nat) (s : Sym) : List Nat :=
  match act r s with
  | .put q => [q]
  | .add q => [q]
  | .keep q => [q]
  | .accessor ps => ps.map (·.2)
  | .flush q => [q]
  | _ => []

theorem touches_places {r p : Nat} {s : Sym} (h : touches r p s = true) : p ∈ placesOf r s := by
  unfold touches at h
  unfold placesOf
  cases ha : act r s <;> simp only [ha] at h ⊢
  case put q => simpa using (beq_iff_eq.1 h).symm
  case add q => simpa using (beq_iff_eq.1 h).symm
  case keep q => simpa using (beq_iff_eq.1 h).symm
  case flush q => simpa using (beq_iff_eq.1 h).symm
  case accessor ps =>
    obtain ⟨e, he, hq⟩ := List.any_eq_true.1 h
    exact List.mem_map.2 ⟨e, he, beq_iff_eq.1 hq⟩
  all_goals cases h

/-- Two parts whose references have different flags. -/
def apart : Sym → Sym → Bool
  | .node v f, .node v' f' => v == v' && f != f'
  | _, _ => false

def checkRoles (r : Nat) : Bool :=
  (r :: within r).all fun c => (ownSyms Nodes.Cs.grammar c).all fun s =>
    (r :: within r).all fun c' => (ownSyms Nodes.Cs.grammar c').all fun s' =>
      displaces r s || displaces r s' || !apart s s' ||
        (placesOf r s).all fun p => !(placesOf r s').contains p

theorem roles_checked : ((List.range 84).all fun r => bare r || lists r || r == 26 ||
    checkRoles r) = true := by decide +kernel

/-- C95: the place of a part tells its role: if the references to two parts have different flags,
    they are not at the same place, in whatever two instances of the rule they are written.
    Left out is 26 `type`: the types that a class or an interface is made of and the type of an enum
    are at the same place, and the word before the name tells what they are. -/
theorem roles_kept_partial (kind : ν → Nat) {r : Nat} {w w' : List (Given ν)}
    (h : Parts Nodes.Cs.grammar r w) (h' : Parts Nodes.Cs.grammar r w')
    (hb : bare r = false) (hl : lists r = false) (ht : r ≠ 26)
    (hd : ∀ g ∈ w ++ w', displaces r g.sym = false)
    (hn : (w.map (·.it)).Nodup) (hn' : (w'.map (·.it)).Nodup)
    {g g' : Given ν} (hg : g ∈ w) (hg' : g' ∈ w') {v f f' p : Nat}
    (hs : g.sym = .node v f) (hs' : g'.sym = .node v f')
    (hp : some g.it ∈ (make kind r w).at_ p) (hp' : some g'.it ∈ (make kind r w').at_ p) :
    f = f' := by
  have hr : ∀ w : List (Given ν), make kind r w = apply kind r w Made.new := by
    intro w
    unfold make complete
    have : r ≠ 8 := by rintro rfl; simp [lists] at hl
    simp [this]
  have key : ∀ (u : List (Given ν)), Parts Nodes.Cs.grammar r u → (u.map (·.it)).Nodup →
      ∀ k ∈ u, some k.it ∈ (make kind r u).at_ p → p ∈ placesOf r k.sym := by
    intro u hu hnu k hk hpk
    rw [hr u] at hpk
    rcases apply_from u Made.new (fun g hg => (sym_checked hu hb hl g hg).1) hpk with h | ⟨j, hj, hji, hjt⟩
    · cases h
    · have : j = k := by
        obtain ⟨a, ha, rfl⟩ := List.mem_iff_getElem.1 hj
        obtain ⟨b, hbb, rfl⟩ := List.mem_iff_getElem.1 hk
        have := (List.getElem_inj (i := a) (j := b) (h₀ := by simpa using ha) (h₁ := by simpa using hbb)
          hnu).1 (by simpa using hji)
        subst this
        rfl
      subst this
      exact touches_places hjt
  have k1 := key w h hn g hg hp
  have k2 := key w' h' hn' g' hg' hp'
  refine Decidable.byContradiction fun hne => ?_
  have hc := List.all_eq_true.1 roles_checked r (List.mem_range.2 (rule_lt h))
  simp only [hb, hl, Bool.false_or, Bool.or_eq_true, beq_iff_eq, ht, false_or] at hc
  have hcl : closed Nodes.Cs.grammar r (within r) = true := by
    have := (checked (rule_lt h) hb hl).1
    simp only [checkSyms, Bool.and_eq_true] at this
    exact this.1
  have own : ∀ (u : List (Given ν)), Parts Nodes.Cs.grammar r u → ∀ k ∈ u,
      ∃ c ∈ r :: within r, k.sym ∈ ownSyms Nodes.Cs.grammar c := by
    rintro u ⟨n, hu⟩
    exact part_all (P := fun s => ∃ c ∈ r :: within r, s ∈ ownSyms Nodes.Cs.grammar c) hcl
      (fun c hc s hs => ⟨c, hc, hs⟩) n r (List.mem_cons_self ..) u hu
  obtain ⟨c, hc1, hc2⟩ := own w h g hg
  obtain ⟨c', hc1', hc2'⟩ := own w' h' g' hg'
  have h1 := List.all_eq_true.1 (List.all_eq_true.1 (List.all_eq_true.1 (List.all_eq_true.1 hc c hc1)
    _ hc2) c' hc1') _ hc2'
  rw [hd g (List.mem_append_left _ hg), hd g' (List.mem_append_right _ hg'), hs, hs'] at h1
  simp only [apart, beq_self_eq_true, Bool.true_and, Bool.false_or, Bool.or_eq_true,
    Bool.not_eq_true', bne_eq_false_iff_eq] at h1
  rcases h1 with h1 | h1
  · exact hne h1
  · have := List.all_eq_true.1 h1 p (hs ▸ k1)
    rw [hs'] at k2
    simp [k2] at this

/-! ## Lists with missing elements -/

theorem commas_of {x : Nat} (hx : bare (x % 100) = false) {v : List (Given ν)}
    (h : Many (ofAlts (fun y => if bare (y % 100) then parts Nodes.Cs.grammar n (y % 100) else node y)
      (.cons (.cons (.tok 18 .once) (.cons (.ref x .question) .nil)) .nil)) v) :
    ∀ o : Option (Given ν), (∀ g ∈ o, g.sym = symOf x) →
      ∃ os, Commas 18 os (o.toList ++ v) ∧ ∀ o ∈ os, ∀ g ∈ o, g.sym = symOf x := by
  induction h with
  | nil =>
    intro o ho
    refine ⟨[o], by simpa using Commas.one (comma := 18) (o := o), ?_⟩
    intro o' ho'
    cases List.mem_singleton.1 ho'
    exact ho
  | @cons u v hu _ ih =>
    intro o ho
    simp only [ofAlts, ofSeq, ofItem, repeated, hx, or_false, Bool.false_eq_true, if_false] at hu
    obtain ⟨a, b, rfl, ⟨c, rfl⟩, b', e, rfl, hb, rfl⟩ := hu
    have hb : ∃ o' : Option (Given ν), b' = o'.toList ∧ ∀ g ∈ o', g.sym = symOf x := by
      rcases hb with rfl | rfl | ⟨y, rfl⟩
      · exact ⟨none, rfl, by simp⟩
      · exact ⟨none, rfl, by simp⟩
      · exact ⟨some ⟨symOf x, y⟩, rfl, by simp⟩
    obtain ⟨o', rfl, ho'⟩ := hb
    obtain ⟨os, h1, h2⟩ := ih o' ho'
    refine ⟨o :: os, ?_, ?_⟩
    · simpa using Commas.more (o := o) (c := c) h1
    · intro q hq
      rcases List.mem_cons.1 hq with rfl | hq
      · exact ho
      · exact h2 q hq

theorem apply_commas {kind : ν → Nat} {r : Nat} {s : Sym} (hc : act r (.tok 18) = .flush 0)
    (hs : act r s = .hold) {os : List (Option (Given ν))} {w : List (Given ν)}
    (h : Commas 18 os w) : (∀ o ∈ os, ∀ g ∈ o, g.sym = s) → ∀ m : Made ν, m.last = none →
      (apply kind r w m).at_ 0 ++ [(apply kind r w m).last] =
        m.at_ 0 ++ os.map (·.map (·.it)) := by
  induction h with
  | @one o =>
    intro ho m hm
    cases o with
    | none => simp [apply, hm]
    | some g =>
      have : g.sym = s := ho _ (List.mem_singleton.2 rfl) g rfl
      simp [apply, step, this, hs]
  | @more o os w c _ ih =>
    intro ho m hm
    have ho' : ∀ o ∈ os, ∀ g ∈ o, g.sym = s := fun q hq => ho q (List.mem_cons_of_mem _ hq)
    cases o with
    | none =>
      have := ih ho' (step kind r m ⟨.tok 18, c⟩) (by simp [step, hc])
      simp only [apply, Option.toList_none, List.nil_append, List.foldl_cons] at this ⊢
      rw [this]
      simp [step, hc, Made.set, hm]
    | some g =>
      have hg : g.sym = s := ho _ (List.mem_cons_self ..) g rfl
      have := ih ho' (step kind r (step kind r m g) ⟨.tok 18, c⟩) (by simp [step, hc])
      simp only [apply, Option.toList_some, List.cons_append, List.nil_append,
        List.foldl_cons] at this ⊢
      rw [this]
      simp [step, hc, hs, hg, Made.set]

/-- C95, the lengths of an array: `[a, , b]` is a list with an element for what is before, between
    and after the commas, which is missing where nothing is written. -/
theorem array_lengths_kept (kind : ν → Nat) {w : List (Given ν)}
    (h : Parts Nodes.Cs.grammar 8 w) :
    ∃ os, Commas 18 os w ∧ (∀ o ∈ os, ∀ g ∈ o, g.sym = .node 17 0) ∧
      (make kind 8 w).at_ 0 = os.map (·.map (·.it)) := by
  obtain ⟨n, h⟩ := h
  cases n with
  | zero => exact h.elim
  | succ n =>
    have hG : Nodes.Cs.grammar 8 = some (.cons (.cons (.ref 17 .question) (.cons (.group
      (.cons (.cons (.tok 18 .once) (.cons (.ref 17 .question) .nil)) .nil) .star) .nil)) .nil) := rfl
    simp only [parts, hG] at h
    rcases h with ⟨u, v, rfl, hu, v', e, rfl, hv, rfl⟩ | h
    · have hu : ∃ o : Option (Given ν), u = o.toList ∧ ∀ g ∈ o, g.sym = symOf 17 := by
        rcases hu with rfl | rfl | ⟨y, rfl⟩
        · exact ⟨none, rfl, by simp⟩
        · exact ⟨none, rfl, by simp⟩
        · exact ⟨some ⟨symOf 17, y⟩, rfl, by simp⟩
      obtain ⟨o, rfl, ho⟩ := hu
      obtain ⟨os, h1, h2⟩ := commas_of (x := 17) rfl hv o ho
      simp only [List.append_nil]
      refine ⟨os, h1, h2, ?_⟩
      have := apply_commas (kind := kind) (r := 8) (s := symOf 17) (by decide) (by decide) h1 h2
        Made.new rfl
      simpa [make, complete, Made.set, Made.new] using this
    · exact h.elim

/-- C95, generic arguments: `<A, , B>` has an element for what is before, between and after the
    commas, which is missing where nothing is written. -/
theorem generic_args_kept (kind : ν → Nat) {w : List (Given ν)}
    (h : Parts Nodes.Cs.grammar 41 w) :
    ∃ os v x y ds, w = ⟨.tok 103, x⟩ :: v ++ ds ++ [⟨.tok 104, y⟩] ∧ Commas 18 os v ∧
      (∀ o ∈ os, ∀ g ∈ o, g.sym = .node 40 0) ∧ (∀ d ∈ ds, d.sym = .tok 102) ∧
      (make kind 41 w).at_ 0 = os.map (·.map (·.it)) := by
  obtain ⟨n, h⟩ := h
  cases n with
  | zero => exact h.elim
  | succ n =>
    have hG : Nodes.Cs.grammar 41 = some (.cons (.cons (.tok 103 .once) (.cons (.ref 40 .question)
      (.cons (.group (.cons (.cons (.tok 18 .once) (.cons (.ref 40 .question) .nil)) .nil) .star)
        (.cons (.tok 102 .question) (.cons (.tok 104 .once) .nil))))) .nil) := rfl
    simp only [parts, hG] at h
    rcases h with ⟨b, _, rfl, ⟨x, rfl⟩, u, _, rfl, hu, v, _, rfl, hv, ds, _, rfl, hds, q, e, rfl,
      ⟨y, rfl⟩, rfl⟩ | h
    · have hu : ∃ o : Option (Given ν), u = o.toList ∧ ∀ g ∈ o, g.sym = symOf 40 := by
        rcases hu with rfl | rfl | ⟨y, rfl⟩
        · exact ⟨none, rfl, by simp⟩
        · exact ⟨none, rfl, by simp⟩
        · exact ⟨some ⟨symOf 40, y⟩, rfl, by simp⟩
      obtain ⟨o, rfl, ho⟩ := hu
      obtain ⟨os, h1, h2⟩ := commas_of (x := 40) rfl hv o ho
      have hds' : ∀ d ∈ ds, d.sym = .tok 102 := by
        rcases hds with rfl | ⟨z, rfl⟩
        · intro d hd; cases hd
        · intro d hd; cases List.mem_singleton.1 hd; rfl
      refine ⟨os, o.toList ++ v, x, y, ds, by simp, h1, h2, hds', ?_⟩
      have := apply_commas (kind := kind) (r := 41) (s := symOf 40) (by decide) (by decide) h1 h2
        Made.new rfl
      have hd : ∀ m : Made ν, apply kind 41 ds m = m := by
        intro m
        rcases hds with rfl | ⟨z, rfl⟩
        · rfl
        · have : act 41 (.tok 102) = .drop := by decide
          simp [apply, step, this]
      have h3 : act 41 (.tok 103) = .drop := by decide
      have h4 : act 41 (.tok 104) = .flush 0 := by decide
      simp only [make, complete, apply] at this hd ⊢
      simp only [List.foldl_append, List.foldl_cons, List.foldl_nil, List.cons_append,
        List.nil_append, List.append_nil] at this ⊢
      have h5 : step kind 41 Made.new ⟨.tok 103, x⟩ = Made.new := by simp [step, h3]
      rw [h5, hd]
      simp only [step, h4, Made.set]
      simpa [Made.new] using this
    · exact h.elim

/-- C95, array types: `T[,,]` has the type of its elements and one dimension more than commas. -/
theorem array_type_kept (kind : ν → Nat) {w : List (Given ν)}
    (h : Parts Nodes.Cs.grammar 29 w) :
    (make kind 29 w).at_ 0 = List.replicate (w.countP (fun g => g.sym == .tok 18) + 1) none ∧
      (make kind 29 w).at_ 1 =
        (w.filter fun g => g.sym == .node 31 0).map fun g => some g.it := by
  obtain ⟨n, h⟩ := h
  cases n with
  | zero => exact h.elim
  | succ n =>
    have hG : Nodes.Cs.grammar 29 = some (.cons (.cons (.ref 31 .once) (.cons (.tok 9 .once)
      (.cons (.tok 18 .star) (.cons (.tok 10 .once) .nil)))) .nil) := rfl
    simp only [parts, hG] at h
    have a9 : act 29 (.tok 9) = .drop := by decide
    have a10 : act 29 (.tok 10) = .flush 0 := by decide
    have a18 : act 29 (.tok 18) = .flush 0 := by decide
    have a31 : act 29 (.node 31 0) = .put 1 := by decide
    rcases h with ⟨u, _, rfl, hu, b, _, rfl, ⟨x, rfl⟩, v, _, rfl, hv, q, e, rfl, ⟨y, rfl⟩, rfl⟩ | h
    · have key : ∀ m : Made ν, m.last = none → (apply kind 29 v m).last = none ∧
          (apply kind 29 v m).at_ 1 = m.at_ 1 ∧
          (apply kind 29 v m).at_ 0 =
            m.at_ 0 ++ List.replicate (v.countP fun g => g.sym == .tok 18) none ∧
          v.filter (fun g => g.sym == .node 31 0) = [] := by
        simp only [ofItem, repeated] at hv
        induction hv with
        | nil => intro m hm; simp [apply, hm]
        | cons hu _ ih =>
          obtain ⟨c, rfl⟩ := hu
          intro m hm
          have := ih (step kind 29 m ⟨.tok 18, c⟩) (by simp [step, a18])
          simp only [apply, List.singleton_append, List.foldl_cons] at this ⊢
          refine ⟨this.1, ?_, ?_, ?_⟩
          · rw [this.2.1]; simp [step, a18, Made.set]
          · rw [this.2.2.1]
            simp [step, a18, Made.set, hm, List.replicate_succ]
          · simpa using this.2.2.2
      have s9 : ∀ (m : Made ν) x, step kind 29 m ⟨.tok 9, x⟩ = m := by intro m x; simp [step, a9]
      have s31 : ∀ (m : Made ν) x, step kind 29 m ⟨.node 31 0, x⟩ = m.set 1 [some x] := by
        intro m x; simp [step, a31]
      have s10 : ∀ (m : Made ν) x, step kind 29 m ⟨.tok 10, x⟩ =
          { m.set 0 (m.at_ 0 ++ [m.last]) with last := none } := by intro m x; simp [step, a10]
      have hv31 : valueOf (31 % 100) = 31 := by decide
      simp only [make, complete, apply] at key ⊢
      rcases hu with rfl | ⟨z, rfl⟩
      · obtain ⟨k1, k2, k3, k4⟩ := key Made.new rfl
        simp only [List.foldl_append, List.foldl_cons, List.foldl_nil, s9, s10]
        generalize List.foldl (step kind 29) Made.new v = m at *
        have n0 : (Made.new : Made ν).at_ = fun _ => [] := rfl
        constructor
        · simp [Made.set, k1, k3, n0, List.replicate_succ']
        · simp [Made.set, k2, k4, n0]
      · obtain ⟨k1, k2, k3, k4⟩ := key (Made.new.set 1 [some z]) rfl
        simp only [List.foldl_append, List.foldl_cons, List.foldl_nil, hv31, Nat.reduceDiv, s9, s10,
          s31]
        generalize List.foldl (step kind 29) (Made.new.set 1 [some z]) v = m at *
        have n0 : (Made.new.set 1 [some z] : Made ν).at_ 0 = [] := rfl
        have n1 : (Made.new.set 1 [some z] : Made ν).at_ 1 = [some z] := rfl
        rw [n0] at k3
        rw [n1] at k2
        constructor
        · simp [Made.set, k1, k3, List.replicate_succ']
        · simp [Made.set, k2, k4]
    · exact h.elim

/-! ## What goes wrong -/

section Witness

variable {L : Nat → Lang ν}

theorem c1 {i : Item} {s : Seq} {g : Given ν} {v : List (Given ν)} (h : ofItem L i [g])
    (hs : ofSeq L s v) : ofSeq L (.cons i s) (g :: v) := ⟨[g], v, rfl, h, hs⟩

theorem c0 {i : Item} {s : Seq} {v : List (Given ν)} (h : ofItem L i [])
    (hs : ofSeq L s v) : ofSeq L (.cons i s) v := ⟨[], v, rfl, h, hs⟩

theorem cn {i : Item} {s : Seq} (u : List (Given ν)) {v : List (Given ν)} (h : ofItem L i u)
    (hs : ofSeq L s v) : ofSeq L (.cons i s) (u ++ v) := ⟨u, v, rfl, h, hs⟩

end Witness

/-- A token and a node. -/
private def T (t x : Nat) : Given Nat := ⟨.tok t, x⟩
private def N (v f x : Nat) : Given Nat := ⟨.node v f, x⟩

/-- `new T { A = 1 }`. -/
def newInit : List (Given Nat) := [T 15 0, N 31 0 1, T 16 2, T 3 3, T 32 4, N 17 0 5, T 17 6]

theorem newInit_parts : Parts Nodes.Cs.grammar 5 newInit := by
  refine ⟨3, Or.inl (c1 ⟨0, rfl⟩ (c1 (Or.inr ⟨1, rfl⟩) (cn [T 16 2, T 3 3, T 32 4, N 17 0 5, T 17 6]
    (Or.inr (Or.inl ?_)) rfl)))⟩
  refine c0 (Or.inl rfl) (c1 ⟨2, rfl⟩ (cn [T 3 3, T 32 4, N 17 0 5] (Or.inr (Or.inl ?_))
    (c1 ⟨6, rfl⟩ rfl)))
  refine cn [T 3 3, T 32 4, N 17 0 5] (Or.inl ?_) (c0 .nil (c0 (Or.inl rfl) rfl))
  exact cn [T 3 3, T 32 4] (Or.inr (Or.inl (c1 ⟨3, rfl⟩ (c1 ⟨4, rfl⟩ rfl))))
    (c1 (Or.inr ⟨5, rfl⟩) rfl)

/-- C95 refuted for object initializers: what is written in the braces of `new T { A = 1 }` is
    nowhere, and nothing is reported. -/
theorem new_initializer_refuted : ∃ w : List (Given Nat), Parts Nodes.Cs.grammar 5 w ∧
    ∃ g ∈ w, matters g = true ∧ ¬ Made.has (make id 5 w) g.it ∧ (make id 5 w).errors = 0 ∧
      (make id 5 w).failed = false := by
  refine ⟨newInit, newInit_parts, N 17 0 5, by decide, by decide, ?_, by decide, by decide⟩
  rintro ⟨p, hp⟩
  rcases apply_from (kind := id) (r := 5) newInit Made.new (by decide) hp with h | ⟨g, hg, hi, ht⟩
  · cases h
  · have : ∀ g ∈ newInit, g.it = (N 17 0 5).it → placesOf 5 g.sym = [] := by decide
    have h1 := touches_places ht
    rw [this g hg hi] at h1
    cases h1

/-- `namespace A { using B; }`. -/
def nsUsing : List (Given Nat) := [T 64 0, N 21 0 1, T 16 2, N 20 0 3, T 17 4]

theorem nsUsing_parts : Parts Nodes.Cs.grammar 19 nsUsing := by
  refine ⟨1, Or.inl (c1 ⟨0, rfl⟩ (c1 (Or.inr ⟨1, rfl⟩) (c1 ⟨2, rfl⟩ (c1 ?_ (c0 .nil
    (c1 ⟨4, rfl⟩ rfl))))))⟩
  exact Many.cons (u := [N 20 0 3]) (v := []) (Or.inr ⟨3, rfl⟩) .nil

/-- C95 refuted for `using` in a namespace: it is nowhere, and nothing is reported. -/
theorem namespace_using_refuted : ∃ w : List (Given Nat), Parts Nodes.Cs.grammar 19 w ∧
    ∃ g ∈ w, matters g = true ∧ ¬ Made.has (make id 19 w) g.it ∧ (make id 19 w).errors = 0 ∧
      (make id 19 w).failed = false := by
  refine ⟨nsUsing, nsUsing_parts, N 20 0 3, by decide, by decide, ?_, by decide, by decide⟩
  rintro ⟨p, hp⟩
  rcases apply_from (kind := id) (r := 19) nsUsing Made.new (by decide) hp with h | ⟨g, hg, hi, ht⟩
  · cases h
  · have : ∀ g ∈ nsUsing, g.it = (N 20 0 3).it → placesOf 19 g.sym = [] := by decide
    have h1 := touches_places ht
    rw [this g hg hi] at h1
    cases h1

/-- `X(a = 1, b = 2)` in an attribute. -/
def attrTwo : List (Given Nat) := [N 31 0 0, T 13 1, N 49 0 2, T 18 3, N 49 0 4, T 14 5]

theorem attrTwo_parts : Parts Nodes.Cs.grammar 50 attrTwo := by
  refine ⟨1, Or.inl (c1 (Or.inr ⟨0, rfl⟩) (cn [T 13 1, N 49 0 2, T 18 3, N 49 0 4, T 14 5]
    (Or.inr (Or.inl ?_)) rfl))⟩
  refine c1 ⟨1, rfl⟩ (cn [N 49 0 2, T 18 3, N 49 0 4] (Or.inr (Or.inl ?_)) (c1 ⟨5, rfl⟩ rfl))
  refine c1 (Or.inr (Or.inl (c1 (Or.inr ⟨2, rfl⟩) rfl))) (cn [T 18 3, N 49 0 4] ?_ rfl)
  exact Many.cons (u := [T 18 3, N 49 0 4]) (v := [])
    (Or.inl (c1 ⟨3, rfl⟩ (c1 (Or.inr ⟨4, rfl⟩) rfl))) .nil

/-- C95 refuted for the values of attributes: only the last one of them is kept, and nothing is
    reported. -/
theorem attribute_values_refuted : ∃ w : List (Given Nat), Parts Nodes.Cs.grammar 50 w ∧
    ∃ g ∈ w, matters g = true ∧ ¬ Made.has (make id 50 w) g.it ∧ (make id 50 w).errors = 0 ∧
      (make id 50 w).failed = false := by
  refine ⟨attrTwo, attrTwo_parts, N 49 0 2, by decide, by decide, ?_, by decide, by decide⟩
  rintro ⟨p, hp⟩
  rcases apply_from (kind := id) (r := 50) attrTwo Made.new (by decide) hp with h | ⟨g, hg, hi, ht⟩
  · cases h
  · have : ∀ g ∈ attrTwo, g.it = (N 49 0 2).it → placesOf 50 g.sym = [1] := by decide
    have h1 := touches_places ht
    rw [this g hg hi] at h1
    cases List.mem_singleton.1 h1
    revert hp
    decide

/-- `operator T ();` and `U.name();`. -/
def conversion : List (Given Nat) := [T 110 0, N 31 7 1, T 13 2, T 14 3, T 4 4]
def owned : List (Given Nat) := [N 31 6 0, T 21 1, T 3 2, T 13 3, T 14 4, T 4 5]

theorem conversion_parts : Parts Nodes.Cs.grammar 55 conversion := by
  refine ⟨1, Or.inl (c0 (Or.inl rfl) (c0 (Or.inl rfl) (c0 (Or.inl rfl) (c0 (Or.inl rfl)
    (c0 (Or.inl rfl) (cn [T 110 0, N 31 7 1] ?_ (c0 (Or.inl rfl) (c1 ⟨2, rfl⟩ (c0 (Or.inl rfl)
      (c1 ⟨3, rfl⟩ (c0 (Or.inl rfl) (c0 (Or.inl rfl) (c1 ?_ rfl)))))))))))))⟩
  · exact Or.inr (Or.inl (c1 ⟨0, rfl⟩ (c1 (Or.inr (Or.inl (c1 (Or.inr ⟨1, rfl⟩) rfl))) rfl)))
  · exact Or.inr (Or.inl (c1 ⟨4, rfl⟩ rfl))

theorem owned_parts : Parts Nodes.Cs.grammar 55 owned := by
  refine ⟨1, Or.inl (c0 (Or.inl rfl) (c0 (Or.inl rfl) (c0 (Or.inl rfl) (c0 (Or.inl rfl)
    (cn [N 31 6 0, T 21 1] ?_ (c1 ?_ (c0 (Or.inl rfl) (c1 ⟨3, rfl⟩ (c0 (Or.inl rfl)
      (c1 ⟨4, rfl⟩ (c0 (Or.inl rfl) (c0 (Or.inl rfl) (c1 ?_ rfl)))))))))))))⟩
  · exact Or.inr (Or.inl (c1 (Or.inr ⟨0, rfl⟩) (c1 ⟨1, rfl⟩ rfl)))
  · exact Or.inl (c1 ⟨2, rfl⟩ rfl)
  · exact Or.inr (Or.inl (c1 ⟨5, rfl⟩ rfl))

/-- C95 refuted for conversion operators: the type to convert to is at the place of the type that
    the method belongs to. -/
theorem conversion_role_refuted : ∃ w w' : List (Given Nat), Parts Nodes.Cs.grammar 55 w ∧
    Parts Nodes.Cs.grammar 55 w' ∧ ∃ g ∈ w, ∃ g' ∈ w', g.sym = .node 31 7 ∧ g'.sym = .node 31 6 ∧
      ∃ p, some g.it ∈ (make id 55 w).at_ p ∧ some g'.it ∈ (make id 55 w').at_ p :=
  ⟨conversion, owned, conversion_parts, owned_parts, N 31 7 1, by decide, N 31 6 0, by decide, rfl,
    rfl, 3, by decide, by decide⟩

/-- `T name { add; }`; the accessor is the part 4. -/
def addProperty : List (Given Nat) := [N 31 5 0, T 3 1, T 16 2, N 55 0 4, T 17 3]

theorem addProperty_parts : Parts Nodes.Cs.grammar 59 addProperty := by
  refine ⟨1, Or.inl (c0 (Or.inl rfl) (c0 (Or.inl rfl) (c1 (Or.inr ⟨0, rfl⟩) (c1 ?_ (c1 ⟨2, rfl⟩
    (c1 ?_ (c1 ⟨3, rfl⟩ rfl)))))))⟩
  · exact Or.inl (c0 (Or.inl rfl) (c1 ⟨1, rfl⟩ rfl))
  · exact Many.cons (u := [N 55 0 4]) (v := []) (Or.inr ⟨4, rfl⟩) .nil

/-- An accessor of an event in a property is not reported as an error: an assertion fails. -/
theorem accessor_refuted : ∃ (kind : Nat → Nat) (w : List (Given Nat)),
    Parts Nodes.Cs.grammar 59 w ∧ (make kind 59 w).errors = 0 ∧ (make kind 59 w).failed = true :=
  ⟨fun _ => 2, addProperty, addProperty_parts, by decide, by decide⟩

/-! ## Examples -/

/-- `if (a) b else c`. -/
def ifElse : List (Given Nat) :=
  [T 120 0, T 13 1, N 18 0 2, T 14 3, N 82 11 4, T 121 5, N 82 12 6]

theorem ifElse_parts : Parts Nodes.Cs.grammar 65 ifElse := by
  refine ⟨1, Or.inl (c1 ⟨0, rfl⟩ (c1 ⟨1, rfl⟩ (c1 (Or.inr ⟨2, rfl⟩) (c1 ⟨3, rfl⟩
    (c1 (Or.inr ⟨4, rfl⟩) (cn [T 121 5, N 82 12 6] (Or.inr (Or.inl ?_)) rfl))))))⟩
  exact c1 ⟨5, rfl⟩ (c1 (Or.inr ⟨6, rfl⟩) rfl)

example : Made.has (make id 65 ifElse) 6 := by
  rcases parts_kept_partial id ifElse_parts rfl rfl (by decide) (g := N 82 12 6) (by decide) rfl rfl with
    h | h | h
  · exact h
  · exact absurd h (by decide)
  · exact absurd h (by decide)

example : (make id 65 ifElse).at_ 1 = [some 4] ∧ (make id 65 ifElse).at_ 2 = [some 6] := by decide

example {p : Nat} (h : some 4 ∈ (make id 65 ifElse).at_ p)
    (h' : some 6 ∈ (make id 65 ifElse).at_ p) : False :=
  absurd (roles_kept_partial id ifElse_parts ifElse_parts rfl rfl (by decide) (by decide) (by decide)
    (by decide) (g := N 82 11 4) (g' := N 82 12 6) (by decide) (by decide) rfl rfl h h') (by decide)

/-- `a, , b` in the lengths of an array. -/
def lengths : List (Given Nat) := [N 17 0 0, T 18 1, T 18 2, N 17 0 3]

theorem lengths_parts : Parts Nodes.Cs.grammar 8 lengths := by
  refine ⟨1, Or.inl (c1 (Or.inr (Or.inr ⟨0, rfl⟩)) (cn [T 18 1, T 18 2, N 17 0 3] ?_ rfl))⟩
  exact Many.cons (u := [T 18 1]) (v := [T 18 2, N 17 0 3])
    (Or.inl (c1 ⟨1, rfl⟩ (c0 (Or.inl rfl) rfl)))
    (Many.cons (u := [T 18 2, N 17 0 3]) (v := [])
      (Or.inl (c1 ⟨2, rfl⟩ (c1 (Or.inr (Or.inr ⟨3, rfl⟩)) rfl))) .nil)

example : (make id 8 lengths).at_ 0 = [some 0, none, some 3] := by decide

/-- `<A, >`. -/
example : Parts Nodes.Cs.grammar 41 [T 103 0, N 40 0 1, T 18 2, T 104 3] := by
  refine ⟨1, Or.inl (c1 ⟨0, rfl⟩ (c1 (Or.inr (Or.inr ⟨1, rfl⟩)) (cn [T 18 2] ?_ (c0 (Or.inl rfl)
    (c1 ⟨3, rfl⟩ rfl)))))⟩
  exact Many.cons (u := [T 18 2]) (v := []) (Or.inl (c1 ⟨2, rfl⟩ (c0 (Or.inl rfl) rfl))) .nil

/-- `T[,]`. -/
example : Parts Nodes.Cs.grammar 29 [N 31 0 0, T 9 1, T 18 2, T 10 3] :=
  ⟨1, Or.inl (c1 (Or.inr ⟨0, rfl⟩) (c1 ⟨1, rfl⟩ (c1 (Many.cons (u := [T 18 2]) (v := []) ⟨2, rfl⟩ .nil)
    (c1 ⟨3, rfl⟩ rfl))))⟩

end Verif.Props.Nodes
