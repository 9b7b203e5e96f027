import Verif.Spec.Structs

/-!
# Structs: what relates memory to values
-/

namespace Verif.Structs

open Spec (Cell Frame)

/-! ## Programs the theorem is about -/

/-- `this` is used in methods of a struct only. -/
def finePlace (M : Method) (p : Place) : Bool := p.root != .self || M.self.isSome

mutual
/-- No `new S()`, no `this` as a value, and no struct variable passed inside the left side of a `.` (`copy` is false
there). -/
def fineE (M : Method) (copy : Bool) : Exp → Bool
  | .const _ => true
  | .var _ => true
  | .fld p _ => finePlace M p
  | .bin _ a b => fineE M copy a && fineE M copy b
  | .call _ args => fineA M copy args
  | .callOn p _ _ args => finePlace M p && fineA M copy args
  | .temp t n s _ => decide (M.vars ≤ t) && decide (t + n ≤ M.locals) && fineS M false s
def fineS (M : Method) (copy : Bool) : SExp → Bool
  | .place p _ => copy && finePlace M p
  | .call _ _ args => fineA M copy args
  | .callOn _ p _ _ args => finePlace M p && fineA M copy args
  | .new _ _ args => fineA M copy args
  | .newDefault _ => false
  | .this _ => false
def fineA (M : Method) (copy : Bool) : Args → Bool
  | .nil => true
  | .int e rest => fineE M copy e && fineA M copy rest
  | .str _ s rest => fineS M copy s && fineA M copy rest
end

def fineStmt (M : Method) : Stmt → Bool
  | .done => true
  | .setVar _ e k => fineE M true e && fineStmt M k
  | .setFld p _ e k => finePlace M p && fineE M true e && fineStmt M k
  | .setStr p _ s k => finePlace M p && fineS M true s && fineStmt M k
  | .call _ args k => fineA M true args && fineStmt M k
  | .callOn p _ _ args k => finePlace M p && fineA M true args && fineStmt M k
  | .ite e a b k => fineE M true e && fineStmt M a && fineStmt M b && fineStmt M k
  | .ret => true
  | .retInt e => fineE M true e
  | .retStr s => fineS M true s

/-- What the theorem asks of a program. -/
def fine (P : List Method) : Bool := P.all fun M => decide (M.vars ≤ M.locals) && fineStmt M M.body

/-! ## Memory -/

def No : Nat → Prop := fun _ => False

def Reg (d n : Nat) : Nat → Prop := fun a => d ≤ a ∧ a < d + n

/-- Memory from `a` on holds `l`, except at `X`. -/
def Block (mem : Nat → V) (a : Nat) (l : List Cell) (X : Nat → Prop) : Prop :=
  ∀ (i : Nat) (v : Word), l[i]? = some (some v) → ¬ X (a + i) → mem (a + i) = .num v

theorem Block.weaken {mem : Nat → V} {a : Nat} {l : List Cell} {X Y : Nat → Prop} (h : Block mem a l X)
    (hxy : ∀ x, a ≤ x → x < a + l.length → X x → Y x) : Block mem a l Y := by
  intro i v hi hy
  have hlt : i < l.length := (List.getElem?_eq_some_iff.1 hi).1
  exact h i v hi fun hx => hy (hxy _ (by omega) (by omega) hx)

theorem Block.mem {mem mem' : Nat → V} {a : Nat} {l : List Cell} {X : Nat → Prop} (h : Block mem a l X)
    (hm : ∀ x, a ≤ x → x < a + l.length → ¬ X x → mem' x = mem x) : Block mem' a l X := by
  intro i v hi hy
  have hlt : i < l.length := (List.getElem?_eq_some_iff.1 hi).1
  rw [hm (a + i) (by omega) (by omega) hy]
  exact h i v hi hy

theorem Block.append {mem : Nat → V} {a : Nat} {l l' : List Cell} {X : Nat → Prop} (h : Block mem a l X)
    (h' : Block mem (a + l.length) l' X) : Block mem a (l ++ l') X := by
  intro i v hi hx
  rcases Nat.lt_or_ge i l.length with hlt | hge
  · rw [List.getElem?_append_left hlt] at hi
    exact h i v hi hx
  · rw [List.getElem?_append_right hge] at hi
    have := h' (i - l.length) v hi
    rw [show a + l.length + (i - l.length) = a + i by omega] at this
    exact this hx

theorem block_nones {mem : Nat → V} {a n : Nat} {X : Nat → Prop} : Block mem a (List.replicate n none) X := by
  intro i v hi _
  rw [List.getElem?_replicate] at hi
  split at hi <;> simp at hi

theorem block_one {mem : Nat → V} {a : Nat} {v : Word} {X : Nat → Prop} (h : mem a = .num v) :
    Block mem a [some v] X := by
  intro i w hi _
  cases i with
  | zero => simp at hi; subst hi; exact h
  | succ i => simp at hi

/-! ## A call under way -/

structure Geo where
  M : Method
  /-- the first argument -/
  b : Nat
  /-- where `this` points -/
  ta : Nat
  /-- where a struct that is returned goes -/
  d : Nat
  /-- the `lp` of the caller -/
  l0 : Nat

def floor (r : Ret) (b : Nat) : Nat := match r with
  | .str _ => b - 1
  | _ => b

namespace Geo

def lp (G : Geo) : Nat := G.b + G.M.units + 3
def fin (G : Geo) : Nat := G.lp + G.M.locals
def tn (G : Geo) : Nat := G.M.self.getD 0

/-- Units that hold variables of the program. -/
def Vars (G : Geo) (a : Nat) : Prop :=
  (G.b + G.M.off ≤ a ∧ a < G.b + G.M.units) ∨ (G.lp ≤ a ∧ a < G.lp + G.M.vars) ∨ (G.ta ≤ a ∧ a < G.ta + G.tn)

/-- Units the method may change. -/
def W (G : Geo) (a : Nat) : Prop :=
  (G.b + G.M.off ≤ a ∧ a < G.b + G.M.units) ∨ (G.lp ≤ a ∧ a < G.lp + G.M.locals) ∨ (G.ta ≤ a ∧ a < G.ta + G.tn)

/-- Units that must stay: `this`, the caller's `lp`, the address of the result. -/
def Prot (G : Geo) (a : Nat) : Prop :=
  (G.M.self.isSome ∧ a = G.b) ∨ a = G.b + G.M.units ∨ ((∃ n, G.M.ret = .str n) ∧ a + 1 = G.b)

def org (G : Geo) : Root → Nat
  | .loc _ => G.lp
  | .par _ => G.b + G.M.off
  | .self => G.ta

def addr (G : Geo) (p : Place) : Nat := G.org p.root + Spec.index p

end Geo

/-- Memory holds what the frame says, except at `X`. -/
structure Rel (G : Geo) (X : Nat → Prop) (f : Frame) (σ : St) : Prop where
  lp : σ.lp = G.lp
  top : G.fin ≤ σ.top
  vars : G.M.vars ≤ G.M.locals
  parsLen : f.pars.length = G.M.params
  locsLen : f.locs.length = G.M.vars
  selfLen : f.self.length = G.tn
  pars : Block σ.mem (G.b + G.M.off) f.pars X
  locs : Block σ.mem G.lp f.locs X
  self : Block σ.mem G.ta f.self X
  this : G.M.self.isSome → σ.mem G.b = .ptr G.ta
  below : G.ta + G.tn ≤ floor G.M.ret G.b
  stub : σ.mem (G.b + G.M.units) = .ptr G.l0
  dst : ∀ n, G.M.ret = .str n → 1 ≤ G.b ∧ σ.mem (G.b - 1) = .ptr G.d ∧ G.d + n ≤ G.b - 1

theorem floor_le (r : Ret) (b : Nat) : floor r b ≤ b := by
  cases r <;> simp [floor]

theorem units_eq (M : Method) : M.units = M.off + M.params := rfl

theorem off_le (M : Method) : M.off ≤ 1 := by unfold Method.off; split <;> omega

theorem Rel.vars_lt {G : Geo} {X : Nat → Prop} {f : Frame} {σ : St} (h : Rel G X f σ) {a : Nat} (ha : G.Vars a) :
    a < G.fin := by
  have h1 := h.below
  have h2 := floor_le G.M.ret G.b
  have h3 := h.vars
  unfold Geo.Vars at ha
  unfold Geo.fin
  unfold Geo.lp at *
  omega

theorem Rel.vars_w {G : Geo} {X : Nat → Prop} {f : Frame} {σ : St} (h : Rel G X f σ) {a : Nat} (ha : G.Vars a) :
    G.W a := by
  have h3 := h.vars
  unfold Geo.Vars at ha
  unfold Geo.W
  omega

theorem Rel.w_lt {G : Geo} {X : Nat → Prop} {f : Frame} {σ : St} (h : Rel G X f σ) {a : Nat} (ha : G.W a) :
    a < G.fin := by
  have h1 := h.below
  have h2 := floor_le G.M.ret G.b
  unfold Geo.W at ha
  unfold Geo.fin
  unfold Geo.lp at *
  omega

theorem Rel.w_prot {G : Geo} {X : Nat → Prop} {f : Frame} {σ : St} (h : Rel G X f σ) {a : Nat} (ha : G.W a) :
    ¬ G.Prot a := by
  have h1 := h.below
  have h2 := floor_le G.M.ret G.b
  have h4 := units_eq G.M
  rintro (⟨hs, hp⟩ | hp | ⟨⟨n, hn⟩, hp⟩)
  · have : G.M.off = 1 := by simp [Method.off, hs]
    unfold Geo.W at ha
    unfold Geo.lp at *
    omega
  · unfold Geo.W at ha
    unfold Geo.lp at *
    omega
  · rw [hn] at h1
    simp only [floor] at h1
    unfold Geo.W at ha
    unfold Geo.lp at *
    omega

theorem Geo.prot_lt {G : Geo} {a : Nat} (ha : G.Prot a) : a < G.fin := by
  unfold Geo.fin Geo.lp
  rcases ha with ⟨_, h⟩ | h | ⟨_, h⟩ <;> omega

/-- Memory changed at `Y` only. -/
theorem Rel.change {G : Geo} {X Y : Nat → Prop} {f : Frame} {σ σ' : St} (h : Rel G X f σ) (hlp : σ'.lp = σ.lp)
    (htop : G.fin ≤ σ'.top) (hxy : ∀ a, X a → Y a) (hm : ∀ a, a < G.fin → ¬ Y a → σ'.mem a = σ.mem a)
    (hp : ∀ a, Y a → ¬ G.Prot a) : Rel G Y f σ' where
  lp := hlp.trans h.lp
  top := htop
  vars := h.vars
  parsLen := h.parsLen
  locsLen := h.locsLen
  selfLen := h.selfLen
  pars := by
    refine (h.pars.weaken fun x _ _ => hxy x).mem fun x h1 h2 h3 => hm x ?_ h3
    have := h.parsLen
    exact h.vars_lt (Or.inl ⟨h1, by rw [units_eq]; omega⟩)
  locs := by
    refine (h.locs.weaken fun x _ _ => hxy x).mem fun x h1 h2 h3 => hm x ?_ h3
    have := h.locsLen
    exact h.vars_lt (Or.inr (Or.inl ⟨h1, by omega⟩))
  self := by
    refine (h.self.weaken fun x _ _ => hxy x).mem fun x h1 h2 h3 => hm x ?_ h3
    have := h.selfLen
    exact h.vars_lt (Or.inr (Or.inr ⟨h1, by omega⟩))
  this := by
    intro hs
    have hpr : G.Prot G.b := Or.inl ⟨hs, rfl⟩
    rw [hm _ (Geo.prot_lt hpr) fun hy => hp _ hy hpr]
    exact h.this hs
  below := h.below
  stub := by
    have hpr : G.Prot (G.b + G.M.units) := Or.inr (Or.inl rfl)
    rw [hm _ (Geo.prot_lt hpr) fun hy => hp _ hy hpr]
    exact h.stub
  dst := by
    intro n hn
    obtain ⟨h1, h2, h3⟩ := h.dst n hn
    have hpr : G.Prot (G.b - 1) := Or.inr (Or.inr ⟨⟨n, hn⟩, by omega⟩)
    rw [hm _ (Geo.prot_lt hpr) fun hy => hp _ hy hpr]
    exact ⟨h1, h2, h3⟩

/-- What is left out may shrink to what concerns variables. -/
theorem Rel.shrink {G : Geo} {X Y : Nat → Prop} {f : Frame} {σ : St} (h : Rel G X f σ)
    (hxy : ∀ a, G.Vars a → X a → Y a) : Rel G Y f σ where
  lp := h.lp
  top := h.top
  vars := h.vars
  parsLen := h.parsLen
  locsLen := h.locsLen
  selfLen := h.selfLen
  pars := by
    have := h.parsLen
    exact h.pars.weaken fun x h1 h2 => hxy x (Or.inl ⟨h1, by rw [units_eq]; omega⟩)
  locs := by
    have := h.locsLen
    exact h.locs.weaken fun x h1 h2 => hxy x (Or.inr (Or.inl ⟨h1, by omega⟩))
  self := by
    have := h.selfLen
    exact h.self.weaken fun x h1 h2 => hxy x (Or.inr (Or.inr ⟨h1, by omega⟩))
  this := h.this
  below := h.below
  stub := h.stub
  dst := h.dst

theorem Rel.push {G : Geo} {X : Nat → Prop} {f : Frame} {σ : St} (h : Rel G X f σ) (v : V)
    (hp : ∀ a, X a → ¬ G.Prot a) : Rel G X f (σ.push v) := by
  have ht := h.top
  refine h.change rfl (by simp only [St.push]; omega) (fun _ => id) (fun a ha _ => ?_) hp
  simp only [St.push, upd]
  rw [if_neg (by omega)]

theorem no_prot {G : Geo} : ∀ a, No a → ¬ G.Prot a := fun _ h => h.elim

/-! ## Places -/

theorem Rel.get_block {G : Geo} {X : Nat → Prop} {f : Frame} {σ : St} (h : Rel G X f σ) (r : Root) :
    Block σ.mem (G.org r) (f.get r) X := by
  cases r
  · exact h.locs
  · exact h.pars
  · exact h.self

theorem Rel.get_vars {G : Geo} {X : Nat → Prop} {f : Frame} {σ : St} (h : Rel G X f σ) (r : Root) (a : Nat)
    (h1 : G.org r ≤ a) (h2 : a < G.org r + (f.get r).length) : G.Vars a := by
  have hp := h.parsLen
  have hl := h.locsLen
  have hs := h.selfLen
  have hu := units_eq G.M
  cases r <;> simp only [Geo.org, Frame.get] at h1 h2 <;> unfold Geo.Vars <;> omega

theorem Rel.read {G : Geo} {X : Nat → Prop} {f : Frame} {σ : St} (h : Rel G X f σ) {p : Place} {n : Nat} {l : List Cell}
    (hr : Spec.read f p n = some l) :
    l.length = n ∧ Block σ.mem (G.addr p) l X ∧ (∀ a, Reg (G.addr p) n a → G.Vars a) := by
  simp only [Spec.read] at hr
  split at hr
  · rename_i hle
    simp only [Option.some.injEq] at hr
    subst hr
    refine ⟨by simp only [List.length_take, List.length_drop]; omega, ?_, ?_⟩
    · intro i v hi hx
      rw [List.getElem?_take] at hi
      split at hi
      · rw [List.getElem?_drop] at hi
        have := h.get_block p.root (Spec.index p + i) v hi
        rw [← Nat.add_assoc] at this
        exact this hx
      · simp at hi
    · intro a ha
      simp only [Reg, Geo.addr] at ha
      exact h.get_vars p.root a (by omega) (by omega)
  · simp at hr

theorem splice_get {l v : List Cell} {k i : Nat} (hk : k + v.length ≤ l.length) :
    (l.take k ++ (v ++ l.drop (k + v.length)))[i]? = if k ≤ i ∧ i < k + v.length then v[i - k]? else l[i]? := by
  have hlen : (l.take k).length = k := by rw [List.length_take]; omega
  rcases Nat.lt_or_ge i k with h | h
  · rw [List.getElem?_append_left (by omega), List.getElem?_take, if_pos h, if_neg (by omega)]
  · rw [List.getElem?_append_right (by omega), hlen]
    rcases Nat.lt_or_ge (i - k) v.length with h' | h'
    · rw [List.getElem?_append_left h', if_pos (by omega)]
    · rw [List.getElem?_append_right h', List.getElem?_drop, if_neg (by omega)]
      congr 1
      omega

/-- A block after a part of it is replaced. -/
theorem block_splice {mem : Nat → V} {a k : Nat} {l v : List Cell} {Y Z : Nat → Prop} (hk : k + v.length ≤ l.length)
    (h : Block mem a l Z) (hz : ∀ x, Z x → Y x ∨ Reg (a + k) v.length x) (hv : Block mem (a + k) v Y) :
    Block mem a (l.take k ++ (v ++ l.drop (k + v.length))) Y := by
  intro i w hi hy
  rw [splice_get hk] at hi
  split at hi
  · rename_i hc
    have := hv (i - k) w hi
    rw [show a + k + (i - k) = a + i by omega] at this
    exact this hy
  · rename_i hc
    refine h i w hi fun hx => ?_
    rcases hz _ hx with h1 | h1
    · exact hy h1
    · simp only [Reg] at h1
      omega

theorem block_apart {mem : Nat → V} {a d n : Nat} {l : List Cell} {Y Z : Nat → Prop} (h : Block mem a l Z)
    (hz : ∀ x, Z x → Y x ∨ Reg d n x) (hd : a + l.length ≤ d ∨ d + n ≤ a) : Block mem a l Y := by
  refine h.weaken fun x h1 h2 hx => ?_
  rcases hz x hx with h3 | h3
  · exact h3
  · simp only [Reg] at h3
    omega

theorem Rel.write {G : Geo} {Y Z : Nat → Prop} {f f' : Frame} {σ : St} {p : Place} {v : List Cell} (h : Rel G Z f σ)
    (hw : Spec.write f p v = some f') (hz : ∀ x, Z x → Y x ∨ Reg (G.addr p) v.length x)
    (hv : Block σ.mem (G.addr p) v Y) : Rel G Y f' σ := by
  have hb := h.below
  have hf := floor_le G.M.ret G.b
  have hpl := h.parsLen
  have hll := h.locsLen
  have hsl := h.selfLen
  have hu := units_eq G.M
  simp only [Spec.write] at hw
  split at hw
  · rename_i hle
    simp only [Option.some.injEq] at hw
    subst hw
    obtain ⟨r, offs⟩ := p
    have hlen : ∀ (l : List Cell) (k : Nat), k + v.length ≤ l.length →
        (l.take k ++ (v ++ l.drop (k + v.length))).length = l.length := by
      intro l k hk
      simp only [List.length_append, List.length_take, List.length_drop]
      omega
    cases r with
    | loc i =>
      simp only [Frame.get, Geo.addr, Geo.org] at hle hz hv
      refine ⟨h.lp, h.top, h.vars, hpl, ?_, hsl, ?_, ?_, ?_, h.this, h.below, h.stub, h.dst⟩
      · exact (hlen _ _ hle).trans hll
      · exact block_apart (l := f.pars) h.pars hz (Or.inl (by unfold Geo.lp; omega))
      · exact block_splice hle h.locs hz hv
      · exact block_apart (l := f.self) h.self hz (Or.inl (by unfold Geo.lp; omega))
    | par i =>
      simp only [Frame.get, Geo.addr, Geo.org] at hle hz hv
      refine ⟨h.lp, h.top, h.vars, ?_, hll, hsl, ?_, ?_, ?_, h.this, h.below, h.stub, h.dst⟩
      · exact (hlen _ _ hle).trans hpl
      · exact block_splice hle h.pars hz hv
      · exact block_apart (l := f.locs) h.locs hz (Or.inr (by unfold Geo.lp; omega))
      · exact block_apart (l := f.self) h.self hz (Or.inl (by omega))
    | self =>
      simp only [Frame.get, Geo.addr, Geo.org] at hle hz hv
      refine ⟨h.lp, h.top, h.vars, hpl, hll, ?_, ?_, ?_, ?_, h.this, h.below, h.stub, h.dst⟩
      · exact (hlen _ _ hle).trans hsl
      · exact block_apart (l := f.pars) h.pars hz (Or.inr (by omega))
      · exact block_apart (l := f.locs) h.locs hz (Or.inr (by unfold Geo.lp; omega))
      · exact block_splice hle h.self hz hv
  · simp at hw

/-- The place a write goes to holds variables. -/
theorem Rel.write_vars {G : Geo} {X : Nat → Prop} {f f' : Frame} {σ : St} {p : Place} {v : List Cell} (h : Rel G X f σ)
    (hw : Spec.write f p v = some f') : ∀ a, Reg (G.addr p) v.length a → G.Vars a := by
  simp only [Spec.write] at hw
  split at hw
  · intro a ha
    simp only [Reg, Geo.addr] at ha
    exact h.get_vars p.root a (by omega) (by omega)
  · simp at hw

theorem number_read {f : Frame} {p : Place} {v : Word} (h : Spec.number f p = some v) :
    Spec.read f p 1 = some [some v] := by
  unfold Spec.number at h
  split at h
  · simp only [Option.some.injEq] at h
    subst h
    assumption
  · simp at h

theorem Rel.number {G : Geo} {X : Nat → Prop} {f : Frame} {σ : St} (h : Rel G X f σ) {p : Place} {v : Word}
    (hr : Spec.number f p = some v) (hx : ¬ X (G.addr p)) : σ.mem (G.addr p) = .num v := by
  obtain ⟨_, hb, _⟩ := h.read (number_read hr)
  exact hb 0 v rfl hx

/-! ## Code -/

theorem steps_append (M : Method) (F : Nat → St → Option St) (a b : List Op) (σ : St) :
    steps M F (a ++ b) σ = (steps M F a σ).bind (steps M F b) := by
  induction a generalizing σ with
  | nil => rfl
  | cons o a ih =>
    simp only [List.cons_append, steps]
    cases step M F o σ with
    | none => rfl
    | some σ' => exact ih σ'

theorem steps_trans {M : Method} {F : Nat → St → Option St} {a b : List Op} {σ σ' : St} (h : steps M F a σ = some σ') :
    steps M F (a ++ b) σ = steps M F b σ' := by
  rw [steps_append, h]
  rfl

theorem steps_cons {M : Method} {F : Nat → St → Option St} {o : Op} {b : List Op} {σ σ' : St}
    (h : step M F o σ = some σ') : steps M F (o :: b) σ = steps M F b σ' := by
  rw [steps, h]

theorem steps_one {M : Method} {F : Nat → St → Option St} {o : Op} {σ : St} : steps M F [o] σ = step M F o σ := by
  rw [steps]
  cases step M F o σ <;> rfl

theorem upd_upd (mem : Nat → V) (a : Nat) (v w : V) : upd (upd mem a v) a w = upd mem a w := by
  funext x
  simp only [upd]
  split <;> rfl

theorem push_peek (σ : St) (v : V) : (σ.push v).peek = v := by
  simp [St.push, St.peek, upd]

theorem push_drop_push (σ : St) (v w : V) : (σ.push v).drop.push w = σ.push w := by
  simp [St.push, St.drop, upd_upd]

theorem argAt_eq {G : Geo} {X : Nat → Prop} {f : Frame} {σ : St} (h : Rel G X f σ) (i : Nat) :
    argAt G.M σ.lp i = G.b + i := by
  rw [argAt, h.lp, Geo.lp]
  omega

theorem sum_snoc (l : List Nat) (k : Nat) : (l ++ [k]).sum = l.sum + k := by simp

theorem addr_fld (G : Geo) (p : Place) (k : Nat) : G.addr (Spec.fldPlace p k) = G.addr p + k := by
  simp [Geo.addr, Spec.fldPlace, Spec.index, Nat.add_assoc]

theorem steps_offs (M : Method) (F : Nat → St → Option St) (offs : List Nat) (σ : St) (a : Nat) :
    steps M F (offs.map .fldAddr) (σ.push (.ptr a)) = some (σ.push (.ptr (a + offs.sum))) := by
  induction offs generalizing a with
  | nil => rfl
  | cons k offs ih =>
    rw [List.map_cons, steps, step, push_peek]
    simp only
    rw [push_drop_push, ih, List.sum_cons, Nat.add_assoc]

/-- The code of a place pushes its address. -/
theorem steps_place {G : Geo} {X : Nat → Prop} {f : Frame} {σ : St} (F : Nat → St → Option St) (h : Rel G X f σ)
    (p : Place) (hp : finePlace G.M p = true) :
    steps G.M F (compilePlace G.M p) σ = some (σ.push (.ptr (G.addr p))) := by
  obtain ⟨r, offs⟩ := p
  have key : step G.M F (compileRoot G.M r) σ = some (σ.push (.ptr (G.org r + Spec.start r))) := by
    cases r with
    | loc i => simp only [compileRoot, step, Geo.org, Spec.start, h.lp]
    | par i => simp only [compileRoot, step, Geo.org, Spec.start, argAt_eq h, Nat.add_assoc]
    | self =>
      have hs : G.M.self.isSome = true := by simpa [finePlace] using hp
      have ht := h.this hs
      simp only [compileRoot, step, Geo.org, Spec.start, argAt_eq h, Nat.add_zero, ht]
  rw [compilePlace, steps_cons key, steps_offs]
  simp only [Geo.addr, Spec.index, Nat.add_assoc]

/-! ## Expressions -/

/-- How large what a method gives is. -/
def Ret.size : Ret → Nat
  | .void => 0
  | .int => 1
  | .str n => n

/-- Where a call leaves a struct it gives. -/
def Dst (r : Ret) (d : Nat) (a : Nat) : Prop := ∃ n, r = .str n ∧ Reg d n a

/-- A call on the machine does what the call of the specification says. -/
structure Called (r : Ret) (b ta d : Nat) (obj ret obj' : List Cell) (σ σ' : St) : Prop where
  lp : σ'.lp = σ.lp
  own : Block σ'.mem ta obj' (Dst r d)
  keep : ∀ a, a < floor r b → ¬ Reg ta obj.length a → ¬ Dst r d a → σ'.mem a = σ.mem a
  void : r = .void → σ'.top = b
  int : r = .int → σ'.top = b + 1 ∧ Block σ'.mem b ret No
  str : ∀ n, r = .str n → σ'.top = b - 1 ∧ Block σ'.mem d ret No

def CallOK (C : Spec.Call) (F : Nat → St → Option St) : Prop :=
  ∀ (m : Nat) (r : Ret) (self : Option (List Cell)) (args ret self' : List Cell),
    C m r self args = some (ret, self') →
    (ret.length = r.size ∧ self'.length = (self.getD []).length) ∧
    ∀ (σ : St) (b ta d : Nat), σ.top = b + self.toList.length + args.length →
      Block σ.mem (b + self.toList.length) args No →
      (self.isSome → σ.mem b = .ptr ta) → Block σ.mem ta (self.getD []) No →
      ta + (self.getD []).length ≤ floor r b →
      (∀ n, r = .str n → 1 ≤ b ∧ σ.mem (b - 1) = .ptr d ∧ d + n ≤ b - 1) →
      ∃ σ', F m σ = some σ' ∧ Called r b ta d (self.getD []) ret self' σ σ'

theorem no_dst {r : Ret} {d a : Nat} (h : ∀ n, r ≠ .str n) : ¬ Dst r d a := fun ⟨n, hn, _⟩ => h n hn

def OutE (G : Geo) (f' : Frame) (v : Word) (σ σ' : St) : Prop :=
  σ'.top = σ.top + 1 ∧ σ'.mem σ.top = .num v ∧ Rel G No f' σ' ∧ ∀ a, a < σ.top → ¬ G.W a → σ'.mem a = σ.mem a

def OutS (G : Geo) (f' : Frame) (d : Nat) (v : List Cell) (σ σ' : St) : Prop :=
  σ'.top + 1 = σ.top ∧ Block σ'.mem d v No ∧ Rel G (Reg d v.length) f' σ' ∧
    ∀ a, a + 1 < σ.top → ¬ G.W a → ¬ Reg d v.length a → σ'.mem a = σ.mem a

def OutA (G : Geo) (f' : Frame) (vs : List Cell) (σ σ' : St) : Prop :=
  σ'.top = σ.top + vs.length ∧ Block σ'.mem σ.top vs No ∧ Rel G No f' σ' ∧
    ∀ a, a < σ.top → ¬ G.W a → σ'.mem a = σ.mem a

theorem push_mem_lt {σ : St} {v : V} {a : Nat} (h : a < σ.top) : (σ.push v).mem a = σ.mem a := by
  simp only [St.push, upd]
  rw [if_neg (by omega)]

theorem push_mem_top {σ : St} {v : V} : (σ.push v).mem σ.top = v := by
  simp [St.push, upd]

theorem push_top {σ : St} {v : V} : (σ.push v).top = σ.top + 1 := rfl

theorem outE_push {G : Geo} {f : Frame} {σ : St} {v : Word} (h : Rel G No f σ) : OutE G f v σ (σ.push (.num v)) :=
  ⟨rfl, push_mem_top, h.push _ no_prot, fun _ ha _ => push_mem_lt ha⟩

theorem Rel.not_w {G : Geo} {X : Nat → Prop} {f : Frame} {σ : St} (h : Rel G X f σ) {a : Nat} (ha : G.fin ≤ a) :
    ¬ G.W a := fun hw => by
  have := h.w_lt hw
  omega

theorem Rel.addr_le {G : Geo} {X : Nat → Prop} {f : Frame} {σ : St} (h : Rel G X f σ) {p : Place} {n : Nat} {s : List Cell}
    (hs : Spec.read f p n = some s) : G.addr p + s.length ≤ G.fin := by
  obtain ⟨hl, -, -⟩ := h.read hs
  simp only [Spec.read] at hs
  split at hs
  · rename_i hle
    have hb' := h.below
    have hf' := floor_le G.M.ret G.b
    have e1 := h.parsLen
    have e2 := h.locsLen
    have e3 := h.selfLen
    have e4 := h.vars
    have hu := units_eq G.M
    obtain ⟨rt, offs⟩ := p
    cases rt <;> simp only [Geo.addr, Geo.org, Frame.get] at hle ⊢ <;> unfold Geo.fin Geo.lp <;> omega
  · simp at hs

/-- A call that gives no struct and is called on no object. -/
theorem call_static {C : Spec.Call} {F : Nat → St → Option St} (hC : CallOK C F) {G : Geo} {f f0 : Frame} {σ σ1 : St}
    {m : Nat} {r : Ret} {vs ret self' : List Cell} (hr : ∀ n, r ≠ .str n) (h : Rel G No f0 σ)
    (ha : OutA G f vs σ σ1) (hc : C m r none vs = some (ret, self')) :
    ∃ σ', F m σ1 = some σ' ∧ (r = .void → σ'.top = σ.top) ∧
      (r = .int → σ'.top = σ.top + 1 ∧ Block σ'.mem σ.top ret No) ∧ (σ.top ≤ σ'.top → Rel G No f σ') ∧
      ∀ a, a < σ.top → ¬ G.W a → σ'.mem a = σ.mem a := by
  obtain ⟨h1, h2, h3, h4⟩ := ha
  have hfl : floor r σ.top = σ.top := by
    cases r with
    | str n => exact absurd rfl (hr n)
    | _ => rfl
  obtain ⟨σ', hF, hcd⟩ := (hC m r none vs ret self' hc).2 σ1 σ.top 0 0 (by simpa using h1) (by simpa using h2) (by simp)
    (by intro i v hi; simp at hi) (by simp) (fun n hn => absurd hn (hr n))
  have hkeep : ∀ a, a < σ.top → σ'.mem a = σ1.mem a := fun a hlt =>
    hcd.keep a (by rw [hfl]; exact hlt) (by simp [Reg]) (no_dst hr)
  refine ⟨σ', hF, hcd.void, hcd.int, fun ht => ?_, fun a hlt hw => (hkeep a hlt).trans (h4 a hlt hw)⟩
  have := h.top
  exact h3.change hcd.lp (by omega) (fun _ => id) (fun a hlt _ => hkeep a (by omega)) no_prot

/-- A call on a place that gives no struct. -/
theorem call_on {C : Spec.Call} {F : Nat → St → Option St} (hC : CallOK C F) {G : Geo} {f f' : Frame} {σ σ1 : St}
    {m n : Nat} {p : Place} {r : Ret} {s vs ret self' : List Cell} (hr : ∀ n, r ≠ .str n) {f0 : Frame} (h : Rel G No f0 σ)
    (ha : OutA G f vs (σ.push (.ptr (G.addr p))) σ1) (hs : Spec.read f p n = some s)
    (hc : C m r (some s) vs = some (ret, self')) (hw : Spec.write f p self' = some f') :
    ∃ σ', F m σ1 = some σ' ∧ (r = .void → σ'.top = σ.top) ∧
      (r = .int → σ'.top = σ.top + 1 ∧ Block σ'.mem σ.top ret No) ∧ (σ.top ≤ σ'.top → Rel G No f' σ') ∧
      ∀ a, a < σ.top → ¬ G.W a → σ'.mem a = σ.mem a := by
  obtain ⟨h1, h2, h3, h4⟩ := ha
  rw [push_top] at h1 h2 h4
  have hfl : floor r σ.top = σ.top := by
    cases r with
    | str n => exact absurd rfl (hr n)
    | _ => rfl
  have ht := h.top
  obtain ⟨hl, hb, hv⟩ := h3.read hs
  have hthis : σ1.mem σ.top = .ptr (G.addr p) := by
    rw [h4 _ (by omega) (h.not_w ht)]
    exact push_mem_top
  have hlow : G.addr p + s.length ≤ σ.top := Nat.le_trans (h3.addr_le hs) ht
  obtain ⟨⟨-, hsl⟩, hCC⟩ := hC m r (some s) vs ret self' hc
  rw [Option.getD_some] at hsl
  obtain ⟨σ', hF, hcd⟩ := hCC σ1 σ.top (G.addr p) 0
    (by simpa using h1) (by simpa using h2) (fun _ => hthis) hb (by rw [hfl]; exact hlow) (fun n hn => absurd hn (hr n))
  have hkeep : ∀ a, a < σ.top → ¬ Reg (G.addr p) self'.length a → σ'.mem a = σ1.mem a := fun a hlt hna =>
    hcd.keep a (by rw [hfl]; exact hlt) (by rw [hsl] at hna; exact hna) (no_dst hr)
  have hwv := h3.write_vars hw
  refine ⟨σ', hF, hcd.void, hcd.int, fun htt => ?_, fun a hlt hnw => ?_⟩
  · have hrel : Rel G (Reg (G.addr p) self'.length) f σ' :=
      h3.change hcd.lp (by omega) (fun _ hx => hx.elim) (fun a hlt hna => hkeep a (by omega) hna)
        (fun a hy => h3.w_prot (h3.vars_w (hwv a hy)))
    exact hrel.write hw (fun _ => Or.inr) (hcd.own.weaken fun x _ _ hx => (no_dst hr hx).elim)
  · rw [hkeep a hlt fun hy => hnw (h3.vars_w (hwv a hy)), h4 a (by omega) hnw, push_mem_lt hlt]

mutual
theorem evalE_ok {C : Spec.Call} {F : Nat → St → Option St} (hC : CallOK C F) {G : Geo} (c : Bool) :
    ∀ (e : Exp) (f f' : Frame) (v : Word) (σ : St), fineE G.M c e = true → Spec.evalE C f e = some (v, f') →
      Rel G No f σ → ∃ σ', steps G.M F (compileE G.M c e) σ = some σ' ∧ OutE G f' v σ σ'
  | .const w, f, f', v, σ, hf, he, h => by
    simp only [Spec.evalE, Option.some.injEq, Prod.mk.injEq] at he
    obtain ⟨rfl, rfl⟩ := he
    exact ⟨σ.push (.num w), by rw [compileE, steps_one]; rfl, outE_push h⟩
  | .var (.loc i), f, f', v, σ, hf, he, h => by
    simp only [Spec.evalE, Option.map_eq_some_iff, Prod.mk.injEq] at he
    obtain ⟨w, hw, rfl, rfl⟩ := he
    have := h.number hw id
    simp only [Spec.varPlace, Geo.addr, Geo.org, Spec.index, Spec.start, List.sum_nil, Nat.add_zero] at this
    exact ⟨σ.push (.num w), by rw [compileE, steps_one, step, h.lp, this], outE_push h⟩
  | .var (.par i), f, f', v, σ, hf, he, h => by
    simp only [Spec.evalE, Option.map_eq_some_iff, Prod.mk.injEq] at he
    obtain ⟨w, hw, rfl, rfl⟩ := he
    have := h.number hw id
    simp only [Spec.varPlace, Geo.addr, Geo.org, Spec.index, Spec.start, List.sum_nil, Nat.add_zero] at this
    exact ⟨σ.push (.num w), by rw [compileE, steps_one, step, argAt_eq h, ← Nat.add_assoc, this], outE_push h⟩
  | .fld p k, f, f', v, σ, hf, he, h => by
    simp only [Spec.evalE, Option.map_eq_some_iff, Prod.mk.injEq] at he
    obtain ⟨w, hw, rfl, rfl⟩ := he
    have hn := h.number hw id
    obtain ⟨hl, -, hv⟩ := h.read (number_read hw)
    have hlt := h.vars_lt (hv _ ⟨Nat.le_refl _, by omega⟩)
    have ht := h.top
    refine ⟨σ.push (.num w), ?_, outE_push h⟩
    rw [compileE, steps_trans (steps_place F h p hf), steps_one, step, push_peek]
    simp only
    rw [push_drop_push, push_mem_lt (by rw [← addr_fld]; omega), ← addr_fld, hn]
  | .bin o a b, f, f', v, σ, hf, he, h => by
    simp only [fineE, Bool.and_eq_true] at hf
    rw [Spec.evalE] at he
    cases hea : Spec.evalE C f a with
    | none => simp [hea] at he
    | some r1 =>
      obtain ⟨x, f1⟩ := r1
      cases heb : Spec.evalE C f1 b with
      | none => simp [hea, heb] at he
      | some r2 =>
        obtain ⟨y, f2⟩ := r2
        simp only [hea, heb, Option.some.injEq, Prod.mk.injEq] at he
        obtain ⟨rfl, rfl⟩ := he
        obtain ⟨σ1, hs1, ht1, hm1, hr1, hk1⟩ := evalE_ok hC c a f f1 x σ hf.1 hea h
        obtain ⟨σ2, hs2, ht2, hm2, hr2, hk2⟩ := evalE_ok hC c b f1 f2 y σ1 hf.2 heb hr1
        have htop := h.top
        have hx : σ2.mem σ.top = .num x := by
          rw [hk2 _ (by omega) (h.not_w htop)]
          exact hm1
        refine ⟨σ2.drop.drop.push (.num (o.eval x y)), ?_, ?_, ?_, ?_, ?_⟩
        · rw [compileE, List.append_assoc, steps_trans hs1, steps_trans hs2, steps_one, step]
          simp only [St.peek, St.drop]
          rw [show σ2.top - 1 - 1 = σ.top by omega, show σ2.top - 1 = σ1.top by omega, hx, hm2]
        · simp only [St.push, St.drop]; omega
        · have : σ2.drop.drop.top = σ.top := by simp only [St.drop]; omega
          rw [← this]
          exact push_mem_top
        · have hd : Rel G No f2 σ2.drop.drop :=
            hr2.change rfl (by simp only [St.drop]; omega) (fun _ => id) (fun _ _ _ => rfl) no_prot
          exact hd.push _ no_prot
        · intro a hlt hw
          rw [push_mem_lt (by simp only [St.drop]; omega)]
          exact (hk2 a (by omega) hw).trans (hk1 a hlt hw)
  | .call m args, f, f', v, σ, hf, he, h => by
    simp only [fineE] at hf
    rw [Spec.evalE] at he
    cases hea : Spec.evalA C f args with
    | none => simp [hea] at he
    | some r1 =>
      obtain ⟨vs, f1⟩ := r1
      simp only [hea] at he
      split at he
      · rename_i w s' hc
        simp only [Option.some.injEq, Prod.mk.injEq] at he
        obtain ⟨rfl, rfl⟩ := he
        obtain ⟨σ1, hs1, ho⟩ := evalA_ok hC c args f f1 vs σ hf hea h
        obtain ⟨σ', hF, -, hi, hrel, hk⟩ := call_static hC (by simp) h ho hc
        obtain ⟨ht, hb⟩ := hi rfl
        exact ⟨σ', by rw [compileE, steps_trans hs1, steps_one, step, hF], ht, hb 0 w rfl id, hrel (by omega), hk⟩
      · simp at he
  | .callOn p n m args, f, f', v, σ, hf, he, h => by
    simp only [fineE, Bool.and_eq_true] at hf
    rw [Spec.evalE] at he
    cases hea : Spec.evalA C f args with
    | none => simp [hea] at he
    | some r1 =>
      obtain ⟨vs, f1⟩ := r1
      cases hrd : Spec.read f1 p n with
      | none => simp [hea, hrd] at he
      | some s =>
        simp only [hea, hrd] at he
        split at he
        · rename_i w s' hc
          simp only [Option.map_eq_some_iff, Prod.mk.injEq] at he
          obtain ⟨f2, hw, rfl, rfl⟩ := he
          obtain ⟨σ1, hs1, ho⟩ := evalA_ok hC c args f f1 vs (σ.push (.ptr (G.addr p))) hf.2 hea (h.push _ no_prot)
          obtain ⟨σ', hF, -, hi, hrel, hk⟩ := call_on hC (by simp) h ho hrd hc hw
          obtain ⟨ht, hb⟩ := hi rfl
          refine ⟨σ', ?_, ht, hb 0 w rfl id, hrel (by omega), hk⟩
          rw [compileE, List.append_assoc, steps_trans (steps_place F h p hf.1), steps_trans hs1, steps_one, step, hF]
        · simp at he
  | .temp t n s k, f, f', v, σ, hf, he, h => by
    simp only [fineE, Bool.and_eq_true, decide_eq_true_eq] at hf
    obtain ⟨⟨hf1, hf2⟩, hf3⟩ := hf
    rw [Spec.evalE] at he
    cases hes : Spec.evalS C f s with
    | none => simp [hes] at he
    | some r1 =>
      obtain ⟨l, f1⟩ := r1
      simp only [hes] at he
      split at he
      · rename_i hlen
        split at he
        · rename_i w hk
          simp only [Option.some.injEq, Prod.mk.injEq] at he
          obtain ⟨rfl, rfl⟩ := he
          have htop := h.top
          have hfin : G.fin = G.lp + G.M.locals := rfl
          have hvars := h.vars
          have hb := h.below
          have hfl := floor_le G.M.ret G.b
          have hlp : G.lp = G.b + G.M.units + 3 := rfl
          have hW : ∀ a, Reg (G.lp + t) l.length a → G.W a := by
            intro a ha
            simp only [Reg] at ha
            exact Or.inr (Or.inl ⟨by omega, by omega⟩)
          have hr1 : Rel G No f (σ.push (.ptr (G.lp + t))) := h.push _ no_prot
          have hr2 : Rel G No f ((σ.push (.ptr (G.lp + t))).push (.ptr (G.lp + t))) := hr1.push _ no_prot
          obtain ⟨σ1, hs1, ht1, hbl, hrel, hkeep⟩ := evalS_ok hC false s f f1 l _ (G.lp + t) hf3 hes hr2
            (by simp only [push_top]; omega) (by
              rw [show ((σ.push (.ptr (G.lp + t))).push (.ptr (G.lp + t))).top - 1 = (σ.push (.ptr (G.lp + t))).top from rfl]
              exact push_mem_top)
            (by simp only [push_top]; omega) (fun a ha => h.w_prot (hW a ha))
          simp only [push_top] at ht1 hkeep
          have hp : σ1.mem σ.top = .ptr (G.lp + t) := by
            rw [hkeep _ (by omega) (h.not_w htop) (by simp only [Reg]; omega), push_mem_lt (by simp only [push_top]; omega)]
            exact push_mem_top
          have hwv : σ1.mem (G.lp + t + k) = .num w := hbl k w hk id
          have hno : Rel G No f1 σ1 := by
            refine hrel.shrink fun a ha hx => ?_
            simp only [Reg] at hx
            simp only [Geo.Vars] at ha
            have := units_eq G.M
            omega
          refine ⟨σ1.drop.push (.num w), ?_, ?_, ?_, ?_, ?_⟩
          · have e1 : step G.M F (.locAddr t) σ = some (σ.push (.ptr (G.lp + t))) := by rw [step, h.lp]
            have e2 : step G.M F .dup (σ.push (.ptr (G.lp + t))) =
                some ((σ.push (.ptr (G.lp + t))).push (.ptr (G.lp + t))) := by rw [step, push_peek]
            rw [compileE]
            show steps G.M F (.locAddr t :: .dup :: (compileS G.M false s ++ [.getFld k])) σ = _
            rw [steps_cons e1, steps_cons e2, steps_trans hs1, steps_one, step]
            rw [show σ1.peek = .ptr (G.lp + t) by rw [St.peek, show σ1.top - 1 = σ.top by omega, hp]]
            simp only
            rw [hwv]
          · simp only [St.push, St.drop]; omega
          · rw [show σ.top = σ1.drop.top by simp only [St.drop]; omega]
            exact push_mem_top
          · have hd : Rel G No f1 σ1.drop :=
              hno.change rfl (by simp only [St.drop]; omega) (fun _ => id) (fun _ _ _ => rfl) no_prot
            exact hd.push _ no_prot
          · intro a hlt hw
            rw [push_mem_lt (by simp only [St.drop]; omega)]
            show σ1.mem a = _
            rw [hkeep a (by omega) hw fun hx => hw (hW a hx), push_mem_lt (by simp only [push_top]; omega),
              push_mem_lt hlt]
        · simp at he
      · simp at he
theorem evalS_ok {C : Spec.Call} {F : Nat → St → Option St} (hC : CallOK C F) {G : Geo} (c : Bool) :
    ∀ (s : SExp) (f f' : Frame) (v : List Cell) (σ : St) (d : Nat), fineS G.M c s = true →
      Spec.evalS C f s = some (v, f') → Rel G No f σ → G.fin + 1 ≤ σ.top → σ.mem (σ.top - 1) = .ptr d →
      d + v.length + 1 ≤ σ.top → (∀ a, Reg d v.length a → ¬ G.Prot a) →
      ∃ σ', steps G.M F (compileS G.M c s) σ = some σ' ∧ OutS G f' d v σ σ'
  | .place p n, f, f', v, σ, d, hf, he, h, ht, hd, hdn, hpr => by
    simp only [fineS, Bool.and_eq_true] at hf
    obtain ⟨rfl, hfp⟩ := hf
    simp only [Spec.evalS, Option.map_eq_some_iff, Prod.mk.injEq] at he
    obtain ⟨l, hl, rfl, rfl⟩ := he
    obtain ⟨hlen, hb, hv⟩ := h.read hl
    have hle := h.addr_le hl
    refine ⟨{ (σ.push (.ptr (G.addr p))).drop.drop with mem := blit (σ.push (.ptr (G.addr p))).mem d (G.addr p) n }, ?_, ?_,
      ?_, ?_, ?_⟩
    · rw [compileS, steps_trans (steps_place F h p hfp), if_pos rfl, steps_one, step, push_peek]
      rw [show (σ.push (.ptr (G.addr p))).drop.peek = .ptr d by
        rw [← hd, ← push_mem_lt (σ := σ) (v := .ptr (G.addr p)) (a := σ.top - 1) (by omega)]; rfl]
    · simp only [St.push, St.drop]; omega
    · intro i w hi _
      have hi' : i < l.length := (List.getElem?_eq_some_iff.1 hi).1
      show blit _ d (G.addr p) n (d + i) = _
      rw [blit, if_pos (by omega), show d + i - d = i by omega, push_mem_lt (by omega)]
      exact hb i w hi id
    · refine h.change rfl (by simp only [St.push, St.drop]; omega) (fun _ hx => hx.elim) (fun a hlt hna => ?_) hpr
      show blit _ d (G.addr p) n a = _
      rw [blit, if_neg (by rw [← hlen]; exact hna), push_mem_lt (by omega)]
    · intro a hlt _ hna
      show blit _ d (G.addr p) n a = _
      rw [blit, if_neg (by rw [← hlen]; exact hna), push_mem_lt (by omega)]
  | .call n m args, f, f', v, σ, d, hf, he, h, ht, hd, hdn, hpr => by
    simp only [fineS] at hf
    rw [Spec.evalS] at he
    cases hea : Spec.evalA C f args with
    | none => simp [hea] at he
    | some r1 =>
      obtain ⟨vs, f1⟩ := r1
      simp only [hea] at he
      split at he
      · rename_i w s' hc
        simp only [Option.some.injEq, Prod.mk.injEq] at he
        obtain ⟨rfl, rfl⟩ := he
        obtain ⟨σ1, hs1, h1, h2, h3, h4⟩ := evalA_ok hC c args f f1 vs σ hf hea h
        have hdst : σ1.mem (σ.top - 1) = .ptr d := by
          rw [h4 _ (by omega) (h.not_w (by omega))]
          exact hd
        obtain ⟨⟨hwl, -⟩, hCC⟩ := hC m (.str n) none vs w s' hc
        simp only [Ret.size] at hwl
        subst hwl
        obtain ⟨σ', hF, hcd⟩ := hCC σ1 σ.top 0 d (by simpa using h1) (by simpa using h2) (by simp)
          (by intro i v hi; simp at hi) (by simp) (fun n hn => by
            simp only [Ret.str.injEq] at hn
            subst hn
            exact ⟨by omega, hdst, by omega⟩)
        obtain ⟨ht', hb'⟩ := hcd.str _ rfl
        have hkeep : ∀ a, a + 1 < σ.top → ¬ Reg d w.length a → σ'.mem a = σ1.mem a := fun a hlt hna =>
          hcd.keep a (by simp only [floor]; omega) (by simp [Reg]) (fun ⟨n, hn, hx⟩ => by
            simp only [Ret.str.injEq] at hn
            subst hn
            exact hna hx)
        refine ⟨σ', by rw [compileS, steps_trans hs1, steps_one, step, hF], by omega, hb', ?_, fun a hlt hw hna => ?_⟩
        · exact h3.change hcd.lp (by omega) (fun _ hx => hx.elim) (fun a hlt hna => hkeep a (by omega) hna) hpr
        · exact (hkeep a hlt hna).trans (h4 a (by omega) hw)
      · simp at he
  | .callOn n p k m args, f, f', v, σ, d, hf, he, h, ht, hd, hdn, hpr => by
    simp only [fineS, Bool.and_eq_true] at hf
    rw [Spec.evalS] at he
    cases hea : Spec.evalA C f args with
    | none => simp [hea] at he
    | some r1 =>
      obtain ⟨vs, f1⟩ := r1
      cases hrd : Spec.read f1 p k with
      | none => simp [hea, hrd] at he
      | some s =>
        simp only [hea, hrd] at he
        split at he
        · rename_i w s' hc
          simp only [Option.map_eq_some_iff, Prod.mk.injEq] at he
          obtain ⟨f2, hw, rfl, rfl⟩ := he
          obtain ⟨σ1, hs1, h1, h2, h3, h4⟩ :=
            evalA_ok hC c args f f1 vs (σ.push (.ptr (G.addr p))) hf.2 hea (h.push _ no_prot)
          rw [push_top] at h1 h2 h4
          have hdst : σ1.mem (σ.top - 1) = .ptr d := by
            rw [h4 _ (by omega) (h.not_w (by omega)), push_mem_lt (by omega)]
            exact hd
          have hthis : σ1.mem σ.top = .ptr (G.addr p) := by
            rw [h4 _ (by omega) (h.not_w (by omega))]
            exact push_mem_top
          obtain ⟨hl, hb, hv⟩ := h3.read hrd
          have hlow := h3.addr_le hrd
          obtain ⟨⟨hwl, hsl⟩, hCC⟩ := hC m (.str n) (some s) vs w s' hc
          rw [Option.getD_some] at hsl
          simp only [Ret.size] at hwl
          subst hwl
          obtain ⟨σ', hF, hcd⟩ := hCC σ1 σ.top (G.addr p) d (by simpa using h1) (by simpa using h2) (fun _ => hthis) hb
            (by simp only [floor, Option.getD_some]; omega) (fun n hn => by
              simp only [Ret.str.injEq] at hn
              subst hn
              exact ⟨by omega, hdst, by omega⟩)
          obtain ⟨ht', hb'⟩ := hcd.str _ rfl
          have hwv := h3.write_vars hw
          have hkeep : ∀ a, a + 1 < σ.top → ¬ Reg (G.addr p) s'.length a → ¬ Reg d w.length a →
              σ'.mem a = σ1.mem a := fun a hlt hnp hna =>
            hcd.keep a (by simp only [floor]; omega) (by rw [hsl] at hnp; exact hnp) (fun ⟨n, hn, hx⟩ => by
              simp only [Ret.str.injEq] at hn
              subst hn
              exact hna hx)
          refine ⟨σ', ?_, by omega, hb', ?_, fun a hlt hw' hna => ?_⟩
          · rw [compileS, List.append_assoc, steps_trans (steps_place F h p hf.1), steps_trans hs1, steps_one, step, hF]
          · have hrel : Rel G (fun a => Reg d w.length a ∨ Reg (G.addr p) s'.length a) f1 σ' :=
              h3.change hcd.lp (by omega) (fun _ hx => hx.elim)
                (fun a hlt hna => hkeep a (by omega) (fun hx => hna (Or.inr hx)) (fun hx => hna (Or.inl hx)))
                (fun a hx => hx.elim (hpr a) fun hx => h3.w_prot (h3.vars_w (hwv a hx)))
            refine hrel.write hw (fun _ => id) (hcd.own.weaken ?_)
            rintro x - - ⟨n, hn, hx⟩
            simp only [Ret.str.injEq] at hn
            subst hn
            exact hx
          · rw [hkeep a hlt (fun hx => hw' (h3.vars_w (hwv a hx))) hna, h4 a (by omega) hw', push_mem_lt (by omega)]
        · simp at he
  | .new n m args, f, f', v, σ, d, hf, he, h, ht, hd, hdn, hpr => by
    simp only [fineS] at hf
    rw [Spec.evalS] at he
    cases hea : Spec.evalA C f args with
    | none => simp [hea] at he
    | some r1 =>
      obtain ⟨vs, f1⟩ := r1
      simp only [hea] at he
      split at he
      · rename_i w s' hc
        simp only [Option.some.injEq, Prod.mk.injEq] at he
        obtain ⟨rfl, rfl⟩ := he
        obtain ⟨σ1, hs1, h1, h2, h3, h4⟩ := evalA_ok hC c args f f1 vs σ hf hea h
        have hdst : σ1.mem (σ.top - 1) = .ptr d := by
          rw [h4 _ (by omega) (h.not_w (by omega))]
          exact hd
        obtain ⟨⟨-, hsl⟩, hCC⟩ := hC m .void (some (List.replicate n none)) vs w s' hc
        rw [Option.getD_some, List.length_replicate] at hsl
        obtain ⟨σ', hF, hcd⟩ := hCC σ1 (σ.top - 1) d 0 (by simp; omega)
          (by
            simp only [Option.toList_some, List.length_singleton]
            rw [show σ.top - 1 + 1 = σ.top by omega]
            exact h2) (fun _ => hdst) block_nones
          (by simp only [floor, Option.getD_some, List.length_replicate]; omega) (fun n hn => by simp at hn)
        have ht' := hcd.void rfl
        have hkeep : ∀ a, a + 1 < σ.top → ¬ Reg d s'.length a → σ'.mem a = σ1.mem a := fun a hlt hna =>
          hcd.keep a (by simp only [floor]; omega)
            (by rw [Option.getD_some, List.length_replicate, ← hsl]; exact hna) (no_dst (by simp))
        refine ⟨σ', by rw [compileS, steps_trans hs1, steps_one, step, hF], by omega,
          hcd.own.weaken (fun x _ _ hx => (no_dst (by simp) hx).elim), ?_, fun a hlt hw hna => ?_⟩
        · exact h3.change hcd.lp (by omega) (fun _ hx => hx.elim) (fun a hlt hna => hkeep a (by omega) hna) hpr
        · exact (hkeep a hlt hna).trans (h4 a (by omega) hw)
      · simp at he
  | .newDefault n, f, f', v, σ, d, hf, he, h, ht, hd, hdn, hpr => by simp [fineS] at hf
  | .this n, f, f', v, σ, d, hf, he, h, ht, hd, hdn, hpr => by simp [fineS] at hf
theorem evalA_ok {C : Spec.Call} {F : Nat → St → Option St} (hC : CallOK C F) {G : Geo} (c : Bool) :
    ∀ (as : Args) (f f' : Frame) (vs : List Cell) (σ : St), fineA G.M c as = true → Spec.evalA C f as = some (vs, f') →
      Rel G No f σ → ∃ σ', steps G.M F (compileA G.M c as) σ = some σ' ∧ OutA G f' vs σ σ'
  | .nil, f, f', vs, σ, hf, he, h => by
    simp only [Spec.evalA, Option.some.injEq, Prod.mk.injEq] at he
    obtain ⟨rfl, rfl⟩ := he
    exact ⟨σ, rfl, rfl, (by intro i v hi; simp at hi), h, fun _ _ _ => rfl⟩
  | .int e rest, f, f', vs, σ, hf, he, h => by
    simp only [fineA, Bool.and_eq_true] at hf
    rw [Spec.evalA] at he
    cases hee : Spec.evalE C f e with
    | none => simp [hee] at he
    | some r1 =>
      obtain ⟨v, f1⟩ := r1
      cases hea : Spec.evalA C f1 rest with
      | none => simp [hee, hea] at he
      | some r2 =>
        obtain ⟨ws, f2⟩ := r2
        simp only [hee, hea, Option.some.injEq, Prod.mk.injEq] at he
        obtain ⟨rfl, rfl⟩ := he
        obtain ⟨σ1, hs1, ht1, hm1, hr1, hk1⟩ := evalE_ok hC c e f f1 v σ hf.1 hee h
        obtain ⟨σ2, hs2, ht2, hb2, hr2, hk2⟩ := evalA_ok hC c rest f1 f2 ws σ1 hf.2 hea hr1
        have htop := h.top
        refine ⟨σ2, by rw [compileA, steps_trans hs1, hs2], by rw [List.length_cons]; omega, ?_, hr2,
          fun a hlt hw => (hk2 a (by omega) hw).trans (hk1 a hlt hw)⟩
        refine Block.append (l := [some v]) (block_one ?_) ?_
        · rw [hk2 _ (by omega) (h.not_w htop)]
          exact hm1
        · rw [List.length_singleton, ← ht1]
          exact hb2
  | .str n s rest, f, f', vs, σ, hf, he, h => by
    simp only [fineA, Bool.and_eq_true] at hf
    rw [Spec.evalA] at he
    cases hes : Spec.evalS C f s with
    | none => simp [hes] at he
    | some r1 =>
      obtain ⟨v, f1⟩ := r1
      simp only [hes] at he
      split at he
      · rename_i hlen
        subst hlen
        cases hea : Spec.evalA C f1 rest with
        | none => simp [hea] at he
        | some r2 =>
          obtain ⟨ws, f2⟩ := r2
          simp only [hea, Option.some.injEq, Prod.mk.injEq] at he
          obtain ⟨rfl, rfl⟩ := he
          have htop := h.top
          have h0 : Rel G No f { σ with top := σ.top + v.length } :=
            h.change rfl (by show G.fin ≤ σ.top + v.length; omega) (fun _ => id) (fun _ _ _ => rfl) no_prot
          have h0' : Rel G No f (({ σ with top := σ.top + v.length } : St).push (.ptr σ.top)) := h0.push _ no_prot
          obtain ⟨σ1, hs1, ht1, hb1, hr1, hk1⟩ := evalS_ok hC c s f f1 v _ σ.top hf.1 hes h0'
            (by show G.fin + 1 ≤ σ.top + v.length + 1; omega) push_mem_top
            (by show σ.top + v.length + 1 ≤ σ.top + v.length + 1; omega)
            (fun a ha hp => by
              have := Geo.prot_lt hp
              simp only [Reg] at ha
              omega)
          have ht1' : σ1.top = σ.top + v.length := by
            have : σ1.top + 1 = σ.top + v.length + 1 := ht1
            omega
          have hr1' : Rel G No f1 σ1 := hr1.shrink fun a ha hx => by
            have := h.vars_lt ha
            simp only [Reg] at hx
            omega
          obtain ⟨σ2, hs2, ht2, hb2, hr2, hk2⟩ := evalA_ok hC c rest f1 f2 ws σ1 hf.2 hea hr1'
          refine ⟨σ2, ?_, by rw [List.length_append]; omega, ?_, hr2, fun a hlt hw => ?_⟩
          · have e : step G.M F (.alloc v.length) σ =
                some (({ σ with top := σ.top + v.length } : St).push (.ptr σ.top)) := rfl
            rw [compileA, steps_cons e, steps_trans hs1, hs2]
          · refine Block.append (hb1.mem fun x h1 h2 _ => ?_) ?_
            · exact hk2 x (by omega) (h.not_w (by omega))
            · rw [← ht1']
              exact hb2
          · rw [hk2 a (by omega) hw, hk1 a (by show a + 1 < σ.top + v.length + 1; omega) hw (by simp only [Reg]; omega)]
            exact push_mem_lt (σ := { σ with top := σ.top + v.length }) (by show a < σ.top + v.length; omega)
      · simp at he
end

/-! ## How long things are -/

/-- Two frames of the same shape. -/
structure Same (f' f : Frame) : Prop where
  self : f'.self.length = f.self.length
  pars : f'.pars.length = f.pars.length
  locs : f'.locs.length = f.locs.length

theorem Same.refl (f : Frame) : Same f f := ⟨rfl, rfl, rfl⟩

theorem Same.trans {a b c : Frame} (h : Same a b) (h' : Same b c) : Same a c :=
  ⟨h.self.trans h'.self, h.pars.trans h'.pars, h.locs.trans h'.locs⟩

theorem Same.get {a b : Frame} (h : Same a b) (r : Root) : (a.get r).length = (b.get r).length := by
  cases r
  · exact h.locs
  · exact h.pars
  · exact h.self

theorem write_len {f f' : Frame} {p : Place} {v : List Cell} (h : Spec.write f p v = some f') :
    Same f' f := by
  simp only [Spec.write] at h
  split at h
  · rename_i hle
    simp only [Option.some.injEq] at h
    subst h
    obtain ⟨r, offs⟩ := p
    cases r with
    | loc i =>
      refine ⟨rfl, rfl, ?_⟩
      simp only [Frame.put, Frame.get, List.length_append, List.length_take, List.length_drop] at hle ⊢
      omega
    | par i =>
      refine ⟨rfl, ?_, rfl⟩
      simp only [Frame.put, Frame.get, List.length_append, List.length_take, List.length_drop] at hle ⊢
      omega
    | self =>
      refine ⟨?_, rfl, rfl⟩
      simp only [Frame.put, Frame.get, List.length_append, List.length_take, List.length_drop] at hle ⊢
      omega
  · simp at h

mutual
theorem evalE_len {C : Spec.Call} : ∀ (e : Exp) (f f' : Frame) (v : Word), Spec.evalE C f e = some (v, f') →
    Same f' f
  | .const w, f, f', v, he => by
    simp only [Spec.evalE, Option.some.injEq, Prod.mk.injEq] at he
    rw [he.2]
    exact .refl _
  | .var x, f, f', v, he => by
    simp only [Spec.evalE, Option.map_eq_some_iff, Prod.mk.injEq] at he
    obtain ⟨_, _, _, rfl⟩ := he
    exact .refl _
  | .fld p k, f, f', v, he => by
    simp only [Spec.evalE, Option.map_eq_some_iff, Prod.mk.injEq] at he
    obtain ⟨_, _, _, rfl⟩ := he
    exact .refl _
  | .bin o a b, f, f', v, he => by
    rw [Spec.evalE] at he
    cases hea : Spec.evalE C f a with
    | none => simp [hea] at he
    | some r1 =>
      obtain ⟨x, f1⟩ := r1
      cases heb : Spec.evalE C f1 b with
      | none => simp [hea, heb] at he
      | some r2 =>
        obtain ⟨y, f2⟩ := r2
        simp only [hea, heb, Option.some.injEq, Prod.mk.injEq] at he
        obtain ⟨rfl, rfl⟩ := he
        exact (evalE_len b _ _ _ heb).trans (evalE_len a _ _ _ hea)
  | .call m args, f, f', v, he => by
    rw [Spec.evalE] at he
    cases hea : Spec.evalA C f args with
    | none => simp [hea] at he
    | some r1 =>
      simp only [hea] at he
      split at he
      · simp only [Option.some.injEq, Prod.mk.injEq] at he
        obtain ⟨rfl, rfl⟩ := he
        exact evalA_len args _ _ _ hea
      · simp at he
  | .callOn p n m args, f, f', v, he => by
    rw [Spec.evalE] at he
    cases hea : Spec.evalA C f args with
    | none => simp [hea] at he
    | some r1 =>
      obtain ⟨vs, f1⟩ := r1
      cases hrd : Spec.read f1 p n with
      | none => simp [hea, hrd] at he
      | some s =>
        simp only [hea, hrd] at he
        split at he
        · simp only [Option.map_eq_some_iff, Prod.mk.injEq] at he
          obtain ⟨f2, hw, rfl, rfl⟩ := he
          exact (write_len hw).trans (evalA_len args _ _ _ hea)
        · simp at he
  | .temp t n s k, f, f', v, he => by
    rw [Spec.evalE] at he
    cases hes : Spec.evalS C f s with
    | none => simp [hes] at he
    | some r1 =>
      obtain ⟨l, f1⟩ := r1
      simp only [hes] at he
      split at he
      · split at he
        · simp only [Option.some.injEq, Prod.mk.injEq] at he
          obtain ⟨rfl, rfl⟩ := he
          exact evalS_len s _ _ _ hes
        · simp at he
      · simp at he
theorem evalS_len {C : Spec.Call} : ∀ (s : SExp) (f f' : Frame) (v : List Cell), Spec.evalS C f s = some (v, f') →
    Same f' f
  | .place p n, f, f', v, he => by
    simp only [Spec.evalS, Option.map_eq_some_iff, Prod.mk.injEq] at he
    obtain ⟨_, _, _, rfl⟩ := he
    exact .refl _
  | .call n m args, f, f', v, he => by
    rw [Spec.evalS] at he
    cases hea : Spec.evalA C f args with
    | none => simp [hea] at he
    | some r1 =>
      simp only [hea] at he
      split at he
      · simp only [Option.some.injEq, Prod.mk.injEq] at he
        obtain ⟨rfl, rfl⟩ := he
        exact evalA_len args _ _ _ hea
      · simp at he
  | .callOn n p k m args, f, f', v, he => by
    rw [Spec.evalS] at he
    cases hea : Spec.evalA C f args with
    | none => simp [hea] at he
    | some r1 =>
      obtain ⟨vs, f1⟩ := r1
      cases hrd : Spec.read f1 p k with
      | none => simp [hea, hrd] at he
      | some s =>
        simp only [hea, hrd] at he
        split at he
        · simp only [Option.map_eq_some_iff, Prod.mk.injEq] at he
          obtain ⟨f2, hw, rfl, rfl⟩ := he
          exact (write_len hw).trans (evalA_len args _ _ _ hea)
        · simp at he
  | .new n m args, f, f', v, he => by
    rw [Spec.evalS] at he
    cases hea : Spec.evalA C f args with
    | none => simp [hea] at he
    | some r1 =>
      simp only [hea] at he
      split at he
      · simp only [Option.some.injEq, Prod.mk.injEq] at he
        obtain ⟨rfl, rfl⟩ := he
        exact evalA_len args _ _ _ hea
      · simp at he
  | .newDefault n, f, f', v, he => by
    simp only [Spec.evalS, Option.some.injEq, Prod.mk.injEq] at he
    rw [he.2]
    exact .refl _
  | .this n, f, f', v, he => by
    simp only [Spec.evalS, Option.map_eq_some_iff, Prod.mk.injEq] at he
    obtain ⟨_, _, _, rfl⟩ := he
    exact .refl _
theorem evalA_len {C : Spec.Call} : ∀ (as : Args) (f f' : Frame) (vs : List Cell), Spec.evalA C f as = some (vs, f') →
    Same f' f
  | .nil, f, f', vs, he => by
    simp only [Spec.evalA, Option.some.injEq, Prod.mk.injEq] at he
    rw [he.2]
    exact .refl _
  | .int e rest, f, f', vs, he => by
    rw [Spec.evalA] at he
    cases hee : Spec.evalE C f e with
    | none => simp [hee] at he
    | some r1 =>
      obtain ⟨v, f1⟩ := r1
      cases hea : Spec.evalA C f1 rest with
      | none => simp [hee, hea] at he
      | some r2 =>
        simp only [hee, hea, Option.some.injEq, Prod.mk.injEq] at he
        obtain ⟨rfl, rfl⟩ := he
        exact (evalA_len rest _ _ _ hea).trans (evalE_len e _ _ _ hee)
  | .str n s rest, f, f', vs, he => by
    rw [Spec.evalA] at he
    cases hes : Spec.evalS C f s with
    | none => simp [hes] at he
    | some r1 =>
      obtain ⟨v, f1⟩ := r1
      simp only [hes] at he
      split at he
      · cases hea : Spec.evalA C f1 rest with
        | none => simp [hea] at he
        | some r2 =>
          simp only [hea, Option.some.injEq, Prod.mk.injEq] at he
          obtain ⟨rfl, rfl⟩ := he
          exact (evalA_len rest _ _ _ hea).trans (evalS_len s _ _ _ hes)
      · simp at he
end

/-! ## Statements -/

/-- Behind a statement: at its end, or behind a `return`. -/
structure Outcome (G : Geo) (f f' : Frame) (r : Option (List Cell)) (σ σ' : St) : Prop where
  len : Same f' f
  keep : ∀ a, a < G.fin → ¬ G.W a → ¬ Dst G.M.ret G.d a → σ'.mem a = σ.mem a
  on : r = none → σ'.top = G.fin ∧ Rel G No f' σ'
  rel : ∀ v, r = some v → v.length = G.M.ret.size ∧ Rel G (Dst G.M.ret G.d) f' σ'
  void : ∀ v, r = some v → G.M.ret = .void → σ'.top = G.fin
  int : ∀ v, r = some v → G.M.ret = .int → σ'.top = G.fin + 1 ∧ Block σ'.mem G.fin v No
  str : ∀ v n, r = some v → G.M.ret = .str n → σ'.top = G.fin ∧ Block σ'.mem G.d v No

theorem Outcome.after {G : Geo} {f f1 f' : Frame} {r : Option (List Cell)} {σ σ1 σ' : St} (h : Outcome G f1 f' r σ1 σ')
    (hl : Same f1 f) (hk : ∀ a, a < G.fin → ¬ G.W a → σ1.mem a = σ.mem a) :
    Outcome G f f' r σ σ' where
  len := h.len.trans hl
  keep a h1 h2 h3 := (h.keep a h1 h2 h3).trans (hk a h1 h2)
  on := h.on
  rel := h.rel
  void := h.void
  int := h.int
  str := h.str

/-- A number on top is stored. -/
theorem store_ok {G : Geo} {f f1 f2 : Frame} {v : Word} {σ σ1 σ2 : St} {p : Place} (ho : OutE G f1 v σ σ1)
    (h : Rel G No f σ) (ht : σ.top = G.fin) (hw : Spec.write f1 p [some v] = some f2)
    (h2 : σ2 = ⟨upd σ1.mem (G.addr p) (.num v), σ.top, σ1.lp⟩) :
    Rel G No f2 σ2 ∧ σ2.top = G.fin ∧ ∀ a, a < G.fin → ¬ G.W a → σ2.mem a = σ.mem a := by
  subst h2
  obtain ⟨h1, h2, h3, h4⟩ := ho
  have hwv := h3.write_vars hw
  have hrel : Rel G (Reg (G.addr p) 1) f1 ⟨upd σ1.mem (G.addr p) (.num v), σ.top, σ1.lp⟩ := by
    refine h3.change rfl (by show G.fin ≤ σ.top; omega) (fun _ hx => hx.elim) (fun a hlt hna => ?_)
      (fun a hx => h3.w_prot (h3.vars_w (hwv a hx)))
    show upd σ1.mem (G.addr p) (.num v) a = _
    rw [upd, if_neg]
    intro he
    exact hna (by simp only [Reg]; omega)
  refine ⟨hrel.write hw (fun _ => Or.inr) (block_one ?_), ht, fun a hlt hnw => ?_⟩
  · show upd σ1.mem (G.addr p) (.num v) (G.addr p) = _
    rw [upd, if_pos rfl]
  · show upd σ1.mem (G.addr p) (.num v) a = _
    rw [upd, if_neg]
    · exact h4 a (by omega) hnw
    · intro he
      exact hnw (h3.vars_w (hwv a (by simp only [Reg, List.length_singleton]; omega)))

/-- The place a write will go to is no place that must stay. -/
theorem Rel.target {G : Geo} {X : Nat → Prop} {f f1 f2 : Frame} {σ : St} {p : Place} {v : List Cell} (h : Rel G X f σ)
    (hs : Same f1 f) (hw : Spec.write f1 p v = some f2) :
    G.addr p + v.length ≤ G.fin ∧ ∀ a, Reg (G.addr p) v.length a → ¬ G.Prot a := by
  simp only [Spec.write] at hw
  split at hw
  · rename_i hle
    rw [hs.get] at hle
    have hr : Spec.read f p v.length = some (((f.get p.root).drop (Spec.index p)).take v.length) := by
      simp only [Spec.read]
      rw [if_pos hle]
    have h1 := h.addr_le hr
    obtain ⟨h2, -, h3⟩ := h.read hr
    rw [h2] at h1
    exact ⟨h1, fun a ha => h.w_prot (h.vars_w (h3 a ha))⟩
  · simp at hw

theorem exec_ops {M : Method} {F : Nat → St → Option St} {os : List Op} {k : Code} {σ σ' : St}
    (h : steps M F os σ = some σ') : exec M F (.ops os k) σ = exec M F k σ' := by
  rw [exec, h]

theorem exec_ok {C : Spec.Call} {F : Nat → St → Option St} (hC : CallOK C F) {G : Geo} :
    ∀ (s : Stmt) (f f' : Frame) (r : Option (List Cell)) (σ : St), fineStmt G.M s = true →
      Spec.exec C G.M.ret f s = some (f', r) → Rel G No f σ → σ.top = G.fin →
      ∃ σ', exec G.M F (compileStmt G.M s) σ = some (σ', r.isSome) ∧ Outcome G f f' r σ σ' := by
  intro s
  induction s with
  | done =>
    intro f f' r σ hf he h ht
    simp only [Spec.exec, Option.some.injEq, Prod.mk.injEq] at he
    obtain ⟨rfl, rfl⟩ := he
    exact ⟨σ, rfl, ⟨.refl _, fun _ _ _ _ => rfl, fun _ => ⟨ht, h⟩, fun _ hv => by simp at hv, fun _ hv => by simp at hv,
      fun _ hv => by simp at hv, fun _ _ hv => by simp at hv⟩⟩
  | setVar x e k ih =>
    intro f f' r σ hf he h ht
    simp only [fineStmt, Bool.and_eq_true] at hf
    rw [Spec.exec] at he
    cases hee : Spec.evalE C f e with
    | none => simp [hee] at he
    | some r1 =>
      obtain ⟨v, f1⟩ := r1
      cases hw : Spec.write f1 (Spec.varPlace x) [some v] with
      | none => simp [hee, hw] at he
      | some f2 =>
        simp only [hee, hw] at he
        obtain ⟨σ1, hs1, ho⟩ := evalE_ok hC true e f f1 v σ hf.1 hee h
        obtain ⟨g1, g2, g3⟩ := store_ok ho h ht hw rfl
        obtain ⟨σ', hx, hout⟩ := ih f2 f' r _ hf.2 he g1 g2
        refine ⟨σ', ?_, hout.after ((write_len hw).trans (evalE_len e _ _ _ hee)) g3⟩
        rw [← hx]
        obtain ⟨h1, h2, h3, h4⟩ := ho
        have hpk : σ1.peek = .num v := by rw [St.peek, h1, Nat.add_sub_cancel, h2]
        cases x with
        | loc i =>
          rw [compileStmt, exec_ops]
          rw [steps_trans hs1, steps_one, step, hpk]
          simp only [St.drop, Spec.varPlace, Geo.addr, Geo.org, Spec.index, Spec.start, List.sum_nil, Nat.add_zero, h1,
            Nat.add_sub_cancel, h3.lp]
        | par i =>
          rw [compileStmt, exec_ops]
          rw [steps_trans hs1, steps_one, step, hpk]
          simp only [St.drop, Spec.varPlace, Geo.addr, Geo.org, Spec.index, Spec.start, List.sum_nil, Nat.add_zero, h1,
            Nat.add_sub_cancel, argAt_eq h3, Nat.add_assoc]
  | setFld p i e k ih =>
    intro f f' r σ hf he h ht
    simp only [fineStmt, Bool.and_eq_true] at hf
    rw [Spec.exec] at he
    cases hee : Spec.evalE C f e with
    | none => simp [hee] at he
    | some r1 =>
      obtain ⟨v, f1⟩ := r1
      cases hw : Spec.write f1 (Spec.fldPlace p i) [some v] with
      | none => simp [hee, hw] at he
      | some f2 =>
        simp only [hee, hw] at he
        obtain ⟨σ1, hs1, ho⟩ := evalE_ok hC true e f f1 v σ hf.1.2 hee h
        have ho' : OutE G f1 v σ { σ1.push (.ptr (G.addr p)) with top := σ1.top } := by
          obtain ⟨h1, h2, h3, h4⟩ := ho
          have htop := h.top
          refine ⟨h1, ?_, ?_, fun a hlt hnw => ?_⟩
          · show (σ1.push _).mem σ.top = _
            rw [push_mem_lt (by omega), h2]
          · exact h3.change rfl (by show G.fin ≤ σ1.top; omega) (fun _ => id)
              (fun a hlt _ => push_mem_lt (σ := σ1) (by omega)) no_prot
          · show (σ1.push _).mem a = _
            rw [push_mem_lt (by omega), h4 a hlt hnw]
        obtain ⟨g1, g2, g3⟩ := store_ok ho' h ht hw rfl
        obtain ⟨σ', hx, hout⟩ := ih f2 f' r _ hf.2 he g1 g2
        refine ⟨σ', ?_, hout.after ((write_len hw).trans (evalE_len e _ _ _ hee)) g3⟩
        rw [← hx]
        obtain ⟨h1, h2, h3, h4⟩ := ho
        rw [compileStmt, exec_ops]
        rw [List.append_assoc, steps_trans hs1, steps_trans (steps_place F h3 p hf.1.1), steps_one, step, push_peek]
        have hpk : (σ1.push (.ptr (G.addr p))).drop.peek = .num v := by
          show (σ1.push (.ptr (G.addr p))).mem (σ1.top + 1 - 1 - 1) = _
          rw [push_mem_lt (by omega), show σ1.top + 1 - 1 - 1 = σ.top by omega, h2]
        simp only [hpk, addr_fld]
        simp only [St.drop, St.push, h1, Nat.add_sub_cancel]
  | setStr p n s k ih =>
    intro f f' r σ hf he h ht
    simp only [fineStmt, Bool.and_eq_true] at hf
    rw [Spec.exec] at he
    cases hes : Spec.evalS C f s with
    | none => simp [hes] at he
    | some r1 =>
      obtain ⟨v, f1⟩ := r1
      simp only [hes] at he
      split at he
      · rename_i hlen
        subst hlen
        cases hw : Spec.write f1 p v with
        | none => simp [hw] at he
        | some f2 =>
          simp only [hw] at he
          have hr0 : Rel G No f (σ.push (.ptr (G.addr p))) := h.push _ no_prot
          have hsame := evalS_len s _ _ _ hes
          obtain ⟨hle, hpr⟩ := h.target hsame hw
          obtain ⟨σ1, hs1, h1, h2, h3, h4⟩ := evalS_ok hC true s f f1 v _ (G.addr p) hf.1.2 hes hr0
            (by rw [push_top]; omega) push_mem_top (by rw [push_top]; omega) hpr
          rw [push_top] at h1 h4
          have hwv := h3.write_vars hw
          have hr2 : Rel G No f2 σ1 := h3.write hw (fun _ => Or.inr) h2
          obtain ⟨σ', hx, hout⟩ := ih f2 f' r σ1 hf.2 he hr2 (by omega)
          refine ⟨σ', ?_, hout.after ((write_len hw).trans (evalS_len s _ _ _ hes)) fun a hlt hnw => ?_⟩
          · rw [← hx, compileStmt, exec_ops]
            rw [steps_trans (steps_place F h p hf.1.1), hs1]
          · rw [h4 a (by omega) hnw fun hx => hnw (h3.vars_w (hwv a hx)), push_mem_lt (by omega)]
      · simp at he
  | call m args k ih =>
    intro f f' r σ hf he h ht
    simp only [fineStmt, Bool.and_eq_true] at hf
    rw [Spec.exec] at he
    cases hea : Spec.evalA C f args with
    | none => simp [hea] at he
    | some r1 =>
      obtain ⟨vs, f1⟩ := r1
      cases hc : C m .void none vs with
      | none => simp [hea, hc] at he
      | some r2 =>
        obtain ⟨ret, s'⟩ := r2
        simp only [hea, hc] at he
        obtain ⟨σ1, hs1, ho⟩ := evalA_ok hC true args f f1 vs σ hf.1 hea h
        obtain ⟨σ2, hF, hv, -, hrel, hk⟩ := call_static hC (by simp) h ho hc
        have ht2 := hv rfl
        obtain ⟨σ', hx, hout⟩ := ih f1 f' r σ2 hf.2 he (hrel (by omega)) (by omega)
        refine ⟨σ', ?_, hout.after (evalA_len args _ _ _ hea) fun a hlt hnw => hk a (by omega) hnw⟩
        rw [← hx, compileStmt, exec_ops]
        rw [steps_trans hs1, steps_one, step, hF]
  | callOn p n m args k ih =>
    intro f f' r σ hf he h ht
    simp only [fineStmt, Bool.and_eq_true] at hf
    rw [Spec.exec] at he
    cases hea : Spec.evalA C f args with
    | none => simp [hea] at he
    | some r1 =>
      obtain ⟨vs, f1⟩ := r1
      cases hrd : Spec.read f1 p n with
      | none => simp [hea, hrd] at he
      | some s =>
        cases hc : C m .void (some s) vs with
        | none => simp [hea, hrd, hc] at he
        | some r2 =>
          obtain ⟨ret, s'⟩ := r2
          cases hw : Spec.write f1 p s' with
          | none => simp [hea, hrd, hc, hw] at he
          | some f2 =>
            simp only [hea, hrd, hc, hw] at he
            obtain ⟨σ1, hs1, ho⟩ :=
              evalA_ok hC true args f f1 vs (σ.push (.ptr (G.addr p))) hf.1.2 hea (h.push _ no_prot)
            obtain ⟨σ2, hF, hv, -, hrel, hk⟩ := call_on hC (by simp) h ho hrd hc hw
            have ht2 := hv rfl
            obtain ⟨σ', hx, hout⟩ := ih f2 f' r σ2 hf.2 he (hrel (by omega)) (by omega)
            refine ⟨σ', ?_, hout.after ((write_len hw).trans (evalA_len args _ _ _ hea)) fun a hlt hnw =>
              hk a (by omega) hnw⟩
            rw [← hx, compileStmt, exec_ops]
            rw [List.append_assoc, steps_trans (steps_place F h p hf.1.1), steps_trans hs1, steps_one, step, hF]
  | ite e a b k iha ihb ihk =>
    intro f f' r σ hf he h ht
    simp only [fineStmt, Bool.and_eq_true] at hf
    obtain ⟨⟨⟨hfe, hfa⟩, hfb⟩, hfk⟩ := hf
    rw [Spec.exec] at he
    cases hee : Spec.evalE C f e with
    | none => simp [hee] at he
    | some r1 =>
      obtain ⟨v, f1⟩ := r1
      simp only [hee] at he
      obtain ⟨σ1, hs1, h1, h2, h3, h4⟩ := evalE_ok hC true e f f1 v σ hfe hee h
      have hd : Rel G No f1 σ1.drop :=
        h3.change rfl (by simp only [St.drop]; omega) (fun _ => id) (fun _ _ _ => rfl) no_prot
      have hdt : σ1.drop.top = G.fin := by simp only [St.drop]; omega
      have hpk : σ1.peek = .num v := by rw [St.peek, h1, Nat.add_sub_cancel, h2]
      have hlen1 := evalE_len e _ _ _ hee
      have hk1 : ∀ a, a < G.fin → ¬ G.W a → σ1.drop.mem a = σ.mem a := fun a hlt hnw => h4 a (by omega) hnw
      cases hb : (if v = 0 then Spec.exec C G.M.ret f1 b else Spec.exec C G.M.ret f1 a) with
      | none =>
        rw [hb] at he
        simp at he
      | some r2 =>
        obtain ⟨f2, ro⟩ := r2
        have hbr : ∃ σ2, (if v = 0 then exec G.M F (compileStmt G.M b) σ1.drop
            else exec G.M F (compileStmt G.M a) σ1.drop) = some (σ2, ro.isSome) ∧ Outcome G f1 f2 ro σ1.drop σ2 := by
          by_cases hv : v = 0
          · rw [if_pos hv] at hb ⊢
            exact ihb f1 f2 ro σ1.drop hfb hb hd hdt
          · rw [if_neg hv] at hb ⊢
            exact iha f1 f2 ro σ1.drop hfa hb hd hdt
        obtain ⟨σ2, hx2, hout2⟩ := hbr
        have hstart : exec G.M F (compileStmt G.M (.ite e a b k)) σ =
            exec G.M F (.ite (compileStmt G.M a) (compileStmt G.M b) (compileStmt G.M k)) σ1 := by
          rw [compileStmt, exec_ops hs1]
        cases ro with
        | some x =>
          simp only [hb, Option.some.injEq, Prod.mk.injEq] at he
          obtain ⟨rfl, rfl⟩ := he
          refine ⟨σ2, ?_, hout2.after hlen1 hk1⟩
          rw [hstart, exec, hpk]
          simp only [hx2, Option.isSome_some]
        | none =>
          simp only [hb] at he
          obtain ⟨ht2, hr2⟩ := hout2.on rfl
          obtain ⟨σ', hx, hout⟩ := ihk f2 f' r σ2 hfk he hr2 ht2
          refine ⟨σ', ?_, hout.len.trans (hout2.len.trans hlen1), ?_, hout.on, hout.rel, hout.void, hout.int, hout.str⟩
          · rw [hstart, exec, hpk]
            simp only [hx2, Option.isSome_none]
            exact hx
          · intro a hlt hnw hnd
            rw [hout.keep a hlt hnw hnd, hout2.keep a hlt hnw hnd, hk1 a hlt hnw]
  | ret =>
    intro f f' r σ hf he h ht
    rw [Spec.exec] at he
    split at he
    · rename_i hv
      simp only [Option.some.injEq, Prod.mk.injEq] at he
      obtain ⟨rfl, rfl⟩ := he
      refine ⟨σ, rfl, .refl _, fun _ _ _ _ => rfl, fun hr => by simp at hr, ?_, fun _ _ _ => ht, ?_, ?_⟩
      · intro v hr
        simp only [Option.some.injEq] at hr
        subst hr
        exact ⟨by rw [hv]; rfl, h.shrink fun a _ hx => hx.elim⟩
      · intro v _ hr
        rw [hv] at hr
        simp at hr
      · intro v n _ hr
        rw [hv] at hr
        simp at hr
    · simp at he
  | retInt e =>
    intro f f' r σ hf he h ht
    rw [Spec.exec] at he
    split at he
    · rename_i hv
      cases hee : Spec.evalE C f e with
      | none => simp [hee] at he
      | some r1 =>
        obtain ⟨v, f1⟩ := r1
        simp only [hee, Option.some.injEq, Prod.mk.injEq] at he
        obtain ⟨rfl, rfl⟩ := he
        obtain ⟨σ1, hs1, h1, h2, h3, h4⟩ := evalE_ok hC true e f f1 v σ hf hee h
        refine ⟨σ1, by rw [compileStmt, exec_ops hs1, exec, Option.isSome_some], evalE_len e _ _ _ hee,
          fun a hlt hnw _ => h4 a (by omega) hnw, fun hr => by simp at hr, ?_, ?_, ?_, ?_⟩
        · intro w hr
          simp only [Option.some.injEq] at hr
          subst hr
          exact ⟨by rw [hv]; rfl, h3.shrink fun a _ hx => hx.elim⟩
        · intro w _ hr
          rw [hv] at hr
          simp at hr
        · intro w hr _
          simp only [Option.some.injEq] at hr
          subst hr
          exact ⟨by omega, by rw [← ht]; exact block_one h2⟩
        · intro w n _ hr
          rw [hv] at hr
          simp at hr
    · simp at he
  | retStr s =>
    intro f f' r σ hf he h ht
    cases hv : G.M.ret with
    | void => simp [hv, Spec.exec] at he
    | int => simp [hv, Spec.exec] at he
    | str n =>
      rw [hv, Spec.exec] at he
      cases hes : Spec.evalS C f s with
      | none => simp [hes] at he
      | some r1 =>
        obtain ⟨v, f1⟩ := r1
        simp only [hes] at he
        split at he
        · rename_i hlen
          subst hlen
          simp only [Option.some.injEq, Prod.mk.injEq] at he
          obtain ⟨rfl, rfl⟩ := he
          obtain ⟨d1, d2, d3⟩ := h.dst _ hv
          have hdd : ∀ a, Dst G.M.ret G.d a ↔ Reg G.d v.length a := by
            intro a
            constructor
            · rintro ⟨n, hn, hx⟩
              rw [hv, Ret.str.injEq] at hn
              subst hn
              exact hx
            · intro hx
              exact ⟨_, hv, hx⟩
          have hfin : G.fin = G.b + G.M.units + 3 + G.M.locals := rfl
          obtain ⟨σ1, hs1, h1, h2, h3, h4⟩ := evalS_ok hC true s f f1 v (σ.push (.ptr G.d)) G.d hf hes (h.push _ no_prot)
            (by rw [push_top]; omega) push_mem_top (by rw [push_top]; omega) (by
              intro a ha hp
              simp only [Reg] at ha
              rcases hp with ⟨_, hp⟩ | hp | ⟨_, hp⟩ <;> omega)
          rw [push_top] at h1 h4
          refine ⟨σ1, ?_, evalS_len s _ _ _ hes, fun a hlt hnw hnd => ?_, fun hr => by simp at hr, ?_, ?_, ?_, ?_⟩
          · have e : step G.M F .bottom σ = some (σ.push (.ptr G.d)) := by
              rw [step, argAt_eq h, Nat.add_zero, d2]
            rw [compileStmt, exec_ops (steps_cons e ▸ hs1), exec, Option.isSome_some]
          · rw [h4 a (by omega) hnw fun hx => hnd ((hdd a).2 hx), push_mem_lt (by omega)]
          · intro w hr
            simp only [Option.some.injEq] at hr
            subst hr
            exact ⟨by rw [hv]; rfl, h3.shrink fun a _ hx => (hdd a).2 hx⟩
          · intro w _ hr
            rw [hv] at hr
            simp at hr
          · intro w _ hr
            rw [hv] at hr
            simp at hr
          · intro w n hr _
            simp only [Option.some.injEq] at hr
            subst hr
            exact ⟨by omega, h2⟩
        · simp at he

/-- What a `return` gives is as large as the method says, and the frame keeps its shape. -/
theorem exec_shape {C : Spec.Call} {r : Ret} : ∀ (s : Stmt) (f f' : Frame) (o : Option (List Cell)),
    Spec.exec C r f s = some (f', o) → Same f' f ∧ ∀ v, o = some v → v.length = r.size := by
  intro s
  induction s with
  | done =>
    intro f f' o he
    simp only [Spec.exec, Option.some.injEq, Prod.mk.injEq] at he
    obtain ⟨rfl, rfl⟩ := he
    exact ⟨.refl _, fun v hv => by simp at hv⟩
  | setVar x e k ih =>
    intro f f' o he
    rw [Spec.exec] at he
    cases hee : Spec.evalE C f e with
    | none => simp [hee] at he
    | some r1 =>
      cases hw : Spec.write r1.2 (Spec.varPlace x) [some r1.1] with
      | none => simp [hee, hw] at he
      | some f2 =>
        simp only [hee, hw] at he
        obtain ⟨h1, h2⟩ := ih _ _ _ he
        exact ⟨h1.trans ((write_len hw).trans (evalE_len e _ _ _ hee)), h2⟩
  | setFld p i e k ih =>
    intro f f' o he
    rw [Spec.exec] at he
    cases hee : Spec.evalE C f e with
    | none => simp [hee] at he
    | some r1 =>
      cases hw : Spec.write r1.2 (Spec.fldPlace p i) [some r1.1] with
      | none => simp [hee, hw] at he
      | some f2 =>
        simp only [hee, hw] at he
        obtain ⟨h1, h2⟩ := ih _ _ _ he
        exact ⟨h1.trans ((write_len hw).trans (evalE_len e _ _ _ hee)), h2⟩
  | setStr p n s k ih =>
    intro f f' o he
    rw [Spec.exec] at he
    cases hes : Spec.evalS C f s with
    | none => simp [hes] at he
    | some r1 =>
      simp only [hes] at he
      split at he
      · cases hw : Spec.write r1.2 p r1.1 with
        | none => simp [hw] at he
        | some f2 =>
          simp only [hw] at he
          obtain ⟨h1, h2⟩ := ih _ _ _ he
          exact ⟨h1.trans ((write_len hw).trans (evalS_len s _ _ _ hes)), h2⟩
      · simp at he
  | call m args k ih =>
    intro f f' o he
    rw [Spec.exec] at he
    cases hea : Spec.evalA C f args with
    | none => simp [hea] at he
    | some r1 =>
      cases hc : C m .void none r1.1 with
      | none => simp [hea, hc] at he
      | some r2 =>
        simp only [hea, hc] at he
        obtain ⟨h1, h2⟩ := ih _ _ _ he
        exact ⟨h1.trans (evalA_len args _ _ _ hea), h2⟩
  | callOn p n m args k ih =>
    intro f f' o he
    rw [Spec.exec] at he
    cases hea : Spec.evalA C f args with
    | none => simp [hea] at he
    | some r1 =>
      cases hrd : Spec.read r1.2 p n with
      | none => simp [hea, hrd] at he
      | some s =>
        cases hc : C m .void (some s) r1.1 with
        | none => simp [hea, hrd, hc] at he
        | some r2 =>
          cases hw : Spec.write r1.2 p r2.2 with
          | none => simp [hea, hrd, hc, hw] at he
          | some f2 =>
            simp only [hea, hrd, hc, hw] at he
            obtain ⟨h1, h2⟩ := ih _ _ _ he
            exact ⟨h1.trans ((write_len hw).trans (evalA_len args _ _ _ hea)), h2⟩
  | ite e a b k iha ihb ihk =>
    intro f f' o he
    rw [Spec.exec] at he
    cases hee : Spec.evalE C f e with
    | none => simp [hee] at he
    | some r1 =>
      obtain ⟨v, f1⟩ := r1
      simp only [hee] at he
      cases hb : (if v = 0 then Spec.exec C r f1 b else Spec.exec C r f1 a) with
      | none =>
        rw [hb] at he
        simp at he
      | some r2 =>
        obtain ⟨f2, ro⟩ := r2
        have hbr : Same f2 f1 ∧ ∀ v, ro = some v → v.length = r.size := by
          by_cases hv : v = 0
          · rw [if_pos hv] at hb
            exact ihb _ _ _ hb
          · rw [if_neg hv] at hb
            exact iha _ _ _ hb
        have hlen := evalE_len e _ _ _ hee
        cases ro with
        | some x =>
          simp only [hb, Option.some.injEq, Prod.mk.injEq] at he
          obtain ⟨rfl, rfl⟩ := he
          exact ⟨hbr.1.trans hlen, hbr.2⟩
        | none =>
          simp only [hb] at he
          obtain ⟨h1, h2⟩ := ihk _ _ _ he
          exact ⟨h1.trans (hbr.1.trans hlen), h2⟩
  | ret =>
    intro f f' o he
    rw [Spec.exec] at he
    split at he
    · rename_i hv
      simp only [Option.some.injEq, Prod.mk.injEq] at he
      obtain ⟨rfl, rfl⟩ := he
      refine ⟨.refl _, fun v h => ?_⟩
      simp only [Option.some.injEq] at h
      subst h
      rw [hv]
      rfl
    · simp at he
  | retInt e =>
    intro f f' o he
    rw [Spec.exec] at he
    split at he
    · rename_i hv
      cases hee : Spec.evalE C f e with
      | none => simp [hee] at he
      | some r1 =>
        simp only [hee, Option.some.injEq, Prod.mk.injEq] at he
        obtain ⟨rfl, rfl⟩ := he
        refine ⟨evalE_len e _ _ _ hee, fun v h => ?_⟩
        simp only [Option.some.injEq] at h
        subst h
        rw [hv]
        rfl
    · simp at he
  | retStr s =>
    intro f f' o he
    cases hv : r with
    | void => simp [hv, Spec.exec] at he
    | int => simp [hv, Spec.exec] at he
    | str n =>
      rw [hv, Spec.exec] at he
      cases hes : Spec.evalS C f s with
      | none => simp [hes] at he
      | some r1 =>
        simp only [hes] at he
        split at he
        · rename_i hl
          simp only [Option.some.injEq, Prod.mk.injEq] at he
          obtain ⟨rfl, rfl⟩ := he
          refine ⟨evalS_len s _ _ _ hes, fun v h => ?_⟩
          simp only [Option.some.injEq] at h
          subst h
          exact hl
        · simp at he

theorem exec_len {C : Spec.Call} {r : Ret} {s : Stmt} {f f' : Frame} {o : Option (List Cell)}
    (h : Spec.exec C r f s = some (f', o)) : Same f' f := (exec_shape s f f' o h).1

theorem ret_len {C : Spec.Call} {r : Ret} {s : Stmt} {f f' : Frame} {v : List Cell}
    (h : Spec.exec C r f s = some (f', some v)) : v.length = r.size := (exec_shape s f f' _ h).2 v rfl

end Verif.Structs
