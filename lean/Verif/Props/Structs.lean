import Verif.Proof.Structs

/-!
# C113: structs are values

A variable of a struct type has its own fields: assigning it, passing it, returning it and constructing it copies all
fields, a method works on the variable it is called on, and nothing else changes.  The specification (`Verif.Spec.Structs`)
knows no addresses.  The machine works on one stack of units and passes the address of where a struct is to go.

Partial: the property as stated is false of this compiler.  `new S()` leaves the fields as they were
(`new_default_refuted`), `t = this` copies nothing (`this_refuted`), and so does a struct passed to a call whose result a `.`
follows (`argument_refuted`).  Programs without these do what the specification says (`structs_partial`).
-/

namespace Verif.Structs

open Spec (Cell Frame)

theorem run_ok {P : List Method} (hP : fine P = true) : ∀ n, CallOK (Spec.call P n) (run P n) := by
  intro n
  induction n with
  | zero =>
    intro m r self args ret self' hc
    simp [Spec.call] at hc
  | succ n ih =>
    intro m r self args ret self' hc
    rw [Spec.call] at hc
    cases hM : P[m]? with
    | none => simp [hM] at hc
    | some M =>
      simp only [hM] at hc
      split at hc
      · rename_i hcond
        obtain ⟨rfl, hself, hpar⟩ := hcond
        have hmem : M ∈ P := List.mem_of_getElem? hM
        have hfm := List.all_eq_true.1 hP M hmem
        simp only [Bool.and_eq_true, decide_eq_true_eq] at hfm
        obtain ⟨hvars, hfine⟩ := hfm
        cases hx : Spec.exec (Spec.call P n) M.ret ⟨self.getD [], args, List.replicate M.vars none⟩ M.body with
        | none => simp [hx] at hc
        | some r1 =>
          obtain ⟨f, ro⟩ := r1
          cases ro with
          | none => simp [hx] at hc
          | some v =>
            simp only [hx, Option.some.injEq, Prod.mk.injEq] at hc
            obtain ⟨rfl, rfl⟩ := hc
            have hoff : M.off = self.toList.length := by
              rw [Method.off, hself]
              cases self <;> rfl
            have htn : M.self.getD 0 = (self.getD []).length := by
              rw [hself]
              cases self <;> rfl
            have hsome : M.self.isSome = self.isSome := by
              rw [hself]
              cases self <;> rfl
            have hunits : M.units = self.toList.length + args.length := by rw [Method.units, hoff, hpar]
            -- what is known from any call
            have main : ∀ (σ : St) (b ta d : Nat), σ.top = b + self.toList.length + args.length →
                Block σ.mem (b + self.toList.length) args No → (self.isSome → σ.mem b = .ptr ta) →
                Block σ.mem ta (self.getD []) No → ta + (self.getD []).length ≤ floor M.ret b →
                (∀ n, M.ret = .str n → 1 ≤ b ∧ σ.mem (b - 1) = .ptr d ∧ d + n ≤ b - 1) →
                ∃ σ1, exec M (run P n) (compileStmt M M.body) (enter M σ) = some (σ1, true) ∧
                  Outcome ⟨M, b, ta, d, σ.lp⟩ ⟨self.getD [], args, List.replicate M.vars none⟩ f (some v) (enter M σ) σ1 ∧
                  ∀ a, a < b + M.units → (enter M σ).mem a = σ.mem a := by
              intro σ b ta d ht hb hthis hself' hlow hdst
              have htop : σ.top = b + M.units := by omega
              have hmemE : ∀ a, a < b + M.units → (enter M σ).mem a = σ.mem a := by
                intro a ha
                simp only [enter, upd]
                rw [if_neg (by omega), if_neg (by omega), if_neg (by omega)]
              have hfl := floor_le M.ret b
              have hrel : Rel ⟨M, b, ta, d, σ.lp⟩ No ⟨self.getD [], args, List.replicate M.vars none⟩ (enter M σ) := by
                refine ⟨?_, ?_, hvars, hpar.symm, List.length_replicate, htn.symm, ?_, block_nones, ?_, ?_, ?_, ?_, ?_⟩
                · show σ.top + 3 = b + M.units + 3
                  omega
                · show b + M.units + 3 + M.locals ≤ σ.top + 3 + M.locals
                  omega
                · show Block (enter M σ).mem (b + M.off) args No
                  rw [hoff]
                  exact hb.mem fun x h1 h2 _ => hmemE x (by omega)
                · exact hself'.mem fun x h1 h2 _ => hmemE x (by
                    have : x < ta + (self.getD []).length := h2
                    omega)
                · intro hs
                  show (enter M σ).mem b = .ptr ta
                  have h1 : M.off = 1 := by
                    rw [Method.off, if_pos]
                    exact hs
                  rw [hmemE b (by rw [Method.units]; omega)]
                  exact hthis (by rw [← hsome]; exact hs)
                · show ta + M.self.getD 0 ≤ floor M.ret b
                  rw [htn]
                  exact hlow
                · show (enter M σ).mem (b + M.units) = .ptr σ.lp
                  simp only [enter, upd]
                  rw [if_neg (by omega), if_neg (by omega), if_pos (by omega)]
                · intro k hk
                  obtain ⟨h1, h2, h3⟩ := hdst k hk
                  refine ⟨h1, ?_, h3⟩
                  show (enter M σ).mem (b - 1) = .ptr d
                  have : 1 ≤ b := h1
                  rw [hmemE _ (by omega), h2]
              obtain ⟨σ1, hx1, hout⟩ := exec_ok ih M.body _ f (some v) (enter M σ) hfine hx hrel (by
                show σ.top + 3 + M.locals = b + M.units + 3 + M.locals
                omega)
              exact ⟨σ1, hx1, hout, hmemE⟩
            refine ⟨⟨ret_len hx, (exec_len hx).self⟩, ?_⟩
            intro σ b ta d ht hb hthis hself' hlow hdst
            obtain ⟨σ1, hx1, hout, hmemE⟩ := main σ b ta d ht hb hthis hself' hlow hdst
            obtain ⟨hvl, hrel1⟩ := hout.rel v rfl
            have hlp1 : σ1.lp = b + M.units + 3 := hrel1.lp
            have hstub : σ1.mem (σ1.lp - 3) = .ptr σ.lp := by
              rw [hlp1, Nat.add_sub_cancel]
              exact hrel1.stub
            have hfl := floor_le M.ret b
            have hkeep : ∀ a, a < floor M.ret b → ¬ Reg ta (self.getD []).length a → ¬ Dst M.ret d a →
                σ1.mem a = σ.mem a := by
              intro a hlt hnt hnd
              rw [hout.keep a (by show a < b + M.units + 3 + M.locals; omega) (by
                intro hw
                simp only [Geo.W, Geo.tn, Geo.lp, htn] at hw
                simp only [Reg] at hnt
                omega) hnd]
              exact hmemE a (by omega)
            cases hr : M.ret with
            | void =>
              have ht1 : σ1.top = b + M.units + 3 + M.locals := hout.void v rfl hr
              refine ⟨⟨σ1.mem, b, σ.lp⟩, ?_, rfl, ?_, ?_, fun _ => rfl, fun h => by simp at h, fun _ h => by simp at h⟩
              · rw [run, hM]
                simp only [hx1]
                simp only [leave, hstub, hr, ht1]
                rw [show b + M.units + 3 + M.locals - (M.units + 3 + M.locals) = b by omega]
              · rw [← hr]
                exact hrel1.self
              · rw [← hr]
                exact hkeep
            | int =>
              obtain ⟨ht1, hb1⟩ : σ1.top = b + M.units + 3 + M.locals + 1 ∧
                Block σ1.mem (b + M.units + 3 + M.locals) v No := hout.int v rfl hr
              rw [hr] at hfl hlow hkeep
              simp only [floor] at hlow hkeep
              refine ⟨⟨upd σ1.mem b (σ1.mem (b + M.units + 3 + M.locals)), b + 1, σ.lp⟩, ?_, rfl, ?_, ?_,
                fun h => by simp at h, fun _ => ⟨rfl, ?_⟩, fun _ h => by simp at h⟩
              · rw [run, hM]
                simp only [hx1]
                simp only [leave, hstub, hr, ht1]
                rw [show b + M.units + 3 + M.locals + 1 - (M.units + 3 + M.locals) = b + 1 by omega,
                  show b + 1 + (M.units + 3 + M.locals) - 1 = b + M.units + 3 + M.locals by omega, Nat.add_sub_cancel]
              · have hs1 : Block σ1.mem ta f.self (Dst .int d) := by
                  rw [← hr]
                  exact hrel1.self
                have hfs : f.self.length = (self.getD []).length := (exec_len hx).self
                exact hs1.mem fun x h1 h2 _ => by
                  show upd σ1.mem b _ x = _
                  rw [upd, if_neg (by omega)]
              · intro a hlt hnt hnd
                show upd σ1.mem b _ a = _
                simp only [floor] at hlt
                rw [upd, if_neg (by omega)]
                exact hkeep a hlt hnt hnd
              · intro i w hi _
                have hi' : i < v.length := (List.getElem?_eq_some_iff.1 hi).1
                have hvl1 : v.length = 1 := by
                  have : v.length = M.ret.size := hvl
                  rw [this, hr]
                  rfl
                obtain rfl : i = 0 := by omega
                show upd σ1.mem b _ b = _
                rw [upd, if_pos rfl]
                exact hb1 0 w hi id
            | str k =>
              obtain ⟨ht1, hb1⟩ : σ1.top = b + M.units + 3 + M.locals ∧ Block σ1.mem d v No := hout.str v k rfl hr
              refine ⟨⟨σ1.mem, b - 1, σ.lp⟩, ?_, rfl, ?_, ?_, fun h => by simp at h, fun h => by simp at h,
                fun _ _ => ⟨rfl, hb1⟩⟩
              · rw [run, hM]
                simp only [hx1]
                simp only [leave, hstub, hr, ht1]
                rw [show b + M.units + 3 + M.locals - (M.units + 3 + M.locals) = b by omega]
              · rw [← hr]
                exact hrel1.self
              · rw [← hr]
                exact hkeep
      · simp at hc

/-- **C113.**  What the specification says a program gives is what the machine gives, whatever its memory held before. -/
theorem structs_partial {P : List Method} (hP : fine P = true) {n : Nat} {v : Word} (h : Spec.result P n = some v)
    (mem : Nat → V) (top : Nat) : result P n mem top = some (.num v) := by
  unfold Spec.result at h
  split at h
  · rename_i w s' hc
    simp only [Option.some.injEq] at h
    subst h
    obtain ⟨σ', hr, hcd⟩ := (run_ok hP n 0 .int none [] _ _ hc).2 ⟨mem, top, 0⟩ top 0 0 rfl
      (by intro i v hi; simp at hi) (by simp) (by intro i v hi; simp at hi) (by simp) (fun _ h => by simp at h)
    obtain ⟨ht, hb⟩ := hcd.int rfl
    rw [result, hr]
    simp only [St.peek, ht, Nat.add_sub_cancel]
    exact congrArg some (hb 0 w rfl id)
  · simp at h

/-! ## What the specification says about structs -/

/-- A place that was assigned holds what was assigned. -/
theorem assigned {f f' : Frame} {p : Place} {v : List Cell} (h : Spec.write f p v = some f') :
    Spec.read f' p v.length = some v := by
  simp only [Spec.write] at h
  split at h
  · rename_i hle
    simp only [Option.some.injEq] at h
    subst h
    obtain ⟨r, offs⟩ := p
    have key : ∀ l : List Cell, Spec.index ⟨r, offs⟩ + v.length ≤ l.length →
        (if Spec.index ⟨r, offs⟩ + v.length ≤
            (l.take (Spec.index ⟨r, offs⟩) ++ (v ++ l.drop (Spec.index ⟨r, offs⟩ + v.length))).length
          then some (((l.take (Spec.index ⟨r, offs⟩) ++ (v ++ l.drop (Spec.index ⟨r, offs⟩ + v.length))).drop
            (Spec.index ⟨r, offs⟩)).take v.length) else none) = some v := by
      intro l hl
      rw [if_pos (by simp only [List.length_append, List.length_take, List.length_drop]; omega), List.drop_append,
        List.drop_eq_nil_of_le (by rw [List.length_take]; omega), List.nil_append, List.length_take,
        show Spec.index ⟨r, offs⟩ - min (Spec.index ⟨r, offs⟩) l.length = 0 by omega, List.drop_zero,
        List.take_append_of_le_length (Nat.le_refl _), List.take_length]
    cases r <;> exact key _ hle
  · simp at h

/-- Every other variable, and every other part of the same variable, holds what it held: changing a copy does not change what
it was copied from. -/
theorem others {f f' : Frame} {p q : Place} {v : List Cell} {n : Nat} (h : Spec.write f p v = some f')
    (hd : (∀ i j, p.root = .loc i → q.root = .loc j → Spec.index p + v.length ≤ Spec.index q ∨
        Spec.index q + n ≤ Spec.index p) ∧
      (∀ i j, p.root = .par i → q.root = .par j → Spec.index p + v.length ≤ Spec.index q ∨
        Spec.index q + n ≤ Spec.index p) ∧
      (p.root = .self → q.root = .self → Spec.index p + v.length ≤ Spec.index q ∨ Spec.index q + n ≤ Spec.index p)) :
    Spec.read f' q n = Spec.read f q n := by
  simp only [Spec.write] at h
  split at h
  · rename_i hle
    simp only [Option.some.injEq] at h
    subst h
    obtain ⟨r, offs⟩ := p
    obtain ⟨r', offs'⟩ := q
    obtain ⟨h1, h2, h3⟩ := hd
    have key : ∀ (l : List Cell) (k : Nat), Spec.index ⟨r, offs⟩ + v.length ≤ l.length →
        (Spec.index ⟨r, offs⟩ + v.length ≤ k ∨ k + n ≤ Spec.index ⟨r, offs⟩) →
        (if k + n ≤ (l.take (Spec.index ⟨r, offs⟩) ++ (v ++ l.drop (Spec.index ⟨r, offs⟩ + v.length))).length
          then some (((l.take (Spec.index ⟨r, offs⟩) ++ (v ++ l.drop (Spec.index ⟨r, offs⟩ + v.length))).drop k).take n)
          else none) =
        if k + n ≤ l.length then some ((l.drop k).take n) else none := by
      intro l k hl hap
      have hlen : (l.take (Spec.index ⟨r, offs⟩) ++ (v ++ l.drop (Spec.index ⟨r, offs⟩ + v.length))).length = l.length := by
        simp only [List.length_append, List.length_take, List.length_drop]
        omega
      rw [hlen]
      split
      · congr 1
        apply List.ext_getElem?
        intro i
        rw [List.getElem?_take, List.getElem?_take, List.getElem?_drop, List.getElem?_drop, splice_get hl]
        split
        · rw [if_neg (by omega)]
        · rfl
      · rfl
    cases r <;> cases r'
    · exact key _ _ hle (h1 _ _ rfl rfl)
    · rfl
    · rfl
    · rfl
    · exact key _ _ hle (h2 _ _ rfl rfl)
    · rfl
    · rfl
    · rfl
    · exact key _ _ hle (h3 rfl rfl)
  · simp at h

/-! ## How deep calls go does not matter -/

theorem step_mono {M : Method} {F F' : Nat → St → Option St} (hF : ∀ m σ σ', F m σ = some σ' → F' m σ = some σ') {o : Op}
    {σ σ' : St} (h : step M F o σ = some σ') : step M F' o σ = some σ' := by
  cases o with
  | call m => exact hF m σ σ' h
  | _ => exact h

theorem steps_mono {M : Method} {F F' : Nat → St → Option St} (hF : ∀ m σ σ', F m σ = some σ' → F' m σ = some σ') :
    ∀ (os : List Op) (σ σ' : St), steps M F os σ = some σ' → steps M F' os σ = some σ' := by
  intro os
  induction os with
  | nil => exact fun _ _ h => h
  | cons o os ih =>
    intro σ σ' h
    rw [steps] at h
    cases hs : step M F o σ with
    | none => simp [hs] at h
    | some σ1 =>
      simp only [hs] at h
      rw [steps, step_mono hF hs]
      exact ih _ _ h

theorem exec_mono {M : Method} {F F' : Nat → St → Option St} (hF : ∀ m σ σ', F m σ = some σ' → F' m σ = some σ') :
    ∀ (k : Code) (σ : St) (r : St × Bool), exec M F k σ = some r → exec M F' k σ = some r := by
  intro k
  induction k with
  | done => exact fun _ _ h => h
  | ret => exact fun _ _ h => h
  | ops os k ih =>
    intro σ r h
    rw [exec] at h
    cases hs : steps M F os σ with
    | none => simp [hs] at h
    | some σ1 =>
      simp only [hs] at h
      rw [exec, steps_mono hF _ _ _ hs]
      exact ih _ _ h
  | ite a b k iha ihb ihk =>
    intro σ r h
    rw [exec] at h ⊢
    cases hp : σ.peek with
    | ptr x => simp [hp] at h
    | num v =>
      simp only [hp] at h ⊢
      cases hb : (if v = 0 then exec M F b σ.drop else exec M F a σ.drop) with
      | none =>
        rw [hb] at h
        simp at h
      | some r2 =>
        have hb' : (if v = 0 then exec M F' b σ.drop else exec M F' a σ.drop) = some r2 := by
          by_cases hv : v = 0
          · rw [if_pos hv] at hb ⊢
            exact ihb _ _ hb
          · rw [if_neg hv] at hb ⊢
            exact iha _ _ hb
        obtain ⟨σ2, ret⟩ := r2
        rw [hb] at h
        rw [hb']
        cases ret with
        | true => exact h
        | false => exact ihk _ _ h

theorem run_mono (P : List Method) : ∀ (n m : Nat) (σ σ' : St), run P n m σ = some σ' → run P (n + 1) m σ = some σ' := by
  intro n
  induction n with
  | zero =>
    intro m σ σ' h
    simp [run] at h
  | succ n ih =>
    intro m σ σ' h
    rw [run] at h ⊢
    cases hM : P[m]? with
    | none => simp [hM] at h
    | some M =>
      simp only [hM] at h ⊢
      cases hx : exec M (run P n) (compileStmt M M.body) (enter M σ) with
      | none => simp [hx] at h
      | some r =>
        rw [exec_mono ih _ _ _ hx]
        rw [hx] at h
        exact h

theorem run_le (P : List Method) {n n' : Nat} (hn : n ≤ n') (m : Nat) (σ σ' : St) (h : run P n m σ = some σ') :
    run P n' m σ = some σ' := by
  induction hn with
  | refl => exact h
  | step _ ih => exact run_mono P _ _ _ _ ih

theorem result_le {P : List Method} {n n' : Nat} (hn : n ≤ n') {mem : Nat → V} {top : Nat} {x : V}
    (h : result P n mem top = some x) : result P n' mem top = some x := by
  unfold result at h ⊢
  cases hr : run P n 0 ⟨mem, top, 0⟩ with
  | none => simp [hr] at h
  | some σ =>
    rw [run_le P hn _ _ _ hr]
    rw [hr] at h
    exact h

/-- **C113.**  Whatever the machine gives, however deep it goes, is what the specification says. -/
theorem structs_unique_partial {P : List Method} (hP : fine P = true) {n k : Nat} {v : Word} {x : V}
    (h : Spec.result P n = some v) (mem : Nat → V) (top : Nat) (hx : result P k mem top = some x) : x = .num v := by
  have h1 := result_le (Nat.le_max_left n k) (structs_partial hP h mem top)
  have h2 := result_le (Nat.le_max_right n k) hx
  rw [h1] at h2
  simpa using h2.symm

/-- **C113.**  A call changes nothing that lies below what was pushed for it, except the struct it is called on and the place
its result goes to; the struct it is called on becomes what the specification says. -/
theorem call_keeps_partial {P : List Method} (hP : fine P = true) {n m : Nat} {r : Ret} {self : Option (List Cell)}
    {args ret self' : List Cell} (hc : Spec.call P n m r self args = some (ret, self')) (σ : St) (b ta d : Nat)
    (htop : σ.top = b + self.toList.length + args.length) (hargs : Block σ.mem (b + self.toList.length) args No)
    (hthis : self.isSome → σ.mem b = .ptr ta) (hself : Block σ.mem ta (self.getD []) No)
    (hlow : ta + (self.getD []).length ≤ floor r b)
    (hdst : ∀ n, r = .str n → 1 ≤ b ∧ σ.mem (b - 1) = .ptr d ∧ d + n ≤ b - 1) :
    ∃ σ', run P n m σ = some σ' ∧ Block σ'.mem ta self' (Dst r d) ∧
      ∀ a, a < floor r b → ¬ Reg ta (self.getD []).length a → ¬ Dst r d a → σ'.mem a = σ.mem a := by
  obtain ⟨σ', h1, h2⟩ := (run_ok hP n m r self args ret self' hc).2 σ b ta d htop hargs hthis hself hlow hdst
  exact ⟨σ', h1, h2.own, h2.keep⟩

/-! ## Programs -/

/-- `struct S { long x, y; … }` and `struct N { S a, b; long k; }`. -/
def sMethods : List Method :=
  [ -- 1: S(long a, long b) { x = a; y = b; }
    ⟨some 2, 2, 0, 0, .void, .setFld ⟨.self, []⟩ 0 (.var (.par 0)) (.setFld ⟨.self, []⟩ 1 (.var (.par 1)) .ret)⟩,
    -- 2: long Sum() { return x + y; }
    ⟨some 2, 0, 0, 0, .int, .retInt (.bin .add (.fld ⟨.self, []⟩ 0) (.fld ⟨.self, []⟩ 1))⟩,
    -- 3: void Inc(long d) { x = x + d; }
    ⟨some 2, 1, 0, 0, .void, .setFld ⟨.self, []⟩ 0 (.bin .add (.fld ⟨.self, []⟩ 0) (.var (.par 0))) .ret⟩,
    -- 4: static S Swap(S s) { s.Inc(100); return new S(s.y, s.x); }
    ⟨none, 2, 0, 0, .str 2, .callOn ⟨.par 0, []⟩ 2 3 (.int (.const 100) .nil)
      (.retStr (.new 2 1 (.int (.fld ⟨.par 0, []⟩ 1) (.int (.fld ⟨.par 0, []⟩ 0) .nil))))⟩,
    -- 5: S Next() { Inc(1); return new S(x, y * 2); }
    ⟨some 2, 0, 0, 0, .str 2, .callOn ⟨.self, []⟩ 2 3 (.int (.const 1) .nil)
      (.retStr (.new 2 1 (.int (.fld ⟨.self, []⟩ 0) (.int (.bin .mul (.fld ⟨.self, []⟩ 1) (.const 2)) .nil))))⟩,
    -- 6: static S Rec(S s, long k) { if (k) return Rec(Swap(s), k - 1); return s; }
    ⟨none, 3, 0, 0, .str 2, .ite (.var (.par 2))
      (.retStr (.call 2 6 (.str 2 (.call 2 4 (.str 2 (.place ⟨.par 0, []⟩ 2) .nil))
        (.int (.bin .sub (.var (.par 2)) (.const 1)) .nil)))) .done (.retStr (.place ⟨.par 0, []⟩ 2))⟩,
    -- 7: static long Use(S s, S t) { s.x = s.x * 10; t = s; return t.x + t.y; }
    ⟨none, 4, 0, 0, .int, .setFld ⟨.par 0, []⟩ 0 (.bin .mul (.fld ⟨.par 0, []⟩ 0) (.const 10))
      (.setStr ⟨.par 2, []⟩ 2 (.place ⟨.par 0, []⟩ 2)
        (.retInt (.bin .add (.fld ⟨.par 2, []⟩ 0) (.fld ⟨.par 2, []⟩ 1))))⟩ ]

/-- `S s = new S(1, 2); S t = s; t.Inc(40); N n; n.b = t; n.a = Swap(n.b); s = s.Next(); n.b = n.a.Next();`
`return Use(Rec(t, 3), n.b) * 1000000 + new S(7, s.x).y * 100000 + n.a.Sum() * 10 + s.y;` -/
def tour : List Method :=
  ⟨none, 0, 9, 11, .int,
    .setStr ⟨.loc 0, []⟩ 2 (.new 2 1 (.int (.const 1) (.int (.const 2) .nil))) <|
    .setStr ⟨.loc 2, []⟩ 2 (.place ⟨.loc 0, []⟩ 2) <|
    .callOn ⟨.loc 2, []⟩ 2 3 (.int (.const 40) .nil) <|
    .setStr ⟨.loc 4, [2]⟩ 2 (.place ⟨.loc 2, []⟩ 2) <|
    .setStr ⟨.loc 4, [0]⟩ 2 (.call 2 4 (.str 2 (.place ⟨.loc 4, [2]⟩ 2) .nil)) <|
    .setStr ⟨.loc 0, []⟩ 2 (.callOn 2 ⟨.loc 0, []⟩ 2 5 .nil) <|
    .setStr ⟨.loc 4, [2]⟩ 2 (.callOn 2 ⟨.loc 4, [0]⟩ 2 5 .nil) <|
    .retInt (.bin .add (.bin .add (.bin .add
      (.bin .mul (.call 7 (.str 2 (.call 2 6 (.str 2 (.place ⟨.loc 2, []⟩ 2) (.int (.const 3) .nil)))
        (.str 2 (.place ⟨.loc 4, [2]⟩ 2) .nil))) (.const 1000000))
      (.bin .mul (.temp 9 2 (.new 2 1 (.int (.const 7) (.int (.fld ⟨.loc 0, []⟩ 0) .nil))) 1) (.const 100000)))
      (.bin .mul (.callOn ⟨.loc 4, [0]⟩ 2 2 .nil) (.const 10)))
      (.fld ⟨.loc 0, []⟩ 1))⟩ :: sMethods

theorem tour_fine : fine tour = true := by decide +kernel

theorem tour_spec : Spec.result tour 9 = some 1261201444 := by decide +kernel

/-- The hypotheses of `structs_partial` hold of a program that assigns, passes, returns and constructs structs, nested ones too, and
calls methods that change them. -/
example (mem : Nat → V) (top : Nat) : result tour 9 mem top = some (.num 1261201444) :=
  structs_partial tour_fine tour_spec mem top

example (k : Nat) (mem : Nat → V) (top : Nat) (x : V) (h : result tour k mem top = some x) : x = .num 1261201444 :=
  structs_unique_partial tour_fine tour_spec mem top h

/-- `S s = new S(1, 2); S t = s; t.Inc(40); return s.x * 100 + t.x;` -/
def apart : List Method :=
  ⟨none, 0, 4, 4, .int,
    .setStr ⟨.loc 0, []⟩ 2 (.new 2 1 (.int (.const 1) (.int (.const 2) .nil))) <|
    .setStr ⟨.loc 2, []⟩ 2 (.place ⟨.loc 0, []⟩ 2) <|
    .callOn ⟨.loc 2, []⟩ 2 3 (.int (.const 40) .nil) <|
    .retInt (.bin .add (.bin .mul (.fld ⟨.loc 0, []⟩ 0) (.const 100)) (.fld ⟨.loc 2, []⟩ 0))⟩ :: sMethods

example (mem : Nat → V) (top : Nat) : result apart 2 mem top = some (.num 141) :=
  structs_partial (by decide +kernel) (by decide +kernel) mem top

/-- A call of `Next` on a struct at 5 that gives a struct to 10: only these two places change. -/
example (mem : Nat → V) (h5 : mem 5 = .num 3) (h6 : mem 6 = .num 4) (h20 : mem 20 = .ptr 10) (h21 : mem 21 = .ptr 5) :
    ∃ σ', run tour 2 5 ⟨mem, 22, 0⟩ = some σ' ∧ Block σ'.mem 5 [some 4, some 4] (Dst (.str 2) 10) ∧
      ∀ a, a < 20 → ¬ Reg 5 2 a → ¬ Dst (.str 2) 10 a → σ'.mem a = mem a := by
  refine call_keeps_partial (P := tour) (r := .str 2) (self := some [some 3, some 4]) (args := []) (ret := [some 4, some 8])
    tour_fine (by decide +kernel) ⟨mem, 22, 0⟩ 21 5 10 rfl (by intro i v hi; simp at hi) (fun _ => h21) ?_ (by decide)
    (fun n hn => ⟨by decide, h20, ?_⟩)
  · intro i v hi _
    match i, hi with
    | 0, hi => simp at hi; subst hi; exact h5
    | 1, hi => simp at hi; subst hi; exact h6
  · simp only [Ret.str.injEq] at hn
    omega

example : Spec.write ⟨[], [], [some 1, some 2, some 1, some 2]⟩ ⟨.loc 2, [0]⟩ [some 41] =
    some ⟨[], [], [some 1, some 2, some 41, some 2]⟩ := by decide +kernel

/-! ## Where the compiler falls short -/

/-- `S s = new S(1, 2); s = new S(); return s.x;` -/
def newDefault : List Method :=
  ⟨none, 0, 2, 2, .int,
    .setStr ⟨.loc 0, []⟩ 2 (.new 2 1 (.int (.const 1) (.int (.const 2) .nil))) <|
    .setStr ⟨.loc 0, []⟩ 2 (.newDefault 2) <|
    .retInt (.fld ⟨.loc 0, []⟩ 0)⟩ :: sMethods

/-- `new S()` leaves every field as it was: 1 where there should be 0. -/
theorem new_default_refuted (mem : Nat → V) :
    Spec.result newDefault 3 = some 0 ∧ result newDefault 3 mem 0 = some (.num 1) :=
  ⟨by decide +kernel, rfl⟩

/-- `S s = new S(5, 6); return s.Same();` with `long Same() { S t = this; return t.x; }` -/
def thisCopy : List Method :=
  ⟨none, 0, 2, 2, .int,
    .setStr ⟨.loc 0, []⟩ 2 (.new 2 1 (.int (.const 5) (.int (.const 6) .nil))) <|
    .retInt (.callOn ⟨.loc 0, []⟩ 2 8 .nil)⟩ :: sMethods ++
  [⟨some 2, 0, 2, 2, .int, .setStr ⟨.loc 0, []⟩ 2 (.this 2) (.retInt (.fld ⟨.loc 0, []⟩ 0))⟩]

/-- `t = this` copies nothing, `t.x` is what an earlier call left in that unit of the stack. -/
theorem this_refuted (mem : Nat → V) :
    Spec.result thisCopy 3 = some 5 ∧ result thisCopy 3 mem 0 = some (.ptr 0) :=
  ⟨by decide +kernel, rfl⟩

/-- `S s = new S(5, 6); return Id(s).x;` with `static S Id(S s) { return s; }` -/
def argument : List Method :=
  ⟨none, 0, 2, 4, .int,
    .setStr ⟨.loc 0, []⟩ 2 (.new 2 1 (.int (.const 5) (.int (.const 6) .nil))) <|
    .retInt (.temp 2 2 (.call 2 8 (.str 2 (.place ⟨.loc 0, []⟩ 2) .nil)) 0)⟩ :: sMethods ++
  [⟨none, 2, 0, 0, .str 2, .retStr (.place ⟨.par 0, []⟩ 2)⟩]

/-- The struct is not copied to the argument: the method gets two addresses for its fields and takes what an earlier call left on
the stack for the address its result goes to. -/
theorem argument_refuted (mem : Nat → V) :
    Spec.result argument 3 = some 5 ∧ ∀ k, result argument k mem 0 = none := by
  refine ⟨by decide +kernel, fun k => ?_⟩
  match k with
  | 0 => rfl
  | 1 => rfl
  | k + 2 => rfl

end Verif.Structs
