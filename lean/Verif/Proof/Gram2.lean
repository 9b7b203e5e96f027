/-
  What the flags of the nodes mean, and that this is what the grammar means.
-/
import Verif.Proof.Gram1

namespace Verif.Gram.Proof

open Verif.Gram Verif.Gram.Spec

/-- What is matched by a node that can be passed by and that can come again. -/
def eff (skip loop : Bool) (M : Lang) : Lang := fun w =>
  (skip = true ∧ w = []) ∨ (if loop = true then repeated .plus M w else M w)

mutual

/-- What the nodes of an element match. -/
def effItem (e : Env) (L : Nat → Lang) : Item → Lang
  | .tok t r => eff r.opt r.loops fun w => w = [t]
  | .ref x r =>
    eff ((substract r (e.rep x)).opt || (r.opt || e.null x)) (substract r (e.rep x)).loops (L x)
  | .group a r => eff (r.opt || nullAlts e.null a) r.loops (effAlts e L a)

def effSeq (e : Env) (L : Nat → Lang) : Seq → Lang
  | .nil => fun w => w = []
  | .cons i s => fun w => ∃ u v, w = u ++ v ∧ effItem e L i u ∧ effSeq e L s v

def effAlts (e : Env) (L : Nat → Lang) : Alts → Lang
  | .nil => fun _ => False
  | .cons s a => fun w => effSeq e L s w ∨ effAlts e L a w

end

theorem eff_mono {s l : Bool} {M N : Lang} (h : ∀ w, M w → N w) {w : List Nat}
    (hw : eff s l M w) : eff s l N w := by
  rcases hw with hw | hw
  · exact .inl hw
  · refine .inr ?_
    cases l with
    | true => exact repeated_mono h .plus hw
    | false => exact h _ hw

mutual

theorem effItem_mono {e : Env} {L L' : Nat → Lang} (h : ∀ r w, L r w → L' r w) :
    ∀ (i : Item) (w : List Nat), effItem e L i w → effItem e L' i w
  | .tok _ _, w, hw => by simpa only [effItem] using hw
  | .ref x r, w, hw => by
    simp only [effItem] at hw ⊢
    exact eff_mono (h x) hw
  | .group a r, w, hw => by
    simp only [effItem] at hw ⊢
    exact eff_mono (effAlts_mono h a) hw

theorem effSeq_mono {e : Env} {L L' : Nat → Lang} (h : ∀ r w, L r w → L' r w) :
    ∀ (s : Seq) (w : List Nat), effSeq e L s w → effSeq e L' s w
  | .nil, w, hw => by simpa only [effSeq] using hw
  | .cons i s, w, hw => by
    simp only [effSeq] at hw ⊢
    obtain ⟨u, v, e', hu, hv⟩ := hw
    exact ⟨u, v, e', effItem_mono h i u hu, effSeq_mono h s v hv⟩

theorem effAlts_mono {e : Env} {L L' : Nat → Lang} (h : ∀ r w, L r w → L' r w) :
    ∀ (a : Alts) (w : List Nat), effAlts e L a w → effAlts e L' a w
  | .nil, w, hw => by simp only [effAlts] at hw
  | .cons s a, w, hw => by
    simp only [effAlts] at hw ⊢
    rcases hw with hw | hw
    · exact .inl (effSeq_mono h s w hw)
    · exact .inr (effAlts_mono h a w hw)

end

/-! ## Nothing -/

mutual

theorem null_effItem {e : Env} (L : Nat → Lang) :
    ∀ (i : Item), nullItem e.null i = true → effItem e L i []
  | .tok _ _, h => by
    simp only [nullItem] at h
    simp only [effItem]
    exact .inl ⟨h, rfl⟩
  | .ref x r, h => by
    simp only [nullItem] at h
    simp only [effItem]
    exact .inl ⟨by simp [h], rfl⟩
  | .group a r, h => by
    simp only [nullItem] at h
    simp only [effItem]
    exact .inl ⟨h, rfl⟩

theorem null_effSeq {e : Env} (L : Nat → Lang) :
    ∀ (s : Seq), nullSeq e.null s = true → effSeq e L s []
  | .nil, _ => by simp only [effSeq]
  | .cons i s, h => by
    simp only [nullSeq, Bool.and_eq_true] at h
    simp only [effSeq]
    exact ⟨[], [], rfl, null_effItem L i h.1, null_effSeq L s h.2⟩

theorem null_effAlts {e : Env} (L : Nat → Lang) :
    ∀ (a : Alts), nullAlts e.null a = true → effAlts e L a []
  | .nil, h => by simp [nullAlts] at h
  | .cons .nil a, h => by
    simp only [effAlts, effSeq]
    exact .inl trivial
  | .cons (.cons i s) a, h => by
    simp only [nullAlts, Bool.or_eq_true] at h
    simp only [effAlts]
    rcases h with h | h
    · exact .inl (null_effSeq L (.cons i s) h)
    · exact .inr (null_effAlts L a h)

end

mutual

theorem null_ofItem {null : Nat → Bool} {L : Nat → Lang} (hn : ∀ x, null x = true → L x []) :
    ∀ (i : Item), nullItem null i = true → ofItem L i []
  | .tok _ _, h => by
    simp only [nullItem] at h
    simp only [ofItem]
    exact repeated_opt h
  | .ref x r, h => by
    simp only [nullItem, Bool.or_eq_true] at h
    simp only [ofItem]
    rcases h with h | h
    · exact repeated_opt h
    · exact repeated_one r (hn x h)
  | .group a r, h => by
    simp only [nullItem, Bool.or_eq_true] at h
    simp only [ofItem]
    rcases h with h | h
    · exact repeated_opt h
    · exact repeated_one r (null_ofAlts hn a h)

theorem null_ofSeq {null : Nat → Bool} {L : Nat → Lang} (hn : ∀ x, null x = true → L x []) :
    ∀ (s : Seq), nullSeq null s = true → ofSeq L s []
  | .nil, _ => by simp only [ofSeq]
  | .cons i s, h => by
    simp only [nullSeq, Bool.and_eq_true] at h
    simp only [ofSeq]
    exact ⟨[], [], rfl, null_ofItem hn i h.1, null_ofSeq hn s h.2⟩

theorem null_ofAlts {null : Nat → Bool} {L : Nat → Lang} (hn : ∀ x, null x = true → L x []) :
    ∀ (a : Alts), nullAlts null a = true → ofAlts L a []
  | .nil, h => by simp [nullAlts] at h
  | .cons .nil a, h => by
    simp only [ofAlts, ofSeq]
    exact .inl trivial
  | .cons (.cons i s) a, h => by
    simp only [nullAlts, Bool.or_eq_true] at h
    simp only [ofAlts]
    rcases h with h | h
    · exact .inl (null_ofSeq hn (.cons i s) h)
    · exact .inr (null_ofAlts hn a h)

end

/-! ## No more than the grammar says -/

theorem eff_repeated {s l : Bool} {r : Rep} {M : Lang} (hs : s = true → repeated r M [])
    (hl : l = true → r.loops = true) {w : List Nat} (hw : eff s l M w) : repeated r M w := by
  rcases hw with ⟨h, rfl⟩ | hw
  · exact hs h
  · cases l with
    | false => exact repeated_one r hw
    | true =>
      have := hl rfl
      cases r <;> simp [Rep.loops] at this
      · exact repeated_many .plus hw
      · exact hw

theorem substract_opt {r q : Rep} (h : (substract r q).opt = true) : r.opt = true := by
  cases r <;> cases q <;> simp [substract, Rep.opt] at h ⊢

theorem substract_loops {r q : Rep} (h : (substract r q).loops = true) : r.loops = true := by
  cases r <;> cases q <;> simp [substract, Rep.loops] at h ⊢

mutual

theorem effItem_sub {e : Env} {L : Nat → Lang} (hn : ∀ x, e.null x = true → L x []) :
    ∀ (i : Item) (w : List Nat), effItem e L i w → ofItem L i w
  | .tok t r, w, hw => by
    simp only [effItem] at hw
    simp only [ofItem]
    exact eff_repeated repeated_opt id hw
  | .ref x r, w, hw => by
    simp only [effItem] at hw
    simp only [ofItem]
    refine eff_repeated (fun h => ?_) substract_loops hw
    simp only [Bool.or_eq_true] at h
    rcases h with h | h | h
    · exact repeated_opt (substract_opt h)
    · exact repeated_opt h
    · exact repeated_one r (hn x h)
  | .group a r, w, hw => by
    simp only [effItem] at hw
    simp only [ofItem]
    refine eff_repeated (fun h => ?_) id (eff_mono (effAlts_sub hn a) hw)
    simp only [Bool.or_eq_true] at h
    rcases h with h | h
    · exact repeated_opt h
    · exact repeated_one r (null_ofAlts hn a h)

theorem effSeq_sub {e : Env} {L : Nat → Lang} (hn : ∀ x, e.null x = true → L x []) :
    ∀ (s : Seq) (w : List Nat), effSeq e L s w → ofSeq L s w
  | .nil, w, hw => by simpa only [effSeq, ofSeq] using hw
  | .cons i s, w, hw => by
    simp only [effSeq] at hw
    simp only [ofSeq]
    obtain ⟨u, v, e', hu, hv⟩ := hw
    exact ⟨u, v, e', effItem_sub hn i u hu, effSeq_sub hn s v hv⟩

theorem effAlts_sub {e : Env} {L : Nat → Lang} (hn : ∀ x, e.null x = true → L x []) :
    ∀ (a : Alts) (w : List Nat), effAlts e L a w → ofAlts L a w
  | .nil, w, hw => by simp only [effAlts] at hw
  | .cons s a, w, hw => by
    simp only [effAlts] at hw
    simp only [ofAlts]
    rcases hw with hw | hw
    · exact .inl (effSeq_sub hn s w hw)
    · exact .inr (effAlts_sub hn a w hw)

end

/-! ## No less -/

theorem repeated_eff {s l : Bool} {r : Rep} {M : Lang} (hs : r.opt = true → s = true)
    (hl : r.loops = true → l = true) {w : List Nat} (hw : repeated r M w) : eff s l M w := by
  have key : ∀ {w}, M w → eff s l M w := fun h => by
    refine .inr ?_
    cases l with
    | true => exact repeated_one .plus h
    | false => exact h
  cases r with
  | once => exact key hw
  | star =>
    rcases plus_or_nil hw with h | h
    · exact .inl ⟨hs rfl, h⟩
    · refine .inr ?_
      rw [hl rfl]
      exact h
  | plus =>
    refine .inr ?_
    rw [hl rfl]
    exact hw
  | question =>
    rcases hw with h | h
    · exact .inl ⟨hs rfl, h⟩
    · exact key h

/-- A language that repetition adds nothing to. -/
theorem closed_many {M : Lang} (hc : ∀ u v, M u → M v → M (u ++ v)) {u v : List Nat} (hu : M u)
    (hv : Many M v) : M (u ++ v) := by
  induction hv generalizing u with
  | nil => simpa using hu
  | cons h _ ih =>
    rw [← List.append_assoc]
    exact ih (hc _ _ hu h)

theorem substract_keeps {r q : Rep} (h : r.loops = true) (h' : (substract r q).loops = false) :
    q.loops = true := by
  cases r <;> cases q <;> simp [substract, Rep.loops] at h h' ⊢

mutual

theorem ofItem_eff {e : Env} {L : Nat → Lang}
    (hc : ∀ x, (e.rep x).loops = true → ∀ u v, L x u → L x v → L x (u ++ v)) :
    ∀ (i : Item) (w : List Nat), ofItem L i w → effItem e L i w
  | .tok t r, w, hw => by
    simp only [ofItem] at hw
    simp only [effItem]
    exact repeated_eff id id hw
  | .ref x r, w, hw => by
    simp only [ofItem] at hw
    simp only [effItem]
    by_cases hl : (substract r (e.rep x)).loops = true
    · exact repeated_eff (fun h => by simp [h]) (fun _ => hl) hw
    · rw [Bool.not_eq_true] at hl
      by_cases hr : r.loops = true
      · have hq := substract_keeps hr hl
        have hp : ∀ {w}, repeated .plus (L x) w → L x w := by
          rintro w ⟨u, v, rfl, hu, hv⟩
          exact closed_many (hc x hq) hu hv
        rw [hl]
        cases r <;> simp [Rep.loops] at hr
        · rcases plus_or_nil hw with h | h
          · exact .inl ⟨by simp [Rep.opt], h⟩
          · exact .inr (hp h)
        · exact .inr (hp hw)
      · exact repeated_eff (fun h => by simp [h]) (fun h => absurd h hr) hw
  | .group a r, w, hw => by
    simp only [ofItem] at hw
    simp only [effItem]
    exact repeated_eff (fun h => by simp [h]) id (repeated_mono (ofAlts_eff hc a) r hw)

theorem ofSeq_eff {e : Env} {L : Nat → Lang}
    (hc : ∀ x, (e.rep x).loops = true → ∀ u v, L x u → L x v → L x (u ++ v)) :
    ∀ (s : Seq) (w : List Nat), ofSeq L s w → effSeq e L s w
  | .nil, w, hw => by simpa only [effSeq, ofSeq] using hw
  | .cons i s, w, hw => by
    simp only [ofSeq] at hw
    simp only [effSeq]
    obtain ⟨u, v, e', hu, hv⟩ := hw
    exact ⟨u, v, e', ofItem_eff hc i u hu, ofSeq_eff hc s v hv⟩

theorem ofAlts_eff {e : Env} {L : Nat → Lang}
    (hc : ∀ x, (e.rep x).loops = true → ∀ u v, L x u → L x v → L x (u ++ v)) :
    ∀ (a : Alts) (w : List Nat), ofAlts L a w → effAlts e L a w
  | .nil, w, hw => by simp only [ofAlts] at hw
  | .cons s a, w, hw => by
    simp only [ofAlts] at hw
    simp only [effAlts]
    rcases hw with hw | hw
    · exact .inl (ofSeq_eff hc s w hw)
    · exact .inr (ofAlts_eff hc a w hw)

end

/-! ## The repetition of a rule -/

/-- The repetition is at the innermost of groups with one element. -/
inductive Settled : Item → Prop where
  | tok (t r) : Settled (.tok t r)
  | ref (x r) : Settled (.ref x r)
  | many (a r) : a.single = false → Settled (.group a r)
  | one (i) : Settled i → Settled (.group (.cons (.cons i .nil) .nil) .once)

theorem single_rev {a : Alts} (hf : FullAlts a) (h : a.single = false) (outer : Rep) :
    (revAlts outer a).single = false := by
  cases a with
  | nil => simp [revAlts, Alts.single]
  | cons s a =>
    simp only [FullAlts] at hf
    cases s with
    | nil => exact absurd rfl hf.1
    | cons i s =>
      cases s with
      | nil =>
        simp only [Alts.single] at h
        cases a with
        | nil => simp [Alts.blank] at h
        | cons t a =>
          simp only [FullAlts] at hf
          cases t with
          | nil => exact absurd rfl hf.2.2.1
          | cons j t =>
            simp only [revAlts, revSeq_single, Alts.single]
            cases j <;> simp [revSeq, Alts.blank]
      | cons j s =>
        cases i <;> cases j <;> simp [revAlts, revSeq, Alts.single]

theorem settled_rev : ∀ (i : Item) (outer : Rep), FullItem i → Settled (revItem outer i)
  | .tok t r, outer, _ => by simp only [revItem]; exact .tok _ _
  | .ref t r, outer, _ => by simp only [revItem]; exact .ref _ _
  | .group a r, outer, hf => by
    simp only [FullItem] at hf
    by_cases hs : a.single = true
    · obtain ⟨j, rfl⟩ := single_full hf hs
      simp only [FullAlts, FullSeq] at hf
      simp only [revItem, hs, if_true, revAlts, revSeq_single]
      exact .one _ (settled_rev j _ hf.2.1.1)
    · simp only [revItem, hs]
      rw [Bool.not_eq_true] at hs
      exact .many _ _ (single_rev hf hs _)

theorem effAlts_single (e : Env) (L : Nat → Lang) (i : Item) :
    effAlts e L (.cons (.cons i .nil) .nil) = effItem e L i := by
  funext w
  simp [effAlts, effSeq]

theorem repAlts_single (i : Item) : repAlts (.cons (.cons i .nil) .nil) = some (repItem i) := by
  simp [repAlts, repSeq, Alts.blank]

theorem repAlts_many : ∀ (a : Alts), a.single = false → repAlts a = none
  | .nil, _ => by simp [repAlts]
  | .cons .nil a, h => by
    simp only [Alts.single] at h
    simp only [repAlts]
    exact repAlts_many a h
  | .cons (.cons i .nil) a, h => by
    simp only [Alts.single] at h
    simp [repAlts, h]
  | .cons (.cons i (.cons j s)) a, _ => by
    simp only [repAlts, repSeq]
    split <;> rfl

theorem eff_join {s : Bool} {M N : Lang} (hMN : ∀ w, M w → N w) {u v : List Nat}
    (hu : eff s true M u) (hv : eff s true N v) : eff s true N (u ++ v) := by
  rcases hu with ⟨_, rfl⟩ | hu
  · simpa using hv
  · rcases hv with ⟨_, rfl⟩ | hv
    · rw [List.append_nil]
      exact eff_mono hMN (.inr hu)
    · obtain ⟨a, b, rfl, ha, hb⟩ := hu
      refine .inr ⟨a, b ++ v, by simp, hMN _ ha, ?_⟩
      exact Many.append (Many.mono hMN hb) (repeated_many .plus hv)

/-- What repetition adds nothing to. -/
theorem settled_join {e : Env} {L1 L : Nat → Lang} (hL : ∀ x w, L1 x w → L x w)
    (H : ∀ y, (e.rep y).loops = true → ∀ u v, L1 y u → L y v → L y (u ++ v)) {i : Item}
    (hi : Settled i) (hr : (repItem i).loops = true) {u v : List Nat} (hu : effItem e L1 i u)
    (hv : effItem e L i v) : effItem e L i (u ++ v) := by
  induction hi generalizing u v with
  | tok t r =>
    simp only [repItem] at hr
    simp only [effItem, hr] at hu hv ⊢
    exact eff_join (fun _ h => h) hu hv
  | ref x r =>
    simp only [repItem] at hr
    simp only [effItem] at hu hv ⊢
    by_cases hl : (substract r (e.rep x)).loops = true
    · rw [hl] at hu hv ⊢
      exact eff_join (hL x) hu hv
    · rw [Bool.not_eq_true] at hl
      have hq := substract_keeps hr hl
      rw [hl] at hu hv ⊢
      rcases hu with ⟨_, rfl⟩ | hu
      · simpa using hv
      · rcases hv with ⟨_, rfl⟩ | hv
        · rw [List.append_nil]
          exact .inr (hL _ _ hu)
        · exact .inr (H x hq _ _ hu hv)
  | many a r hs =>
    simp only [repItem, repAlts_many a hs, Option.getD_none] at hr
    simp only [effItem, hr] at hu hv ⊢
    exact eff_join (effAlts_mono hL a) hu hv
  | one i hi ih =>
    simp only [repItem, repAlts_single, Option.getD_some] at hr
    simp only [effItem, effAlts_single] at hu hv ⊢
    have hlo : Rep.once.loops = false := rfl
    rw [hlo] at hu hv ⊢
    rcases hu with ⟨_, rfl⟩ | hu
    · simpa using hv
    · rcases hv with ⟨_, rfl⟩ | hv
      · rw [List.append_nil]
        exact .inr (effItem_mono hL i _ hu)
      · exact .inr (ih hr hu hv)

/-- So it is with a rule. -/
theorem rule_join {e : Env} {L1 L : Nat → Lang} (hL : ∀ x w, L1 x w → L x w)
    (H : ∀ y, (e.rep y).loops = true → ∀ u v, L1 y u → L y v → L y (u ++ v)) {a : Alts}
    (hf : FullAlts a) (hr : (ruleRep (revise a)).loops = true) {u v : List Nat}
    (hu : effAlts e L1 (revise a) u) (hv : effAlts e L (revise a) v) :
    effAlts e L (revise a) (u ++ v) := by
  by_cases hs : a.single = true
  · obtain ⟨j, rfl⟩ := single_full hf hs
    simp only [FullAlts, FullSeq] at hf
    have he : revise (.cons (.cons j .nil) .nil) = .cons (.cons (revItem .once j) .nil) .nil := by
      simp only [revise, revAlts, revSeq_single]
    rw [he] at hr hu hv ⊢
    simp only [ruleRep, repAlts_single, Option.getD_some] at hr
    rw [effAlts_single] at hu hv ⊢
    exact settled_join hL H (settled_rev j .once hf.2.1.1) hr hu hv
  · rw [Bool.not_eq_true] at hs
    have := repAlts_many _ (single_rev hf hs .once)
    simp [ruleRep, revise, this, Rep.loops] at hr

/-! ## Limits -/

theorem repeated_limit {M : Lang} {F : Nat → Lang} (hF : ∀ m n w, m ≤ n → F m w → F n w)
    (h : ∀ w, M w → ∃ n, F n w) (r : Rep) {w : List Nat} (hw : repeated r M w) :
    ∃ n, repeated r (F n) w := by
  have many : ∀ {w}, Many M w → ∃ n, Many (F n) w := by
    intro w hw
    induction hw with
    | nil => exact ⟨0, .nil⟩
    | cons hu _ ih =>
      obtain ⟨n, hn⟩ := ih
      obtain ⟨m, hm⟩ := h _ hu
      exact ⟨max m n, .cons (hF m _ _ (Nat.le_max_left ..) hm)
        (Many.mono (fun w => hF n _ w (Nat.le_max_right ..)) hn)⟩
  cases r with
  | once => exact h _ hw
  | star => exact many hw
  | plus =>
    obtain ⟨u, v, rfl, hu, hv⟩ := hw
    obtain ⟨n, hn⟩ := many hv
    obtain ⟨m, hm⟩ := h _ hu
    exact ⟨max m n, u, v, rfl, hF m _ _ (Nat.le_max_left ..) hm,
      Many.mono (fun w => hF n _ w (Nat.le_max_right ..)) hn⟩
  | question =>
    rcases hw with hw | hw
    · exact ⟨0, .inl hw⟩
    · obtain ⟨n, hn⟩ := h _ hw
      exact ⟨n, .inr hn⟩

theorem eff_limit {s l : Bool} {M : Lang} {F : Nat → Lang}
    (hF : ∀ m n w, m ≤ n → F m w → F n w) (h : ∀ w, M w → ∃ n, F n w) {w : List Nat}
    (hw : eff s l M w) : ∃ n, eff s l (F n) w := by
  rcases hw with hw | hw
  · exact ⟨0, .inl hw⟩
  · cases l with
    | true =>
      obtain ⟨n, hn⟩ := repeated_limit hF h .plus hw
      exact ⟨n, .inr hn⟩
    | false =>
      obtain ⟨n, hn⟩ := h _ hw
      exact ⟨n, .inr hn⟩

set_option linter.unusedSectionVars false

section Limit

variable {F : Nat → Nat → Lang} (hF : ∀ m n, m ≤ n → ∀ r w, F m r w → F n r w)
include hF

mutual

theorem ofItem_limit : ∀ (i : Item) (w : List Nat),
    ofItem (fun r w => ∃ n, F n r w) i w → ∃ n, ofItem (F n) i w
  | .tok t r, w, hw => by
    simp only [ofItem] at hw ⊢
    exact ⟨0, hw⟩
  | .ref x r, w, hw => by
    simp only [ofItem] at hw ⊢
    exact repeated_limit (fun m n w h => hF m n h x w) (fun _ h => h) r hw
  | .group a r, w, hw => by
    simp only [ofItem] at hw ⊢
    exact repeated_limit (F := fun n => ofAlts (F n) a)
      (fun m n w h => ofAlts_mono (hF m n h) a w) (ofAlts_limit a) r hw

theorem ofSeq_limit : ∀ (s : Seq) (w : List Nat),
    ofSeq (fun r w => ∃ n, F n r w) s w → ∃ n, ofSeq (F n) s w
  | .nil, w, hw => by
    simp only [ofSeq] at hw ⊢
    exact ⟨0, hw⟩
  | .cons i s, w, hw => by
    simp only [ofSeq] at hw ⊢
    obtain ⟨u, v, rfl, hu, hv⟩ := hw
    obtain ⟨m, hm⟩ := ofItem_limit i u hu
    obtain ⟨n, hn⟩ := ofSeq_limit s v hv
    exact ⟨max m n, u, v, rfl, ofItem_mono (hF m _ (Nat.le_max_left ..)) i u hm,
      ofSeq_mono (hF n _ (Nat.le_max_right ..)) s v hn⟩

theorem ofAlts_limit : ∀ (a : Alts) (w : List Nat),
    ofAlts (fun r w => ∃ n, F n r w) a w → ∃ n, ofAlts (F n) a w
  | .nil, w, hw => by simp only [ofAlts] at hw
  | .cons s a, w, hw => by
    simp only [ofAlts] at hw ⊢
    rcases hw with hw | hw
    · obtain ⟨n, hn⟩ := ofSeq_limit s w hw
      exact ⟨n, .inl hn⟩
    · obtain ⟨n, hn⟩ := ofAlts_limit a w hw
      exact ⟨n, .inr hn⟩

end

mutual

theorem effItem_limit (e : Env) : ∀ (i : Item) (w : List Nat),
    effItem e (fun r w => ∃ n, F n r w) i w → ∃ n, effItem e (F n) i w
  | .tok t r, w, hw => by
    simp only [effItem] at hw ⊢
    exact ⟨0, hw⟩
  | .ref x r, w, hw => by
    simp only [effItem] at hw ⊢
    exact eff_limit (F := fun n => F n x) (fun m n w h => hF m n h x w) (fun _ h => h) hw
  | .group a r, w, hw => by
    simp only [effItem] at hw ⊢
    exact eff_limit (F := fun n => effAlts e (F n) a)
      (fun m n w h => effAlts_mono (hF m n h) a w) (effAlts_limit e a) hw

theorem effSeq_limit (e : Env) : ∀ (s : Seq) (w : List Nat),
    effSeq e (fun r w => ∃ n, F n r w) s w → ∃ n, effSeq e (F n) s w
  | .nil, w, hw => by
    simp only [effSeq] at hw ⊢
    exact ⟨0, hw⟩
  | .cons i s, w, hw => by
    simp only [effSeq] at hw ⊢
    obtain ⟨u, v, rfl, hu, hv⟩ := hw
    obtain ⟨m, hm⟩ := effItem_limit e i u hu
    obtain ⟨n, hn⟩ := effSeq_limit e s v hv
    exact ⟨max m n, u, v, rfl, effItem_mono (hF m _ (Nat.le_max_left ..)) i u hm,
      effSeq_mono (hF n _ (Nat.le_max_right ..)) s v hn⟩

theorem effAlts_limit (e : Env) : ∀ (a : Alts) (w : List Nat),
    effAlts e (fun r w => ∃ n, F n r w) a w → ∃ n, effAlts e (F n) a w
  | .nil, w, hw => by simp only [effAlts] at hw
  | .cons s a, w, hw => by
    simp only [effAlts] at hw ⊢
    rcases hw with hw | hw
    · obtain ⟨n, hn⟩ := effSeq_limit e s w hw
      exact ⟨n, .inl hn⟩
    · obtain ⟨n, hn⟩ := effAlts_limit e a w hw
      exact ⟨n, .inr hn⟩

end

end Limit

/-! ## Sentences -/

/-- What the nodes of the rules match, with references to a depth. -/
def effRule (X : Nat → Lang) (G : Grammar) (e : Env) : Nat → Nat → Lang
  | 0, _ => fun _ => False
  | n + 1, r =>
    match G r with
    | none => X r
    | some a => effAlts e (effRule X G e n) (revise a)

variable {X : Nat → Lang} {G : Grammar} {e : Env}

theorem derived_step : ∀ (n r : Nat) (w : List Nat), derived X G n r w → derived X G (n + 1) r w
  | 0, _, _, h => absurd h (by simp [derived])
  | n + 1, r, w, h => by
    rw [derived] at h ⊢
    cases hg : G r with
    | none => rw [hg] at h; exact h
    | some a =>
      rw [hg] at h
      exact ofAlts_mono (derived_step n) a w h

theorem derived_mono {m n : Nat} (h : m ≤ n) (r : Nat) (w : List Nat) (hw : derived X G m r w) :
    derived X G n r w := by
  induction h with
  | refl => exact hw
  | step _ ih => exact derived_step _ _ _ ih

theorem effRule_step : ∀ (n r : Nat) (w : List Nat), effRule X G e n r w → effRule X G e (n + 1) r w
  | 0, _, _, h => absurd h (by simp [effRule])
  | n + 1, r, w, h => by
    rw [effRule] at h ⊢
    cases hg : G r with
    | none => rw [hg] at h; exact h
    | some a =>
      rw [hg] at h
      exact effAlts_mono (effRule_step n) _ w h

theorem effRule_mono {m n : Nat} (h : m ≤ n) (r : Nat) (w : List Nat)
    (hw : effRule X G e m r w) : effRule X G e n r w := by
  induction h with
  | refl => exact hw
  | step _ ih => exact effRule_step _ _ _ ih

/-- A rule has the sentences that its elements say. -/
theorem sentence_rule {r : Nat} {a : Alts} (hr : G r = some a) {w : List Nat} :
    Sentence X G r w ↔ ofAlts (Sentence X G) a w := by
  constructor
  · rintro ⟨n, h⟩
    cases n with
    | zero => exact absurd h (by simp [derived])
    | succ n =>
      rw [derived, hr] at h
      exact ofAlts_mono (fun r w h => ⟨n, h⟩) a w h
  · intro h
    obtain ⟨n, hn⟩ := ofAlts_limit (F := derived X G) (fun m n h => derived_mono h) a w h
    refine ⟨n + 1, ?_⟩
    rw [derived, hr]
    exact hn

theorem sentence_other {r : Nat} (hr : G r = none) {w : List Nat} :
    Sentence X G r w ↔ X r w := by
  constructor
  · rintro ⟨n, h⟩
    cases n with
    | zero => exact absurd h (by simp [derived])
    | succ n => rw [derived, hr] at h; exact h
  · intro h
    exact ⟨1, by rw [derived, hr]; exact h⟩

/-- What the nodes match is what the grammar says. -/
theorem effRule_sentence (hfull : ∀ r a, G r = some a → FullAlts a)
    (hrep : ∀ r a, G r = some a → e.rep r = ruleRep (revise a))
    (hrep' : ∀ r, G r = none → e.rep r = .once)
    (hnull : ∀ r, e.null r = true → Sentence X G r []) (r : Nat) (w : List Nat) :
    (∃ n, effRule X G e n r w) ↔ Sentence X G r w := by
  constructor
  · rintro ⟨n, h⟩
    induction n generalizing r w with
    | zero => exact absurd h (by simp [effRule])
    | succ n ih =>
      rw [effRule] at h
      cases hg : G r with
      | none => rw [hg] at h; exact (sentence_other hg).mpr h
      | some a =>
        rw [hg] at h
        rw [sentence_rule hg, ← ofAlts_revise _ (hfull r a hg)]
        exact effAlts_sub hnull _ _ (effAlts_mono ih _ _ h)
  · have fix : ∀ {r a w}, G r = some a →
        effAlts e (fun r w => ∃ n, effRule X G e n r w) (revise a) w →
          ∃ n, effRule X G e n r w := by
      intro r a w hg h
      obtain ⟨n, hn⟩ := effAlts_limit (F := effRule X G e) (fun m n h => effRule_mono h) e _ w h
      refine ⟨n + 1, ?_⟩
      rw [effRule, hg]
      exact hn
    have unfix : ∀ {r a w}, G r = some a → (∃ n, effRule X G e n r w) →
        effAlts e (fun r w => ∃ n, effRule X G e n r w) (revise a) w := by
      rintro r a w hg ⟨n, h⟩
      cases n with
      | zero => exact absurd h (by simp [effRule])
      | succ n =>
        rw [effRule, hg] at h
        exact effAlts_mono (fun _ _ h => ⟨n, h⟩) _ _ h
    have join : ∀ n x, (e.rep x).loops = true → ∀ u v, effRule X G e n x u →
        (∃ n, effRule X G e n x v) → ∃ n, effRule X G e n x (u ++ v) := by
      intro n
      induction n with
      | zero => intro x _ u v hu; exact absurd hu (by simp [effRule])
      | succ n ih =>
        intro x hl u v hu hv
        cases hg : G x with
        | none => rw [hrep' x hg] at hl; exact absurd hl (by simp [Rep.loops])
        | some a =>
          rw [effRule, hg] at hu
          rw [hrep x a hg] at hl
          exact fix hg (rule_join (fun x w h => ⟨n, h⟩) ih (hfull x a hg) hl hu (unfix hg hv))
    rintro ⟨n, h⟩
    induction n generalizing r w with
    | zero => exact absurd h (by simp [derived])
    | succ n ih =>
      rw [derived] at h
      cases hg : G r with
      | none =>
        rw [hg] at h
        exact ⟨1, by rw [effRule, hg]; exact h⟩
      | some a =>
        rw [hg] at h
        apply fix hg
        refine ofAlts_eff (fun x hl u v hu hv => ?_) _ _ ?_
        · obtain ⟨n, hu⟩ := hu
          exact join n x hl u v hu hv
        · rw [ofAlts_revise _ (hfull r a hg)]
          exact ofAlts_mono ih a w h

end Verif.Gram.Proof
