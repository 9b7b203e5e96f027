import Verif.Proof.Flow

/-! Lemmas about writing what was appended, for `Verif.Props.Flow`. -/

namespace Verif.Flow

open Verif.Fold Verif.Expr Verif.Expr.Spec Verif.Flow.Spec

/-! ## No expression is compiled to nothing -/

theorem binIns_ne {s : Short} {op : Op} {t1 t2 : VT} {ca cb : Unit → Option (List Ins)} {c : List Ins}
    (ha : ∀ c, ca () = some c → c ≠ []) (hb : ∀ c, cb () = some c → c ≠ []) (h : binIns s op t1 t2 ca cb = some c) :
    c ≠ [] := by
  cases s with
  | both =>
    simp only [binIns, Option.bind_eq_bind, Option.bind_eq_some_iff, Option.some.injEq] at h
    obtain ⟨x, _, y, _, rfl⟩ := h
    simp
  | left => exact ha c h
  | right => exact hb c h
  | negate =>
    simp only [binIns, Option.bind_eq_bind, Option.bind_eq_some_iff, Option.some.injEq] at h
    obtain ⟨x, _, rfl⟩ := h
    simp

theorem foldOr_ne {lvl : Level} {want : Want} {v : Option (Option Const)} {code : Unit → Option (List Ins)} {c : List Ins}
    (hc : ∀ c, code () = some c → c ≠ []) (h : foldOr lvl want v code = some c) : c ≠ [] := by
  rcases foldOr_some h with ⟨_, k, _, rfl⟩ | ⟨h, _⟩
  · simp
  · exact hc c h

theorem compile_ne {lvl : Level} {p : Expr.Prog} {m : Expr.Method} {marked : List Nat} (e : Exp) :
    ∀ {want : Want} {c : List Ins}, compile lvl p m marked want e = some c → c ≠ [] := by
  induction e using Exp.induct with
  | const c =>
    intro want cs h
    rw [compile] at h
    simp only [Option.some.injEq] at h
    subst h
    exact post_ne (by simp)
  | var x =>
    intro want cs h
    rw [compile] at h
    simp only [Option.bind_eq_bind, Option.bind_eq_some_iff, Option.some.injEq] at h
    obtain ⟨_, _, _, _, rfl⟩ := h
    exact post_ne (by simp)
  | bin o a b iha ihb =>
    intro want cs h
    rw [compile] at h
    refine foldOr_ne (fun c hc => ?_) h
    simp only [Option.bind_eq_bind, Option.bind_eq_some_iff, Option.some.injEq] at hc
    obtain ⟨_, _, _, _, c0, hc, _, _, rfl⟩ := hc
    exact post_ne (binIns_ne (fun c h => iha h) (fun c h => ihb h) hc)
  | un o a ih =>
    intro want cs h
    rw [compile] at h
    refine foldOr_ne (fun c hc => ?_) h
    simp only [Option.bind_eq_bind, Option.bind_eq_some_iff, Option.some.injEq] at hc
    obtain ⟨_, _, _, _, _, _, rfl⟩ := hc
    exact post_ne (by simp)
  | assign x e ih =>
    intro want cs h
    rw [compile] at h
    refine foldOr_ne (fun c hc => ?_) h
    simp only [Option.bind_eq_bind, Option.bind_eq_some_iff, Option.some.injEq] at hc
    obtain ⟨_, _, _, _, rfl⟩ := hc
    exact post_ne (by simp)
  | opAssign o x e ih =>
    intro want cs h
    rw [compile] at h
    refine foldOr_ne (fun c hc => ?_) h
    simp only [Option.bind_eq_bind, Option.bind_eq_some_iff, Option.some.injEq] at hc
    obtain ⟨_, _, _, _, _, _, _, _, rfl⟩ := hc
    exact post_ne (by simp)
  | inc post dec x =>
    intro want cs h
    rw [compile] at h
    simp only [Option.bind_eq_bind, Option.bind_eq_some_iff] at h
    obtain ⟨_, _, _, _, _, _, h⟩ := h
    split at h <;> simp only [Option.some.injEq] at h <;> subst h <;> exact post_ne (by simp)
  | cond c a b _ iha ihb =>
    intro want cs h
    rw [compile] at h
    split at h
    · simp at h
    · split at h
      · exact ihb h
      · exact iha h
    · simp only [Option.bind_eq_bind, Option.bind_eq_some_iff, Option.some.injEq] at h
      obtain ⟨_, _, _, _, _, _, rfl⟩ := h
      simp
  | cast t e ih =>
    intro want cs h
    rw [compile] at h
    simp only [Option.bind_eq_bind, Option.bind_eq_some_iff, Option.some.injEq] at h
    obtain ⟨_, hc, rfl⟩ := h
    exact post_ne (ih hc)
  | call f args =>
    intro want cs h
    rw [compile] at h
    split at h
    · simp at h
    · simp only [Option.bind_eq_bind, Option.bind_eq_some_iff] at h
      obtain ⟨_, _, h⟩ := h
      split at h
      · split at h <;> simp only [Option.some.injEq] at h <;> subst h <;> simp
      · simp only [Option.some.injEq] at h; subst h; simp

theorem code_ne {lvl : Level} {p : Expr.Prog} {m : Expr.Method} {marked : List Nat} {t : Task} {c : List Ins}
    (h : code lvl p m marked t = some c) : c ≠ [] := by
  cases t with
  | exp e =>
    simp only [code] at h
    unfold compileStmtExp at h
    split at h
    · refine foldOr_ne (fun c hc => ?_) h
      simp only [Option.bind_eq_bind, Option.bind_eq_some_iff, Option.some.injEq] at hc
      obtain ⟨_, _, _, _, rfl⟩ := hc
      simp
    · refine foldOr_ne (fun c hc => ?_) h
      simp only [Option.bind_eq_bind, Option.bind_eq_some_iff, Option.some.injEq] at hc
      obtain ⟨_, _, _, _, _, _, rfl⟩ := hc
      simp
    · simp only [Option.bind_eq_bind, Option.bind_eq_some_iff, Option.some.injEq] at h
      obtain ⟨_, _, _, _, rfl⟩ := h
      simp
    · split at h
      · simp at h
      · simp only [Option.bind_eq_bind, Option.bind_eq_some_iff, Option.some.injEq] at h
        obtain ⟨_, _, rfl⟩ := h
        simp
    · simp at h
  | init i e =>
    simp only [code, Option.bind_eq_bind, Option.bind_eq_some_iff, Option.some.injEq] at h
    obtain ⟨_, _, _, _, rfl⟩ := h
    simp
  | test e => exact compile_ne e h
  | ret e => exact compile_ne e h
  | choose e => exact compile_ne e h

/-! ## What was appended and what is written for it -/

/-- One thing that was appended and what is written for it. -/
inductive Chunk (lvl : Level) (p : Expr.Prog) (m : Expr.Method) : Stmt.X Task → List (Stmt.X Ins) → Prop where
  | act {t marked c} : code lvl p m marked t = some c → Chunk lvl p m (.act t) (c.map .act)
  | eqInt (k) : Chunk lvl p m (.eqInt k) [.act (.pushConst .int32 k.toInt), .act (.bin (.cmp .eq) .int32 .int32)]
  | label (l) : Chunk lvl p m (.label l) [.label l]
  | jmp (k l) : Chunk lvl p m (.jmp k l) [.jmp k l]
  | point (k) : Chunk lvl p m (.point k) [.point k]
  | switch (r d) : Chunk lvl p m (.switch r d) [.switch r d]
  | ret : Chunk lvl p m .ret [.ret]
  | thr : Chunk lvl p m .thr [.thr]
  | fail : Chunk lvl p m .fail [.fail]

abbrev Pair := Stmt.X Task × List (Stmt.X Ins)

/-- What was appended. -/
def xsOf (zs : List Pair) : List (Stmt.X Task) := zs.map (·.1)

/-- What is written. -/
def ysOf (zs : List Pair) : List (Stmt.X Ins) := zs.flatMap (·.2)

def Chunked (lvl : Level) (p : Expr.Prog) (m : Expr.Method) (zs : List Pair) : Prop := ∀ z ∈ zs, Chunk lvl p m z.1 z.2

theorem expand_chunked {lvl : Level} {p : Expr.Prog} {m : Expr.Method} {all : List (Stmt.X Task)} :
    ∀ (xs : List (Stmt.X Task)) (marked : List Nat) (ys : List (Stmt.X Ins)), expand lvl p m all marked xs = some ys →
      ∃ zs, xsOf zs = xs ∧ ysOf zs = ys ∧ Chunked lvl p m zs
  | [], marked, ys, h => by
    simp only [expand, Option.some.injEq] at h
    subst h
    exact ⟨[], rfl, rfl, by simp [Chunked]⟩
  | x :: xs, marked, ys, h => by
    have key : ∀ (c : List (Stmt.X Ins)), Chunk lvl p m x c →
        (∃ marked' r, expand lvl p m all marked' xs = some r ∧ ys = c ++ r) →
        ∃ zs, xsOf zs = x :: xs ∧ ysOf zs = ys ∧ Chunked lvl p m zs := by
      rintro c hc ⟨marked', r, hr, rfl⟩
      obtain ⟨zs, h1, h2, h3⟩ := expand_chunked xs marked' r hr
      refine ⟨(x, c) :: zs, by simp [xsOf, ← h1], by simp [ysOf, ← h2], ?_⟩
      intro z hz
      rcases List.mem_cons.1 hz with rfl | hz
      · exact hc
      · exact h3 z hz
    rw [expand.eq_def] at h
    cases x with
    | act t =>
      simp only [Option.bind_eq_bind, Option.bind_eq_some_iff, Option.some.injEq] at h
      obtain ⟨c, hc, m', _, r, hr, rfl⟩ := h
      exact key _ (.act hc) ⟨_, r, hr, rfl⟩
    | eqInt k =>
      simp only [Option.bind_eq_bind, Option.bind_eq_some_iff, Option.some.injEq] at h
      obtain ⟨r, hr, rfl⟩ := h
      exact key _ (.eqInt k) ⟨_, r, hr, rfl⟩
    | drop => simp at h
    | label l =>
      simp only [Option.bind_eq_bind, Option.bind_eq_some_iff, Option.some.injEq] at h
      obtain ⟨r, hr, rfl⟩ := h
      exact key _ (.label l) ⟨_, r, hr, rfl⟩
    | jmp k l =>
      simp only [Option.bind_eq_bind, Option.bind_eq_some_iff, Option.some.injEq] at h
      obtain ⟨r, hr, rfl⟩ := h
      exact key _ (.jmp k l) ⟨_, r, hr, rfl⟩
    | point k =>
      simp only [Option.bind_eq_bind, Option.bind_eq_some_iff, Option.some.injEq] at h
      obtain ⟨r, hr, rfl⟩ := h
      exact key _ (.point k) ⟨_, r, hr, rfl⟩
    | switch rows d =>
      simp only [Option.bind_eq_bind, Option.bind_eq_some_iff, Option.some.injEq] at h
      obtain ⟨r, hr, rfl⟩ := h
      exact key _ (.switch rows d) ⟨_, r, hr, rfl⟩
    | ret =>
      simp only [Option.bind_eq_bind, Option.bind_eq_some_iff, Option.some.injEq] at h
      obtain ⟨r, hr, rfl⟩ := h
      exact key _ .ret ⟨_, r, hr, rfl⟩
    | thr =>
      simp only [Option.bind_eq_bind, Option.bind_eq_some_iff, Option.some.injEq] at h
      obtain ⟨r, hr, rfl⟩ := h
      exact key _ .thr ⟨_, r, hr, rfl⟩
    | fail =>
      simp only [Option.bind_eq_bind, Option.bind_eq_some_iff, Option.some.injEq] at h
      obtain ⟨r, hr, rfl⟩ := h
      exact key _ .fail ⟨_, r, hr, rfl⟩

section
variable {lvl : Level} {p : Expr.Prog} {m : Expr.Method}

open Verif.Stmt (size labels labelIdx Seg X)

theorem labels_map_act (c : List Ins) : labels (c.map X.act) = [] := Stmt.labels_acts c

theorem size_map_act (c : List Ins) : size (c.map X.act) = c.length := Stmt.size_acts c

theorem Chunk.labels {x : X Task} {c : List (X Ins)} (h : Chunk lvl p m x c) : labels c = labels [x] := by
  cases h with
  | act _ => rw [labels_map_act]; rfl
  | _ => rfl

theorem Chunk.size {x : X Task} {c : List (X Ins)} (h : Chunk lvl p m x c) : size [x] ≤ size c := by
  cases h with
  | act h =>
    rw [size_map_act]
    have := List.length_pos_iff.2 (code_ne h)
    have e : Verif.Stmt.size [X.act (A := Task) ‹Task›] = 1 := Stmt.size_one _ rfl
    omega
  | eqInt k => exact Nat.le_succ 1
  | label l => exact Nat.le_refl _
  | jmp _ _ => exact Nat.le_refl _
  | point _ => exact Nat.le_refl _
  | switch _ _ => exact Nat.le_refl _
  | ret => exact Nat.le_refl _
  | thr => exact Nat.le_refl _
  | fail => exact Nat.le_refl _

theorem Chunk.length {x : X Task} {c : List (X Ins)} (h : Chunk lvl p m x c) : 1 ≤ c.length := by
  cases h with
  | act h => rw [List.length_map]; exact List.length_pos_iff.2 (code_ne h)
  | _ => simp

@[simp] theorem xsOf_append (a b : List Pair) : xsOf (a ++ b) = xsOf a ++ xsOf b := List.map_append
@[simp] theorem ysOf_append (a b : List Pair) : ysOf (a ++ b) = ysOf a ++ ysOf b := List.flatMap_append
theorem xsOf_cons (z : Pair) (b : List Pair) : xsOf (z :: b) = z.1 :: xsOf b := rfl
theorem ysOf_cons (z : Pair) (b : List Pair) : ysOf (z :: b) = z.2 ++ ysOf b := rfl

theorem Chunked.left {a b : List Pair} (h : Chunked lvl p m (a ++ b)) : Chunked lvl p m a :=
  fun z hz => h z (List.mem_append_left _ hz)
theorem Chunked.right {a b : List Pair} (h : Chunked lvl p m (a ++ b)) : Chunked lvl p m b :=
  fun z hz => h z (List.mem_append_right _ hz)

theorem labels_ysOf {zs : List Pair} (h : Chunked lvl p m zs) : labels (ysOf zs) = labels (xsOf zs) := by
  induction zs with
  | nil => rfl
  | cons z zs ih =>
    rw [ysOf_cons, xsOf_cons, Stmt.labels_append, (h z List.mem_cons_self).labels,
      ih fun z' hz' => h z' (List.mem_cons_of_mem _ hz')]
    rw [← List.singleton_append (l := xsOf zs), Stmt.labels_append]

theorem size_ysOf {zs : List Pair} (h : Chunked lvl p m zs) : size (xsOf zs) ≤ size (ysOf zs) := by
  induction zs with
  | nil => exact Nat.le_refl _
  | cons z zs ih =>
    rw [ysOf_cons, xsOf_cons, Stmt.size_append, Stmt.size_cons]
    have := (h z List.mem_cons_self).size
    have := ih fun z' hz' => h z' (List.mem_cons_of_mem _ hz')
    omega

theorem length_ysOf {zs : List Pair} (h : Chunked lvl p m zs) : (xsOf zs).length ≤ (ysOf zs).length := by
  induction zs with
  | nil => exact Nat.le_refl _
  | cons z zs ih =>
    rw [ysOf_cons, xsOf_cons, List.length_append, List.length_cons]
    have := (h z List.mem_cons_self).length
    have := ih fun z' hz' => h z' (List.mem_cons_of_mem _ hz')
    omega

/-- The same place in what was appended and in what is written. -/
def At (zs : List Pair) (i u : Nat) : Prop := ∃ a b, zs = a ++ b ∧ size (xsOf a) = i ∧ size (ysOf a) = u

/-- Distances do not get smaller. -/
theorem At.order {zs : List Pair} (h : Chunked lvl p m zs) {i u t v : Nat} (h1 : At zs i u) (h2 : At zs t v) :
    (t ≤ i ∧ v ≤ u ∧ i - t ≤ u - v) ∨ (i ≤ t ∧ u ≤ v ∧ t - i ≤ v - u) := by
  obtain ⟨a, b, hz, rfl, rfl⟩ := h1
  obtain ⟨a', b', hz', rfl, rfl⟩ := h2
  rw [hz] at hz'
  rcases List.append_eq_append_iff.1 hz' with ⟨c, rfl, rfl⟩ | ⟨c, rfl, rfl⟩
  · right
    have hc : Chunked lvl p m c := by
      rw [hz] at h; exact h.right.left
    have := size_ysOf hc
    simp only [xsOf_append, ysOf_append, Stmt.size_append]
    omega
  · left
    have hc : Chunked lvl p m c := by
      rw [hz, List.append_assoc] at h; exact h.right.left
    have := size_ysOf hc
    simp only [xsOf_append, ysOf_append, Stmt.size_append]
    omega

theorem split_at {zs : List Pair} {pre post : List (X Task)} {x : X Task} (h : xsOf zs = pre ++ x :: post) :
    ∃ a c b, zs = a ++ (x, c) :: b ∧ xsOf a = pre ∧ xsOf b = post := by
  unfold xsOf at h
  obtain ⟨a, r, rfl, h1, h2⟩ := List.map_eq_append_iff.1 h
  obtain ⟨z, b, rfl, h3, h4⟩ := List.map_eq_cons_iff.1 h2
  exact ⟨a, z.2, b, by rw [← h3], h1, h4⟩

theorem mem_labels {A : Type} {l : Nat} : ∀ {xs : List (X A)}, l ∈ labels xs → ∃ pre post, xs = pre ++ .label l :: post := by
  intro xs h
  simp only [labels, List.mem_filterMap] at h
  obtain ⟨x, hx, he⟩ := h
  obtain ⟨pre, post, rfl⟩ := List.append_of_mem hx
  cases x <;> simp at he
  subst he
  exact ⟨pre, post, rfl⟩

/-- A label is at the same place in both. -/
theorem label_at {zs : List Pair} (h : Chunked lvl p m zs) (hn : (labels (xsOf zs)).Nodup) {l : Nat}
    (hl : l ∈ labels (xsOf zs)) :
    ∃ t v, labelIdx (xsOf zs) 0 l = some t ∧ labelIdx (ysOf zs) 0 l = some v ∧ At zs t v := by
  obtain ⟨pre, post, hx⟩ := mem_labels hl
  obtain ⟨a, c, b, rfl, rfl, rfl⟩ := split_at hx
  have hc : c = [.label l] := by
    have := h (.label l, c) (by simp)
    cases this
    rfl
  subst hc
  refine ⟨size (xsOf a), size (ysOf a), ?_, ?_, ⟨a, _, rfl, rfl, rfl⟩⟩
  · exact Stmt.seg_label hn ⟨xsOf a, xsOf b, by simp [xsOf_cons], rfl⟩
  · exact Stmt.seg_label (by rw [labels_ysOf h]; exact hn) ⟨ysOf a, ysOf b, by simp [ysOf_cons], rfl⟩

theorem stored_iff (v : BitVec 32) : (∃ d, Stmt.stored v = .ok d) ↔ (-(2 ^ 23) ≤ v.toInt ∧ v.toInt < 2 ^ 23) := by
  rw [Stmt.stored]
  by_cases hv : -(2 ^ 23) ≤ v.toInt ∧ v.toInt < 2 ^ 23
  · obtain ⟨y, h1, h2, _⟩ := (Bits.jmp_step_roundtrip ⟨0#4, 0#4, 0#8, 0#8, 0#8⟩ v).1 hv
    rw [h1]
    simp only [Option.bind_some, h2]
    exact ⟨fun _ => hv, fun _ => ⟨_, rfl⟩⟩
  · rw [(Bits.jmp_step_roundtrip ⟨0#4, 0#4, 0#8, 0#8, 0#8⟩ v).2 hv]
    simp only [hv, iff_false]
    rintro ⟨d, h⟩
    cases h

theorem found_ok {find : Nat → Option Nat} {l t : Nat} (h : Stmt.found find l = .ok t) : find l = some t := by
  simp only [Stmt.found] at h
  split at h
  · injection h with h; subst h; assumption
  · cases h

/-- Everything can be placed. -/
theorem placeAll_ok {A : Type} {find : Nat → Option Nat} : ∀ (xs : List (X A)) (i : Nat),
    (∀ pre x post, xs = pre ++ x :: post → x.isLabel = false → ∃ c, Stmt.place find (i + size pre) x = .ok c) →
    ∃ cmds, Stmt.placeAll find xs i = .ok cmds
  | [], i, _ => ⟨[], rfl⟩
  | x :: xs, i, h => by
    cases hx : x.isLabel with
    | true =>
      obtain ⟨cmds, hc⟩ := placeAll_ok xs i (fun pre y post hy hl => by
        have := h (x :: pre) y post (by rw [hy]; rfl) hl
        cases x <;> simp [X.isLabel] at hx
        simpa using this)
      exact ⟨cmds, by rw [Stmt.placeAll, if_pos hx]; exact hc⟩
    | false =>
      obtain ⟨c, h1⟩ := h [] x xs rfl hx
      obtain ⟨cmds, hc⟩ := placeAll_ok xs (i + 1) (fun pre y post hy hl => by
        have := h (x :: pre) y post (by rw [hy]; rfl) hl
        rwa [Stmt.size_cons, Stmt.size_one _ hx, show i + (1 + size pre) = i + 1 + size pre by omega] at this)
      refine ⟨c :: cmds, ?_⟩
      rw [Stmt.placeAll, hx]
      simp only [Stmt.size_nil, Nat.add_zero] at h1
      simp only [Bool.false_eq_true, if_false, h1, hc]

theorem placeRows_total {find : Nat → Option Nat} {i : Nat} : ∀ {rows : List (BitVec 32 × Nat)},
    (∀ r ∈ rows, ∃ t, find r.2 = some t) → ∃ rs, Stmt.placeRows find i rows = .ok rs
  | [], _ => ⟨[], rfl⟩
  | (v, l) :: rows, h => by
    obtain ⟨t, ht⟩ := h (v, l) List.mem_cons_self
    obtain ⟨rs, hr⟩ := placeRows_total (i := i) (fun r hr => h r (List.mem_cons_of_mem _ hr))
    simp only at ht
    exact ⟨(v, (Stmt.distance i t).toInt) :: rs, by rw [Stmt.placeRows, Stmt.found, ht]; simp only [hr]⟩

theorem placeRows_eq {find : Nat → Option Nat} {i : Nat} : ∀ {rows : List (BitVec 32 × Nat)} {rs : List (BitVec 32 × Int)},
    Stmt.placeRows find i rows = .ok rs →
      rs = rows.map (fun r => (r.1, (Stmt.distance i ((find r.2).getD 0)).toInt)) ∧ ∀ r ∈ rows, ∃ t, find r.2 = some t
  | [], rs, h => by cases h; simp
  | (v, l) :: rows, rs, h => by
    simp only [Stmt.placeRows] at h
    split at h
    · cases h
    · rename_i t ht
      have ht := found_ok ht
      split at h
      · cases h
      · rename_i rs' hr
        injection h with h
        obtain ⟨h1, h2⟩ := placeRows_eq hr
        subst h
        refine ⟨by simp [ht, ← h1], ?_⟩
        intro r hr
        rcases List.mem_cons.1 hr with rfl | hr
        · exact ⟨t, ht⟩
        · exact h2 r hr

theorem labelIdx_mem {A : Type} {xs : List (X A)} {l t : Nat} (h : labelIdx xs 0 l = some t) : l ∈ labels xs := by
  by_cases hl : l ∈ labels xs
  · exact hl
  · rw [Stmt.labelIdx_none _ _ _ hl] at h; cases h

/-- If what is written can be placed, so can what was appended: there, everything is nearer. -/
theorem commit_of {zs : List Pair} (h : Chunked lvl p m zs) (hn : (labels (xsOf zs)).Nodup)
    (hl : (ysOf zs).length < 2 ^ 31) {cmds : List (Stmt.Cmd Ins)} (hc : Stmt.commit (ysOf zs) = .ok cmds) :
    ∃ cmds', Stmt.commit (xsOf zs) = .ok cmds' := by
  apply placeAll_ok
  intro pre x post hx hlab
  rw [Nat.zero_add]
  obtain ⟨a, c, b, rfl, rfl, rfl⟩ := split_at hx
  have hchunk : Chunk lvl p m x c := h (x, c) (by simp)
  have hat : At (a ++ (x, c) :: b) (size (xsOf a)) (size (ysOf a)) := ⟨a, _, rfl, rfl, rfl⟩
  have seg : Seg (ysOf (a ++ (x, c) :: b)) (size (ysOf a)) c := ⟨ysOf a, ysOf b, by simp [ysOf_cons], rfl⟩
  have lens := Stmt.size_le (ysOf (a ++ (x, c) :: b))
  have hla : size (ysOf a) ≤ (ysOf (a ++ (x, c) :: b)).length := seg.le
  have hlx : size (xsOf a) ≤ size (ysOf a) := size_ysOf h.left
  have find : ∀ l v, labelIdx (ysOf (a ++ (x, c) :: b)) 0 l = some v →
      ∃ t, labelIdx (xsOf (a ++ (x, c) :: b)) 0 l = some t ∧ At (a ++ (x, c) :: b) t v := by
    intro l v hv
    have hm := labelIdx_mem hv
    rw [labels_ysOf h] at hm
    obtain ⟨t, v', h1, h2, h3⟩ := label_at h hn hm
    rw [hv] at h2
    simp only [Option.some.injEq] at h2
    subst h2
    exact ⟨t, h1, h3⟩
  cases hchunk with
  | act _ => exact ⟨_, rfl⟩
  | eqInt k => exact ⟨_, rfl⟩
  | label l => simp [X.isLabel] at hlab
  | jmp k l =>
    obtain ⟨c, h1, _⟩ := Stmt.fetch hc seg rfl
    simp only [Stmt.place] at h1
    split at h1
    · cases h1
    · rename_i v hv
      have hv := found_ok hv
      split at h1
      · cases h1
      · rename_i d hd
        obtain ⟨t, ht, hat'⟩ := find l v hv
        have hvl := Stmt.labelIdx_le _ _ _ _ hv
        have r := (stored_iff _).1 ⟨d, hd⟩
        have ord := At.order h hat hat'
        rw [Stmt.distance_toInt _ _ (by omega) (by omega)] at r
        have htl : t < 2 ^ 31 := by
          have := Stmt.labelIdx_le _ _ _ _ ht
          have := Stmt.size_le (xsOf (a ++ (X.jmp k l, [X.jmp k l]) :: b))
          have := length_ysOf h
          omega
        obtain ⟨d', hd'⟩ := (stored_iff (Stmt.distance (size (xsOf a)) t)).2
          (by rw [Stmt.distance_toInt _ _ (by omega) htl]; omega)
        exact ⟨.jmp k d', by simp only [Stmt.place, Stmt.found, ht, hd']⟩
  | point k =>
    obtain ⟨c, h1, _⟩ := Stmt.fetch hc seg rfl
    simp [Stmt.place] at h1
  | switch rows d =>
    obtain ⟨c, h1, _⟩ := Stmt.fetch hc seg rfl
    simp only [Stmt.place] at h1
    split at h1
    · cases h1
    · rename_i rs hrs
      split at h1
      · cases h1
      · rename_i v hv
        obtain ⟨_, h3⟩ := placeRows_eq hrs
        obtain ⟨t, ht, _⟩ := find d v (found_ok hv)
        obtain ⟨rs', hr'⟩ := placeRows_total (i := size (xsOf a))
          (find := labelIdx (xsOf (a ++ (X.switch rows d, [X.switch rows d]) :: b)) 0) (rows := rows) (fun r hr => by
            obtain ⟨v', hv'⟩ := h3 r hr
            obtain ⟨t', ht', _⟩ := find _ _ hv'
            exact ⟨t', ht'⟩)
        exact ⟨_, by simp only [Stmt.place, hr', Stmt.found, ht]; rfl⟩
  | ret => exact ⟨_, rfl⟩
  | thr => exact ⟨_, rfl⟩
  | fail =>
    obtain ⟨c, h1, _⟩ := Stmt.fetch hc seg rfl
    simp [Stmt.place] at h1

theorem search_none {α : Type} {v : BitVec 32} {rows : List (BitVec 32 × α)} (h : rows[rows.length / 2]? = none) :
    Stmt.search rows v = none := by
  rw [Stmt.search]
  split
  · rfl
  · rename_i h1; rw [h] at h1; cases h1

theorem search_some {α : Type} {v : BitVec 32} {rows : List (BitVec 32 × α)} {r : BitVec 32 × α}
    (h : rows[rows.length / 2]? = some r) :
    Stmt.search rows v = if v.slt r.1 then Stmt.search (rows.take (rows.length / 2)) v
      else if r.1.slt v then Stmt.search (rows.drop (rows.length / 2 + 1)) v else some r.2 := by
  conv => lhs; rw [Stmt.search]
  split
  · rename_i h1; rw [h] at h1; cases h1
  · rename_i h1
    rw [h] at h1
    simp only [Option.some.injEq] at h1
    subst h1
    rfl

/-- The search looks at the keys only. -/
theorem search_map {α β : Type} (g : α → β) (v : BitVec 32) : ∀ (n : Nat) (rows : List (BitVec 32 × α)), rows.length ≤ n →
    Stmt.search (rows.map fun r => (r.1, g r.2)) v = (Stmt.search rows v).map g := by
  intro n
  induction n with
  | zero =>
    intro rows h
    have : rows = [] := List.length_eq_zero_iff.1 (by omega)
    subst this
    rw [search_none rfl, search_none rfl]; rfl
  | succ n ih =>
    intro rows h
    have e : (rows.map fun r => (r.1, g r.2))[(rows.map fun r => (r.1, g r.2)).length / 2]? =
        (rows[rows.length / 2]?).map fun r => (r.1, g r.2) := by
      simp
    cases hr : rows[rows.length / 2]? with
    | none =>
      rw [hr] at e
      rw [search_none hr, search_none e]; rfl
    | some r =>
      rw [hr] at e
      simp only [Option.map_some] at e
      have hlt : rows.length / 2 < rows.length := (List.getElem?_eq_some_iff.1 hr).1
      rw [search_some hr, search_some e]
      simp only [List.length_map]
      split
      · rw [← List.map_take]
        exact ih _ (by rw [List.length_take]; omega)
      · split
        · rw [← List.map_drop]
          exact ih _ (by rw [List.length_drop]; omega)
        · rfl

theorem search_mem' {α : Type} {v : BitVec 32} {x : α} : ∀ (n : Nat) (rows : List (BitVec 32 × α)), rows.length ≤ n →
    Stmt.search rows v = some x → ∃ r ∈ rows, r.2 = x := by
  intro n
  induction n with
  | zero =>
    intro rows h hs
    have : rows = [] := List.length_eq_zero_iff.1 (by omega)
    subst this
    rw [Stmt.search] at hs; simp at hs
  | succ n ih =>
    intro rows h hs
    rw [Stmt.search] at hs
    split at hs
    · cases hs
    · rename_i r hr
      have hlt : rows.length / 2 < rows.length := (List.getElem?_eq_some_iff.1 hr).1
      simp only at hs
      split at hs
      · obtain ⟨r', h1, h2⟩ := ih _ (by rw [List.length_take]; omega) hs
        exact ⟨r', List.mem_of_mem_take h1, h2⟩
      · split at hs
        · obtain ⟨r', h1, h2⟩ := ih _ (by rw [List.length_drop]; omega) hs
          exact ⟨r', List.mem_of_mem_drop h1, h2⟩
        · simp only [Option.some.injEq] at hs
          exact ⟨r, List.mem_of_getElem? hr, hs⟩

end

end Verif.Flow
