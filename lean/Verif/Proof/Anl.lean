/-
  The stacks of the analyzer stand for readings of what came so far.
-/
import Verif.Spec.Anl

namespace Verif.Anl.Proof

open Verif.Gram Verif.Gram.Spec Verif.Anl Verif.Anl.Spec

variable {S : Sys} {n : Nat}

/-! ## Ways -/

theorem collect_mem {f : Nat → Option (List Path)} : ∀ {us out}, collect f us = some out →
    ∀ π ∈ out, ∃ u ∈ us, ∃ a, f u = some a ∧ π ∈ a
  | [], out, h, π, hπ => by
    simp only [collect, Option.some.injEq] at h
    subst h
    cases hπ
  | u :: us, out, h, π, hπ => by
    rw [collect] at h
    cases hu : f u with
    | none => simp [hu] at h
    | some a =>
      cases hr : collect f us with
      | none => simp [hu, hr] at h
      | some b =>
        simp only [hu, hr, Option.some.injEq] at h
        subst h
        rcases List.mem_append.mp hπ with h' | h'
        · exact ⟨u, List.mem_cons_self, a, hu, h'⟩
        · obtain ⟨x, hx, y, hy⟩ := collect_mem hr π h'
          exact ⟨x, List.mem_cons_of_mem _ hx, y, hy⟩

/-- Where ways lead to. -/
def Leads (S : Sys) (r : Nat) (us : List Nat) (π : Path) : Prop :=
  π ≠ [] ∧ (π.length ≤ 1 → (target π).1 = r ∧ (target π).2 ∈ us) ∧
    (¬ π.length ≤ 1 → (target π).2 ∈ S.first (target π).1)

theorem target_cons (x : Nat × Nat) {π : Path} (h : π ≠ []) : target (x :: π) = target π := by
  cases π with
  | nil => exact absurd rfl h
  | cons y ys => simp [target, List.getLastD]

theorem leads_one {r u : Nat} {us : List Nat} (h : u ∈ us) : Leads S r us [(r, u)] :=
  ⟨by simp, fun _ => ⟨rfl, h⟩, fun h => absurd (Nat.le_refl 1) h⟩

theorem expand_leads : ∀ {n r us out}, expand S n r us = some out → ∀ π ∈ out, Leads S r us π
  | 0, _, _, _, h, _, _ => by simp [expand] at h
  | n + 1, r, us, out, h, π, hπ => by
    rw [expand] at h
    obtain ⟨u, hu, a, ha, hm⟩ := collect_mem h π hπ
    have single : ∀ {a}, some [[(r, u)]] = some a → π ∈ a → Leads S r us π := by
      intro a e hm
      cases e
      cases List.mem_singleton.mp hm
      exact leads_one hu
    cases hl : S.label r u with
    | tok t => exact single (by simpa only [hl] using ha) hm
    | group => exact single (by simpa only [hl] using ha) hm
    | stop o => exact single (by simpa only [hl] using ha) hm
    | ref q =>
      simp only [hl] at ha
      by_cases he : S.expandable r u
      · cases hx : expand S n q (S.first q) with
        | none => simp [he, hx] at ha
        | some ps =>
          simp only [he, hx, if_true, Option.some.injEq] at ha
          subst ha
          rcases List.mem_cons.mp hm with rfl | hm
          · exact leads_one hu
          · obtain ⟨ρ, hρ, rfl⟩ := List.mem_map.mp hm
            obtain ⟨h0, h1, h2⟩ := expand_leads hx ρ hρ
            refine ⟨by simp, fun hc => ?_, fun _ => ?_⟩
            · cases ρ with
              | nil => exact absurd rfl h0
              | cons y ys => simp at hc
            · rw [target_cons _ h0]
              by_cases hs : ρ.length ≤ 1
              · obtain ⟨e, hf⟩ := h1 hs
                rw [e]
                exact hf
              · exact h2 hs
      · exact single (by simpa only [he, if_false, Bool.false_eq_true] using ha) hm

theorem distinct_mem : ∀ {old ps : List Path} {π : Path}, π ∈ distinct old ps → π ∈ ps
  | _, [], _, h => h
  | old, ρ :: ps, π, h => by
    rw [distinct] at h
    split at h
    · exact List.mem_cons_of_mem _ (distinct_mem h)
    · rcases List.mem_cons.mp h with rfl | h
      · exact List.mem_cons_self
      · exact List.mem_cons_of_mem _ (distinct_mem h)

theorem units_leads {p : Pos} {key : Label} {out : List Path} (h : units S n p key = some out) :
    ∀ π ∈ out, Leads S p.rule (S.next p) π ∧ S.label (target π).1 (target π).2 = key := by
  intro π hπ
  rw [units] at h
  cases hx : expand S n p.rule (S.next p) with
  | none => simp [hx] at h
  | some ps =>
    simp only [hx, Option.some.injEq] at h
    subst h
    have : π ∈ distinct [] (ps.filter fun π => S.label (target π).1 (target π).2 = key) := by
      rcases List.mem_append.mp hπ with h | h <;> exact (List.mem_filter.mp h).1
    obtain ⟨h1, h2⟩ := List.mem_filter.mp (distinct_mem this)
    exact ⟨expand_leads hx π h1, of_decide_eq_true h2⟩

theorem unitsAll_leads {p : Pos} : ∀ {keys out}, unitsAll S n p keys = some out →
    ∀ u ∈ out, u.1 ∈ keys ∧ Leads S p.rule (S.next p) u.2 ∧
      S.label (target u.2).1 (target u.2).2 = .tok u.1
  | [], out, h, u, hu => by
    simp only [unitsAll, Option.some.injEq] at h
    subst h
    cases hu
  | k :: ks, out, h, u, hu => by
    rw [unitsAll] at h
    cases hx : units S n p (.tok k) with
    | none => simp [hx] at h
    | some us =>
      cases hy : unitsAll S n p ks with
      | none => simp [hx, hy] at h
      | some vs =>
        simp only [hx, hy, Option.some.injEq] at h
        subst h
        rcases List.mem_append.mp hu with h | h
        · obtain ⟨π, hπ, rfl⟩ := List.mem_map.mp h
          exact ⟨List.mem_cons_self, units_leads hx π hπ⟩
        · obtain ⟨h1, h2⟩ := unitsAll_leads hy u h
          exact ⟨List.mem_cons_of_mem _ h1, h2⟩

/-! ## Readings up to a place -/

/-- A reading from the beginning of the rule, which is at token `i`, up to a place in it. -/
inductive Upto (S : Sys) : Pos → Nat → List Nat → List Action → Prop where
  | init (r i : Nat) : Upto S ⟨r, none⟩ i [] []
  | tok {r x i w as u t} : Upto S ⟨r, x⟩ i w as → u ∈ S.next ⟨r, x⟩ → S.label r u = .tok t →
      Upto S ⟨r, some u⟩ i (w ++ [t]) as
  | ref {r x i w as u p v bs} : Upto S ⟨r, x⟩ i w as → u ∈ S.next ⟨r, x⟩ →
      S.label r u = .ref p.rule → Upto S p (i + w.length) v bs → S.ends p = true →
      Upto S ⟨r, some u⟩ i (w ++ v)
        (as ++ (bs ++ [.matched p.rule (i + w.length) (i + w.length + v.length)]))

/-- There is a token before every place behind the beginning. -/
theorem upto_ne {p : Pos} {i : Nat} {w : List Nat} {as : List Action} (h : Upto S p i w as) :
    p.node ≠ none → w ≠ [] := by
  induction h with
  | init => intro h; exact absurd rfl h
  | tok => intro _; simp
  | @ref r x i w as u p v bs _ _ _ _ he _ ih =>
    intro _ e
    refine ih ?_ (List.append_eq_nil_iff.mp e).2
    intro hp
    simp [Sys.ends, hp] at he

theorem upto_reading {p : Pos} {i : Nat} {w : List Nat} {as : List Action} (h : Upto S p i w as) :
    ∀ {g w' bs}, S.graph p.rule = some g → Reading S.graph g (S.next p) (i + w.length) w' bs →
      Reading S.graph g g.start i (w ++ w') (as ++ bs) := by
  induction h with
  | init r i =>
    intro g w' bs hg h
    simpa [Sys.next, hg] using h
  | @tok r x i w as u t _ hu hl ih =>
    intro g w' bs hg h
    have hl' : g.label u = .tok t := by simpa [Sys.label, hg] using hl
    have hn : S.next ⟨r, some u⟩ = g.next u := by
      have hg' : S.graph r = some g := hg
      simp [Sys.next, hg']
    rw [hn] at h
    have := ih hg (Reading.tok hu hl' (by simpa [Nat.add_assoc] using h))
    simpa using this
  | @ref r x i w as u p v bs _ hu hl hp he ih1 ih2 =>
    intro g w' cs hg h
    have hg' : S.graph r = some g := hg
    have hl' : g.label u = .ref p.rule := by simpa [Sys.label, hg'] using hl
    have hn : S.next ⟨r, some u⟩ = g.next u := by simp [Sys.next, hg']
    rw [hn] at h
    obtain ⟨q, y⟩ := p
    rw [Sys.ends] at he
    cases y with
    | none => simp at he
    | some y =>
      obtain ⟨z, hz, hs⟩ := List.any_eq_true.mp he
      cases hq : S.graph q with
      | none => simp [Sys.next, hq] at hz
      | some g' =>
        cases ho : S.label q z with
        | tok t => simp [ho, isStop] at hs
        | ref t => simp [ho, isStop] at hs
        | group => simp [ho, isStop] at hs
        | stop o =>
          have ho' : g'.label z = .stop o := by simpa [Sys.label, hq] using ho
          have hin := ih2 hq (Reading.stop hz ho')
          rw [List.append_nil, List.append_nil] at hin
          have := ih1 hg' (Reading.ref hu hl' hq (upto_ne hp (by simp)) hin
            (by simpa [Nat.add_assoc] using h))
          simpa [Nat.add_assoc] using this

theorem upto_ends {p : Pos} {i : Nat} {w : List Nat} {as : List Action} (h : Upto S p i w as)
    (he : S.ends p = true) : ReadingOf S.graph p.rule i w as := by
  obtain ⟨q, y⟩ := p
  rw [Sys.ends] at he
  cases y with
  | none => simp at he
  | some y =>
    obtain ⟨z, hz, hs⟩ := List.any_eq_true.mp he
    cases hq : S.graph q with
    | none => simp [Sys.next, hq] at hz
    | some g' =>
      cases ho : S.label q z with
      | tok t => simp [ho, isStop] at hs
      | ref t => simp [ho, isStop] at hs
      | group => simp [ho, isStop] at hs
      | stop o =>
        have ho' : g'.label z = .stop o := by simpa [Sys.label, hq] using ho
        have hin := upto_reading h hq (Reading.stop hz ho')
        rw [List.append_nil, List.append_nil] at hin
        exact ⟨g', hq, hin⟩

/-- Every report is right. -/
theorem upto_reports {p : Pos} {i : Nat} {w : List Nat} {as : List Action} (h : Upto S p i w as) :
    ∀ r a b, .matched r a b ∈ as → ∃ x y z bs, w = x ++ y ++ z ∧ a = i + x.length ∧
      b = a + y.length ∧ ReadingOf S.graph r a y bs := by
  induction h with
  | init => intro r a b h; cases h
  | @tok r x i w as u t _ _ _ ih =>
    intro q a b hm
    obtain ⟨x, y, z, bs, rfl, ha, hb, hr⟩ := ih q a b hm
    exact ⟨x, y, z ++ [t], bs, by simp, ha, hb, hr⟩
  | @ref r x i w as u p v bs _ hu hl hp he ih1 ih2 =>
    intro q a b hm
    rcases List.mem_append.mp hm with hm | hm
    · obtain ⟨x, y, z, bs, rfl, ha, hb, hr⟩ := ih1 q a b hm
      exact ⟨x, y, z ++ v, bs, by simp, ha, hb, hr⟩
    · rcases List.mem_append.mp hm with hm | hm
      · obtain ⟨x, y, z, bs, rfl, ha, hb, hr⟩ := ih2 q a b hm
        exact ⟨w ++ x, y, z, bs, by simp, by simp [ha, Nat.add_assoc], hb, hr⟩
      · have hm := List.mem_singleton.mp hm
        injection hm with h1 h2 h3
        subst h1 h2 h3
        exact ⟨w, v, [], bs, by simp, rfl, rfl, upto_ends hp he⟩

/-! ## Stacks -/

/-- What a stack stands for. -/
inductive Valid (S : Sys) : List Entry → List Nat → List Action → Prop where
  | base {e w as} : e.pos.rule = S.root → Upto S e.pos 0 w as → Valid S [e] w as
  | over {e e' rest v as w bs} : Valid S (e' :: rest) v as → e'.child = some v.length →
      Upto S e.pos v.length w bs → Valid S (e :: e' :: rest) (v ++ w) (as ++ bs)

/-- What is under the top of a stack. -/
def Under (S : Sys) (r : Nat) (stack : List Entry) (v : List Nat) (as : List Action) : Prop :=
  match stack with
  | [] => v = [] ∧ as = [] ∧ r = S.root
  | e :: _ => Valid S stack v as ∧ e.child = some v.length

theorem valid_under {e : Entry} {rest : List Entry} {u : List Nat} {cs : List Action}
    (h : Valid S (e :: rest) u cs) : ∃ v as w bs, u = v ++ w ∧ cs = as ++ bs ∧
      Under S e.pos.rule rest v as ∧ Upto S e.pos v.length w bs := by
  cases h with
  | base hr hu => exact ⟨[], [], u, cs, rfl, rfl, ⟨rfl, rfl, hr⟩, hu⟩
  | over hv hc hu => exact ⟨_, _, _, _, rfl, rfl, ⟨hv, hc⟩, hu⟩

theorem under_valid {e : Entry} {rest : List Entry} {v w : List Nat} {as bs : List Action}
    (h : Under S e.pos.rule rest v as) (hu : Upto S e.pos v.length w bs) :
    Valid S (e :: rest) (v ++ w) (as ++ bs) := by
  cases rest with
  | nil =>
    obtain ⟨rfl, rfl, hr⟩ := h
    exact .base hr hu
  | cons e' rest => exact .over h.1 h.2 hu

theorem valid_reports {st : List Entry} {u : List Nat} {cs : List Action} (h : Valid S st u cs) :
    ∀ r a b, .matched r a b ∈ cs → ∃ x y z bs, u = x ++ y ++ z ∧ a = x.length ∧
      b = a + y.length ∧ ReadingOf S.graph r a y bs := by
  induction h with
  | base _ hu =>
    intro r a b hm
    obtain ⟨x, y, z, bs, e, ha, hb, hr⟩ := upto_reports hu r a b hm
    exact ⟨x, y, z, bs, e, by simpa using ha, hb, hr⟩
  | @over e e' rest v as w bs _ _ hu ih =>
    intro r a b hm
    rcases List.mem_append.mp hm with hm | hm
    · obtain ⟨x, y, z, bs, rfl, ha, hb, hr⟩ := ih r a b hm
      exact ⟨x, y, z ++ w, bs, by simp, ha, hb, hr⟩
    · obtain ⟨x, y, z, bs, rfl, ha, hb, hr⟩ := upto_reports hu r a b hm
      exact ⟨v ++ x, y, z, bs, by simp, by simp [ha], hb, hr⟩

/-- A token after the top of a stack. -/
theorem grown_tok {e : Entry} {rest : List Entry} {u : List Nat} {cs : List Action} {π : Path}
    {k : Nat} (h : Valid S (e :: rest) u cs) (hπ : Leads S e.pos.rule (S.next e.pos) π)
    (hk : S.label (target π).1 (target π).2 = .tok k) :
    Valid S (grown (some u.length) e rest π) (u ++ [k]) cs := by
  rw [grown]
  split
  · next hl =>
    obtain ⟨h1, h2⟩ := hπ.2.1 hl
    obtain ⟨v, as, w, bs, rfl, rfl, hun, hup⟩ := valid_under h
    rw [h1] at hk
    rw [List.append_assoc]
    refine under_valid (by simpa [h1] using hun) ?_
    rw [h1]
    exact .tok hup h2 hk
  · next hl =>
    have h2 := hπ.2.2 hl
    rw [← List.append_nil cs]
    refine .over ?_ rfl ?_
    · obtain ⟨v, as, w, bs, rfl, rfl, hun, hup⟩ := valid_under h
      exact under_valid hun hup
    · exact Upto.tok (w := []) (.init _ _) (by simpa [Sys.next, Sys.first] using h2) hk

/-- An instance of a rule after the top of a stack. -/
theorem grown_ref {e : Entry} {rest : List Entry} {u : List Nat} {cs : List Action} {π : Path}
    {p : Pos} {x : List Nat} {bs : List Action}
    (h : Valid S (e :: rest) u cs) (hc : e.child = some u.length)
    (hπ : Leads S e.pos.rule (S.next e.pos) π)
    (hk : S.label (target π).1 (target π).2 = .ref p.rule) (hx : Upto S p u.length x bs)
    (he : S.ends p = true) :
    ∃ v as w ds, Under S (target π).1 (if π.length ≤ 1 then rest else e :: rest) v as ∧
      Upto S ⟨(target π).1, some (target π).2⟩ v.length w ds ∧ v ++ w = u ++ x ∧
      as ++ ds = cs ++ (bs ++ [.matched p.rule u.length (u.length + x.length)]) := by
  by_cases hl : π.length ≤ 1
  · obtain ⟨h1, h2⟩ := hπ.2.1 hl
    obtain ⟨v, as, w, ds, rfl, rfl, hun, hup⟩ := valid_under h
    rw [if_pos hl, h1]
    rw [h1] at hk
    refine ⟨v, as, w ++ x, _, hun, .ref hup h2 hk (by simpa using hx) he, by simp, by simp⟩
  · have h2 := hπ.2.2 hl
    rw [if_neg hl]
    refine ⟨u, cs, x, _, ⟨h, hc⟩, ?_, rfl, rfl⟩
    exact Upto.ref (w := []) (as := []) (.init _ _) (by simpa [Sys.next, Sys.first] using h2) hk hx he

/-! ## Actions -/

theorem reports_append : ∀ as bs : List Action, reports (as ++ bs) = reports as ++ reports bs
  | [], _ => rfl
  | .matched r i j :: as, bs => by simp [reports, reports_append as bs]
  | .chose i k :: as, bs => by simp [reports, reports_append as bs]

theorem valueOf_append (i : Nat) : ∀ as bs : List Action,
    valueOf i (as ++ bs) = (valueOf i bs).or (valueOf i as)
  | [], bs => by simp [valueOf]
  | .matched r a b :: as, bs => by simp [valueOf, valueOf_append i as bs]
  | .chose j k :: as, bs => by
    rw [List.cons_append, valueOf, valueOf, valueOf_append i as bs]
    cases valueOf i bs <;> cases valueOf i as <;> simp

/-- What holds of the actions for a word. -/
structure Told (ts : List Token) (t : Token) (i : Nat) (A as : List Action) (w : List Nat) :
    Prop where
  reps : reports A = as
  old : ∀ j, j < i → ∀ k, valueOf j A = some k → w[j]? = some k
  set : ∀ j (x : Token), ts[j]? = some x → j < i → x.several = true → (valueOf j A).isSome = true
  now : t.several = false → valueOf i A = none
  later : ∀ j, i < j → valueOf j A = none

structure Settled (ts : List Token) (A as : List Action) (w : List Nat) : Prop where
  reps : reports A = as
  old : ∀ j k, valueOf j A = some k → w[j]? = some k
  set : ∀ j (x : Token), ts[j]? = some x → j < w.length → x.several = true →
    (valueOf j A).isSome = true

theorem told_of_settled {ts : List Token} {t : Token} {A as : List Action} {w : List Nat}
    (h : Settled ts A as w) : Told ts t w.length A as w where
  reps := h.reps
  old j _ := h.old j
  set := h.set
  now _ := by
    cases hv : valueOf w.length A with
    | none => rfl
    | some k => have := h.old _ _ hv; simp at this
  later j hj := by
    cases hv : valueOf j A with
    | none => rfl
    | some k =>
      have := h.old _ _ hv
      rw [List.getElem?_eq_none (by omega)] at this
      cases this

theorem told_matched {ts : List Token} {t : Token} {i : Nat} {A as : List Action} {w : List Nat}
    {r a b : Nat} (h : Told ts t i A as w) :
    Told ts t i (A ++ [.matched r a b]) (as ++ [.matched r a b]) w where
  reps := by rw [reports_append, h.reps]; rfl
  old := by simpa [valueOf_append, valueOf] using h.old
  set := by simpa [valueOf_append, valueOf] using h.set
  now := by simpa [valueOf_append, valueOf] using h.now
  later := by simpa [valueOf_append, valueOf] using h.later

theorem valueOf_chose (A : List Action) (i j k : Nat) :
    valueOf j (A ++ [.chose i k]) = if j = i then some k else valueOf j A := by
  rw [valueOf_append, valueOf, valueOf]
  by_cases h : j = i <;> simp [h]

theorem told_chose {ts : List Token} {t : Token} {i : Nat} {A as : List Action} {w : List Nat}
    {k : Nat} (ht : t.several = true) (h : Told ts t i A as w) :
    Told ts t i (A ++ [.chose i k]) as w where
  reps := by rw [reports_append, h.reps]; simp [reports]
  old j hj := by
    rw [valueOf_chose, if_neg (by omega)]
    exact h.old j hj
  set j x hx hj := by
    rw [valueOf_chose, if_neg (by omega)]
    exact h.set j x hx hj
  now e := by simp [ht] at e
  later j hj := by
    rw [valueOf_chose, if_neg (by omega)]
    exact h.later j hj

/-- After a token. -/
theorem settled_token {ts : List Token} {t : Token} {A as : List Action} {w : List Nat} {k : Nat}
    (h : Told ts t w.length A as w) (ht : ts[w.length]? = some t) :
    Settled ts (if t.several then A ++ [.chose w.length k] else A) as (w ++ [k]) := by
  have old : ∀ j, j < w.length → ∀ k', valueOf j A = some k' → (w ++ [k])[j]? = some k' := by
    intro j hj k' hv
    rw [List.getElem?_append_left hj]
    exact h.old j hj k' hv
  split
  · refine ⟨by rw [reports_append, h.reps]; simp [reports], fun j k' hv => ?_, fun j x hx hj hs => ?_⟩
    · rw [valueOf_chose] at hv
      by_cases hj : j = w.length
      · rw [if_pos hj] at hv
        cases hv
        rw [hj]
        simp
      · rw [if_neg hj] at hv
        by_cases hl : j < w.length
        · exact old j hl k' hv
        · rw [h.later j (by omega)] at hv
          cases hv
    · rw [valueOf_chose]
      by_cases hj' : j = w.length
      · simp [hj']
      · rw [if_neg hj']
        simp only [List.length_append, List.length_cons, List.length_nil] at hj
        exact h.set j x hx (by omega) hs
  · next hs =>
    have hs : t.several = false := by simpa using hs
    refine ⟨h.reps, fun j k' hv => ?_, fun j x hx hj hs' => ?_⟩
    · by_cases hl : j < w.length
      · exact old j hl k' hv
      · by_cases hj : j = w.length
        · rw [hj, h.now hs] at hv
          cases hv
        · rw [h.later j (by omega)] at hv
          cases hv
    · simp only [List.length_append, List.length_cons, List.length_nil] at hj
      by_cases hj' : j = w.length
      · rw [hj', ht] at hx
        cases hx
        simp [hs] at hs'
      · exact h.set j x hx (by omega) hs'

/-! ## A step -/

/-- A leaf stands for a reading of `w`. -/
def Stands (S : Sys) (ts : List Token) (items : List Action) (l : Leaf) (w : List Nat) : Prop :=
  ∃ as, Valid S l.stack w as ∧ Settled ts (items ++ l.actions.reverse) as w

theorem foldl_try {apply : Nat} {mk : Nat → Path → Leaf} : ∀ {us : List (Nat × Path)}
    {s : List Path × List Leaf}, ∀ l ∈ (us.foldl (tryUnit apply mk) s).2,
      l ∈ s.2 ∨ ∃ u ∈ us, l = mk u.1 u.2
  | [], _, l, h => .inl h
  | u :: us, s, l, h => by
    rw [List.foldl_cons] at h
    rcases foldl_try l h with h | ⟨x, hx, e⟩
    · rw [tryUnit] at h
      split at h
      · exact .inl h
      · rcases List.mem_append.mp h with h | h
        · exact .inl h
        · exact .inr ⟨u, List.mem_cons_self, List.mem_singleton.mp h⟩
    · exact .inr ⟨x, List.mem_cons_of_mem _ hx, e⟩

variable {ts : List Token} {t : Token} {items : List Action}

theorem grow_stands {i apply : Nat} {e : Entry} {rest : List Entry} {acts : List Action}
    {seen seen' : List Path} {out : List Leaf} {u : List Nat} {cs : List Action}
    (h : grow S n t i apply e rest acts seen = .ok (seen', out))
    (ht : ts[i]? = some t) (hi : u.length = i) (hv : Valid S (e :: rest) u cs)
    (ha : Told ts t i (items ++ acts.reverse) cs u) :
    ∀ l ∈ out, ∃ k ∈ t.keys, Stands S ts items l (u ++ [k]) := by
  intro l hl
  rw [grow] at h
  cases hu : unitsAll S n e.pos t.keys with
  | none => simp [hu] at h
  | some us =>
    simp only [hu, Except.ok.injEq] at h
    have h2 := congrArg Prod.snd h
    change _ = out at h2
    rw [← h2] at hl
    rcases foldl_try l hl with hl | ⟨x, hx, rfl⟩
    · cases hl
    · have hx : x ∈ us := by
        rcases List.mem_append.mp hx with h | h <;> exact (List.mem_filter.mp h).1
      obtain ⟨hk, hπ, hlab⟩ := unitsAll_leads hu x hx
      subst hi
      refine ⟨x.1, hk, cs, grown_tok hv hπ hlab, ?_⟩
      have := settled_token (k := x.1) ha ht
      rw [makeLeaf]
      split <;> rename_i hs <;> simp only [hs, if_true, if_false, Bool.false_eq_true] at this
      · simpa using this
      · exact this

/-- What `checkEnd` is given. -/
structure Ended (S : Sys) (ts : List Token) (t : Token) (i : Nat) (items : List Action) (r : Nat)
    (acts : List Action) (stack : List Entry) (u : List Nat) : Prop where
  given : ∃ v as p w bs, u = v ++ w ∧ p.rule = r ∧ Under S r stack v as ∧
    Upto S p v.length w bs ∧ S.ends p = true ∧ Told ts t i (items ++ acts.reverse) (as ++ bs) u

theorem refLoop_stands {i apply r : Nat}
    {again : Nat → List Action → List Entry → List Path → Except Err (List Leaf)}
    {p : Entry} {rest : List Entry} {acts : List Action} {u : List Nat}
    (ht : ts[i]? = some t) (hi : u.length = i)
    (hagain : ∀ r acts stack seen out, again r acts stack seen = .ok out →
      Ended S ts t i items r acts stack u → ∀ l ∈ out, ∃ k ∈ t.keys, Stands S ts items l (u ++ [k]))
    (he : Ended S ts t i items r acts (p :: rest) u) :
    ∀ {πs : List Path} {seen out},
      (∀ π ∈ πs, Leads S p.pos.rule (S.next p.pos) π ∧
        S.label (target π).1 (target π).2 = .ref r) →
      refLoop S n t i apply again p rest r acts πs seen = .ok out →
      ∀ l ∈ out, ∃ k ∈ t.keys, Stands S ts items l (u ++ [k])
  | [], seen, out, _, h, l, hl => by
    simp only [refLoop, Except.ok.injEq] at h
    subst h
    cases hl
  | π :: πs, seen, out, hπs, h, l, hl => by
    obtain ⟨v, as, q, w, bs, hu, hq, hun, hup, hends, htold⟩ := he.given
    obtain ⟨hval, hchild⟩ := hun
    obtain ⟨hlead, hlab⟩ := hπs π List.mem_cons_self
    rw [← hq] at hlab
    obtain ⟨v', as', w', ds, hun', hup', e1, e2⟩ :=
      grown_ref hval hchild hlead hlab hup hends
    have hlen : v.length + w.length = i := by rw [← hi, hu, List.length_append]
    have htold' : Told ts t i (items ++ (.matched r (p.child.getD 0) i :: acts).reverse)
        (as' ++ ds) u := by
      have := told_matched (r := r) (a := v.length) (b := i) htold
      rw [e2, hchild]
      rw [hlen, hq]
      simpa using this
    rw [refLoop] at h
    simp only at h
    generalize hunder : (if π.length ≤ 1 then rest else p :: rest) = under at h hun'
    cases hg : grow S n t i apply ⟨⟨(target π).1, some (target π).2⟩, none⟩ under
        (.matched r (p.child.getD 0) i :: acts) seen with
    | error x => simp [hg] at h
    | ok so =>
      obtain ⟨seen1, out1⟩ := so
      simp only [hg] at h
      have hgrow : ∀ l ∈ out1, ∃ k ∈ t.keys, Stands S ts items l (u ++ [k]) := by
        refine grow_stands hg ht hi (cs := as' ++ ds) ?_ htold'
        rw [hu, ← e1]
        exact under_valid hun' hup'
      generalize hx : (if S.ends ⟨(target π).1, some (target π).2⟩ = true ∧
          ¬ S.dead (target π).1 (target π).2 = true then
          again (target π).1 (.matched r (p.child.getD 0) i :: acts) under seen1 else .ok []) = x at h
      cases x with
      | error x => simp at h
      | ok out2 =>
        simp only at h
        have hout2 : ∀ l ∈ out2, ∃ k ∈ t.keys, Stands S ts items l (u ++ [k]) := by
          split at hx
          · next hc =>
            exact hagain _ _ _ _ _ hx ⟨v', as', ⟨(target π).1, some (target π).2⟩, w', ds,
              by rw [hu, e1], rfl, hun', hup', hc.1, htold'⟩
          · cases hx
            intro l hl
            cases hl
        cases hr : refLoop S n t i apply again p rest r acts πs seen1 with
        | error x => simp [hr] at h
        | ok out3 =>
          simp only [hr, Except.ok.injEq] at h
          subst h
          rcases List.mem_append.mp hl with hl | hl
          · rcases List.mem_append.mp hl with hl | hl
            · exact hgrow l hl
            · exact hout2 l hl
          · exact refLoop_stands ht hi hagain he
              (fun π hπ => hπs π (List.mem_cons_of_mem _ hπ)) hr l hl

theorem checkEnd_stands {i : Nat} {u : List Nat} (ht : ts[i]? = some t) (hi : u.length = i) :
    ∀ {m r acts stack seen out}, checkEnd S n t i m r acts stack seen = .ok out →
      Ended S ts t i items r acts stack u →
      ∀ l ∈ out, ∃ k ∈ t.keys, Stands S ts items l (u ++ [k])
  | 0, _, _, _, _, _, h, _ => by simp [checkEnd] at h
  | m + 1, r, acts, stack, seen, out, h, he => by
    rw [checkEnd.eq_def] at h
    simp only at h
    by_cases hr : r = S.root
    · rw [if_pos hr] at h
      cases h
      intro l hl
      cases hl
    · rw [if_neg hr] at h
      cases stack with
      | nil => simp at h
      | cons p rest =>
        simp only at h
        cases hu : units S n p.pos (.ref r) with
        | none => simp [hu] at h
        | some us =>
          cases us with
          | nil => simp [hu] at h
          | cons π πs =>
            simp only [hu] at h
            exact refLoop_stands ht hi (fun r acts stack seen out h he => checkEnd_stands ht hi h he)
              he (units_leads hu) h

theorem told_overwritten {i : Nat} {acts : List Action} {us : List (Nat × Path)} {as : List Action}
    {u : List Nat} (h : Told ts t i (items ++ acts.reverse) as u) :
    Told ts t i (items ++ (overwritten t i acts us).reverse) as u := by
  rw [overwritten.eq_def]
  split
  · exact h
  · cases us with
    | nil => exact h
    | cons x xs =>
      simp only
      split
      · next hs => simpa using told_chose (k := x.1) hs h
      · exact h

theorem push_stands {l : Leaf} {out : List Leaf} {u : List Nat}
    (h : push S n t u.length l = .ok out) (ht : ts[u.length]? = some t)
    (hl : Stands S ts items l u) : ∀ l ∈ out, ∃ k ∈ t.keys, Stands S ts items l (u ++ [k]) := by
  obtain ⟨cs, hv, hs⟩ := hl
  have htold := told_of_settled (t := t) hs
  rw [push] at h
  cases hst : l.stack with
  | nil => simp [hst] at h
  | cons e rest =>
    rw [hst] at hv
    simp only [hst] at h
    cases hus : unitsAll S n e.pos t.keys with
    | none => simp [hus] at h
    | some us =>
      simp only [hus] at h
      cases hg : grow S n t u.length 0 e rest l.actions [] with
      | error x => simp [hg] at h
      | ok so =>
        obtain ⟨seen, out1⟩ := so
        simp only [hg] at h
        have h1 := grow_stands hg ht rfl hv htold
        by_cases he : S.ends e.pos = true
        · rw [if_pos he] at h
          cases hc : checkEnd S n t u.length n e.pos.rule (overwritten t u.length l.actions us) rest
              seen with
          | error x => simp [hc] at h
          | ok out2 =>
            simp only [hc, Except.ok.injEq] at h
            subst h
            obtain ⟨v, as, w, bs, e1, e2, hun, hup⟩ := valid_under hv
            have h2 := checkEnd_stands (u := u) (items := items) ht rfl hc
              ⟨v, as, e.pos, w, bs, e1, rfl, hun, hup, he, by
                rw [← e2]; exact told_overwritten htold⟩
            intro x hx
            rcases List.mem_append.mp hx with hx | hx
            · exact h1 x hx
            · exact h2 x hx
        · rw [if_neg he] at h
          cases h
          exact h1

/-- The values that were set are right. -/
def Kept (items : List Action) (u : List Nat) : Prop :=
  ∀ j k, valueOf j items = some k → u[j]? = some k

theorem kept_more {u : List Nat} {k : Nat} (h : Kept items u) : Kept items (u ++ [k]) := by
  intro j x hj
  have := h j x hj
  rw [List.getElem?_append_left (by
    rcases Nat.lt_or_ge j u.length with h | h
    · exact h
    · rw [List.getElem?_eq_none h] at this; cases this)]
  exact this

theorem pushAll_stands {i : Nat} : ∀ {ls out : List Leaf}, pushAll S n t i ls = .ok out →
    ts[i]? = some t →
    (∀ l ∈ ls, ∃ u, u.length = i ∧ Fits (ts.take i) u ∧ Kept items u ∧ Stands S ts items l u) →
    ∀ l ∈ out, ∃ u, u.length = i + 1 ∧ Fits (ts.take (i + 1)) u ∧ Kept items u ∧ Stands S ts items l u
  | [], out, h, _, _ => by
    simp only [pushAll, Except.ok.injEq] at h
    subst h
    intro l hl
    cases hl
  | l :: ls, out, h, ht, hls => by
    rw [pushAll] at h
    cases hp : push S n t i l with
    | error x => simp [hp] at h
    | ok a =>
      cases hq : pushAll S n t i ls with
      | error x => simp [hp, hq] at h
      | ok b =>
        simp only [hp, hq, Except.ok.injEq] at h
        subst h
        intro x hx
        rcases List.mem_append.mp hx with hx | hx
        · obtain ⟨u, hu, hf, hkp, hst⟩ := hls l List.mem_cons_self
          subst hu
          obtain ⟨k, hk, hs⟩ := push_stands hp ht hst x hx
          refine ⟨u ++ [k], by simp, ⟨?_, fun j y hj => ?_⟩, kept_more hkp, hs⟩
          · have hlt : u.length < ts.length := by
              rcases Nat.lt_or_ge u.length ts.length with h | h
              · exact h
              · rw [List.getElem?_eq_none h] at ht; cases ht
            rw [List.length_take]
            simp only [List.length_append, List.length_cons, List.length_nil]
            omega
          · by_cases hlt : j < u.length
            · rw [List.getElem?_append_left hlt]
              refine hf.2 j y ?_
              rw [List.getElem?_take] at hj ⊢
              rw [if_pos (by omega)] at hj
              rw [if_pos hlt]
              exact hj
            · rw [List.getElem?_take] at hj
              split at hj
              · have : j = u.length := by omega
                subst this
                rw [ht] at hj
                cases hj
                exact ⟨k, hk, by simp⟩
              · cases hj
        · exact pushAll_stands hq ht (fun l hl => hls l (List.mem_cons_of_mem _ hl)) x hx

/-! ## Several readings -/

theorem insertLeaf_mem {O : Order} {l x : Leaf} : ∀ {ms}, x ∈ insertLeaf O l ms → x = l ∨ x ∈ ms
  | [], h => .inl (List.mem_singleton.mp h)
  | m :: ms, h => by
    rw [insertLeaf] at h
    split at h
    · rcases List.mem_cons.mp h with h | h
      · split at h
        · exact .inl h
        · rw [h]; exact .inr List.mem_cons_self
      · exact .inr (List.mem_cons_of_mem _ h)
    · rcases List.mem_cons.mp h with h | h
      · rw [h]; exact .inr List.mem_cons_self
      · rcases insertLeaf_mem h with h | h
        · exact .inl h
        · exact .inr (List.mem_cons_of_mem _ h)

theorem mergeLeaves_mem {O : Order} {x : Leaf} : ∀ {ls}, x ∈ mergeLeaves O ls → x ∈ ls
  | [], h => h
  | l :: ls, h => by
    rcases insertLeaf_mem h with h | h
    · rw [h]; exact List.mem_cons_self
    · exact List.mem_cons_of_mem _ (mergeLeaves_mem h)

theorem insertLeaf_ne (O : Order) (l : Leaf) (ms : List Leaf) : insertLeaf O l ms ≠ [] := by
  cases ms with
  | nil => simp [insertLeaf]
  | cons m ms => rw [insertLeaf]; split <;> simp

theorem pick_mem {O : Order} : ∀ {ls : List Leaf} {l}, pick O ls = some l → l ∈ ls
  | [], _, h => by simp [pick] at h
  | x :: xs, l, h => by
    rw [pick] at h
    cases hp : pick O xs with
    | none =>
      simp only [hp, Option.some.injEq] at h
      subst h
      exact List.mem_cons_self
    | some m =>
      simp only [hp, Option.some.injEq] at h
      split at h
      · subst h; exact List.mem_cons_self
      · subst h; exact List.mem_cons_of_mem _ (pick_mem hp)

/-- The leaves of a state stand for readings. -/
def Fine (S : Sys) (ts : List Token) (i : Nat) (s : State) : Prop :=
  s.leaves ≠ [] ∧
    ∀ l ∈ s.leaves, ∃ u, u.length = i ∧ Fits (ts.take i) u ∧ Kept s.items u ∧ Stands S ts s.items l u

theorem execute_fine {i : Nat} {s : State} (h : Fine S ts i s) : Fine S ts i (execute s) := by
  rw [execute]
  split
  · next l hl =>
    refine ⟨by simp, fun x hx => ?_⟩
    cases List.mem_singleton.mp hx
    obtain ⟨u, h1, h2, _, as, hv, hs⟩ := h.2 l (by rw [hl]; exact List.mem_cons_self)
    exact ⟨u, h1, h2, hs.old, as, hv, by simpa using hs⟩
  · exact h

theorem go_fine {O : Order} {i : Nat} {s s' : State} (h : go S n O t i s = .ok s')
    (ht : ts[i]? = some t) (hs : Fine S ts i s) : Fine S ts (i + 1) s' := by
  rw [go] at h
  cases hp : pushAll S n t i s.leaves with
  | error x => simp [hp] at h
  | ok ls =>
    cases ls with
    | nil => simp [hp] at h
    | cons l ls =>
      simp only [hp, Except.ok.injEq] at h
      subst h
      refine execute_fine ⟨insertLeaf_ne _ _ _, fun x hx => ?_⟩
      exact pushAll_stands hp ht hs.2 x (mergeLeaves_mem hx)

/-! ## The end -/

theorem each_mem {f : Path → Except Err (List Leaf)} : ∀ {xs out}, each f xs = .ok out →
    ∀ l ∈ out, ∃ x ∈ xs, ∃ a, f x = .ok a ∧ l ∈ a
  | [], out, h, l, hl => by
    simp only [each, Except.ok.injEq] at h
    subst h
    cases hl
  | x :: xs, out, h, l, hl => by
    rw [each] at h
    cases hx : f x with
    | error e => simp [hx] at h
    | ok a =>
      cases hy : each f xs with
      | error e => simp [hx, hy] at h
      | ok b =>
        simp only [hx, hy, Except.ok.injEq] at h
        subst h
        rcases List.mem_append.mp hl with hl | hl
        · exact ⟨x, List.mem_cons_self, a, hx, hl⟩
        · obtain ⟨y, hy, a, ha⟩ := each_mem hy l hl
          exact ⟨y, List.mem_cons_of_mem _ hy, a, ha⟩

/-- A leaf stands for a reading of a whole program. -/
def Whole (S : Sys) (ts : List Token) (items : List Action) (l : Leaf) (u : List Nat) : Prop :=
  Stands S ts items l u ∧ ∃ as, ReadingOf S.graph S.root 0 u as ∧
    reports (items ++ l.actions.reverse) = as

theorem settled_matched {A as : List Action} {w : List Nat} {r a b : Nat} (h : Settled ts A as w) :
    Settled ts (A ++ [.matched r a b]) (as ++ [.matched r a b]) w where
  reps := by rw [reports_append, h.reps]; rfl
  old := by simpa [valueOf_append, valueOf] using h.old
  set := by simpa [valueOf_append, valueOf] using h.set

theorem popLeaf_whole {u : List Nat} : ∀ {m l out}, popLeaf S n u.length m l = .ok out →
    Stands S ts items l u → ∀ x ∈ out, Whole S ts items x u
  | 0, _, _, h, _ => by simp [popLeaf] at h
  | m + 1, l, out, h, hl => by
    obtain ⟨cs, hv, hs⟩ := hl
    rw [popLeaf] at h
    cases hst : l.stack with
    | nil => simp [hst] at h
    | cons e rest =>
      have hv0 := hv
      rw [hst] at hv
      simp only [hst] at h
      by_cases he : S.ends e.pos = true
      · simp only [he, not_true, if_false] at h
        cases rest with
        | nil =>
          simp only [Except.ok.injEq] at h
          subst h
          intro x hx
          cases List.mem_singleton.mp hx
          refine ⟨⟨cs, hv0, hs⟩, cs, ?_, hs.reps⟩
          cases hv with
          | base hr hu =>
            rw [← hr]
            exact upto_ends hu he
        | cons p rest =>
          simp only at h
          cases hu : units S n p.pos (.ref e.pos.rule) with
          | none => simp [hu] at h
          | some us =>
            cases us with
            | nil => simp [hu] at h
            | cons π πs =>
              simp only [hu] at h
              intro x hx
              obtain ⟨ρ, hρ, a, ha, hxa⟩ := each_mem h x hx
              have hρ : ρ ∈ π :: πs := by
                rcases List.mem_append.mp hρ with h | h <;> exact (List.mem_filter.mp h).1
              refine popLeaf_whole ha ?_ x hxa
              obtain ⟨hlead, hlab⟩ := units_leads hu ρ hρ
              obtain ⟨v, as, w, bs, e1, e2, hun, hup⟩ := valid_under hv
              obtain ⟨hval, hchild⟩ := hun
              obtain ⟨v', as', w', ds, hun', hup', e3, e4⟩ :=
                grown_ref hval hchild hlead hlab hup he
              refine ⟨as' ++ ds, ?_, ?_⟩
              · rw [e1, ← e3, grown]
                split
                · next hl =>
                  rw [if_pos hl] at hun'
                  exact under_valid hun' hup'
                · next hl =>
                  rw [if_neg hl] at hun'
                  exact under_valid (by simpa [Option.or] using hun') hup'
              · have := settled_matched (r := e.pos.rule) (a := v.length) (b := u.length) hs
                rw [e4, hchild]
                rw [e1, List.length_append] at this ⊢
                rw [e2] at this
                simpa using this
      · rw [if_pos he] at h
        cases h
        intro x hx
        cases hx

theorem popAll_whole {i : Nat} {K : List Nat → Prop} : ∀ {ls out}, popAll S n i ls = .ok out →
    (∀ l ∈ ls, ∃ u, u.length = i ∧ K u ∧ Stands S ts items l u) →
    ∀ x ∈ out, ∃ u, u.length = i ∧ K u ∧ Whole S ts items x u
  | [], out, h, _ => by
    simp only [popAll, Except.ok.injEq] at h
    subst h
    intro x hx
    cases hx
  | l :: ls, out, h, hls => by
    rw [popAll] at h
    cases hp : popLeaf S n i n l with
    | error x => simp [hp] at h
    | ok a =>
      cases hq : popAll S n i ls with
      | error x => simp [hp, hq] at h
      | ok b =>
        simp only [hp, hq, Except.ok.injEq] at h
        subst h
        intro x hx
        rcases List.mem_append.mp hx with hx | hx
        · obtain ⟨u, rfl, hK, hst⟩ := hls l List.mem_cons_self
          exact ⟨u, rfl, hK, popLeaf_whole hp hst x hx⟩
        · exact popAll_whole hq (fun l hl => hls l (List.mem_cons_of_mem _ hl)) x hx

/-- What an outcome stands for. -/
def Good (S : Sys) (ts : List Token) (o : Outcome) : Prop :=
  ∃ w, Fits ts w ∧
    (∀ r a b, .matched r a b ∈ o.items → ∃ x y z as, w = x ++ y ++ z ∧ a = x.length ∧
      b = a + y.length ∧ ReadingOf S.graph r a y as) ∧
    (∀ i k, valueOf i o.items = some k → w[i]? = some k) ∧
    (o.complete = true → ReadingOf S.graph S.root 0 w (reports o.items) ∧
      ∀ i (t : Token), ts[i]? = some t → t.several = true → (valueOf i o.items).isSome = true) ∧
    ∃ st cs, Valid S st w (reports o.items ++ cs)

theorem mem_reports {r a b : Nat} {as : List Action} (h : .matched r a b ∈ as) :
    .matched r a b ∈ reports as := by
  induction as with
  | nil => cases h
  | cons x as ih =>
    rcases List.mem_cons.mp h with h' | h'
    · rw [← h']; exact List.mem_cons_self
    · cases x with
      | matched => exact List.mem_cons_of_mem _ (ih h')
      | chose => exact ih h'

theorem stands_reports {l : Leaf} {u : List Nat} (h : Stands S ts items l u) :
    ∀ r a b, .matched r a b ∈ items ++ l.actions.reverse → ∃ x y z as, u = x ++ y ++ z ∧
      a = x.length ∧ b = a + y.length ∧ ReadingOf S.graph r a y as := by
  intro r a b hm
  obtain ⟨as, hv, hs⟩ := h
  refine valid_reports hv r a b ?_
  rw [← hs.reps]
  exact mem_reports hm

theorem finish_good {O : Order} {s : State} {o : Outcome}
    (h : finish S n ts.length O s = .ok o) (hs : Fine S ts ts.length s) : Good S ts o := by
  obtain ⟨hne, hall⟩ := hs
  rw [List.take_length] at hall
  rw [finish] at h
  cases hp : popAll S n ts.length s.leaves with
  | error x => simp [hp] at h
  | ok ls =>
    simp only [hp] at h
    cases hk : pick O ls with
    | none =>
      simp only [hk, Except.ok.injEq] at h
      subst h
      cases hl : s.leaves with
      | nil => exact absurd hl hne
      | cons l ls' =>
        obtain ⟨u, hu, hf, hkp, hst⟩ := hall l (by rw [hl]; exact List.mem_cons_self)
        refine ⟨u, hf, fun r a b hm => ?_, hkp, fun h => (by cases h), ?_⟩
        · exact stands_reports hst r a b (List.mem_append_left _ hm)
        · obtain ⟨as, hv, hs⟩ := hst
          refine ⟨l.stack, reports l.actions.reverse, ?_⟩
          rw [← reports_append, hs.reps]
          exact hv
    | some l =>
      simp only [hk, Except.ok.injEq] at h
      subst h
      obtain ⟨u, hu, hf, hst, as, hr, he⟩ := popAll_whole (K := Fits ts) hp
        (fun l hl => let ⟨u, h1, h2, _, h3⟩ := hall l hl; ⟨u, h1, h2, h3⟩) l (pick_mem hk)
      refine ⟨u, hf, stands_reports hst, ?_, fun _ => ⟨?_, ?_⟩, ?_⟩
      · obtain ⟨_, _, hs⟩ := hst
        exact hs.old
      · rw [he]; exact hr
      · intro i t ht
        obtain ⟨_, _, hs⟩ := hst
        refine hs.set i t ht ?_
        rcases Nat.lt_or_ge i ts.length with h | h
        · rw [hu]; exact h
        · rw [List.getElem?_eq_none h] at ht; cases ht
      · obtain ⟨_, hv, hs⟩ := hst
        refine ⟨l.stack, [], ?_⟩
        rw [List.append_nil, hs.reps]
        exact hv

theorem run_good {O : Order} : ∀ {us : List Token} {s : State} {i : Nat} {o : Outcome},
    run S n O i us s = .ok o → ts.drop i = us → i ≤ ts.length → Fine S ts i s → Good S ts o
  | [], s, i, o, h, hd, hi, hs => by
    have : i = ts.length := by
      have := List.drop_eq_nil_iff.mp hd
      omega
    subst this
    exact finish_good h hs
  | t :: us, s, i, o, h, hd, hi, hs => by
    rw [run] at h
    cases hg : go S n O t i s with
    | error x => simp [hg] at h
    | ok s' =>
      simp only [hg] at h
      have ht : ts[i]? = some t := by
        rw [← Nat.add_zero i, ← List.getElem?_drop, hd]
        rfl
      have hlt : i < ts.length := by
        rcases Nat.lt_or_ge i ts.length with h | h
        · exact h
        · rw [List.getElem?_eq_none h] at ht; cases ht
      refine run_good h ?_ hlt (go_fine hg ht hs)
      rw [← List.drop_drop, hd]
      rfl

theorem init_fine : Fine S ts 0 (.init S) := by
  refine ⟨by simp [State.init], fun l hl => ?_⟩
  cases List.mem_singleton.mp hl
  refine ⟨[], rfl, ⟨by simp, fun i t h => by simp at h⟩, ?_, [], .base rfl (.init _ _), ?_⟩
  · intro j k h
    simp [State.init, valueOf] at h
  · exact ⟨rfl, fun j k h => by simp [State.init, valueOf] at h, fun j x _ h => by simp at h⟩

theorem analyze_good {O : Order} {o : Outcome} (h : analyze S n O ts = .ok o) : Good S ts o :=
  run_good h rfl (Nat.zero_le _) init_fine

/-! ## Readings and what is accepted -/

theorem accepts_reading {X : Nat → Lang} {Γ : Nat → Option Graph} {g : Graph} {us : List Nat}
    {i : Nat} {w : List Nat} {as : List Action} (h : Reading Γ g us i w as) :
    Accepts X Γ g us w := by
  induction h with
  | stop hu hl => exact .stop hu hl
  | tok hu hl _ ih => exact .tok hu hl ih
  | ref hu hl hr _ _ _ ih1 ih2 => exact .ref hu hl hr ih1 ih2

end Verif.Anl.Proof
