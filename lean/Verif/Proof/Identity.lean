import Verif.Spec.Identity

namespace Verif.Identity

theorem split_at {x : Char} : ∀ {c d r s : Text}, x ∉ c → x ∉ d → c ++ x :: r = d ++ x :: s → c = d ∧ r = s
  | [], [], _, _, _, _, h => by simpa using h
  | [], e :: d, _, _, _, hd, h => by
    simp only [List.nil_append, List.cons_append, List.cons.injEq] at h
    exact absurd (by simp [h.1]) hd
  | e :: c, [], _, _, hc, _, h => by
    simp only [List.nil_append, List.cons_append, List.cons.injEq] at h
    exact absurd (by simp [h.1]) hc
  | e :: c, f :: d, _, _, hc, hd, h => by
    simp only [List.cons_append, List.cons.injEq] at h
    obtain ⟨h1, h2⟩ := split_at (fun hx => hc (List.mem_cons_of_mem _ hx))
      (fun hx => hd (List.mem_cons_of_mem _ hx)) h.2
    exact ⟨by rw [h.1, h1], h2⟩

theorem split_prefix {x : Char} : ∀ {d c r e : Text}, x ∉ d → c ++ x :: r = d ++ e →
    ∃ c', c = d ++ c' ∧ c' ++ x :: r = e
  | [], c, _, _, _, h => ⟨c, rfl, by simpa using h⟩
  | f :: d, [], _, _, hd, h => by
    simp only [List.nil_append, List.cons_append, List.cons.injEq] at h
    exact absurd (by simp [h.1]) hd
  | f :: d, g :: c, _, _, hd, h => by
    simp only [List.cons_append, List.cons.injEq] at h
    obtain ⟨c', h1, h2⟩ := split_prefix (fun hx => hd (List.mem_cons_of_mem _ hx)) h.2
    exact ⟨c', by rw [h.1, h1]; rfl, h2⟩

theorem ident_not {s : Text} (h : Identifier s) :
    '.' ∉ s ∧ '<' ∉ s ∧ '>' ∉ s ∧ ',' ∉ s ∧ '[' ∉ s ∧ ']' ∉ s ∧ ' ' ∉ s :=
  ⟨fun m => (h.2 _ m).1 rfl, fun m => (h.2 _ m).2.1 rfl, fun m => (h.2 _ m).2.2.1 rfl,
    fun m => (h.2 _ m).2.2.2.1 rfl, fun m => (h.2 _ m).2.2.2.2.1 rfl, fun m => (h.2 _ m).2.2.2.2.2.1 rfl,
    fun m => (h.2 _ m).2.2.2.2.2.2 rfl⟩

/-- A part of the path to a type. -/
def Part (c : Text) : Prop := '.' ∉ c ∧ ('<' ∈ c → '>' ∈ c)

def flat (cs : List Text) : Text := cs.flatMap (· ++ ['.'])

theorem flat_cons (c : Text) (cs : List Text) (f : Text) : flat (c :: cs) ++ f = c ++ '.' :: (flat cs ++ f) := by
  simp [flat]

theorem join_flat : ∀ (ps : List Text), ps ≠ [] → join ['.'] ps ++ ['.'] = flat ps
  | [], h => absurd rfl h
  | [s], _ => by simp [join, flat]
  | s :: t :: ss, _ => by
    have := join_flat (t :: ss) (by simp)
    rw [join, List.append_assoc, this]
    simp [flat]

theorem prefixOf_flat {o : Option (List Text)} (h : Names o) : prefixOf o = flat (o.getD []) := by
  cases o with
  | none => rfl
  | some ps => exact join_flat ps (h ps rfl).1

theorem pushAll_eq : ∀ (hs stack : List HostType), pushAll hs stack = hs.reverse ++ stack
  | [], _ => rfl
  | h :: hs, stack => by rw [pushAll, pushAll_eq hs]; simp

theorem popAll_flat : ∀ (hs : List HostType), popAll hs = flat (hs.map shortName)
  | [] => rfl
  | h :: hs => by rw [popAll, popAll_flat hs]; simp [flat]

/-- The parts of the path to a type. -/
def path (g : General) : List Text :=
  g.assembly.getD [] ++ (g.namespace_.getD [] ++ g.hosts.reverse.map shortName)

theorem identity_flat {g : General} (w : WellNamed g) :
    identity (.general g) = flat (path g) ++ (g.name ++ paramsText g.params) := by
  rw [identity, noGenericArgs, prefixOf_flat w.assembly, prefixOf_flat w.namespace_, pushAll_eq, popAll_flat]
  simp [path, flat]

theorem loop_no : ∀ (ps : List Bool) (first : Bool), '>' ∉ paramsLoop first ps ∧ ']' ∉ paramsLoop first ps
  | [], _ => by simp [paramsLoop]
  | p :: ps, first => by
    obtain ⟨h1, h2⟩ := loop_no ps false
    rw [paramsLoop]
    cases first <;> cases p <;> simp [h1, h2]

theorem part_not_last {c r name : Text} {ps : List Bool} (hc : Part c) (hn : Identifier name)
    (h : c ++ '.' :: r = name ++ paramsText ps) : False := by
  obtain ⟨n1, n2, n3, _⟩ := ident_not hn
  obtain ⟨c', rfl, h'⟩ := split_prefix n1 h
  clear h
  have h := h'
  clear h'
  unfold paramsText at h
  by_cases hp : ps = []
  · rw [if_pos hp] at h
    simp at h
  · rw [if_neg hp] at h
    cases c' with
    | nil =>
      simp at h
    | cons x c'' =>
      simp only [List.cons_append, List.nil_append] at h
      injection h with hx h
      subst hx
      have hg : '>' ∈ c'' := by
        have := hc.2 (by simp)
        simp only [List.mem_append, List.mem_cons] at this
        rcases this with h | h | h
        · exact absurd h n3
        · exact absurd h (by decide)
        · exact h
      obtain ⟨p, q, rfl, hp'⟩ := List.eq_append_cons_of_mem hg
      rw [List.append_assoc, List.cons_append] at h
      have := (split_at hp' (loop_no ps true).1 h).2
      simp at this

theorem flat_inj {f g : Text}
    (hf : ∀ c r, Part c → c ++ '.' :: r = f → False) (hg : ∀ c r, Part c → c ++ '.' :: r = g → False) :
    ∀ (cs ds : List Text), (∀ c ∈ cs, Part c) → (∀ d ∈ ds, Part d) → flat cs ++ f = flat ds ++ g → cs = ds ∧ f = g
  | [], [], _, _, h => ⟨rfl, by simpa [flat] using h⟩
  | [], d :: ds, _, hd, h => by
    rw [flat_cons] at h
    exact (hf d _ (hd d (by simp)) (by simpa [flat] using h.symm)).elim
  | c :: cs, [], hc, _, h => by
    rw [flat_cons] at h
    exact (hg c _ (hc c (by simp)) (by simpa [flat] using h)).elim
  | c :: cs, d :: ds, hc, hd, h => by
    rw [flat_cons, flat_cons] at h
    obtain ⟨e, h'⟩ := split_at (hc c (by simp)).1 (hd d (by simp)).1 h
    obtain ⟨e', h''⟩ := flat_inj hf hg cs ds (fun x hx => hc x (List.mem_cons_of_mem _ hx))
      (fun x hx => hd x (List.mem_cons_of_mem _ hx)) h'
    exact ⟨by rw [e, e'], h''⟩

theorem loop_inj : ∀ (ps qs : List Bool), paramsLoop false ps = paramsLoop false qs → ps = qs
  | [], [], _ => rfl
  | [], q :: qs, h => by simp [paramsLoop] at h
  | p :: ps, [], h => by simp [paramsLoop] at h
  | p :: ps, q :: qs, h => by
    simp only [paramsLoop, Bool.false_eq_true, if_false, List.append_assoc, List.cons_append, List.nil_append,
      List.cons.injEq, true_and] at h
    have hd : ∀ (xs : List Bool) (t : Text), '.' :: t = paramsLoop false xs → False := by
      intro xs t e
      cases xs <;> simp [paramsLoop] at e
    cases p <;> cases q <;> simp only [Bool.false_eq_true, if_false, if_true, List.cons_append, List.nil_append,
      List.cons.injEq, true_and] at h
    · rw [loop_inj ps qs h]
    · exact (hd _ _ h.symm).elim
    · exact (hd _ _ h).elim
    · rw [loop_inj ps qs h]

theorem loop_inj_first (ps qs : List Bool) (hp : ps ≠ []) (hq : qs ≠ [])
    (h : paramsLoop true ps = paramsLoop true qs) : ps = qs := by
  apply loop_inj
  cases ps with
  | nil => exact absurd rfl hp
  | cons p ps =>
    cases qs with
    | nil => exact absurd rfl hq
    | cons q qs => simpa [paramsLoop] using h

theorem last_inj {n m : Text} {ps qs : List Bool} (hn : Identifier n) (hm : Identifier m)
    (h : n ++ paramsText ps = m ++ paramsText qs) : n = m ∧ ps = qs := by
  obtain ⟨_, n2, _⟩ := ident_not hn
  obtain ⟨_, m2, _⟩ := ident_not hm
  unfold paramsText at h
  by_cases hp : ps = []
  · by_cases hq : qs = []
    · subst hp hq
      exact ⟨by simpa using h, rfl⟩
    · rw [if_pos hp, if_neg hq] at h
      exact absurd (by rw [← List.append_nil n, h]; simp) n2
  · by_cases hq : qs = []
    · rw [if_neg hp, if_pos hq] at h
      exact absurd (by rw [← List.append_nil m, ← h]; simp) m2
    · rw [if_neg hp, if_neg hq] at h
      simp only [List.cons_append, List.nil_append] at h
      obtain ⟨e, h⟩ := split_at n2 m2 h
      exact ⟨e, loop_inj_first ps qs hp hq (List.append_cancel_right h)⟩

theorem join_mem {x : Char} {sep : Text} : ∀ (ss : List Text), x ∈ join sep ss → x ∈ sep ∨ ∃ s ∈ ss, x ∈ s
  | [], h => by simp [join] at h
  | [s], h => Or.inr ⟨s, by simp, h⟩
  | s :: t :: ss, h => by
    rw [join, List.mem_append, List.mem_append] at h
    rcases h with (h | h) | h
    · exact Or.inr ⟨s, by simp, h⟩
    · exact Or.inl h
    · rcases join_mem (t :: ss) h with h | ⟨u, hu, h⟩
      · exact Or.inl h
      · exact Or.inr ⟨u, List.mem_cons_of_mem _ hu, h⟩

theorem short_part {h : HostType} (hn : Identifier h.name) (hp : ∀ p ∈ h.params, Identifier p.1 ∧ p.2 = false) :
    Part (shortName h) := by
  obtain ⟨n1, n2, n3, _⟩ := ident_not hn
  unfold shortName
  split
  · exact ⟨n1, fun h => absurd h n2⟩
  · refine ⟨fun hd => ?_, fun _ => by simp⟩
    simp only [List.mem_append, List.mem_cons, List.not_mem_nil, or_false] at hd
    rcases hd with ((hd | hd) | hd) | hd
    · exact n1 hd
    · exact absurd hd (by decide)
    · rcases join_mem _ hd with hd | ⟨s, hs, hd⟩
      · exact absurd hd (by decide)
      · obtain ⟨p, hpm, rfl⟩ := List.mem_map.mp hs
        simp only [paramName, (hp p hpm).2, Bool.false_eq_true, if_false, List.cons_append, List.nil_append,
          List.mem_cons] at hd
        rcases hd with hd | hd
        · exact absurd hd (by decide)
        · exact (ident_not (hp p hpm).1).1 hd
    · exact absurd hd (by decide)

theorem path_parts {g : General} (w : WellNamed g) : ∀ c ∈ path g, Part c := by
  have hi : ∀ s, Identifier s → Part s := fun s h => ⟨(ident_not h).1, fun m => absurd m (ident_not h).2.1⟩
  have ho : ∀ o, Names o → ∀ c ∈ Option.getD o ([] : List Text), Part c := by
    intro o h c hc
    cases o with
    | none => simp at hc
    | some ps => exact hi c ((h ps rfl).2 c hc)
  intro c hc
  simp only [path, List.mem_append, List.mem_map, List.mem_reverse] at hc
  rcases hc with hc | hc | ⟨h, hh, rfl⟩
  · exact ho _ w.assembly c hc
  · exact ho _ w.namespace_ c hc
  · exact short_part (w.hosts h hh).1 (w.hosts h hh).2

/-- Types with the same identity have the same path, the same name and the same parameters. -/
theorem identity_path {g k : General} (w : WellNamed g) (v : WellNamed k)
    (h : identity (.general g) = identity (.general k)) : path g = path k ∧ g.name = k.name ∧ g.params = k.params := by
  rw [identity_flat w, identity_flat v] at h
  obtain ⟨h1, h2⟩ := flat_inj (fun c r hc e => part_not_last hc w.name e) (fun c r hc e => part_not_last hc v.name e)
    _ _ (path_parts w) (path_parts v) h
  obtain ⟨h3, h4⟩ := last_inj w.name v.name h2
  exact ⟨h1, h3, h4⟩

theorem join_inj : ∀ (ss ts : List Text), (∀ s ∈ ss, s ≠ [] ∧ ',' ∉ s) → (∀ t ∈ ts, t ≠ [] ∧ ',' ∉ t) →
    join [',', ' '] ss = join [',', ' '] ts → ss = ts
  | [], [], _, _, _ => rfl
  | [], [t], _, ht, h => absurd h.symm (ht t (by simp)).1
  | [], t :: u :: ts, _, _, h => by simp [join] at h
  | [s], [], hs, _, h => absurd h (hs s (by simp)).1
  | s :: u :: ss, [], _, _, h => by simp [join] at h
  | [s], [t], _, _, h => by
    simp only [join] at h
    rw [h]
  | [s], t :: u :: ts, hs, _, h => by
    simp only [join] at h
    exact absurd (by rw [h]; simp) (hs s (by simp)).2
  | s :: u :: ss, [t], _, ht, h => by
    simp only [join] at h
    exact absurd (by rw [← h]; simp) (ht t (by simp)).2
  | s :: u :: ss, t :: x :: ts, hs, ht, h => by
    simp only [join, List.append_assoc, List.cons_append, List.nil_append] at h
    obtain ⟨e, h'⟩ := split_at (hs s (by simp)).2 (ht t (by simp)).2 h
    injection h' with _ h'
    rw [e, join_inj (u :: ss) (x :: ts) (fun y hy => hs y (List.mem_cons_of_mem _ hy))
      (fun y hy => ht y (List.mem_cons_of_mem _ hy)) h']

theorem param_ok (ps : List (Text × Bool)) (h : ∀ p ∈ ps, Identifier p.1 ∧ p.2 = false) :
    ∀ s ∈ ps.map paramName, s ≠ [] ∧ ',' ∉ s := by
  intro s hs
  obtain ⟨p, hp, rfl⟩ := List.mem_map.mp hs
  have h1 := (ident_not (h p hp).1).2.2.2.1
  simp [paramName, (h p hp).2, h1]

theorem params_inj : ∀ (ps qs : List (Text × Bool)), (∀ p ∈ ps, Identifier p.1 ∧ p.2 = false) →
    (∀ p ∈ qs, Identifier p.1 ∧ p.2 = false) → ps.map paramName = qs.map paramName → ps = qs
  | [], [], _, _, _ => rfl
  | [], _ :: _, _, _, h => by simp at h
  | _ :: _, [], _, _, h => by simp at h
  | (a, x) :: ps, (b, y) :: qs, h1, h2, h => by
    simp only [List.map_cons, List.cons.injEq] at h
    have ha := (h1 (a, x) (by simp)).2
    have hb := (h2 (b, y) (by simp)).2
    dsimp only at ha hb
    subst ha hb
    have e : a = b := by simpa [paramName] using h.1
    rw [e, params_inj ps qs (fun z hz => h1 z (List.mem_cons_of_mem _ hz))
      (fun z hz => h2 z (List.mem_cons_of_mem _ hz)) h.2]

theorem short_inj {h k : HostType} (hn : Identifier h.name) (hp : ∀ p ∈ h.params, Identifier p.1 ∧ p.2 = false)
    (kn : Identifier k.name) (kp : ∀ p ∈ k.params, Identifier p.1 ∧ p.2 = false) (e : shortName h = shortName k) : h = k := by
  obtain ⟨_, n2, _⟩ := ident_not hn
  obtain ⟨_, m2, _⟩ := ident_not kn
  cases h with
  | mk n ps =>
    cases k with
    | mk m qs =>
      simp only [shortName] at *
      by_cases h1 : ps = []
      · by_cases h2 : qs = []
        · rw [if_pos h1, if_pos h2] at e
          rw [h1, h2, e]
        · rw [if_pos h1, if_neg h2] at e
          exact absurd (by rw [e]; simp) n2
      · by_cases h2 : qs = []
        · rw [if_neg h1, if_pos h2] at e
          exact absurd (by rw [← e]; simp) m2
        · rw [if_neg h1, if_neg h2] at e
          simp only [List.append_assoc, List.cons_append, List.nil_append] at e
          obtain ⟨e1, e2⟩ := split_at n2 m2 e
          rw [e1, params_inj ps qs hp kp
            (join_inj _ _ (param_ok ps hp) (param_ok qs kp) (List.append_cancel_right e2))]

theorem hosts_inj : ∀ (hs ks : List HostType),
    (∀ h ∈ hs, Identifier h.name ∧ ∀ p ∈ h.params, Identifier p.1 ∧ p.2 = false) →
    (∀ h ∈ ks, Identifier h.name ∧ ∀ p ∈ h.params, Identifier p.1 ∧ p.2 = false) → hs.map shortName = ks.map shortName → hs = ks
  | [], [], _, _, _ => rfl
  | [], _ :: _, _, _, h => by simp at h
  | _ :: _, [], _, _, h => by simp at h
  | a :: hs, b :: ks, h1, h2, h => by
    simp only [List.map_cons, List.cons.injEq] at h
    have ha := h1 a (by simp)
    have hb := h2 b (by simp)
    rw [short_inj ha.1 ha.2 hb.1 hb.2 h.1, hosts_inj hs ks (fun x hx => h1 x (List.mem_cons_of_mem _ hx))
      (fun x hx => h2 x (List.mem_cons_of_mem _ hx)) h.2]

theorem names_getD {o p : Option (List Text)} (ho : Names o) (hp : Names p) (h : o.getD [] = p.getD []) : o = p := by
  cases o with
  | none =>
    cases p with
    | none => rfl
    | some ps => exact absurd h.symm (hp ps rfl).1
  | some os =>
    cases p with
    | none => exact absurd h (ho os rfl).1
    | some ps =>
      simp only [Option.getD_some] at h
      rw [h]

theorem general_inj {g k : General} (w : WellNamed g) (v : WellNamed k) (ha : g.assembly = k.assembly)
    (hd : depth g.namespace_ = depth k.namespace_) (h : identity (.general g) = identity (.general k)) : g = k := by
  obtain ⟨h1, h2, h3⟩ := identity_path w v h
  unfold path at h1
  rw [ha] at h1
  obtain ⟨h4, h5⟩ := List.append_inj (List.append_cancel_left h1) hd
  have h6 := names_getD w.namespace_ v.namespace_ h4
  rw [List.map_reverse, List.map_reverse, List.reverse_inj] at h5
  have h7 := hosts_inj _ _ w.hosts v.hosts h5
  cases g
  cases k
  simp_all

theorem last_not {g : General} (w : WellNamed g) (s : Text) : identity (.general g) ≠ s ++ [']'] := by
  intro h
  have : ']' ∈ g.name ++ paramsText g.params := by
    have hl : (identity (.general g)).getLast? = some ']' := by rw [h]; simp
    rw [identity_flat w, List.getLast?_append] at hl
    cases e : (g.name ++ paramsText g.params).getLast? with
    | none =>
      rw [List.getLast?_eq_none_iff] at e
      exact absurd (List.append_eq_nil_iff.mp e).1 w.name.1
    | some c =>
      rw [e] at hl
      simp only [Option.some_or, Option.some.injEq] at hl
      subst hl
      exact List.mem_of_getLast? e
  rw [List.mem_append] at this
  rcases this with h | h
  · exact (ident_not w.name).2.2.2.2.2.1 h
  · unfold paramsText at h
    split at h
    · simp at h
    · simp only [List.mem_append, List.mem_cons, List.not_mem_nil, or_false] at h
      rcases h with (h | h) | h
      · exact absurd h (by decide)
      · exact (loop_no g.params true).2 h
      · exact absurd h (by decide)

theorem array_inj {s t : Text} {d e : Nat} (hd : 1 ≤ d) (he : 1 ≤ e)
    (h : s ++ ['['] ++ List.replicate (d - 1) ',' ++ [']'] = t ++ ['['] ++ List.replicate (e - 1) ',' ++ [']']) :
    s = t ∧ d = e := by
  have h := congrArg List.reverse (List.append_cancel_right h)
  simp only [List.reverse_append, List.reverse_replicate, List.reverse_cons, List.reverse_nil, List.nil_append,
    List.cons_append] at h
  have hr : ∀ n, '[' ∉ List.replicate n ',' := fun n hm => absurd (List.eq_of_mem_replicate hm) (by decide)
  obtain ⟨h1, h2⟩ := split_at (hr _) (hr _) h
  have := congrArg List.length h1
  simp only [List.length_replicate] at this
  exact ⟨List.reverse_inj.mp h2, by omega⟩

theorem top_inj (a : Option (List Text)) : ∀ (t u : Ty), WellNamedTy t → WellNamedTy u → TopLevel a t → TopLevel a u →
    identity t = identity u → t = u
  | .general g, .general k, w, v, hg, hk, h => by
    obtain ⟨h1, h2, h3⟩ := identity_path w v h
    have : depth g.namespace_ = depth k.namespace_ := by
      unfold path at h1
      rw [hg.1, hk.1, hg.2, hk.2] at h1
      have := congrArg List.length h1
      simpa [depth] using this
    rw [general_inj w v (hg.1.trans hk.1.symm) this h]
  | .general g, .array e d, w, _, _, _, h => (last_not w _ h).elim
  | .array e d, .general g, _, w, _, _, h => (last_not w _ h.symm).elim
  | .array e d, .array f b, w, v, hg, hk, h => by
    rw [identity, identity] at h
    obtain ⟨h1, rfl⟩ := array_inj w.2 v.2 h
    rw [top_inj a e f w.1 v.1 hg hk h1]

theorem append_lookup (name : Text) : ∀ (ts : List Ty) (dict : Dict),
    (∀ g, dict.lookup name = some g → identity (.general g) = name) →
    ∀ g, (ts.foldl append dict).lookup name = some g → identity (.general g) = name
  | [], _, hd, g, h => hd g h
  | t :: ts, dict, hd, g, h => by
    rw [List.foldl_cons] at h
    refine append_lookup name ts _ ?_ g h
    intro k hk
    cases t with
    | array e d => exact hd k hk
    | general x =>
      unfold append at hk
      dsimp only at hk
      split at hk
      · rw [List.lookup_cons] at hk
        split at hk
        · rename_i hb
          cases hk
          exact (beq_iff_eq.mp hb).symm
        · exact hd k hk
      · exact hd k hk

theorem append_keeps (name : Text) : ∀ (ts : List Ty) (dict : Dict) , (∃ g, dict.lookup name = some g) →
    ∃ g, (ts.foldl append dict).lookup name = some g
  | [], _, h => h
  | t :: ts, dict, ⟨g, h⟩ => by
    rw [List.foldl_cons]
    refine append_keeps name ts _ ?_
    cases t with
    | array e d => exact ⟨g, h⟩
    | general x =>
      unfold append
      dsimp only
      split
      · rw [List.lookup_cons]
        split
        · exact ⟨x, rfl⟩
        · exact ⟨g, h⟩
      · exact ⟨g, h⟩

theorem append_has (name : Text) (k : General) (hk : identity (.general k) = name)
    (hc : k.assembly = some coreAssembly) : ∀ (ts : List Ty) (dict : Dict), Ty.general k ∈ ts →
    ∃ g, (ts.foldl append dict).lookup name = some g
  | [], _, h => by simp at h
  | t :: ts, dict, h => by
    rw [List.foldl_cons]
    rcases List.mem_cons.mp h with h | h
    · subst h
      refine append_keeps name ts _ ⟨k, ?_⟩
      unfold append
      dsimp only
      rw [if_pos hc, List.lookup_cons, hk, beq_self_eq_true]
    · exact append_has name k hk hc ts _ h

theorem append_from (name : Text) : ∀ (ts : List Ty) (dict : Dict) (g : General),
    (ts.foldl append dict).lookup name = some g →
    dict.lookup name = some g ∨ (Ty.general g ∈ ts ∧ g.assembly = some coreAssembly)
  | [], _, g, h => Or.inl h
  | t :: ts, dict, g, h => by
    rw [List.foldl_cons] at h
    rcases append_from name ts _ g h with h | ⟨h, hc⟩
    · cases t with
      | array e d => exact Or.inl h
      | general x =>
        unfold append at h
        dsimp only at h
        split at h
        · rename_i hc
          rw [List.lookup_cons] at h
          split at h
          · cases h
            exact Or.inr ⟨by simp, hc⟩
          · exact Or.inl h
        · exact Or.inl h
    · exact Or.inr ⟨List.mem_cons_of_mem _ h, hc⟩

end Verif.Identity
