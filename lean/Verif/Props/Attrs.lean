import Verif.Proof.Attrs

/-!
# C120 — a program starts in the method marked `[EntryPoint]`, and attributes are checked

`commitAll P as {}`: what becomes of a program with these attributes, in the order of the source.
-/

namespace Verif.Attrs

/-! ## The entry point -/

/-- A program that is accepted has at most one mark `[EntryPoint]`; running it starts with the marked method, and with none reports
that there is none. -/
theorem starts_marked {P : Program} {as : List Attr} {s : St} (h : commitAll P as {} = some s) (hn : s.errors = []) :
    (entries as = [] ∧ start s.entry = .error "assembly_no_entry_point") ∨ ∃ m, entries as = [m] ∧ start s.entry = .ok m := by
  have ha := commitAll_adds P as _ _ h
  have hd := ha.dup
  have he : s.entry = (entries as).head? := ha.entry
  simp only [hn, List.not_mem_nil, false_or] at hd
  match hh : entries as with
  | [] => rw [hh] at he; exact .inl ⟨rfl, by rw [he]; rfl⟩
  | [m] => rw [hh] at he; exact .inr ⟨m, rfl, by rw [he]; rfl⟩
  | m :: n :: r => rw [hh] at hd; exact absurd ((hd n).2 (by simp)) id

/-- A second mark is reported for its method, and nothing else is reported as a second mark. -/
theorem second_reported {P : Program} {as : List Attr} {s : St} (h : commitAll P as {} = some s) (m : Nat) :
    (.duplicated, m) ∈ s.errors ↔ m ∈ (entries as).tail := by
  have := (commitAll_adds P as _ _ h).dup m
  simpa using this

/-- What is reported about the form of an entry point: exactly what is wrong with it. -/
theorem form_reported {P : Program} {as : List Attr} {s : St} (h : commitAll P as {} = some s) (m : Nat) :
    ((.noReturnType, m) ∈ s.errors ↔ m ∈ entries as ∧ (P.methods m).result = some false) ∧
    ((.notGeneric, m) ∈ s.errors ↔ m ∈ entries as ∧ (P.methods m).generics ≠ 0) ∧
    ((.noParams, m) ∈ s.errors ↔ m ∈ entries as ∧ (P.methods m).params ≠ 0) ∧
    ((∃ names, (.decorateNotAllowed names, m) ∈ s.errors) ↔ m ∈ entries as ∧ ∃ d, (P.methods m).decor = some d ∧ ¬Plain d) := by
  have hp := fun e he => (commitAll_adds P as _ _ h).proto e m he
  simp only [List.not_mem_nil, false_or, ← mem_entries] at hp
  have hx : ∀ e, e ∈ validateExtern (P.methods m) → e = .externStatic ∨ e = .externExtern ∨ ∃ n, e = .externNotAllowed n := by
    intro e he
    unfold validateExtern at he
    simp only [List.mem_append] at he
    rcases he with (he | he) | he <;> split at he <;> simp at he <;> subst he <;> simp
  refine ⟨?_, ?_, ?_, ?_⟩
  · rw [hp _ (by simp)]
    constructor
    · rintro (⟨h1, h2⟩ | ⟨-, h2⟩)
      · refine ⟨h1, ?_⟩
        by_cases hr : (P.methods m).result = some false
        · exact hr
        · simp [validate, hr] at h2
      · have := hx _ h2; simp at this
    · rintro ⟨h1, h2⟩; exact .inl ⟨h1, by simp [validate, h2]⟩
  · rw [hp _ (by simp)]
    constructor
    · rintro (⟨h1, h2⟩ | ⟨-, h2⟩)
      · refine ⟨h1, fun hr => ?_⟩
        simp [validate, hr] at h2
      · have := hx _ h2; simp at this
    · rintro ⟨h1, h2⟩; exact .inl ⟨h1, by simp [validate, Nat.pos_of_ne_zero h2]⟩
  · rw [hp _ (by simp)]
    constructor
    · rintro (⟨h1, h2⟩ | ⟨-, h2⟩)
      · refine ⟨h1, fun hr => ?_⟩
        simp [validate, hr] at h2
      · have := hx _ h2; simp at this
    · rintro ⟨h1, h2⟩; exact .inl ⟨h1, by simp [validate, Nat.pos_of_ne_zero h2]⟩
  · constructor
    · rintro ⟨names, hn⟩
      rw [hp _ (by simp)] at hn
      rcases hn with ⟨h1, h2⟩ | ⟨-, h2⟩
      · refine ⟨h1, ?_⟩
        cases hd : (P.methods m).decor with
        | none =>
          have hnil : notAllowed {} = [] := rfl
          simp [validate, hd, hnil] at h2
        | some d =>
          refine ⟨d, rfl, fun hpl => ?_⟩
          simp [validate, hd, (notAllowed_nil d).2 hpl] at h2
      · have := hx _ h2; simp at this
    · rintro ⟨h1, d, hd, hpl⟩
      refine ⟨notAllowed d, (hp _ (by simp)).2 (.inl ⟨h1, ?_⟩)⟩
      have : notAllowed d ≠ [] := fun e => hpl ((notAllowed_nil d).1 e)
      simp [validate, hd, this]

/-- `public static void F()` is always accepted. -/
theorem proper_accepted {P : Program} {as : List Attr} (hk : Known P as) {m : Nat} (he : entries as = [m]) (hp : Proper (P.methods m))
    (hi : ∀ n, ⟨.internal, .method n⟩ ∈ as → ProperExtern (P.methods n)) :
    ∃ s, commitAll P as {} = some s ∧ s.errors = [] ∧ start s.entry = .ok m := by
  obtain ⟨s, hs⟩ := commitAll_some P as {} hk
  have ha := commitAll_adds P as _ _ hs
  have hent : s.entry = (entries as).head? := ha.entry
  refine ⟨s, hs, ?_, by rw [hent, he]; rfl⟩
  rw [List.eq_nil_iff_forall_not_mem]
  rintro ⟨e, n⟩ hen
  by_cases hd : e = .duplicated
  · subst hd
    have := (ha.dup n).1 hen
    simp [he] at this
  · rcases (ha.proto e n hd).1 hen with h0 | ⟨h1, h2⟩ | ⟨h1, h2⟩
    · cases h0
    · rw [← mem_entries, he, List.mem_singleton] at h1
      subst h1
      obtain ⟨p1, p2, p3, d, p4, p5, p6, p7⟩ := hp
      simp [validate, p1, p2, p3, p4, p5, p6, (notAllowed_nil d).2 p7, hasFlag, Access.code] at h2
    · obtain ⟨d, p1, p2, p3, p4⟩ := hi n h1
      simp [validateExtern, p1, p2, p3, (notAllowed_nil d).2 p4] at h2

/-- The method in which an accepted program starts is `public static void F()`, when it is neither `private` nor `protected internal`.
Partial: see `private_refuted`. -/
theorem accepted_partial {P : Program} {as : List Attr} {s : St} (h : commitAll P as {} = some s) (hn : s.errors = []) {m : Nat}
    (hm : start s.entry = .ok m)
    (hacc : ∀ d, (P.methods m).decor = some d → d.access ≠ .priv ∧ d.access ≠ .protOrIntern) : Proper (P.methods m) := by
  have ha := commitAll_adds P as _ _ h
  have hent : s.entry = (entries as).head? := ha.entry
  have hmem : m ∈ entries as := by
    rw [hent] at hm
    cases hh : entries as with
    | nil => rw [hh] at hm; cases hm
    | cons x r => rw [hh] at hm; cases hm; simp
  obtain ⟨f1, f2, f3, f4⟩ := form_reported h m
  simp only [hn, List.not_mem_nil, false_iff, hmem, true_and, exists_false, not_exists, not_and] at f1 f2 f3 f4
  refine ⟨f1, Decidable.not_not.1 f2, Decidable.not_not.1 f3, ?_⟩
  have hps := (ha.proto .publicStatic m (by simp)).2
  simp only [hn, List.not_mem_nil, imp_false, not_or, not_and] at hps
  have hps := hps.2.1 (mem_entries.1 hmem)
  cases hd : (P.methods m).decor with
  | none => exfalso; apply hps; simp [validate, hd]
  | some d =>
    have hb : (!d.isStatic || !hasFlag d.access.code Access.pub.code) = false := by
      cases hc : (!d.isStatic || !hasFlag d.access.code Access.pub.code) with
      | false => rfl
      | true => exact absurd (by simp [validate, hd, hc]) hps
    simp only [Bool.or_eq_false_iff, Bool.not_eq_false'] at hb
    refine ⟨d, rfl, ?_, hb.1, Classical.not_not.1 (f4 d hd)⟩
    have hne := hacc d hd
    have h2 := hb.2
    cases hda : d.access <;> rw [hda] at h2 hne <;> simp [hasFlag, Access.code] at h2 hne <;> rfl

/-- A `private` (or `protected internal`) method marked `[EntryPoint]` is accepted like a public one, without a report. -/
theorem private_refuted (P : Program) (m : Nat) (d : Decor) (hd : d.access = .priv ∨ d.access = .protOrIntern) (hs : d.isStatic = true)
    (hp : Plain d) (hm : P.methods m = { decor := some d }) :
    commitAll P [⟨.entryPoint, .method m⟩] {} = some { entry := some m } ∧ ¬Proper (P.methods m) := by
  constructor
  · have hv : validate (P.methods m) = [] := by
      rcases hd with hd | hd <;> simp [hm, validate, hd, hs, (notAllowed_nil d).2 hp, hasFlag, Access.code]
    simp [commitAll, commit, hv]
  · rintro ⟨-, -, -, d', h1, h2, -⟩
    rw [hm] at h1; cases h1
    rcases hd with hd | hd <;> rw [hd] at h2 <;> cases h2

/-! ## The other attributes -/

/-- A method marked `[Internal]` has to be `static extern`; if it is not, something is reported about it. -/
theorem internal_methods {P : Program} {as : List Attr} {s : St} (h : commitAll P as {} = some s) {m : Nat}
    (hm : ⟨.internal, .method m⟩ ∈ as) :
    ProperExtern (P.methods m) ↔
      (.externStatic, m) ∉ s.errors ∧ (.externExtern, m) ∉ s.errors ∧ ∀ names, (.externNotAllowed names, m) ∉ s.errors := by
  have hv : ∀ e, e ∈ validate (P.methods m) → e ≠ .externStatic ∧ e ≠ .externExtern ∧ ∀ n, e ≠ .externNotAllowed n := by
    intro e he
    unfold validate at he
    simp only [List.mem_append] at he
    rcases he with (((he | he) | he) | he) | he <;> split at he <;> simp at he <;> subst he <;> simp
  have hp := fun e he => (commitAll_adds P as _ _ h).proto e m he
  have q1 : (Err.externStatic, m) ∈ s.errors ↔ Err.externStatic ∈ validateExtern (P.methods m) := by
    rw [hp _ (by simp)]
    simp only [List.not_mem_nil, false_or, hm, true_and]
    exact ⟨fun hh => hh.elim (fun hh => absurd rfl (hv _ hh.2).1) id, .inr⟩
  have q2 : (Err.externExtern, m) ∈ s.errors ↔ Err.externExtern ∈ validateExtern (P.methods m) := by
    rw [hp _ (by simp)]
    simp only [List.not_mem_nil, false_or, hm, true_and]
    exact ⟨fun hh => hh.elim (fun hh => absurd rfl (hv _ hh.2).2.1) id, .inr⟩
  have q3 : ∀ n, (Err.externNotAllowed n, m) ∈ s.errors ↔ Err.externNotAllowed n ∈ validateExtern (P.methods m) := by
    intro n
    rw [hp _ (by simp)]
    simp only [List.not_mem_nil, false_or, hm, true_and]
    exact ⟨fun hh => hh.elim (fun hh => absurd rfl ((hv _ hh.2).2.2 n)) id, .inr⟩
  rw [q1, q2]
  simp only [q3]
  cases hd : (P.methods m).decor with
  | none =>
    constructor
    · rintro ⟨d, h1, -⟩; rw [hd] at h1; cases h1
    · rintro ⟨h1, -⟩; exfalso; apply h1; simp [validateExtern, hd]
  | some d =>
    constructor
    · rintro ⟨d', h1, h2, h3, h4⟩
      rw [hd] at h1; cases h1
      simp [validateExtern, hd, h2, h3, (notAllowed_nil d).2 h4]
    · rintro ⟨h1, h2, h3⟩
      refine ⟨d, hd, ?_, ?_, ?_⟩
      · cases hst : d.isStatic with
        | true => rfl
        | false => exact absurd (by simp [validateExtern, hd, hst]) h1
      · cases hst : d.isExtern with
        | true => rfl
        | false => exact absurd (by simp [validateExtern, hd, hst]) h2
      · apply (notAllowed_nil d).1
        cases hna : notAllowed d with
        | nil => rfl
        | cons x r => exact absurd (by simp [validateExtern, hd, hna]) (h3 (notAllowed d))

/-- Exactly the methods marked `[Inline]` are always put in line. -/
theorem inline_exact {P : Program} {as : List Attr} {s : St} (h : commitAll P as {} = some s) (m : Nat) :
    m ∈ s.inlined ↔ ⟨.inline, .method m⟩ ∈ as := by
  simpa using (commitAll_adds P as _ _ h).inl m

/-- An exception is thrown exactly when a type marked `[Internal]` is none that the compiler knows. -/
theorem internal_known (P : Program) (as : List Attr) : (∃ s, commitAll P as {} = some s) ↔ Known P as :=
  ⟨fun ⟨_, h⟩ => commitAll_known P as _ _ h, fun h => commitAll_some P as _ h⟩

theorem lookup_last {name : String} {t : Nat} : ∀ (l : List (String × Nat)), l.lookup name = some t ↔
    ∃ front back, l = front ++ (name, t) :: back ∧ ∀ p ∈ front, p.1 ≠ name
  | [] => by simp
  | (k, u) :: l => by
    rw [List.lookup_cons]
    cases hk : (name == k) with
    | true =>
      have hk' : name = k := by simpa using hk
      subst hk'
      constructor
      · intro h; cases h; exact ⟨[], l, rfl, by simp⟩
      · rintro ⟨front, back, h1, h2⟩
        cases front with
        | nil => cases h1; rfl
        | cons p front => cases h1; exact absurd rfl (h2 (name, u) (by simp))
    | false =>
      have hk' : name ≠ k := by simpa using hk
      rw [lookup_last l]
      constructor
      · rintro ⟨front, back, h1, h2⟩
        refine ⟨(k, u) :: front, back, by rw [h1]; rfl, ?_⟩
        intro p hp
        rcases List.mem_cons.1 hp with rfl | hp
        · exact fun h => hk' h.symm
        · exact h2 p hp
      · rintro ⟨front, back, h1, h2⟩
        cases front with
        | nil => cases h1; exact absurd rfl hk'
        | cons p front => cases h1; exact ⟨front, back, rfl, fun p hp => h2 p (List.mem_cons_of_mem _ hp)⟩

/-- What `Int32` and the other types of the language are: the type of that name marked `[Internal]`.  (The last one, should there be
two.) -/
theorem internal_types {P : Program} {as : List Attr} {s : St} (h : commitAll P as {} = some s) (name : String) (t : Nat)
    (hone : ∀ u, ⟨.internal, .type u⟩ ∈ as → P.identity u = name → u = t) :
    internalType s name = some t ↔ ⟨.internal, .type t⟩ ∈ as ∧ P.identity t = name := by
  unfold internalType
  rw [commitAll_bound P as _ _ h, List.append_nil, lookup_last]
  constructor
  · rintro ⟨front, back, h1, -⟩
    have : (name, t) ∈ (internals P as).reverse := by rw [h1]; simp
    rw [List.mem_reverse, internals, List.mem_filterMap] at this
    obtain ⟨⟨k, o⟩, h2, h3⟩ := this
    cases k <;> cases o <;> simp at h3
    obtain ⟨h3, rfl⟩ := h3
    exact ⟨h2, h3⟩
  · rintro ⟨h1, h2⟩
    have hmem : (name, t) ∈ (internals P as).reverse := by
      rw [List.mem_reverse, internals, List.mem_filterMap]
      exact ⟨_, h1, by simp [h2]⟩
    have hall : ∀ p ∈ (internals P as).reverse, p.1 = name → p = (name, t) := by
      intro p hp hpn
      rw [List.mem_reverse, internals, List.mem_filterMap] at hp
      obtain ⟨⟨k, o⟩, h2, h3⟩ := hp
      cases k <;> cases o <;> simp at h3
      subst h3
      simp only at hpn
      rw [hone _ h2 hpn, ← hpn, hone _ h2 hpn]
    generalize (internals P as).reverse = l at hmem hall
    clear h h1 h2 hone
    induction l with
    | nil => cases hmem
    | cons p l ih =>
      by_cases hp : p.1 = name
      · rw [hall p (by simp) hp]; exact ⟨[], l, rfl, by simp⟩
      · have hm : (name, t) ∈ l := by
          rcases List.mem_cons.1 hmem with rfl | hm
          · exact absurd rfl hp
          · exact hm
        obtain ⟨front, back, g1, g2⟩ := ih hm (fun q hq => hall q (List.mem_cons_of_mem _ hq))
        refine ⟨p :: front, back, by rw [g1]; rfl, ?_⟩
        intro q hq
        rcases List.mem_cons.1 hq with rfl | hq
        · exact hp
        · exact g2 q hq

/-- The attributes of the program itself do nothing while it is compiled. -/
theorem user_nothing (P : Program) : ∀ (as : List Attr) (s : St), commitAll P (as.filter (·.kind != .user)) s = commitAll P as s
  | [], _ => rfl
  | ⟨k, o⟩ :: as, s => by
    cases k <;> cases o <;> simp [commitAll, commit, user_nothing P as]

/-! ## Non-vacuity -/

/-- A program: 0 `public static void Main()`, 1 `private static void Main2()`, 2 `public static extern long Sin(long)`, 3 `public int F<T>()`;
type 0 is `System.Int32`. -/
def prog : Program where
  methods
    | 0 => { decor := some { access := .pub, isStatic := true } }
    | 1 => { decor := some { access := .priv, isStatic := true } }
    | 2 => { decor := some { access := .pub, isStatic := true, isExtern := true }, result := some false, params := 1 }
    | _ => { decor := some { access := .pub, isVirtual := true }, result := some false, generics := 1 }
  identity
    | 0 => "System.Int32"
    | _ => "System.Mine"

example : commitAll prog [⟨.user, .other⟩, ⟨.internal, .type 0⟩, ⟨.entryPoint, .method 0⟩, ⟨.internal, .method 2⟩, ⟨.inline, .method 3⟩] {}
    = some { entry := some 0, inlined := [3], bound := [("System.Int32", 0)] } := by decide +kernel

example : commitAll prog [⟨.entryPoint, .method 3⟩, ⟨.entryPoint, .method 1⟩] {} =
    some { errors := [(.noReturnType, 3), (.notGeneric, 3), (.publicStatic, 3), (.decorateNotAllowed ["virtual"], 3), (.duplicated, 1)],
           entry := some 3 } := by decide +kernel

example : Proper (prog.methods 0) ∧ ProperExtern (prog.methods 2) :=
  ⟨⟨by decide, rfl, rfl, _, rfl, rfl, rfl, by simp [Plain]⟩, _, rfl, rfl, rfl, by simp [Plain]⟩

example : commitAll prog [⟨.internal, .type 1⟩] {} = none := by decide +kernel

/-- `private static void Main2()` is accepted. -/
example : commitAll prog [⟨.entryPoint, .method 1⟩] {} = some { entry := some 1 } ∧ ¬Proper (prog.methods 1) :=
  private_refuted prog 1 { access := .priv, isStatic := true } (.inl rfl) rfl (by simp [Plain]) rfl

end Verif.Attrs
