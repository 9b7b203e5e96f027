import Verif.Proof.Cmd

/-!
# C99: the command line is read as it is written
-/

namespace Verif.Cmd

open Spec
open Verif.Paths (Str)

/-- Arguments are read without an error exactly if they can be read as files and options of the
given kinds, and then the result says what they say: options in order, files in order. -/
theorem line_read (os : List Opt) (hd : Distinct os) (args : List Str)
    (s : List (Str × Option Str)) (r : List Str) :
    parse os args = ⟨s, 0, r⟩ ↔ Line os args s r := by
  unfold parse
  constructor
  · intro h
    obtain ⟨s', r', hl⟩ := line_of hd args.length args (Nat.le_refl _) {} (by rw [h])
    rw [go_line hd hl] at h
    simp [St.plus] at h
    obtain ⟨rfl, rfl⟩ := h
    exact hl
  · intro h
    rw [go_line hd h]
    simp [St.plus]

/-- So there is never more than one way to read a command line. -/
theorem one_reading (os : List Opt) (hd : Distinct os) (args : List Str)
    (s s' : List (Str × Option Str)) (r r' : List Str) (h : Line os args s r)
    (h' : Line os args s' r') : s = s' ∧ r = r' := by
  have h1 := (line_read os hd args s r).mpr h
  have h2 := (line_read os hd args s' r').mpr h'
  rw [h1] at h2
  simp at h2
  exact h2

theorem compile_distinct : Distinct compileOpts := by unfold Distinct; decide +kernel

theorem run_distinct : Distinct runOpts := by unfold Distinct; decide +kernel

/-- The value that is used is the last one given. -/
theorem last_value (s : List (Str × Option Str)) (e : Nat) (r : List Str) (n d : Str) :
    Last s n d ((valueOf n ⟨s, e, r⟩).getD d) := by
  unfold Last valueOf
  simp only
  induction s with
  | nil => exact .inr ⟨rfl, by simp⟩
  | cons p s ih =>
    obtain ⟨m, v⟩ := p
    by_cases hm : m = n ∧ v.isSome
    · obtain ⟨rfl, hv⟩ := hm
      obtain ⟨v, rfl⟩ := Option.isSome_iff_exists.mp hv
      rw [List.filterMap_cons]
      simp only [if_true]
      rcases ih with ⟨b, a, he, ha⟩ | ⟨he, ha⟩
      · left
        refine ⟨(m, some v) :: b, a, ?_, ha⟩
        have hmem : ∃ w, (m, some w) ∈ s := by
          generalize (s.filterMap (fun p => if p.1 = m then p.2 else none)).getLast?.getD d = w
            at he
          exact ⟨w, by rw [he]; simp⟩
        have hne : s.filterMap (fun p => if p.1 = m then p.2 else none) ≠ [] := by
          intro hnil
          rw [List.filterMap_eq_nil_iff] at hnil
          obtain ⟨w, hw⟩ := hmem
          have := hnil _ hw
          simp at this
        have hl : (v :: s.filterMap (fun p => if p.1 = m then p.2 else none)).getLast?
            = (s.filterMap (fun p => if p.1 = m then p.2 else none)).getLast? := by
          rw [List.getLast?_cons, List.getLast?_eq_some_getLast hne]
          rfl
        rw [hl, List.cons_append, ← he]
      · left
        refine ⟨[], s, ?_, ha⟩
        have : s.filterMap (fun p => if p.1 = m then p.2 else none) = [] := by
          rw [List.filterMap_eq_nil_iff]
          rintro ⟨a, b⟩ hab
          simp only
          split
          · next h =>
            cases b with
            | none => rfl
            | some w => subst h; exact absurd hab (ha w)
          · rfl
        simp [this]
    · have hf : (if m = n then v else none) = none := by
        cases v with
        | none => simp
        | some v => simp at hm; simp [hm]
      rw [List.filterMap_cons]
      simp only [hf]
      rcases ih with ⟨b, a, he, ha⟩ | ⟨he, ha⟩
      · left
        refine ⟨(m, v) :: b, a, ?_, ha⟩
        rw [List.cons_append, ← he]
      · right
        refine ⟨he, fun w => ?_⟩
        simp only [List.mem_cons, not_or]
        refine ⟨?_, ha w⟩
        intro e
        simp at e
        exact hm ⟨e.1.symm, by rw [← e.2]; rfl⟩

theorem last_unique {s : List (Str × Option Str)} {n d v v' : Str} (h : Last s n d v)
    (h' : Last s n d v') : v = v' := by
  have key : ∀ {b a b' a' : List (Str × Option Str)}, b ++ (n, some v) :: a
      = b' ++ (n, some v') :: a' → (∀ w, (n, some w) ∉ a) → (∀ w, (n, some w) ∉ a') → v = v' := by
    intro b
    induction b with
    | nil =>
      intro a b' a' he ha ha'
      cases b' with
      | nil => simp at he; exact he.1
      | cons x b' =>
        simp at he
        exact absurd (by rw [he.2]; simp) (ha v')
    | cons x b ih =>
      intro a b' a' he ha ha'
      cases b' with
      | nil =>
        simp at he
        exact absurd (by rw [← he.2]; simp) (ha' v)
      | cons y b' =>
        simp at he
        exact ih he.2 ha ha'
  rcases h with ⟨b, a, he, ha⟩ | ⟨rfl, ha⟩
  · rcases h' with ⟨b', a', he', ha'⟩ | ⟨rfl, ha'⟩
    · exact key (he ▸ he') ha ha'
    · exact absurd (by rw [he]; simp) (ha' v)
  · rcases h' with ⟨b', a', he', ha'⟩ | ⟨rfl, ha'⟩
    · exact absurd (by rw [he']; simp) (ha v')
    · rfl

theorem parseCompile_order (os : List Opt) (hd : Distinct os) (k : Options → Order)
    (hk : ∀ a b, k a = k b → a = b) (args : List Str) (o : Options) :
    parseCompile os k args = .order (k o)
      ↔ ∃ s, Line os args s o.files ∧ (∀ v, (txt "help", v) ∉ s) ∧ o.files ≠ []
        ∧ Last s (txt "output") [] o.output ∧ Last s (txt "execute") [] o.execute
        ∧ ∃ level, Last s (txt "optimize") [48] level ∧
          (readInt level).getD 0 = o.optimize ∧ 0 ≤ o.optimize ∧ o.optimize ≤ 3 := by
  have hlevel : ∀ st : St, ((valueOf (txt "optimize") st).bind readInt).getD 0
      = (readInt ((valueOf (txt "optimize") st).getD [48])).getD 0 := by
    intro st
    cases valueOf (txt "optimize") st with
    | none => decide
    | some v => rfl
  have hcheck : check args (parse os args) = none ↔ (parse os args).errors = 0
      ∧ ∀ v, (txt "help", v) ∉ (parse os args).sets := by
    unfold check
    by_cases hh : ∃ v, (txt "help", v) ∈ (parse os args).sets
    · have ha : ((parse os args).sets.any fun p => p.1 == txt "help") = true := by
        obtain ⟨v, hv⟩ := hh
        rw [List.any_eq_true]
        exact ⟨_, hv, by simp⟩
      rw [ha]
      simp only [Bool.or_true, if_true]
      constructor
      · intro h; cases h
      · rintro ⟨_, h⟩
        obtain ⟨v, hv⟩ := hh
        exact absurd hv (h v)
    · have ha : ((parse os args).sets.any fun p => p.1 == txt "help") = false := by
        rw [List.any_eq_false]
        rintro ⟨a, b⟩ hab
        simp only [beq_iff_eq]
        rintro rfl
        exact hh ⟨b, hab⟩
      rw [ha, Bool.or_false]
      have hall : ∀ v, (txt "help", v) ∉ (parse os args).sets := fun v hv => hh ⟨v, hv⟩
      by_cases he : (parse os args).errors = 0
      · simp [he, hall]
      · have : ((parse os args).errors != 0) = true := by simpa using he
        rw [this]
        constructor
        · intro h
          cases args <;> simp at h
        · intro h; exact absurd h.1 he
  unfold parseCompile
  constructor
  · intro h
    cases hc : check args (parse os args) with
    | some n => rw [hc] at h; cases h
    | none =>
      rw [hc] at h
      simp only at h
      obtain ⟨he, hh⟩ := hcheck.mp hc
      unfold readOptions at h
      simp only at h
      split at h
      · cases h
      · next hl =>
        split at h
        · cases h
        · next hr =>
          simp only [Parsed.order.injEq] at h
          have ho := hk _ _ h
          subst ho
          refine ⟨(parse os args).sets, ?_, hh, hr, last_value _ _ _ _ _, last_value _ _ _ _ _,
            (valueOf (txt "optimize") (parse os args)).getD [48], last_value _ _ _ _ _, ?_⟩
          · apply (line_read os hd args _ _).mp
            show parse os args = ⟨(parse os args).sets, 0, (parse os args).rest⟩
            rw [← he]
          · rw [hlevel] at hl
            simp only
            rw [hlevel]
            exact ⟨rfl, Classical.not_not.mp hl⟩
  · rintro ⟨s, hl, hh, hr, hout, hex, level, hlev, hval, h0, h3⟩
    have hp := (line_read os hd args _ _).mpr hl
    have hc : check args (parse os args) = none :=
      hcheck.mpr ⟨by rw [hp], by rw [hp]; exact hh⟩
    rw [hc]
    simp only
    unfold readOptions
    simp only
    rw [hlevel, hp]
    have e1 := last_unique (last_value s 0 o.files (txt "optimize") [48]) hlev
    have e2 := last_unique (last_value s 0 o.files (txt "output") []) hout
    have e3 := last_unique (last_value s 0 o.files (txt "execute") []) hex
    rw [e1, e2, e3, hval, if_neg (by simp [h0, h3]), if_neg hr]

/-- A value that an option was given could be read. -/
theorem line_values {os : List Opt} {args : List Str} {s : List (Str × Option Str)} {r : List Str}
    (h : Line os args s r) (n v : Str) (hm : (n, some v) ∈ s) : ∃ o ∈ os, o.name = n ∧ o.reads v = true := by
  induction h with
  | nil => cases hm
  | @cons i args s r s' r' hs _ ih =>
    rcases List.mem_append.mp hm with hm | hm
    · cases hs with
      | file => cases hm
      | dash => cases hm
      | long _ ht => simp at hm; obtain ⟨rfl, rfl⟩ := hm; obtain ⟨o, h1, h2, _, h3⟩ := ht; exact ⟨o, h1, h2, h3⟩
      | longNext _ ht => simp at hm; obtain ⟨rfl, rfl⟩ := hm; obtain ⟨o, h1, h2, _, h3⟩ := ht; exact ⟨o, h1, h2, h3⟩
      | longFlag => simp at hm
      | flags => simp at hm
      | flagsNext _ _ ht => simp at hm; obtain ⟨rfl, rfl⟩ := hm; obtain ⟨o, h1, _, h2, _, h3⟩ := ht; exact ⟨o, h1, h2, h3⟩
    · exact ih hm

/-- The level that was read is the level that was written. -/
theorem level_written {os : List Opt} (ho : ∀ o ∈ os, o.name = txt "optimize" → ∀ v, o.reads v = (readInt v).isSome)
    {args : List Str} {s : List (Str × Option Str)} {r : List Str} (h : Line os args s r) (l : Int) :
    (∃ level, Last s (txt "optimize") [48] level ∧ (readInt level).getD 0 = l ∧ 0 ≤ l ∧ l ≤ 3)
      ↔ ∃ level, Last s (txt "optimize") [48] level ∧ Level level l := by
  constructor
  · rintro ⟨level, hl, hv, h0, h3⟩
    refine ⟨level, hl, (level_read _ _).mpr ⟨?_, h0, h3⟩⟩
    have hs : (readInt level).isSome := by
      rcases hl with ⟨b, a, rfl, _⟩ | ⟨rfl, _⟩
      · obtain ⟨o, h1, h2, h4⟩ := line_values h (txt "optimize") level (by simp)
        rw [ho o h1 h2] at h4; exact h4
      · decide
    obtain ⟨x, hx⟩ := Option.isSome_iff_exists.mp hs
    rw [hx] at hv ⊢
    simpa using hv
  · rintro ⟨level, hl, hv⟩
    obtain ⟨h1, h0, h3⟩ := (level_read _ _).mp hv
    exact ⟨level, hl, by rw [h1]; rfl, h0, h3⟩

/-- `april compile …` sets about compiling exactly if the rest of the line is well written, does
not ask for help, names at least one file and has a level of optimization between 0 and 3; then
it compiles the files in the order given, with the last values given. -/
theorem compile_order (args : List Str) (o : Options) :
    parseArgs (txt "compile" :: args) = .order (.compile o)
      ↔ ∃ s, Line compileOpts args s o.files ∧ (∀ v, (txt "help", v) ∉ s) ∧ o.files ≠ []
        ∧ Last s (txt "output") [] o.output ∧ Last s (txt "execute") [] o.execute
        ∧ ∃ level, Last s (txt "optimize") [48] level ∧ Level level o.optimize := by
  have : parseArgs (txt "compile" :: args) = parseCompile compileOpts .compile args := by
    simp [parseArgs]
  rw [this]
  refine (parseCompile_order _ compile_distinct _ (fun a b h => by simpa using h) args o).trans ?_
  refine exists_congr fun s => and_congr_right fun hl => and_congr_right fun _ => and_congr_right fun _ =>
    and_congr_right fun _ => and_congr_right fun _ => level_written ?_ hl o.optimize
  intro x hx hn v
  simp only [compileOpts, List.mem_cons, List.not_mem_nil, or_false] at hx
  rcases hx with rfl | rfl | rfl <;> first | rfl | exact absurd hn (by decide)

/-- The same for `april run …`. -/
theorem run_order (args : List Str) (o : Options) :
    parseArgs (txt "run" :: args) = .order (.run o)
      ↔ ∃ s, Line runOpts args s o.files ∧ (∀ v, (txt "help", v) ∉ s) ∧ o.files ≠ []
        ∧ Last s (txt "output") [] o.output ∧ Last s (txt "execute") [] o.execute
        ∧ ∃ level, Last s (txt "optimize") [48] level ∧ Level level o.optimize := by
  have : parseArgs (txt "run" :: args) = parseCompile runOpts .run args := by
    have hne : txt "run" ≠ txt "compile" := by decide
    simp [parseArgs, hne]
  rw [this]
  refine (parseCompile_order _ run_distinct _ (fun a b h => by simpa using h) args o).trans ?_
  refine exists_congr fun s => and_congr_right fun hl => and_congr_right fun _ => and_congr_right fun _ =>
    and_congr_right fun _ => and_congr_right fun _ => level_written ?_ hl o.optimize
  intro x hx hn v
  simp only [runOpts, compileOpts, List.mem_cons, List.not_mem_nil, or_false] at hx
  rcases hx with rfl | rfl | rfl | rfl <;> first | rfl | exact absurd hn (by decide)

/-- An exception while compiling or running ends the process with 1. -/
theorem exception_exit (doit : Order → Ran) (args : List Str) (o : Order)
    (h : parseArgs args = .order o) (hd : ∀ sub, o ≠ .help sub) (hv : o ≠ .version)
    (ht : doit o = .thrown) : main doit args = .code 1 := by
  unfold main
  rw [h]
  cases o with
  | compile o => simp [execute, ht]
  | run o => simp [execute, ht]
  | help s => exact absurd rfl (hd s)
  | version => exact absurd rfl hv

/-- A command that is not known is refused, whatever follows. -/
theorem unknown_command (doit : Order → Ran) (c : Str) (args : List Str)
    (h : c ∉ [txt "compile", txt "run", txt "version", txt "help"]) :
    main doit (c :: args) = .code 1 := by
  simp only [List.mem_cons, List.not_mem_nil, or_false, not_or] at h
  simp [main, parseArgs, h.1, h.2.1, h.2.2.1, h.2.2.2]

/-- The levels 0 to 3 can be written as one digit. -/
theorem level_digit (n : Nat) (h : n ≤ 3) : Level [48 + n] n :=
  ⟨[], [], [], n, rfl, ⟨rfl, h⟩, by simp, by simp, .inl rfl⟩

/-- `"  +02"` is 2, `"-1"`, `"2x"` and `"4"` are not levels. -/
example : Level [32, 32, 43, 48, 50] 2 := ⟨[32, 32], [43], [48], 2, rfl, ⟨rfl, by omega⟩, by decide, by decide, .inr (.inl rfl)⟩
example (l : Int) : ¬ Level [45, 49] l ∧ ¬ Level [50, 120] l ∧ ¬ Level [52] l := by
  simp only [level_read]
  have h1 : readInt [45, 49] = some (-1) := by decide
  have h2 : readInt [50, 120] = none := by decide
  have h3 : readInt [52] = some 4 := by decide
  rw [h1, h2, h3]
  refine ⟨?_, ?_, ?_⟩ <;> rintro ⟨h, h', h''⟩ <;> simp at h <;> omega

/-! Examples: `-O2 a.cs` is not among them, as a letter takes its value from the next word. -/

example : parseArgs [txt "compile", txt "-O", txt "2", txt "a.cs", txt "--output=bin", txt "b.cs",
      txt "-o", txt "out"]
    = .order (.compile ⟨[txt "a.cs", txt "b.cs"], txt "out", 2, []⟩) := by decide +kernel

example : parseArgs [txt "run", txt "a.cs", txt "-e", txt "app"]
    = .order (.run ⟨[txt "a.cs"], [], 0, txt "app"⟩) := by decide +kernel

example : parseArgs [txt "compile", txt "-O2", txt "a.cs"] = .exit 1 := by decide +kernel

example : Line compileOpts [txt "a.cs", txt "--output=bin"] [(txt "output", some (txt "bin"))]
    [txt "a.cs"] :=
  .cons (i := .file (txt "a.cs")) (.file (by decide))
    (.cons (i := .long (txt "output") (txt "bin")) (.long (by decide)
      ⟨_, List.mem_cons_self .., rfl, rfl, rfl⟩) .nil)

/-! ## Where it goes wrong -/

/-- A program with errors ends the process with 0, as if it had been compiled. -/
theorem failed_compile_refuted (doit : Order → Ran) (args : List Str) (o : Options)
    (h : parseArgs args = .order (.compile o)) (he : doit (.compile o) = .errors) :
    main doit args = .code 0 := by
  simp [main, h, execute, he]

/-- `april help run` does not show help: an assertion fails. -/
theorem help_refuted (doit : Order → Ran) (c : Str)
    (h : c ∈ [txt "compile", txt "run", txt "version", txt "help"]) :
    main doit [txt "help", c] = .aborted := by
  have hp : parseArgs [txt "help", c] = .order (.help c) := by
    simp only [List.mem_cons, List.not_mem_nil, or_false] at h
    rcases h with rfl | rfl | rfl | rfl <;> decide +kernel
  simp only [main, hp, execute, if_pos h]

/-- The help text names the command `build`, which is not known. -/
theorem build_refuted (doit : Order → Ran) (args : List Str) :
    main doit (txt "build" :: args) = .code 1 :=
  unknown_command doit _ args (by decide)

/-- The description of `-O` names the level 4, which is refused. -/
theorem level_4_refuted (doit : Order → Ran) :
    main doit [txt "compile", txt "-O", txt "4", txt "a.cs"] = .code 1 := by
  have : parseArgs [txt "compile", txt "-O", txt "4", txt "a.cs"] = .thrown := by decide +kernel
  simp [main, this]

end Verif.Cmd
