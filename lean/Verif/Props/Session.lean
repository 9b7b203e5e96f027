import Verif.Proof.Session

/-!
# C100: sessions of the compiler, and which assembly is run
-/

namespace Verif.Session

open Spec

/-! ## Projects -/

/-- A sequence of calls is accepted, with every project committed, exactly if it makes one
project after another, each begun, filled and committed, and each with a source file.  (Calls of
`add_file` that name sources and other files together are treated below.) -/
theorem session_iff_partial (ops : List Op) (hp : ∀ fs, .add fs ∈ ops → AllAlike fs) :
    (∃ s, runOps start ops = .ok s ∧ s.current = none)
      ↔ ∃ scripts : List Script, ops = scripts.flatMap Script.ops
        ∧ ∀ sc ∈ scripts, sc.HasSource := by
  constructor
  · rintro ⟨s, h, hc⟩
    exact (of_runOps ops hp).1 [] s h hc
  · rintro ⟨scripts, rfl, hs⟩
    have : ∀ (scripts : List Script) (ps : List Project),
        (∀ fs, .add fs ∈ scripts.flatMap Script.ops → AllAlike fs) →
        (∀ sc ∈ scripts, sc.HasSource) →
        ∃ s, runOps ⟨none, ps⟩ (scripts.flatMap Script.ops) = .ok s ∧ s.current = none := by
      intro scripts
      induction scripts with
      | nil => intro ps _ _; exact ⟨⟨none, ps⟩, rfl, rfl⟩
      | cons sc scripts ih =>
        intro ps hp hs
        obtain ⟨p, _, _, h⟩ := run_script (sc := sc)
          (fun fs hfs => hp fs (by simp [Script.ops, hfs])) (hs sc (by simp)) ps
          (scripts.flatMap Script.ops)
        rw [List.flatMap_cons, h]
        exact ih _ (fun fs hfs => hp fs (by rw [List.flatMap_cons]; simp [hfs]))
          (fun sc' h' => hs sc' (by simp [h']))
    exact this scripts [] hp hs

/-- The solution then consists of these projects, in order; each has exactly the source files
that were named, each once, and the name it was given. -/
theorem session_projects_partial (scripts : List Script)
    (hp : ∀ sc ∈ scripts, ∀ fs ∈ sc.adds, AllAlike fs) (hs : ∀ sc ∈ scripts, sc.HasSource) :
    ∃ s, runOps start (scripts.flatMap Script.ops) = .ok s ∧ s.current = none
      ∧ s.projects.length = scripts.length
      ∧ ∀ (i : Nat) (sc : Script), scripts[i]? = some sc → ∃ p, s.projects[i]? = some p ∧ Holds p sc.adds
        ∧ (sc.name ≠ [] → p.name = sc.name) := by
  have : ∀ (scripts : List Script) (ps : List Project),
      (∀ sc ∈ scripts, ∀ fs ∈ sc.adds, AllAlike fs) → (∀ sc ∈ scripts, sc.HasSource) →
      ∃ qs, runOps ⟨none, ps⟩ (scripts.flatMap Script.ops) = .ok ⟨none, ps ++ qs⟩
        ∧ qs.length = scripts.length
        ∧ ∀ (i : Nat) (sc : Script), scripts[i]? = some sc → ∃ p, qs[i]? = some p ∧ Holds p sc.adds
          ∧ (sc.name ≠ [] → p.name = sc.name) := by
    intro scripts
    induction scripts with
    | nil => intro ps _ _; exact ⟨[], by simp [runOps], rfl, by simp⟩
    | cons sc scripts ih =>
      intro ps hp hs
      obtain ⟨p, h1, h2, h3⟩ := run_script (sc := sc) (hp sc (by simp)) (hs sc (by simp)) ps
        (scripts.flatMap Script.ops)
      obtain ⟨qs, hq, hl, hall⟩ := ih (ps ++ [{ p with name := finalName ps p }])
        (fun sc' h' => hp sc' (by simp [h'])) (fun sc' h' => hs sc' (by simp [h']))
      refine ⟨{ p with name := finalName ps p } :: qs, ?_, by simp [hl], ?_⟩
      · rw [List.flatMap_cons, h3, hq]; simp
      · intro i sc' hi
        cases i with
        | zero =>
          simp at hi
          subst hi
          refine ⟨_, rfl, h1, fun hne => ?_⟩
          simp [finalName, h2, hne]
        | succ i => exact hall i sc' (by simpa using hi)
  obtain ⟨qs, h, hl, hall⟩ := this scripts [] hp hs
  rw [List.nil_append] at h
  exact ⟨_, h, rfl, hl, hall⟩

/-- Compiling is refused exactly while a project is open or when there is none. -/
theorem compile_iff (s : Sess) :
    (∃ ps, compile s = .ok ps) ↔ s.current = none ∧ s.projects ≠ [] := by
  unfold compile
  cases s.current with
  | some p => simp
  | none =>
    by_cases h : s.projects = []
    · simp [h]
    · simp [h]

/-- A project without a name gets the name of the directory of its first file. -/
theorem default_name (s s' : Sess) (f : File) (fs : List File)
    (h : s.current = some ⟨[], f :: fs⟩) (hc : commitProject s = .ok s') :
    s'.projects = s.projects ++ [⟨f.dirName, f :: fs⟩] := by
  unfold commitProject at hc
  rw [h] at hc
  simp [defaultName, freeName_dir] at hc
  rw [← hc]

/-! ## What is compiled -/

/-- The type of what is compiled: that of all files that are no assemblies, if they agree. -/
theorem compile_type_iff (files : List File) (t : Option Kind) :
    determine none files = .ok t ↔ TypeIs files t := by
  have hk : ∀ (files : List File) (k : Kind), k ≠ .assembly →
      (determine (some k) files = .ok t
        ↔ t = some k ∧ ∀ f ∈ files, f.kind = .assembly ∨ f.kind = k) := by
    intro files
    induction files with
    | nil =>
      intro k _
      simp only [determine, Except.ok.injEq, List.not_mem_nil, false_implies, implies_true,
        and_true]
      exact eq_comm
    | cons f fs ih =>
      intro k hne
      unfold determine
      by_cases ha : f.kind = .assembly
      · rw [if_pos ha, ih k hne]
        simp [ha]
      · rw [if_neg ha]
        simp only
        by_cases he : k = f.kind
        · rw [if_pos he, ih k hne]
          simp [he]
        · rw [if_neg he]
          constructor
          · intro h; cases h
          · rintro ⟨_, h⟩
            rcases h f (by simp) with h | h
            · exact absurd h ha
            · exact absurd h.symm he
  induction files with
  | nil =>
    simp only [determine, Except.ok.injEq]
    cases t with
    | none => simp [TypeIs]
    | some k => simp [TypeIs]
  | cons f fs ih =>
    unfold determine
    by_cases ha : f.kind = .assembly
    · rw [if_pos ha]
      refine Iff.trans ih ?_
      cases t with
      | none => simp [TypeIs, ha]
      | some k =>
        simp only [TypeIs, List.mem_cons, exists_eq_or_imp, forall_eq_or_imp]
        constructor
        · rintro ⟨h1, h2, h3⟩; exact ⟨h1, .inr h2, .inl ha, h3⟩
        · rintro ⟨h1, h2, _, h3⟩
          refine ⟨h1, ?_, h3⟩
          rcases h2 with h2 | h2
          · exact absurd (h2.symm.trans ha) h1
          · exact h2
    · rw [if_neg ha]
      simp only
      rw [hk fs f.kind ha]
      cases t with
      | none =>
        constructor
        · rintro ⟨h, _⟩; cases h
        · intro h; exact absurd (h f (by simp)) ha
      | some k =>
        simp only [TypeIs, Option.some.injEq, List.mem_cons, exists_eq_or_imp, forall_eq_or_imp]
        constructor
        · rintro ⟨rfl, h⟩; exact ⟨ha, .inl rfl, .inr rfl, h⟩
        · rintro ⟨h1, h2, h3, h4⟩
          have he : f.kind = k := by
            rcases h3 with h3 | h3
            · exact absurd h3 ha
            · exact h3
          subst he
          exact ⟨rfl, h4⟩

/-! ## What is run -/

theorem filter_lengths (cs : List CAsm) :
    (cs.filter (fun c => c.orig = .project) ++ cs.filter (fun c => c.orig = .assembly)).length
      = cs.length := by
  induction cs with
  | nil => rfl
  | cons c cs ih =>
    rw [List.length_append] at ih ⊢
    rcases from_cases c with h | h <;> simp [h] <;> omega

theorem only_iff (cs : List CAsm) (c : CAsm) :
    (∃ a b, cs = a ++ c :: b ∧ ∀ d ∈ a ++ b, d.orig ≠ c.orig)
      ↔ cs.filter (fun d => d.orig = c.orig) = [c] := by
  constructor
  · rintro ⟨a, b, rfl, h⟩
    have ha : a.filter (fun d => d.orig = c.orig) = [] := by
      rw [List.filter_eq_nil_iff]
      intro d hd
      simpa using h d (by simp [hd])
    have hb : b.filter (fun d => d.orig = c.orig) = [] := by
      rw [List.filter_eq_nil_iff]
      intro d hd
      simpa using h d (by simp [hd])
    rw [List.filter_append, ha, List.filter_cons]
    simp [hb]
  · intro h
    induction cs with
    | nil => simp at h
    | cons x cs ih =>
      rw [List.filter_cons] at h
      by_cases hx : x.orig = c.orig
      · simp [hx] at h
        obtain ⟨rfl, h⟩ := h
        exact ⟨[], cs, rfl, by simpa using h⟩
      · simp [hx] at h
        obtain ⟨a, b, rfl, hall⟩ := ih (by simpa using h)
        refine ⟨x :: a, b, rfl, ?_⟩
        intro d hd
        rcases List.mem_cons.mp hd with rfl | hd
        · exact hx
        · exact hall d hd

theorem choose_iff (cs : List CAsm) (c : CAsm) :
    choose cs = .ok c ↔ (∃ a b, cs = a ++ c :: b ∧ ∀ d ∈ a ++ b, d.orig ≠ c.orig)
      ∧ (c.orig = .assembly → ∀ d ∈ cs, d.orig = .assembly) := by
  rw [only_iff]
  match cs with
  | [] => simp [choose]
  | [x] =>
    simp only [choose, Except.ok.injEq]
    constructor
    · rintro rfl; simp
    · rintro ⟨h, _⟩
      rw [List.filter_cons] at h
      split at h
      · simpa using h
      · simp at h
  | x :: y :: l =>
    have hlen := filter_lengths (x :: y :: l)
    generalize hcs : x :: y :: l = cs at *
    have h2 : 2 ≤ cs.length := by rw [← hcs]; simp
    have hall : ∀ d ∈ cs, d.orig = .project ∨ d.orig = .assembly := fun d _ => from_cases d
    have hP : ∀ d, d ∈ cs.filter (fun c => c.orig = .project) → d.orig = .project ∧ d ∈ cs := by
      intro d hd; simp at hd; exact ⟨hd.2, hd.1⟩
    have hA : ∀ d, d ∈ cs.filter (fun c => c.orig = .assembly) → d.orig = .assembly ∧ d ∈ cs := by
      intro d hd; simp at hd; exact ⟨hd.2, hd.1⟩
    have hcase : choose cs = firstOf (cs.filter (fun c => c.orig = .project)
        ++ cs.filter (fun c => c.orig = .assembly)) := by
      rw [← hcs]; rfl
    rw [hcase]
    have hfc : cs.filter (fun d => d.orig = c.orig)
        = if c.orig = .project then cs.filter (fun c => c.orig = .project)
          else cs.filter (fun c => c.orig = .assembly) := by
      rcases from_cases c with h | h <;> simp [h]
    rw [hfc]
    generalize cs.filter (fun c => c.orig = .project) = P at *
    generalize cs.filter (fun c => c.orig = .assembly) = A at *
    match P, A with
    | [], [] => simp at hlen; omega
    | [], [a] => simp at hlen; omega
    | [], a :: b :: A =>
      have ha := (hA a (by simp)).1
      have hb := (hA b (by simp)).1
      simp only [List.nil_append, firstOf]
      rw [if_pos (by rw [ha, hb])]
      constructor
      · intro h; cases h
      · rintro ⟨h, _⟩
        split at h <;> simp at h
    | [p], [] => simp at hlen; omega
    | [p], a :: A =>
      have hp := hP p (by simp)
      have ha := (hA a (by simp)).1
      simp only [List.cons_append, List.nil_append, firstOf]
      rw [if_neg (by rw [hp.1, ha]; decide)]
      simp only [Except.ok.injEq]
      constructor
      · rintro rfl
        rw [if_pos hp.1]
        exact ⟨rfl, fun h => absurd (hp.1.symm.trans h) (by decide)⟩
      · rintro ⟨h, h'⟩
        rcases from_cases c with hc | hc
        · rw [if_pos hc] at h; simpa using h
        · exact absurd (hp.1.symm.trans (h' hc p hp.2)) (by decide)
    | p :: q :: P, A =>
      have hp := hP p (by simp)
      have hq := (hP q (by simp)).1
      simp only [List.cons_append, firstOf]
      rw [if_pos (by rw [hp.1, hq])]
      constructor
      · intro h; cases h
      · rintro ⟨h, h'⟩
        rcases from_cases c with hc | hc
        · rw [if_pos hc] at h; simp at h
        · exact absurd (hp.1.symm.trans (h' hc p hp.2)) (by decide)

/-- Without a name, the assembly that is run is the only executable project, or the only
executable assembly file when no project is executable; otherwise nothing is run. -/
theorem default_run_iff (cs : List CAsm) (c : CAsm) : pickDefault cs = .ok c ↔ IsMain cs c := by
  unfold pickDefault IsMain
  rw [choose_iff]
  simp only [List.mem_filter, and_imp]

/-- With a name, it is chosen in the same way among those of that name. -/
theorem named_run_iff (cs : List CAsm) (name : Str) (c : CAsm) :
    getAssembly cs name = .ok c ↔ IsMain (cs.filter fun d => d.name = name) c := by
  have hf : cs.filter (fun d => d.name = name && d.exec)
      = (cs.filter fun d => d.name = name).filter (·.exec) := by
    rw [List.filter_filter]
    congr 1
    funext d
    exact Bool.and_comm _ _
  unfold getAssembly
  rw [hf]
  rw [← default_run_iff]
  unfold pickDefault
  cases (cs.filter fun d => d.name = name).filter (·.exec) with
  | nil =>
    simp only [choose]
    constructor
    · intro h
      split at h <;> cases h
    · intro h; cases h
  | cons a as => rfl

/-- The errors for a name: there is no such assembly, or it cannot be run. -/
theorem named_run_errors (cs : List CAsm) (name : Str) :
    (getAssembly cs name = .error .assemblyNotFound ↔ ∀ c ∈ cs, c.name ≠ name)
      ∧ (getAssembly cs name = .error .assemblyCannotExecutable
        ↔ (∃ c ∈ cs, c.name = name) ∧ ∀ c ∈ cs, c.name = name → c.exec = false) := by
  have hch : ∀ a as e, choose (a :: as) = .error e →
      e = .noExecutableAssembly ∨ e = .duplicatedExecutable := by
    intro a as e h
    unfold choose at h
    split at h
    · simp at h; exact .inl h.symm
    · cases h
    · unfold firstOf at h
      split at h
      · split at h
        · simp at h; exact .inr h.symm
        · cases h
      · simp at h; exact .inl h.symm
  unfold getAssembly
  cases hfl : cs.filter (fun c => c.name = name && c.exec) with
  | nil =>
    simp only
    have hno : ∀ c ∈ cs, c.name = name → c.exec = false := by
      rw [List.filter_eq_nil_iff] at hfl
      intro c hc hn
      have := hfl c hc
      simp [hn] at this
      exact this
    by_cases ha : ∃ c ∈ cs, c.name = name
    · have : (cs.any fun c => c.name = name) = true := by
        simpa [List.any_eq_true] using ha
      rw [this]
      simp only [if_true]
      constructor
      · constructor
        · intro h; simp at h
        · intro h
          obtain ⟨c, hc, hn⟩ := ha
          exact absurd hn (h c hc)
      · simp only [true_iff]
        exact ⟨ha, hno⟩
    · have : (cs.any fun c => c.name = name) = false := by
        rw [List.any_eq_false]
        intro c hc
        simp only [decide_eq_true_eq]
        exact fun hn => ha ⟨c, hc, hn⟩
      rw [this]
      simp only [Bool.false_eq_true, if_false, true_iff]
      exact ⟨fun c hc hn => ha ⟨c, hc, hn⟩, ⟨fun h => by simp at h, fun h => absurd h.1 ha⟩⟩
  | cons a as =>
    simp only
    have hmem : a ∈ cs ∧ a.name = name ∧ a.exec = true := by
      have : a ∈ cs.filter (fun c => c.name = name && c.exec) := by rw [hfl]; simp
      simpa using this
    refine ⟨⟨fun h => ?_, fun h => absurd hmem.2.1 (h a hmem.1)⟩,
      ⟨fun h => ?_, fun h => ?_⟩⟩
    · rcases hch _ _ _ h with h | h <;> cases h
    · rcases hch _ _ _ h with h | h <;> cases h
    · have := h.2 a hmem.1 hmem.2.1
      rw [hmem.2.2] at this
      cases this

theorem initRefs_all : ∀ (as refs out : List CAsm), initRefs refs as = .ok out →
    (refs.map CAsm.name).Nodup → out = refs ++ as ∧ (out.map CAsm.name).Nodup := by
  intro as
  induction as with
  | nil => intro refs out h hn; simp [initRefs] at h; subst h; simpa using hn
  | cons a as ih =>
    intro refs out h hn
    unfold initRefs at h
    split at h
    · cases h
    · next hc =>
      obtain ⟨h1, h2⟩ := ih (refs ++ [a]) out h (by
        rw [List.map_append, List.nodup_append]
        refine ⟨hn, by simp, ?_⟩
        intro x hx y hy
        simp at hy
        subst hy
        rintro rfl
        obtain ⟨r, hr, he⟩ := List.mem_map.mp hx
        exact hc (List.any_eq_true.mpr ⟨r, hr, by simp [he]⟩))
      exact ⟨by simpa using h1, h2⟩

theorem find_reverse {l : List CAsm} (hn : (l.map CAsm.name).Nodup) (n : Str) :
    l.reverse.find? (fun c => c.name == n) = l.find? fun c => c.name == n := by
  induction l with
  | nil => rfl
  | cons a l ih =>
    rw [List.map_cons, List.nodup_cons] at hn
    rw [List.reverse_cons, List.find?_append, ih hn.2, List.find?_cons]
    by_cases ha : a.name = n
    · have hnone : l.find? (fun c => c.name == n) = none := by
        rw [List.find?_eq_none]
        intro c hc he
        simp at he
        exact hn.1 (by rw [ha, ← he]; exact List.mem_map_of_mem hc)
      simp [hnone, ha]
    · have hb : (a.name == n) = false := by simpa using ha
      rw [hb]
      simp [ha]

/-- A program that was compiled with projects and assembly files is run with the same ones: for
every name the virtual machine loads the file that the import found while compiling. -/
theorem same_assembly (assemblies projects refs : List CAsm) (h : initRefs [] assemblies = .ok refs)
    (name : Str) : provide (assemblies ++ projects) name = importPath projects refs name := by
  obtain ⟨h1, h2⟩ := initRefs_all assemblies [] refs h (by simp)
  rw [List.nil_append] at h1
  subst h1
  unfold provide importPath
  rw [List.reverse_append, List.find?_append]
  cases projects.reverse.find? (fun c => c.name == name) with
  | some c => rfl
  | none => simp only [Option.none_or]; rw [find_reverse h2]

/-- A higher level of optimization never switches an optimization off, and level 0 has none. -/
theorem levels_grow (l l' : Int) (h : l ≤ l') (o : Opt) (ho : optimize l o = true) :
    optimize l' o = true ∧ 0 < l := by
  cases o <;> simp [optimize] at ho ⊢ <;> omega

/-! ## Examples -/

def nm (s : String) : Str := s.toList.map Char.toNat

def src (path : Nat) (dir : String) : File := ⟨path, nm dir, nm "x", .source⟩
def lib (path : Nat) : File := ⟨path, nm "d", nm "lib", .assembly⟩

example : AllAlike [src 3 "app", src 1 "app"]
    ∧ (⟨nm "main", [[src 3 "app", src 1 "app"], [lib 9], [src 1 "app"]]⟩ : Script).HasSource :=
  ⟨.inl (by decide), ⟨[src 3 "app", src 1 "app"], by simp, src 3 "app", by simp, rfl⟩⟩

example : (runOps start [.begin (nm "main"), .add [src 3 "app", src 1 "app"], .add [src 1 "app"],
      .commit]).toOption
    = some ⟨none, [⟨nm "main", [src 1 "app", src 3 "app"]⟩]⟩ := by decide +kernel

example : IsMain [⟨nm "lib", .assembly, 1, true⟩, ⟨nm "app", .project, 2, true⟩,
    ⟨nm "util", .project, 3, false⟩] ⟨nm "app", .project, 2, true⟩ :=
  (default_run_iff _ _).mp (by rfl)

example : (initRefs [] [⟨nm "lib", .assembly, 1, false⟩, ⟨nm "io", .assembly, 4, false⟩]).toOption.isSome
    = true := by decide +kernel

/-! ## Where it goes wrong -/

/-- A path that names sources and an assembly: the sources after the assembly are dropped without
an error. -/
theorem mixed_files_refuted :
    (runOps start [.begin (nm "p"), .add [src 1 "app", lib 2, src 3 "app"], .commit]).toOption
      = some ⟨none, [⟨nm "p", [src 1 "app"]⟩]⟩ := by decide +kernel

/-- Two projects without a name, with files in two directories `src`: both are called `src`, and
of the two the build compiles only one. -/
theorem same_directory_refuted :
    (runOps start [.begin [], .add [src 1 "src"], .commit, .begin [], .add [src 2 "src"], .commit]
        ).toOption
      = some ⟨none, [⟨nm "src", [src 1 "src"]⟩, ⟨nm "src", [src 2 "src"]⟩]⟩
    ∧ ∃ st, Build.build ⟨[⟨7, [], false⟩, ⟨7, [], false⟩], []⟩ = some st ∧ st.errors = 0
      ∧ st.compiled = [7] :=
  ⟨by decide +kernel, _, rfl, by decide +kernel, by decide +kernel⟩

/-- The name in a project file is not used. -/
theorem project_name_refuted (s : Sess) (name name' : Str) (adds : List (List File)) :
    projectFile s name adds = projectFile s name' adds := rfl

theorem project_name_kept_in_solution :
    (solutionProject start (nm "tool") [[src 1 "src"]]).toOption.map (·.projects.map (·.name))
      = some [nm "tool"]
    ∧ (projectFile start (nm "tool") [[src 1 "src"]]).toOption.map (·.projects.map (·.name))
      = some [nm "src"] := by decide +kernel

/-- With two solutions, both with a project `util`: the program of the first one is run with the
`util` of the second. -/
theorem two_solutions_refuted :
    let first := [⟨nm "app", .project, 1, true⟩, ⟨nm "util", .project, 2, false⟩]
    let second := [⟨nm "util", .project, 3, false⟩]
    pickDefault (first ++ second) = .ok ⟨nm "app", .project, 1, true⟩
      ∧ importPath first [] (nm "util") = some 2
      ∧ provide (first ++ second) (nm "util") = some 3 := by
  refine ⟨by rfl, by decide +kernel, by decide +kernel⟩

end Verif.Session
