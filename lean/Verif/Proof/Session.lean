import Verif.Spec.Session

/-! Helper lemmas about sessions. -/

namespace Verif.Session

open Spec

theorem mem_insert (f : File) : ∀ (fs : List File) (x : File), x ∈ insert f fs ↔ x = f ∨ x ∈ fs := by
  intro fs
  induction fs with
  | nil => intro x; simp [insert]
  | cons g gs ih =>
    intro x
    unfold insert
    split
    · simp
    · rw [List.mem_cons, ih, List.mem_cons]
      constructor
      · rintro (h | h | h)
        · exact .inr (.inl h)
        · exact .inl h
        · exact .inr (.inr h)
      · rintro (h | h | h)
        · exact .inr (.inl h)
        · exact .inl h
        · exact .inr (.inr h)

theorem mem_sort : ∀ (fs : List File) (x : File), x ∈ sort fs ↔ x ∈ fs := by
  intro fs
  induction fs with
  | nil => intro x; simp [sort]
  | cons f fs ih => intro x; rw [sort, mem_insert, ih, List.mem_cons]

theorem take_name : ∀ (fs : List File) (p : Project), (takeFiles p fs).name = p.name := by
  intro fs
  induction fs with
  | nil => intro p; rfl
  | cons f fs ih =>
    intro p
    unfold takeFiles
    split
    · rfl
    · split
      · exact ih p
      · exact ih _

theorem take_none {fs : List File} (h : ∀ f ∈ fs, f.kind ≠ .source) (p : Project) :
    takeFiles p fs = p := by
  cases fs with
  | nil => rfl
  | cons f fs => unfold takeFiles; rw [if_pos (h f (by simp))]

theorem take_all : ∀ (fs : List File) (p : Project), (∀ f ∈ fs, f.kind = .source) →
    (p.files.map File.path).Nodup →
    ((takeFiles p fs).files.map File.path).Nodup
      ∧ ∀ x, x ∈ (takeFiles p fs).files.map File.path
        ↔ x ∈ p.files.map File.path ∨ ∃ f ∈ fs, f.path = x := by
  intro fs
  induction fs with
  | nil => intro p _ hn; exact ⟨hn, fun x => by simp [takeFiles]⟩
  | cons f fs ih =>
    intro p hs hn
    unfold takeFiles
    rw [if_neg (by simp [hs f (by simp)])]
    have hs' : ∀ f ∈ fs, f.kind = .source := fun g hg => hs g (by simp [hg])
    by_cases hd : (p.files.any fun g => g.path == f.path) = true
    · rw [if_pos hd]
      obtain ⟨h1, h2⟩ := ih p hs' hn
      refine ⟨h1, fun x => ?_⟩
      rw [h2]
      constructor
      · rintro (h | ⟨g, hg, rfl⟩)
        · exact .inl h
        · exact .inr ⟨g, by simp [hg], rfl⟩
      · rintro (h | ⟨g, hg, rfl⟩)
        · exact .inl h
        · rcases List.mem_cons.mp hg with rfl | hg
          · left
            rw [List.any_eq_true] at hd
            obtain ⟨k, hk, he⟩ := hd
            exact List.mem_map.mpr ⟨k, hk, by simpa using he⟩
          · exact .inr ⟨g, hg, rfl⟩
    · rw [if_neg hd]
      have hnew : f.path ∉ p.files.map File.path := by
        intro hm
        obtain ⟨k, hk, he⟩ := List.mem_map.mp hm
        exact hd (List.any_eq_true.mpr ⟨k, hk, by simp [he]⟩)
      obtain ⟨h1, h2⟩ := ih { p with files := p.files ++ [f] } hs' (by
        simp only [List.map_append, List.map_cons, List.map_nil]
        rw [List.nodup_append]
        refine ⟨hn, by simp, ?_⟩
        intro a ha b hb
        simp at hb
        subst hb
        rintro rfl
        exact hnew ha)
      refine ⟨h1, fun x => ?_⟩
      rw [h2]
      simp only [List.map_append, List.map_cons, List.map_nil, List.mem_append, List.mem_cons,
        List.not_mem_nil, or_false, exists_eq_or_imp]
      constructor
      · rintro ((h | h) | h)
        · exact .inl h
        · exact .inr (.inl h.symm)
        · exact .inr (.inr h)
      · rintro (h | h | h)
        · exact .inl (.inl h)
        · exact .inl (.inr h.symm)
        · exact .inr h

/-- What a project has after some calls. -/
theorem take_holds {p : Project} {adds : List (List File)} {fs : List File} (h : Holds p adds)
    (hp : AllAlike fs) : Holds (takeFiles p (sort fs)) (adds ++ [fs]) := by
  have split : ∀ x, (∃ gs ∈ adds ++ [fs], ∃ f ∈ gs, f.kind = .source ∧ f.path = x)
      ↔ (∃ gs ∈ adds, ∃ f ∈ gs, f.kind = .source ∧ f.path = x)
        ∨ ∃ f ∈ fs, f.kind = .source ∧ f.path = x := by
    intro x
    constructor
    · rintro ⟨gs, hg, r⟩
      rcases List.mem_append.mp hg with hg | hg
      · exact .inl ⟨gs, hg, r⟩
      · simp at hg; subst hg; exact .inr r
    · rintro (⟨gs, hg, r⟩ | r)
      · exact ⟨gs, by simp [hg], r⟩
      · exact ⟨fs, by simp, r⟩
  rcases hp with hs | hn
  · obtain ⟨h1, h2⟩ := take_all (sort fs) p (fun f hf => hs f ((mem_sort _ _).mp hf)) h.1
    refine ⟨h1, fun x => ?_⟩
    rw [h2, split, h.2]
    constructor
    · rintro (h | ⟨f, hf, rfl⟩)
      · exact .inl h
      · exact .inr ⟨f, (mem_sort _ _).mp hf, hs f ((mem_sort _ _).mp hf), rfl⟩
    · rintro (h | ⟨f, hf, _, rfl⟩)
      · exact .inl h
      · exact .inr ⟨f, (mem_sort _ _).mpr hf, rfl⟩
  · rw [take_none (fun f hf => hn f ((mem_sort _ _).mp hf))]
    refine ⟨h.1, fun x => ?_⟩
    rw [split, h.2]
    constructor
    · exact .inl
    · rintro (h | ⟨f, hf, hk, _⟩)
      · exact h
      · exact absurd hk (hn f hf)

theorem holds_empty (n : Str) : Holds ⟨n, []⟩ [] := ⟨by simp, by simp⟩

theorem holds_files {p : Project} {adds : List (List File)} (h : Holds p adds) :
    p.files ≠ [] ↔ ∃ fs ∈ adds, ∃ f ∈ fs, f.kind = .source := by
  constructor
  · intro hne
    obtain ⟨f, hf⟩ := List.exists_mem_of_ne_nil _ hne
    obtain ⟨fs, hfs, g, hg, hk, _⟩ := (h.2 f.path).mp (List.mem_map_of_mem hf)
    exact ⟨fs, hfs, g, hg, hk⟩
  · rintro ⟨fs, hfs, g, hg, hk⟩ he
    have := (h.2 g.path).mpr ⟨fs, hfs, g, hg, hk, rfl⟩
    rw [he] at this
    simp at this

/-- Calls of `add_file`, from a current project. -/
theorem run_adds : ∀ (adds done : List (List File)) (p : Project) (ps : List Project)
    (os : List Op), Holds p done → (∀ fs ∈ adds, AllAlike fs) →
    ∃ p', Holds p' (done ++ adds) ∧ p'.name = p.name
      ∧ runOps ⟨some p, ps⟩ (adds.map .add ++ os) = runOps ⟨some p', ps⟩ os := by
  intro adds
  induction adds with
  | nil => intro done p ps os h _; exact ⟨p, by simpa using h, rfl, rfl⟩
  | cons fs adds ih =>
    intro done p ps os h hp
    obtain ⟨p', h1, h2, h3⟩ := ih (done ++ [fs]) (takeFiles p (sort fs)) ps os
      (take_holds h (hp fs (by simp))) (fun g hg => hp g (by simp [hg]))
    refine ⟨p', by simpa using h1, by rw [h2, take_name], ?_⟩
    rw [← h3]
    rfl

/-- The name that a committed project gets. -/
def finalName (ps : List Project) (p : Project) : Str :=
  if p.name = [] then defaultName ps p else p.name

/-- One script, from between projects. -/
theorem run_script {sc : Script} (hp : ∀ fs ∈ sc.adds, AllAlike fs) (hs : sc.HasSource)
    (ps : List Project) (os : List Op) :
    ∃ p, Holds p sc.adds ∧ p.name = sc.name
      ∧ runOps ⟨none, ps⟩ (sc.ops ++ os)
        = runOps ⟨none, ps ++ [{ p with name := finalName ps p }]⟩ os := by
  obtain ⟨p, h1, h2, h3⟩ := run_adds sc.adds [] ⟨sc.name, []⟩ ps (.commit :: os)
    (holds_empty _) hp
  rw [List.nil_append] at h1
  refine ⟨p, h1, h2, ?_⟩
  have hne : p.files ≠ [] := (holds_files h1).mpr hs
  have : sc.ops ++ os = .begin sc.name :: (sc.adds.map .add ++ .commit :: os) := by
    simp [Script.ops]
  rw [this, runOps]
  simp only [step, beginProject]
  rw [h3, runOps]
  simp only [step, commitProject, if_neg hne]
  rfl

theorem of_runOps : ∀ (ops : List Op), (∀ fs, .add fs ∈ ops → AllAlike fs) →
    (∀ ps s, runOps ⟨none, ps⟩ ops = .ok s → s.current = none →
      ∃ scripts : List Script, ops = scripts.flatMap Script.ops ∧ ∀ sc ∈ scripts, sc.HasSource)
    ∧ (∀ p ps s done, Holds p done → runOps ⟨some p, ps⟩ ops = .ok s → s.current = none →
      ∃ (adds : List (List File)) (scripts : List Script),
        ops = adds.map .add ++ .commit :: scripts.flatMap Script.ops
        ∧ (∃ fs ∈ done ++ adds, ∃ f ∈ fs, f.kind = .source)
        ∧ ∀ sc ∈ scripts, sc.HasSource) := by
  intro ops
  induction ops with
  | nil =>
    intro _
    refine ⟨fun ps s _ _ => ⟨[], rfl, by simp⟩, fun p ps s done _ h hc => ?_⟩
    simp [runOps] at h
    rw [← h] at hc
    cases hc
  | cons o ops ih =>
    intro hp
    obtain ⟨ih1, ih2⟩ := ih (fun fs h => hp fs (by simp [h]))
    refine ⟨fun ps s h hc => ?_, fun p ps s done hd h hc => ?_⟩
    · rw [runOps] at h
      cases o with
      | begin n =>
        simp only [step, beginProject] at h
        obtain ⟨adds, scripts, he, hs, hall⟩ := ih2 _ _ _ [] (holds_empty n) h hc
        refine ⟨⟨n, adds⟩ :: scripts, ?_, ?_⟩
        · rw [he]; simp [Script.ops]
        · intro sc hsc
          rcases List.mem_cons.mp hsc with rfl | hsc
          · exact hs
          · exact hall sc hsc
      | add fs => simp [step, addFile] at h
      | commit => simp [step, commitProject] at h
    · rw [runOps] at h
      cases o with
      | begin n => simp [step, beginProject] at h
      | add fs =>
        simp only [step, addFile] at h
        obtain ⟨adds, scripts, he, hs, hall⟩ := ih2 _ _ _ (done ++ [fs])
          (take_holds hd (hp fs (by simp))) h hc
        refine ⟨fs :: adds, scripts, by rw [he]; rfl, ?_, hall⟩
        simpa using hs
      | commit =>
        simp only [step, commitProject] at h
        by_cases hf : p.files = []
        · rw [if_pos hf] at h; cases h
        · rw [if_neg hf] at h
          simp only at h
          obtain ⟨scripts, he, hall⟩ := ih1 _ _ h hc
          refine ⟨[], scripts, by rw [he]; rfl, ?_, hall⟩
          rw [List.append_nil]
          exact (holds_files hd).mp hf

theorem freeName_dir (ps : List Project) (dir : Str) : ∀ fuel i, freeName ps dir fuel i = dir := by
  intro fuel
  induction fuel with
  | zero => intro i; rfl
  | succ n ih => intro i; unfold freeName; split; · rfl
                 · exact ih _

theorem from_cases (c : CAsm) : c.orig = .project ∨ c.orig = .assembly := by
  cases c.orig <;> simp

end Verif.Session
