import Verif.Proof.Build

/-!
# C97: the projects of a solution are built in the right order

The projects of a solution may import each other in any way.  Building compiles every one of
them once, each after the ones it needs, and reports circles.
-/

namespace Verif.Build

open Spec

/-- Building a solution always comes to an end.  Afterwards every project name has been
compiled exactly once, and nothing else has been. -/
theorem every_project_once (s : Solution) :
    ∃ st, build s = some st ∧ st.compiled.Nodup ∧ (∀ n, n ∈ st.compiled ↔ n ∈ names s) := by
  obtain ⟨st, h, hp, hall⟩ := build_does s
  refine ⟨st, h, hp.inv.ed_nodup, fun n => ⟨hp.inv.ed_names n, ?_⟩⟩
  intro hn
  obtain ⟨p, hm, rfl⟩ := List.mem_map.mp hn
  exact hall p hm

/-- A build without errors has compiled every project after all the projects it imports. -/
theorem imports_come_first (s : Solution) (hd : Distinct s) (st : State) (h : build s = some st)
    (h0 : st.errors = 0) (p q : Proj) (hu : Uses s p q) :
    ∃ before after, st.compiled = before ++ p.name :: after ∧ q.name ∈ before := by
  obtain ⟨st', h', hp, hall⟩ := build_does s
  rw [h] at h'
  obtain rfl := Option.some.inj h'
  exact uses_before hd (hp.inv.good h0) hall hu

/-- A build has no errors exactly if no project needs itself, everything imported exists and
no project has errors of its own. -/
theorem clean_build_iff (s : Solution) (hd : Distinct s) (st : State) (h : build s = some st) :
    st.errors = 0 ↔ ¬ Circular s ∧ Complete s ∧ Sound s := by
  obtain ⟨st', h', hp, hall⟩ := build_does s
  rw [h] at h'
  obtain rfl := Option.some.inj h'
  constructor
  · intro h0
    have hg := hp.inv.good h0
    refine ⟨?_, ?_, ?_⟩
    · rintro ⟨p, hr⟩
      exact before_irrefl hp.inv.ed_nodup (reaches_before hd hp.inv.ed_nodup hg hall hr)
    · intro p hpm u hu
      obtain ⟨a, b, hl⟩ := List.append_of_mem (hall p hpm)
      obtain ⟨r, hr, hrn, _, hs⟩ := hg a p.name b hl
      have : r = p := distinct_eq hd hr hpm hrn
      subst this
      rcases (hs u hu).2 with h | h
      · exact .inl (hp.inv.ed_names u (by rw [hl]; simp [h]))
      · exact .inr h.2
    · intro p hpm
      obtain ⟨a, b, hl⟩ := List.append_of_mem (hall p hpm)
      obtain ⟨r, hr, hrn, hf, _⟩ := hg a p.name b hl
      have : r = p := distinct_eq hd hr hpm hrn
      subst this
      exact hf
  · rintro ⟨hc, hcomp, hsound⟩
    exact compileAll_clean s hd hc hcomp hsound (s.projects.length + 1) (by simp [names])
      s.projects start st (fun _ h => h) (inv_start s) rfl rfl h

/-- A circle of imports never passes unnoticed. -/
theorem circle_reported (s : Solution) (hd : Distinct s) (st : State) (h : build s = some st)
    (hc : Circular s) : 0 < st.errors := by
  have := mt (clean_build_iff s hd st h).mp (fun h => h.1 hc)
  omega

/-- When a build has no errors, the assembly of every project has been written, in the order of
compiling. -/
theorem clean_build_writes_all (s : Solution) (st : State) (h : build s = some st)
    (h0 : st.errors = 0) : st.written = st.compiled ∧ ∀ p ∈ s.projects, p.name ∈ st.written := by
  obtain ⟨st', h', hp, hall⟩ := build_does s
  rw [h] at h'
  obtain rfl := Option.some.inj h'
  have hw := hp.inv.wrote h0
  exact ⟨hw, fun p hpm => by rw [hw]; exact hall p hpm⟩

/-- Whatever goes wrong later: an assembly that is written belongs to a project without errors,
and everything that this project imports was written before or is an assembly file. -/
theorem written_is_sound (s : Solution) (st : State) (h : build s = some st)
    (before after : List Nat) (name : Nat) (hw : st.written = before ++ name :: after) :
    ∃ p ∈ s.projects, p.name = name ∧ p.faulty = false
      ∧ ∀ u ∈ p.imports, u ≠ name ∧ (u ∈ before ∨ u ∉ names s ∧ u ∈ s.refs) := by
  obtain ⟨st', h', hp, _⟩ := build_does s
  rw [h] at h'
  obtain rfl := Option.some.inj h'
  exact hp.inv.wrote_good before name after hw

/-- Three projects given in the wrong order. -/
def sample : Solution where
  projects := [⟨1, [2, 3, 9], false⟩, ⟨2, [3], false⟩, ⟨3, [9], false⟩]
  refs := [9]

example : Distinct sample ∧ (build sample).map State.compiled = some [3, 2, 1]
    ∧ (build sample).map State.errors = some 0 := by
  refine ⟨by unfold Distinct; decide, by decide +kernel, by decide +kernel⟩

/-- A circle: the errors are logged and nothing is written. -/
def loop : Solution where
  projects := [⟨1, [2], false⟩, ⟨2, [3], false⟩, ⟨3, [1], false⟩, ⟨4, [], false⟩]
  refs := []

example : Distinct loop ∧ Circular loop ∧ (build loop).map State.errors = some 1
    ∧ (build loop).map State.compiled = some [3, 2, 1, 4]
    ∧ (build loop).map State.written = some [] := by
  refine ⟨by unfold Distinct; decide, ?_, by decide +kernel, by decide +kernel,
    by decide +kernel⟩
  refine ⟨⟨1, [2], false⟩, .more (q := ⟨2, [3], false⟩) ?_ (.more (q := ⟨3, [1], false⟩) ?_
    (.one ?_))⟩ <;> (unfold Uses; decide)

/-- Two projects of one name: only one of them is compiled, no error is logged, and the other
one is silently missing (so the names have to be distinct above). -/
theorem same_name_refuted :
    ∃ s st, build s = some st ∧ st.errors = 0 ∧ s.projects.length = 2 ∧ st.compiled.length = 1 :=
  ⟨⟨[⟨1, [], false⟩, ⟨1, [7], true⟩], []⟩, _, rfl, by decide +kernel, rfl, by decide +kernel⟩

/-- Of projects with the same name the last one is taken. -/
theorem last_project_taken (s : Solution) (name : Nat) (p : Proj) :
    s.project name = some p ↔
      ∃ before after, s.projects = before ++ p :: after ∧ p.name = name ∧ ∀ q ∈ after, q.name ≠ name := by
  rw [Solution.project, List.find?_eq_some_iff_append]
  constructor
  · rintro ⟨hn, as, bs, h, hno⟩
    refine ⟨bs.reverse, as.reverse, ?_, by simpa using hn, fun q hq => by simpa using hno q (by simpa using hq)⟩
    have := congrArg List.reverse h
    simpa using this
  · rintro ⟨before, after, h, hn, hno⟩
    exact ⟨by simpa using hn, after.reverse, before.reverse, by rw [h]; simp, fun q hq => by
      simpa using hno q (by simpa using hq)⟩

/-- An error in a project that is compiled later leaves the earlier assemblies written: a failed
build is not all or nothing. -/
theorem failed_build_writes_refuted :
    ∃ s st, Distinct s ∧ build s = some st ∧ 0 < st.errors ∧ st.written ≠ [] :=
  ⟨⟨[⟨1, [], false⟩, ⟨2, [], true⟩], []⟩, _, by unfold Distinct; decide, rfl, by decide +kernel,
    by decide +kernel⟩

end Verif.Build
