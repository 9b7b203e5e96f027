import Verif.Proof.Paths

/-!
# C96: paths lead where they say

The compiler turns the paths of project and source files into absolute paths without `.` and
`..`, and both the compiler and the virtual machine put together the paths of assembly files.
-/

namespace Verif.Paths

open Spec

/-- Text for the examples. -/
def txt (s : String) : Str := s.toList.map Char.toNat

/-- A path made of legs (ordinary names followed by `.` and `..` that take back at most
those names), then ordinary names and perhaps a slash at the end, is turned into the path
of the place it leads to.  Missing for the full claim: paths that end with the dots of a leg
which takes back all its names, and paths whose dots take back more than the names
just before them; see the refuted claims below. -/
theorem path_resolved_partial (legs : List Leg) (names : List Str) (closed : Bool)
    (hl : ∀ l ∈ legs, l.Good) (hn : ∀ n ∈ names, Name n)
    (hend : names ≠ [] ∨ closed = true
      ∨ ∃ before last, legs = before ++ [last] ∧ ups last.dots < last.names.length) :
    makeAbsolute (render (legs.flatMap Leg.all ++ names) ++ if closed then [slash] else [])
      = .ok (render (resolve (legs.flatMap Leg.all ++ names))
          ++ if closed then [slash] else []) := by
  cases closed with
  | false =>
    have hend' : names ≠ [] ∨ ∃ before last, legs = before ++ [last]
        ∧ ups last.dots < last.names.length := by
      rcases hend with h | h | h
      · exact .inl h
      · simp at h
      · exact .inr h
    simpa using makeAbsolute_legs legs names hl (solid_names hn) hend'
  | true =>
    have hs : Solid (names ++ [[]]) := by
      intro n h
      rw [List.mem_append] at h
      rcases h with h | h
      · exact (hn n h).2
      · rw [List.mem_singleton.mp h]
        exact ⟨by decide, by simp⟩
    have h := makeAbsolute_legs legs (names ++ [[]]) hl hs (.inl (by simp))
    have e1 : render (legs.flatMap Leg.all ++ (names ++ [[]]))
        = render (legs.flatMap Leg.all ++ names) ++ [slash] := by
      simp [render_append, render_cons, render_nil]
    have e2 : resolve (legs.flatMap Leg.all ++ (names ++ [[]]))
        = resolve (legs.flatMap Leg.all ++ names) ++ [[]] := by
      have hone : ∀ st, walk st [[]] = [] :: st := fun st => by
        rw [walk_solid st [[]] (fun n h => by
          rw [List.mem_singleton.mp h]; exact ⟨by decide, by simp⟩)]
        rfl
      unfold resolve
      rw [← List.append_assoc, walk_append _ _ [[]], hone]
      simp
    rw [e1, e2] at h
    simpa [render_append, render_cons, render_nil] using h

/-- A path relative to a directory: some `.` and `..`, then names; it leads from that
directory up, then down, whenever the directory is deep enough. -/
theorem relative_resolved (base dots names : List Str) (hb : ∀ n ∈ base, Name n)
    (hd : ∀ d ∈ dots, Dots d) (hn : ∀ n ∈ names, Name n) (hbase : base ≠ [])
    (hnames : names ≠ []) (hups : ups dots ≤ base.length) :
    absolute ((render (dots ++ names)).drop 1) (render base)
      = .ok (render (base.take (base.length - ups dots) ++ names)) := by
  have hgood : ∀ l ∈ [Leg.mk base dots], l.Good := by
    intro l hl
    rw [List.mem_singleton.mp hl]
    exact ⟨hbase, hb, hd, hups⟩
  obtain ⟨f, fs, hfs⟩ : ∃ f fs, dots ++ names = f :: fs := by
    cases h : dots ++ names with
    | nil => simp at h; exact absurd h.2 hnames
    | cons f fs => exact ⟨f, fs, rfl⟩
  have hf : f ≠ [] ∧ slash ∉ f := by
    have hm : f ∈ dots ++ names := by rw [hfs]; simp
    rw [List.mem_append] at hm
    rcases hm with hm | hm
    · exact ⟨by rcases hd f hm with rfl | rfl <;> simp, dots_slash (hd f hm)⟩
    · exact ⟨(hn f hm).1, (hn f hm).2.2⟩
  have hdrop : (render (dots ++ names)).drop 1 = f ++ render fs := by
    rw [hfs, render_cons]; rfl
  have hhead : (f ++ render fs).head? ≠ some slash := by
    cases f with
    | nil => exact absurd rfl hf.1
    | cons c f =>
      simp only [List.cons_append, List.head?_cons, ne_eq, Option.some.injEq]
      intro h
      exact hf.2 (by simp [h])
  have hlast : (render base).getLast? ≠ some slash := by
    obtain ⟨b, l, rfl⟩ : ∃ b l, base = b ++ [l] :=
      ⟨base.dropLast, base.getLast hbase, (List.dropLast_concat_getLast hbase).symm⟩
    have hl := hb l (by simp)
    rw [render_append, render_cons, render_nil, List.append_nil]
    obtain ⟨l', c, rfl⟩ : ∃ b c, l = b ++ [c] :=
      ⟨l.dropLast, l.getLast hl.1, (List.dropLast_concat_getLast hl.1).symm⟩
    have : (render b ++ slash :: (l' ++ [c])).getLast? = some c := by
      rw [← List.cons_append, ← List.append_assoc, List.getLast?_concat]
    rw [this]
    intro h
    have hc : c = slash := Option.some.inj h
    exact hl.2.2 (by simp [hc])
  unfold absolute
  rw [hdrop, if_neg hhead, if_neg hlast]
  have hs : render base ++ slash :: (f ++ render fs) = render (base ++ (dots ++ names)) := by
    rw [hfs, render_append, render_cons]
  have h := path_resolved_partial [Leg.mk base dots] names false hgood hn (.inl hnames)
  have hfl : ([Leg.mk base dots].flatMap Leg.all ++ names) = base ++ (dots ++ names) := by
    simp [Leg.all]
  rw [hfl] at h
  simp only [Bool.false_eq_true, if_false, List.append_nil] at h
  rw [hs, h]
  have hr : resolve (base ++ (dots ++ names)) = base.take (base.length - ups dots) ++ names := by
    unfold resolve
    rw [walk_append, walk_append, walk_solid _ _ (solid_names hb), walk_dots _ _ hd,
      walk_solid _ _ (solid_names hn)]
    simp only [List.append_nil, List.reverse_append, List.reverse_reverse]
    rw [List.drop_reverse, List.reverse_reverse]
  rw [hr]

/-- `..` to a sister directory. -/
example : absolute (txt "../lib/./x.cs") (txt "/home/me/app") ≠ .ub
    ∧ absolute (txt "../lib/x.cs") (txt "/home/me/app") = .ok (txt "/home/me/lib/x.cs") := by
  decide +kernel

/-- A path without `.` and `..` is left as it is. -/
theorem settled_path_kept (names : List Str) (hn : ∀ n ∈ names, Name n) (hne : names ≠ []) :
    makeAbsolute (render names) = .ok (render names) := by
  have h := path_resolved_partial [] names false (by simp) hn (.inl hne)
  have hr : resolve names = names := by
    unfold resolve; rw [walk_solid _ _ (solid_names hn)]; simp
  simpa [hr] using h

/-- A path with a leading slash is never refused. -/
theorem rooted_never_refused (names : List Str) (hn : ∀ n ∈ names, slash ∉ n) :
    makeAbsolute (render names) ≠ .formatError := by
  rw [makeAbsolute_names _ hn]
  cases (cjmp names.reverse).2 <;> simp

/-- The legs of `/a/b/c/../../d/./e/f/..`, as the first theorem takes them. -/
example :
    let legs := [Leg.mk [txt "a", txt "b", txt "c"] [txt "..", txt ".."],
      Leg.mk [txt "d"] [txt "."], Leg.mk [txt "e", txt "f"] [txt ".."]]
    (∀ l ∈ legs, l.Good) ∧ render (legs.flatMap Leg.all) = txt "/a/b/c/../../d/./e/f/.."
      ∧ makeAbsolute (txt "/a/b/c/../../d/./e/f/..") = .ok (txt "/a/d/e") := by
  decide +kernel

/-! ## Where it goes wrong -/

/-- Two `..` behind a name that itself follows a `..` lead to the wrong directory. -/
theorem nested_dots_refuted :
    makeAbsolute (txt "/a/b/c/../d/../../e") = .ok (txt "/a/b/c/e")
    ∧ render (resolve [txt "a", txt "b", txt "c", txt "..", txt "d", txt "..", txt "..", txt "e"])
        = txt "/a/e" := by decide +kernel

/-- A path that ends with `..` may keep an earlier `..`. -/
theorem last_dots_refuted :
    makeAbsolute (txt "/a/b/../c/..") = .ok (txt "/a/b/..")
    ∧ render (resolve [txt "a", txt "b", txt "..", txt "c", txt ".."]) = txt "/a" := by
  decide +kernel

/-- Going up to the root loses the root: the result is an empty path. -/
theorem root_lost_refuted : makeAbsolute (txt "/a/..") = .ok [] := by decide +kernel

/-- Going up from the root makes the rest a relative path. -/
theorem above_root_refuted :
    makeAbsolute (txt "/../a") = .ok (txt "a")
    ∧ render (resolve [txt "..", txt "a"]) = txt "/a" := by decide +kernel

/-- A path that ends above the root makes the code read before the text. -/
theorem outside_read_refuted : makeAbsolute (txt "/..") = .ub := by decide +kernel

/-! ## Paths of assemblies -/

/-- Two parts are put together with exactly one slash between them. -/
theorem combined_with_one_slash (dir name : Str) (hd : dir ≠ []) (hdl : dir.getLast? ≠ some slash)
    (hn : name ≠ []) (hnl : name.head? ≠ some slash) :
    pathCombine [dir, name] = dir ++ [slash] ++ name
    ∧ pathCombine [dir ++ [slash], name] = dir ++ [slash] ++ name
    ∧ pathCombine [dir, slash :: name] = dir ++ [slash] ++ name
    ∧ pathCombine [dir ++ [slash], slash :: name] = dir ++ [slash] ++ name := by
  have hd' : 0 < dir.length := List.length_pos_iff.mpr hd
  have hn' : 0 < name.length := List.length_pos_iff.mpr hn
  refine ⟨?_, ?_, ?_, ?_⟩ <;>
    simp [pathCombine, pathCombineFrom, hd', hn', hdl, hnl]

/-- The virtual machine looks for an assembly where the compiler has put it. -/
theorem loader_finds_assembly (ext dir name : Str) (hd : dir ≠ [])
    (hdl : dir.getLast? ≠ some slash) (hn : name ≠ []) (hnl : name.head? ≠ some slash)
    (he : ext ≠ []) (hel : ext.head? ≠ some dot) :
    assemblyPath ext dir name = loaderPath ext dir name := by
  unfold assemblyPath loaderPath addExtension
  rw [(combined_with_one_slash dir name hd hdl hn hnl).1]
  simp [he, hel]

/-- Assemblies of different names are written to different files. -/
theorem assembly_paths_distinct (ext dir name₁ name₂ : Str) (hd : dir ≠ [])
    (hn₁ : name₁ ≠ []) (hn₂ : name₂ ≠ []) (hl₁ : name₁.head? ≠ some slash)
    (hl₂ : name₂.head? ≠ some slash) (h : assemblyPath ext dir name₁ = assemblyPath ext dir name₂) :
    name₁ = name₂ := by
  have hd' : 0 < dir.length := List.length_pos_iff.mpr hd
  have h1 : 0 < name₁.length := List.length_pos_iff.mpr hn₁
  have h2 : 0 < name₂.length := List.length_pos_iff.mpr hn₂
  unfold assemblyPath addExtension at h
  simp only [pathCombine, pathCombineFrom] at h
  by_cases he : ext.length = 0
  · simp [he, hd', h1, h2, hl₁, hl₂] at h
    exact h
  · simp [he, hd', h1, h2, hl₁, hl₂] at h
    exact h

example : assemblyPath (txt "apl") (txt "/out") (txt "app") = txt "/out/app.apl"
    ∧ loaderPath (txt "apl") (txt "/out") (txt "app") = txt "/out/app.apl" := by decide +kernel

end Verif.Paths
