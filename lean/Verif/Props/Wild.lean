import Verif.Proof.Wild

/-!
# C98: `*` and `?` name the files they should

Source files can be named by a path whose last part contains `*` and `?`.
-/

namespace Verif.Wild

open Spec
open Verif.Paths (Str slash dot)

/-- A filter chooses exactly the names that fit it.  Missing for the full claim: filters with
`+`, `^`, `$` or `|`, and names that contain an end of line; see below. -/
theorem filter_chooses_partial (filter name : Str) (hf : Tame filter) (hn : OneLine name) :
    isMatch (toRegex filter) name = some true ↔ Fits filter name := by
  unfold isMatch
  rw [parse_filter hf, Option.map_some, search_first]
  simp only [Option.some.injEq]
  exact run_fits filter true name hn

/-- The regular expression that is made of such a filter is always accepted. -/
theorem filter_accepted (filter : Str) (hf : Tame filter) (name : Str) :
    (isMatch (toRegex filter) name).isSome = true := by
  unfold isMatch
  rw [parse_filter hf]; rfl

/-- A path is split into directory and filter at its last slash, and only there. -/
theorem split_at_last_slash (path d f : Str) :
    splitPathFilter path = some (d, f)
      ↔ path = d ++ slash :: f ∧ slash ∉ f ∧ (mark ∈ f ∨ star ∈ f) := by
  unfold splitPathFilter
  constructor
  · intro h
    cases hs : splitLast path with
    | none => rw [hs] at h; simp at h
    | some r =>
      obtain ⟨a, b⟩ := r
      rw [hs] at h
      simp only at h
      split at h
      · next hany =>
        simp at h
        obtain ⟨rfl, rfl⟩ := h
        obtain ⟨h1, h2⟩ := splitLast_some hs
        refine ⟨h1, h2, ?_⟩
        simp only [List.any_eq_true, Bool.or_eq_true, decide_eq_true_eq] at hany
        obtain ⟨c, hc, rfl | rfl⟩ := hany
        · exact .inl hc
        · exact .inr hc
      · simp at h
  · rintro ⟨rfl, h1, h2⟩
    rw [splitLast_join d f h1]
    simp only
    rw [if_pos]
    rw [List.any_eq_true]
    rcases h2 with h | h
    · exact ⟨_, h, by simp⟩
    · exact ⟨_, h, by simp⟩

/-- A path `directory/filter` names exactly the files of the directory whose names fit, in the
order of the directory. -/
theorem filtered_files_partial (fs : FS) (d f : Str) (files : List Str) (hd : fs.dir d = some files)
    (hsl : slash ∉ f) (hw : mark ∈ f ∨ star ∈ f) (hf : Tame f) (hn : ∀ n ∈ files, OneLine n) :
    ∃ chosen : List Str, eachFiles fs (d ++ slash :: f) = .ok (chosen.map fun n => d ++ slash :: n)
      ∧ chosen.Sublist files ∧ ∀ n ∈ files, n ∈ chosen ↔ Fits f n := by
  have hs := (split_at_last_slash (d ++ slash :: f) d f).mpr ⟨rfl, hsl, hw⟩
  unfold eachFiles
  rw [hs]
  simp only
  unfold allFiles
  rw [parse_filter hf]
  simp only
  rw [hd]
  refine ⟨_, rfl, List.filter_sublist, ?_⟩
  intro n hm
  rw [List.mem_filter, search_first]
  have := run_fits f true n (hn n hm)
  constructor
  · intro h; exact this.mp h.2
  · intro h; exact ⟨hm, this.mpr h⟩

/-- The path of an existing file names just that file. -/
theorem plain_file (fs : FS) (path : Str) (h : splitPathFilter path = none)
    (hd : fs.dir path = none) (hf : fs.file path = true) : eachFiles fs path = .ok [path] := by
  unfold eachFiles
  rw [h]
  simp [hd, hf]

/-- What does not exist is refused. -/
theorem missing_file (fs : FS) (path : Str) (h : splitPathFilter path = none)
    (hd : fs.dir path = none) (hf : fs.file path = false) :
    eachFiles fs path = .error .notExists := by
  unfold eachFiles
  rw [h]
  simp [hd, hf]

/-- Text for the examples. -/
def txt (s : String) : Str := s.toList.map Char.toNat

/-- A file system with two directories. -/
def disk : FS where
  dir := fun d =>
    if d = txt "/src" then some [txt "a.cs", txt "b(1).cs", txt "notes.txt", txt ".cs"]
    else if d = txt "/src/c++" then some [txt "x.cs"]
    else none
  file := fun p => p = txt "/src/a.cs" || p = txt "/src/c++/a+b.cs"

example : (eachFiles disk (txt "/src/*.cs")).toOption
    = some [txt "/src/a.cs", txt "/src/b(1).cs", txt "/src/.cs"] := by decide +kernel

example : Tame (txt "*.cs") ∧ OneLine (txt "b(1).cs") ∧ Fits (txt "?(*.cs") (txt "b(1).cs") := by
  refine ⟨by decide, by decide, ?_⟩
  exact .one (.same (by decide) (by decide) (.some (.some (.none (.same (by decide) (by decide)
    (.same (by decide) (by decide) (.same (by decide) (by decide) .done)))))))

/-! ## Where it goes wrong -/

/-- `+` is not escaped: the filter `a+b*` does not choose `a+b.cs`, but `aab.cs`. -/
theorem plus_refuted :
    isMatch (toRegex (txt "a+b*")) (txt "a+b.cs") = some false ∧ Fits (txt "a+b*") (txt "a+b.cs")
    ∧ isMatch (toRegex (txt "a+b*")) (txt "aab.cs") = some true := by
  refine ⟨by decide +kernel, ?_, by decide +kernel⟩
  exact .same (by decide) (by decide) (.same (by decide) (by decide) (.same (by decide) (by decide)
    (.some (.some (.some (.none .done))))))

/-- A whole line of examples: with no directory, and with one that does not exist. -/
example : (eachFiles disk (txt "*.cs")).toOption = none
    ∧ (eachFiles disk (txt "/nowhere/*.cs")).toOption = some [] := by decide +kernel

/-- `|` is not escaped: the filter `a|b?` chooses every name that begins with `a`. -/
theorem bar_refuted : isMatch (toRegex (txt "a|b?")) (txt "anything") = some true := by
  decide +kernel

/-- A directory names no files at all, whatever is in it: the wrong directory is listed. -/
theorem directory_refuted (fs : FS) (path : Str) (files : List Str)
    (h : splitPathFilter path = none) (hd : fs.dir path = some files) (he : fs.dir [] = none) :
    eachFiles fs path = .ok [] := by
  unfold eachFiles
  rw [h]
  simp only
  rw [if_pos (by rw [hd]; rfl)]
  unfold allFiles
  rw [parse_filter (by decide)]
  simp [he]

example : (disk.dir (txt "/src")).isSome = true ∧ disk.dir [] = none
    ∧ (eachFiles disk (txt "/src")).toOption = some [] := by decide +kernel

/-- A filter without a directory is taken for a file that does not exist. -/
theorem bare_filter_refuted (fs : FS) (f : Str) (hs : slash ∉ f) (hd : fs.dir f = none)
    (hf : fs.file f = false) : eachFiles fs f = .error .notExists := by
  apply missing_file fs f _ hd hf
  cases h : splitPathFilter f with
  | none => rfl
  | some r =>
    obtain ⟨a, b⟩ := r
    have := ((split_at_last_slash f a b).mp h).1
    exact absurd (by rw [this]; simp) hs

end Verif.Wild
