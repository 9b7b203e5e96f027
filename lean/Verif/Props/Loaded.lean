import Verif.Spec.Loaded
/-!
# C128: an assembly is loaded once
-/

namespace Verif.Loaded

/-! ## What holds of the state -/

/-- The invariant: the objects are in the vector in the order they were made, each has its place as index,
and the names and the main assembly have different ones. -/
structure Inv (s : State) : Prop where
  vector : s.vector = List.range s.objects
  index : ∀ a, a < s.objects → s.index a = (a : Int)
  main : ∀ a, s.main = some a → a < s.objects
  map : ∀ k a, s.map.lookup k = some a → a < s.objects
  apart : ∀ k a, s.map.lookup k = some a → s.main ≠ some a
  one : ∀ k l a, s.map.lookup k = some a → s.map.lookup l = some a → k = l

theorem inv_start : Inv State.start :=
  ⟨rfl, fun a h => (by cases h), fun a h => (by cases h), fun k a h => (by cases h), fun k a h => (by cases h),
   fun k l a h => (by cases h)⟩

theorem revise_fresh {s : State} (h : Inv s) (m : Option Nat) :
    ({ s.fresh with main := m } : State).revise s.objects =
      { s with objects := s.objects + 1, index := fun i => if i = s.objects then (s.objects : Int) else s.index i,
               vector := s.vector ++ [s.objects], main := m } := by
  unfold State.revise State.fresh
  dsimp only
  rw [if_pos (by simp)]
  have : s.vector.length = s.objects := by rw [h.vector, List.length_range]
  rw [this]
  congr 1
  funext i
  by_cases e : i = s.objects
  · rw [if_pos e, if_pos e]
  · rw [if_neg e, if_neg e, if_neg e]

theorem lookup_cons' {k l : Key} {a : Nat} {m : List (Key × Nat)} :
    ((k, a) :: m).lookup l = if l = k then some a else m.lookup l := by
  rw [List.lookup_cons]
  by_cases h : l = k
  · subst h; simp
  · have : (l == k) = false := by simpa using h
    rw [this, if_neg h]

theorem load_made {p : Provider} {s : State} {k : Key} (h : Inv s) (hl : s.map.lookup k = none)
    (hp : p.load k = .made) :
    s.load p k = ({ objects := s.objects + 1, index := fun i => if i = s.objects then (s.objects : Int) else s.index i, main := s.main, map := (k, s.objects) :: s.map, vector := s.vector ++ [s.objects] }, .assembly s.objects) := by
  unfold State.load
  rw [hl]; dsimp only; rw [hp]; dsimp only
  have := revise_fresh h s.main
  rw [show ({ s.fresh with main := s.main } : State) = s.fresh from rfl] at this
  rw [this]

theorem main_made {p : Provider} {s : State} (h : Inv s) (hm : s.main = none) (hp : p.main = .made) :
    s.loadMain p = ({ objects := s.objects + 1, index := fun i => if i = s.objects then (s.objects : Int) else s.index i, main := some s.objects, map := s.map, vector := s.vector ++ [s.objects] }, .assembly s.objects) := by
  unfold State.loadMain
  rw [hm]; dsimp only; rw [hp]; dsimp only
  rw [revise_fresh h]

theorem inv_step {s : State} (h : Inv s) (p : Provider) (op : Op) : Inv (step p s op).1 := by
  cases op with
  | «at» i => exact h
  | main =>
    show Inv (s.loadMain p).1
    cases hm : s.main with
    | some a => unfold State.loadMain; rw [hm]; exact h
    | none =>
      cases hp : p.main with
      | throws => unfold State.loadMain; rw [hm]; dsimp only; rw [hp]; exact h
      | null => unfold State.loadMain; rw [hm]; dsimp only; rw [hp]; exact h
      | made =>
        rw [main_made h hm hp]
        refine ⟨?_, ?_, ?_, ?_, ?_, h.one⟩
        · show s.vector ++ [s.objects] = _
          rw [h.vector]; exact List.range_succ.symm
        · intro a ha
          have ha : a < s.objects + 1 := ha
          show (if a = s.objects then _ else _) = _
          split
          · rename_i e; rw [e]
          · exact h.index a (by omega)
        · intro a ha
          have ha : some s.objects = some a := ha
          injection ha with ha
          show a < s.objects + 1; omega
        · intro k a ha
          have := h.map k a ha
          show a < s.objects + 1; omega
        · intro k a ha hc
          have hc : some s.objects = some a := hc
          injection hc with hc
          have := h.map k a ha
          omega
  | load k =>
    show Inv (s.load p k).1
    cases hl : s.map.lookup k with
    | some a => unfold State.load; rw [hl]; exact h
    | none =>
      cases hp : p.load k with
      | throws => unfold State.load; rw [hl]; dsimp only; rw [hp]; exact h
      | null => unfold State.load; rw [hl]; dsimp only; rw [hp]; exact h
      | made =>
        rw [load_made h hl hp]
        refine ⟨?_, ?_, ?_, ?_, ?_, ?_⟩
        · show s.vector ++ [s.objects] = _
          rw [h.vector]; exact List.range_succ.symm
        · intro a ha
          have ha : a < s.objects + 1 := ha
          show (if a = s.objects then _ else _) = _
          split
          · rename_i e; rw [e]
          · exact h.index a (by omega)
        · intro a ha
          have := h.main a ha
          show a < s.objects + 1; omega
        · intro l a ha
          have ha : ((k, s.objects) :: s.map).lookup l = some a := ha
          show a < s.objects + 1
          rw [lookup_cons'] at ha
          split at ha
          · injection ha with ha; omega
          · have := h.map l a ha; omega
        · intro l a ha hc
          have ha : ((k, s.objects) :: s.map).lookup l = some a := ha
          have := h.main a hc
          rw [lookup_cons'] at ha
          split at ha
          · injection ha with ha; omega
          · exact h.apart l a ha hc
        · intro l m a ha hb
          have ha : ((k, s.objects) :: s.map).lookup l = some a := ha
          have hb : ((k, s.objects) :: s.map).lookup m = some a := hb
          rw [lookup_cons'] at ha hb
          split at ha <;> split at hb
          · rename_i e1 e2; rw [e1, e2]
          · injection ha with ha; have := h.map m a hb; omega
          · injection hb with hb; have := h.map l a ha; omega
          · exact h.one l m a ha hb

/-- The state keeps what was found. -/
structure Grows (s t : State) : Prop where
  main : ∀ a, s.main = some a → t.main = some a
  map : ∀ k a, s.map.lookup k = some a → t.map.lookup k = some a
  objects : s.objects ≤ t.objects

theorem Grows.rfl' (s : State) : Grows s s := ⟨fun _ h => h, fun _ _ h => h, Nat.le_refl _⟩

theorem Grows.trans {s t u : State} (h : Grows s t) (g : Grows t u) : Grows s u :=
  ⟨fun a e => g.main a (h.main a e), fun k a e => g.map k a (h.map k a e), Nat.le_trans h.objects g.objects⟩

theorem step_grows {s : State} (h : Inv s) (p : Provider) (op : Op) : Grows s (step p s op).1 := by
  cases op with
  | «at» i => exact .rfl' s
  | main =>
    show Grows s (s.loadMain p).1
    cases hm : s.main with
    | some a => unfold State.loadMain; rw [hm]; exact .rfl' s
    | none =>
      cases hp : p.main with
      | throws => unfold State.loadMain; rw [hm]; dsimp only; rw [hp]; exact .rfl' s
      | null => unfold State.loadMain; rw [hm]; dsimp only; rw [hp]; exact .rfl' s
      | made =>
        rw [main_made h hm hp]
        exact ⟨fun a e => (by rw [hm] at e; cases e), fun _ _ e => e, Nat.le_succ _⟩
  | load k =>
    show Grows s (s.load p k).1
    cases hl : s.map.lookup k with
    | some a => unfold State.load; rw [hl]; exact .rfl' s
    | none =>
      cases hp : p.load k with
      | throws => unfold State.load; rw [hl]; dsimp only; rw [hp]; exact .rfl' s
      | null => unfold State.load; rw [hl]; dsimp only; rw [hp]; exact .rfl' s
      | made =>
        rw [load_made h hl hp]
        refine ⟨fun _ e => e, ?_, Nat.le_succ _⟩
        intro l a e
        show ((k, s.objects) :: s.map).lookup l = some a
        rw [lookup_cons']
        by_cases hk : l = k
        · rw [hk, hl] at e; cases e
        · rw [if_neg hk]; exact e

/-- What a call that gives an assembly leaves in the state. -/
theorem step_found {s : State} (h : Inv s) {p : Provider} {op : Op} {a : Nat}
    (e : (step p s op).2 = .assembly a) :
    a < (step p s op).1.objects ∧ (op = .main → (step p s op).1.main = some a) ∧
      (∀ k, op = .load k → (step p s op).1.map.lookup k = some a) := by
  cases op with
  | «at» i =>
    refine ⟨?_, fun c => (by cases c), fun k c => (by cases c)⟩
    have e : s.at i = .assembly a := e
    show a < s.objects
    unfold State.at at e
    split at e
    · cases e
    · split at e
      · rename_i b hb
        injection e with e
        subst e
        rw [h.vector] at hb
        exact List.mem_range.1 (List.mem_of_getElem? hb)
      · cases e
  | main =>
    have e : (s.loadMain p).2 = .assembly a := e
    refine ⟨?_, fun _ => ?_, fun k c => (by cases c)⟩
    all_goals
      show _
      cases hm : s.main with
      | some b =>
        have hs : s.loadMain p = (s, .assembly b) := by unfold State.loadMain; rw [hm]
        rw [hs] at e
        injection e with e
        subst e
        first
          | (show _ < (s.loadMain p).1.objects; rw [hs]; exact h.main _ hm)
          | (show (s.loadMain p).1.main = _; rw [hs]; exact hm)
      | none =>
        cases hp : p.main with
        | throws => unfold State.loadMain at e; rw [hm] at e; dsimp only at e; rw [hp] at e; cases e
        | null => unfold State.loadMain at e; rw [hm] at e; dsimp only at e; rw [hp] at e; cases e
        | made =>
          have hs := main_made h hm hp
          rw [hs] at e
          injection e with e
          subst e
          first
            | (show _ < (s.loadMain p).1.objects; rw [hs]; exact Nat.lt_succ_self _)
            | (show (s.loadMain p).1.main = _; rw [hs])
  | load k =>
    have e : (s.load p k).2 = .assembly a := e
    have main : a < (s.load p k).1.objects ∧ (s.load p k).1.map.lookup k = some a := by
      cases hl : s.map.lookup k with
      | some b =>
        have hs : s.load p k = (s, .assembly b) := by unfold State.load; rw [hl]
        rw [hs] at e ⊢
        injection e with e
        subst e
        exact ⟨h.map _ _ hl, hl⟩
      | none =>
        cases hp : p.load k with
        | throws => unfold State.load at e; rw [hl] at e; dsimp only at e; rw [hp] at e; cases e
        | null => unfold State.load at e; rw [hl] at e; dsimp only at e; rw [hp] at e; cases e
        | made =>
          have hs := load_made h hl hp
          rw [hs] at e ⊢
          injection e with e
          subst e
          refine ⟨Nat.lt_succ_self _, ?_⟩
          show ((k, s.objects) :: s.map).lookup k = _
          rw [lookup_cons', if_pos rfl]
    refine ⟨main.1, fun c => (by cases c), fun l c => ?_⟩
    injection c with c
    subst c
    exact main.2

theorem run_cons (s : State) (p : Provider) (op : Op) (ops : List (Provider × Op)) :
    run s ((p, op) :: ops) = ((run (step p s op).1 ops).1, (step p s op).2 :: (run (step p s op).1 ops).2) := rfl

theorem run_inv {s : State} (h : Inv s) (ops : List (Provider × Op)) :
    Inv (run s ops).1 ∧ Grows s (run s ops).1 := by
  induction ops generalizing s with
  | nil => exact ⟨h, .rfl' s⟩
  | cons x ops ih =>
    obtain ⟨p, op⟩ := x
    rw [run_cons]
    obtain ⟨i1, i2⟩ := ih (inv_step h p op)
    exact ⟨i1, (step_grows h p op).trans i2⟩

/-- What a call gave is still there at the end. -/
theorem run_found {s : State} (h : Inv s) (ops : List (Provider × Op)) {i a : Nat} {p : Provider} {op : Op}
    (ho : ops[i]? = some (p, op)) (hr : (run s ops).2[i]? = some (.assembly a)) :
    a < (run s ops).1.objects ∧ (op = .main → (run s ops).1.main = some a) ∧
      (∀ k, op = .load k → (run s ops).1.map.lookup k = some a) := by
  induction ops generalizing s i with
  | nil => cases ho
  | cons x ops ih =>
    obtain ⟨q, o⟩ := x
    rw [run_cons] at hr ⊢
    cases i with
    | zero =>
      have ho : some (q, o) = some (p, op) := ho
      injection ho with ho
      injection ho with e1 e2
      subst e1; subst e2
      have hr : some (step q s o).2 = some (.assembly a) := hr
      injection hr with hr
      obtain ⟨f1, f2, f3⟩ := step_found h hr
      have g := (run_inv (inv_step h q o) ops).2
      exact ⟨Nat.lt_of_lt_of_le f1 g.objects, fun c => g.main _ (f2 c), fun k c => g.map _ _ (f3 k c)⟩
    | succ i => exact ih (inv_step h q o) ho hr

/-! ## The properties -/

/-- A name gives the same assembly each time, whatever happens to the files in between. -/
theorem same_each_time {ops : List (Provider × Op)} {i j a b : Nat} {k : Key} (h1 : Gave ops i (.load k) a)
    (h2 : Gave ops j (.load k) b) : a = b := by
  obtain ⟨⟨p, e1⟩, e2⟩ := h1
  obtain ⟨⟨q, e3⟩, e4⟩ := h2
  have f1 := (run_found inv_start ops e1 e2).2.2 k rfl
  have f2 := (run_found inv_start ops e3 e4).2.2 k rfl
  rw [f1] at f2
  injection f2

/-- The main assembly is the same each time. -/
theorem main_each_time {ops : List (Provider × Op)} {i j a b : Nat} (h1 : Gave ops i .main a)
    (h2 : Gave ops j .main b) : a = b := by
  obtain ⟨⟨p, e1⟩, e2⟩ := h1
  obtain ⟨⟨q, e3⟩, e4⟩ := h2
  have f1 := (run_found inv_start ops e1 e2).2.1 rfl
  have f2 := (run_found inv_start ops e3 e4).2.1 rfl
  rw [f1] at f2
  injection f2

/-- Different names give different assemblies. -/
theorem names_apart {ops : List (Provider × Op)} {i j a : Nat} {k l : Key} (h1 : Gave ops i (.load k) a)
    (h2 : Gave ops j (.load l) a) : k = l := by
  obtain ⟨⟨p, e1⟩, e2⟩ := h1
  obtain ⟨⟨q, e3⟩, e4⟩ := h2
  have I := (run_inv inv_start ops).1
  exact I.one k l a ((run_found inv_start ops e1 e2).2.2 k rfl) ((run_found inv_start ops e3 e4).2.2 l rfl)

/-- Every assembly that was given can be got by its index afterwards, and what is got by an index has that
index. -/
theorem by_index {ops : List (Provider × Op)} {i a : Nat} {op : Op} (h : Gave ops i op a) :
    (after ops).at ((after ops).index a) = .assembly a := by
  obtain ⟨⟨p, e1⟩, e2⟩ := h
  have I := (run_inv inv_start ops).1
  have ha := (run_found inv_start ops e1 e2).1
  show State.at (run State.start ops).1 _ = _
  show State.at (run State.start ops).1 ((run State.start ops).1.index a) = _
  rw [I.index a ha]
  unfold State.at
  have hlen : (run State.start ops).1.vector.length = (run State.start ops).1.objects := by
    rw [I.vector, List.length_range]
  rw [if_neg (by omega)]
  have : (run State.start ops).1.vector[(a : Int).toNat]? = some a := by
    rw [I.vector, Int.toNat_natCast, List.getElem?_range ha]
  rw [this]

theorem index_back (ops : List (Provider × Op)) (i : Int) (a : Nat) (h : (after ops).at i = .assembly a) :
    (after ops).index a = i := by
  have I : Inv (after ops) := (run_inv inv_start ops).1
  unfold State.at at h
  split at h
  · cases h
  · rename_i hi
    have hlen : (after ops).vector.length = (after ops).objects := by rw [I.vector, List.length_range]
    have hlt : i.toNat < (after ops).objects := by omega
    rw [I.vector, List.getElem?_range hlt] at h
    injection h with h
    subst h
    rw [I.index _ hlt]
    omega

/-- The indices are the numbers below the number of assemblies, and nothing else gives one; no access goes
outside the vector. -/
theorem index_range (ops : List (Provider × Op)) (i : Int) :
    (after ops).at i ≠ .fault ∧
      ((∃ a, (after ops).at i = .assembly a) ↔ 0 ≤ i ∧ i < ((after ops).vector.length : Int)) := by
  unfold State.at
  split
  · rename_i hi
    refine ⟨by simp, ⟨fun ⟨a, h⟩ => (by cases h), fun h => (by omega)⟩⟩
  · rename_i hi
    have : i.toNat < (after ops).vector.length := by omega
    rw [List.getElem?_eq_getElem this]
    exact ⟨by simp, ⟨fun _ => (by omega), fun _ => ⟨_, rfl⟩⟩⟩

/-- A call that fails changes nothing: when the file is there later, the same call gives the assembly. -/
theorem failed_again (ops : List (Provider × Op)) (p q : Provider) (k : Key)
    (h : (step p (after ops) (.load k)).2 = .error) (hq : q.load k = .made) :
    (step p (after ops) (.load k)).1 = after ops ∧
      ∃ a, (step q (step p (after ops) (.load k)).1 (.load k)).2 = .assembly a := by
  have I : Inv (after ops) := (run_inv inv_start ops).1
  have h : ((after ops).load p k).2 = .error := h
  show ((after ops).load p k).1 = _ ∧ ∃ a, (((after ops).load p k).1.load q k).2 = _
  cases hl : (after ops).map.lookup k with
  | some a => unfold State.load at h; rw [hl] at h; cases h
  | none =>
    have e : ((after ops).load p k).1 = after ops := by
      cases hp : p.load k with
      | made => rw [load_made I hl hp] at h; cases h
      | throws => unfold State.load; rw [hl]; dsimp only; rw [hp]
      | null => unfold State.load; rw [hl]; dsimp only; rw [hp]
    rw [e]
    exact ⟨rfl, _, by rw [load_made I hl hq]⟩

/-- With the provider programs are run with, an assembly is found by its path, or next to the main one; one
with a package must have a path. -/
theorem where_found (files : String → Bool) (mainPath dir ext : String) (paths : List (Key × String))
    (ops : List (Provider × Op)) (k : Key) (hk : (after ops).map.lookup k = none) :
    (∃ a, (step (fileProvider files mainPath dir ext paths) (after ops) (.load k)).2 = .assembly a) ↔
      (match paths.lookup k with
        | some path => files path = true
        | none => k.1 = "" ∧ files (dir ++ "/" ++ k.2 ++ "." ++ ext) = true) := by
  have I : Inv (after ops) := (run_inv inv_start ops).1
  have key : (∃ a, (step (fileProvider files mainPath dir ext paths) (after ops) (.load k)).2 = .assembly a) ↔
      (fileProvider files mainPath dir ext paths).load k = .made := by
    show (∃ a, ((after ops).load _ k).2 = _) ↔ _
    cases hp : (fileProvider files mainPath dir ext paths).load k with
    | made => rw [load_made I hk hp]; exact ⟨fun _ => rfl, fun _ => ⟨_, rfl⟩⟩
    | throws => unfold State.load; rw [hk]; dsimp only; rw [hp]; simp
    | null => unfold State.load; rw [hk]; dsimp only; rw [hp]; simp
  rw [key]
  unfold fileProvider open_
  dsimp only
  cases paths.lookup k with
  | some path => dsimp only; cases files path <;> simp
  | none =>
    dsimp only
    by_cases h : k.1 = ""
    · rw [if_pos h]
      cases files (dir ++ "/" ++ k.2 ++ "." ++ ext) <;> simp [h]
    · rw [if_neg h]; simp [h]

/-- Files for a sample: the main assembly, a library beside it and the one of the system elsewhere. -/
def demo : Provider :=
  fileProvider (fun s => s ∈ ["/p/app.xx", "/p/lib.xx", "/sys/System.xx"]) "/p/app.xx" "/p" "xx"
    [(("", "System"), "/sys/System.xx")]

example : (run State.start [(demo, .main), (demo, .load ("", "System")), (demo, .load ("", "lib")), (demo, .load ("", "System")),
    (demo, .main), (demo, .at 2), (demo, .at 3), (demo, .load ("", "none")), (demo, .load ("pk", "lib"))]).2 =
    [.assembly 0, .assembly 1, .assembly 2, .assembly 1, .assembly 0, .assembly 2, .error, .error, .error] := by
  decide +kernel

/-- An assembly that refers back to the main one by its name gets another assembly, although both come from
one file: its classes and static fields exist twice. -/
theorem main_twice_refuted :
    (run State.start [(demo, .main), (demo, .load ("", "lib")), (demo, .load ("", "app"))]).2 =
      [.assembly 0, .assembly 1, .assembly 2] := by decide +kernel

/-- Whatever was loaded, a name never gives the main assembly. -/
theorem never_main_refuted {ops : List (Provider × Op)} {i j a b : Nat} {k : Key} (h1 : Gave ops i .main a)
    (h2 : Gave ops j (.load k) b) : a ≠ b := by
  obtain ⟨⟨p, e1⟩, e2⟩ := h1
  obtain ⟨⟨q, e3⟩, e4⟩ := h2
  have I := (run_inv inv_start ops).1
  have f1 := (run_found inv_start ops e1 e2).2.1 rfl
  have f2 := (run_found inv_start ops e3 e4).2.2 k rfl
  intro e
  subst e
  exact I.apart k a f2 f1

/-- A provider that has no such assembly and gives a null pointer is not answered with an error: the pointer
is followed before it is tested. -/
theorem null_refuted : (run State.start [(⟨.made, fun _ => .null⟩, .load ("", "x"))]).2 = [.fault] := by
  decide +kernel

end Verif.Loaded
