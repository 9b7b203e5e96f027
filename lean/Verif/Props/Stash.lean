import Verif.Proof.Stash
/-!
# C127: lists that are thinned out, caches and pools
-/

namespace Verif.Stash

variable {α σ κ ν : Type}

/-- Whatever is done with a list, nothing is written or read outside its buffer, it contains what it should,
and a predicate is asked about each element once, in order. -/
theorem list_is (ops : List (Op α σ)) (s : σ) :
    ∃ l, run WList.new s ops = some (l, (runList [] s ops).2) ∧ l.all = some (runList [] s ops).1 ∧
      l.count = (runList [] s ops).1.length ∧ ∀ i, l.get i = (runList [] s ops).1[i]? := by
  obtain ⟨l, e, h⟩ := run_is ops (is_new (α := α)) s
  exact ⟨l, e, is_all h, h.count, is_get h⟩

/-- With a predicate that has no state, what is left after a walk is what it accepts. -/
theorem walk_filters (ops : List (Op α σ)) (s : σ) (p : α → Bool) :
    ∃ l, run WList.new s (ops ++ [.walk fun s x => (p x, s)]) = some (l, (runList [] s ops).2) ∧
      l.all = some ((runList [] s ops).1.filter p) := by
  have hrl : ∀ (ops : List (Op α σ)) (xs : List α) (s : σ),
      runList xs s (ops ++ [.walk fun s x => (p x, s)]) =
        keep (fun s x => (p x, s)) (runList xs s ops).2 (runList xs s ops).1 := by
    intro ops
    induction ops with
    | nil => intro xs s; rfl
    | cons op ops ih => intro xs s; exact ih _ _
  have hk : ∀ (xs : List α) (s : σ), keep (fun s x => (p x, s)) s xs = (xs.filter p, s) := by
    intro xs
    induction xs with
    | nil => intro s; rfl
    | cons x xs ih =>
      intro s
      unfold keep
      simp only [ih, List.filter_cons]
  obtain ⟨l, e, h1, _⟩ := list_is (ops ++ [.walk fun s x => (p x, s)]) s
  rw [hrl, hk] at e h1
  exact ⟨l, e, h1⟩

example : (run WList.new 0 ([.append [1, 2, 3, 4, 5, 6, 7, 8], .push 9, .walk fun n x => (x % 2 == 1, n + 1), .truncate 4] :
    List (Op Nat Nat))).map (fun r => (r.1.all, r.1.size, r.2)) = some (some [1, 3, 5, 7], 16, 9) := by
  decide +kernel

/-- A walk over a part of the list: what is before the part stays, what the predicate accepts of it stays. -/
theorem part_partial (ops : List (Op α σ)) (s t : σ) (pred : σ → α → Bool × σ) (first last : Nat)
    (h1 : first ≤ last) (h2 : last ≤ (runList [] s ops).1.length) :
    ∃ l l', run WList.new s ops = some (l, (runList [] s ops).2) ∧
      l.walk pred t first (some last) =
        some (l', (keep pred t (((runList [] s ops).1.take last).drop first)).2) ∧
      l'.all = some ((runList [] s ops).1.take first ++
        (keep pred t (((runList [] s ops).1.take last).drop first)).1) := by
  obtain ⟨l, e, h⟩ := run_is ops (is_new (α := α)) s
  obtain ⟨l', e', h'⟩ := is_walk h pred t first (some last) h1 h2
  exact ⟨l, l', e, e', is_all h'⟩

/-- What is behind the part is lost, although the predicate was not asked about it. -/
theorem part_refuted :
    ((run WList.new () ([.append [1, 2, 3, 4]] : List (Op Nat Unit))).bind fun r =>
      r.1.walk (fun (asked : List Nat) x => (true, asked ++ [x])) [] 1 (some 2)).map
        (fun r => (r.1.all, r.2)) = some (some [1, 2], [2]) := by decide +kernel

/-- A walk that starts behind the end makes the list longer by elements nobody put there. -/
theorem behind_refuted :
    ((run WList.new () ([.append [1]] : List (Op Nat Unit))).bind fun r =>
      r.1.walk (fun _ _ => (true, ())) () 3).map (fun r => (r.1.count, r.1.all)) = some (3, none) := by
  decide +kernel

/-- A cache asks its creator once for each key, when the key comes up first, and gives each time what the
creator made then. -/
theorem cache_once [DecidableEq κ] (creator : σ → κ → ν × σ) (s : σ) (ks : List κ) :
    (cacheRun creator [] s ks).2.2 = (makeAll creator s (firsts [] ks)).2 ∧
      (cacheRun creator [] s ks).1.map some =
        ks.map fun k => (makeAll creator s (firsts [] ks)).1.reverse.lookup k := by
  obtain ⟨h1, h2, h3, _⟩ := cache_run creator ks [] s [] (by simp)
  rw [List.append_nil] at h1
  rw [h1] at h3
  exact ⟨h2, h3⟩

/-- Each key is asked for once. -/
theorem firsts_once [DecidableEq κ] (ks : List κ) :
    (firsts [] ks).Nodup ∧ ∀ k, k ∈ firsts [] ks ↔ k ∈ ks := by
  have : ∀ (ks seen : List κ), (firsts seen ks).Nodup ∧ ∀ k, k ∈ firsts seen ks ↔ k ∈ ks ∧ k ∉ seen := by
    intro ks
    induction ks with
    | nil => intro seen; exact ⟨List.nodup_nil, fun k => by simp [firsts]⟩
    | cons x xs ih =>
      intro seen
      unfold firsts
      by_cases hx : x ∈ seen
      · rw [if_pos hx]
        refine ⟨(ih seen).1, fun k => ?_⟩
        rw [(ih seen).2 k]
        simp only [List.mem_cons]
        constructor
        · exact fun h => ⟨.inr h.1, h.2⟩
        · rintro ⟨h | h, h2⟩
          · exact absurd (h ▸ hx) h2
          · exact ⟨h, h2⟩
      · rw [if_neg hx]
        obtain ⟨i1, i2⟩ := ih (x :: seen)
        refine ⟨List.nodup_cons.2 ⟨fun h => ((i2 x).1 h).2 (by simp), i1⟩, fun k => ?_⟩
        simp only [List.mem_cons, i2 k]
        constructor
        · rintro (h | ⟨h, h2⟩)
          · exact ⟨.inl h, h ▸ hx⟩
          · exact ⟨.inr h, fun h3 => h2 (.inr h3)⟩
        · rintro ⟨h | h, h2⟩
          · exact .inl h
          · by_cases e : k = x
            · exact .inl e
            · exact .inr ⟨h, fun h3 => h3.elim e h2⟩
  have h := this ks []
  exact ⟨h.1, fun k => by rw [h.2 k]; simp⟩

example : cacheRun (fun n k => (k * 10 + n, n + 1)) [] 0 [4, 7, 4, 4, 7, 1] =
    ([40, 71, 40, 40, 71, 12], [(1, 12), (7, 71), (4, 40)], 3) := by decide +kernel

/-- As long as only objects that are in use are given back, the objects in use are different ones, each
contains what was put into it, and no more were made than were ever in use at once. -/
theorem pool_safe (ops : List (PoolOp α)) {w : List (Nat × α)}
    (h : inUse [] ops (Pool.start.run ops).2 = some w) :
    (w.map (·.1)).Nodup ∧ (∀ o x, (o, x) ∈ w → (Pool.start.run ops).1.content o = some x) ∧
      (Pool.start.run ops).1.made = peak 0 0 ops := by
  obtain ⟨F, hm⟩ := pool_run ops fine_start h
  exact ⟨(List.nodup_append.1 F.nodup).1, F.content, hm⟩

/-- What a pool gives next is in use nowhere. -/
theorem pool_fresh (ops : List (PoolOp α)) {w : List (Nat × α)}
    (h : inUse [] ops (Pool.start.run ops).2 = some w) (x : α) :
    ((Pool.start.run ops).1.new x).2 ∉ w.map (·.1) :=
  (fine_new (pool_run ops fine_start h).1 x).2.1

/-- The sample: five objects are asked for, two made after two were given back. -/
def demoPool : List (PoolOp Nat) := [.new 5, .new 6, .new 7, .release 1, .release 0, .new 8, .new 9]

example : (Pool.start.run demoPool).2 = [some 0, some 1, some 2, none, none, some 1, some 0] ∧
    inUse [] demoPool (Pool.start.run demoPool).2 = some [(0, 9), (1, 8), (2, 7)] ∧
    peak 0 0 demoPool = 3 ∧ (Pool.start.run demoPool).1.made = 3 := by decide +kernel

/-- An object that is given back twice is given out twice: no check is made. -/
theorem twice_refuted :
    (Pool.start.run ([.new 5, .release 0, .release 0, .new 6, .new 7] : List (PoolOp Nat))).2 =
      [some 0, none, none, some 0, some 0] := by decide +kernel

end Verif.Stash
