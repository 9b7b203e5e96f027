import Verif.Model.Table
import Verif.Props.Heap

namespace Verif.Table

open Verif.Heap (Byte Heap)

/-- The parser consumes exactly `w`, yielding `x`, and fails on every proper prefix of `w`. -/
structure Exact {α : Type} (P : List Byte → Option (α × List Byte)) (w : List Byte) (x : α) : Prop where
  ok : ∀ r, P (w ++ r) = some (x, r)
  short : ∀ p, p <+: w → p.length < w.length → P p = none

theorem exact_take {w : List Byte} {n : Nat} (h : w.length = n) : Exact (take n) w w where
  ok r := by
    unfold take
    rw [if_neg (by rw [List.length_append]; omega), ← h, List.take_left, List.drop_left]
  short p _ hl := by
    unfold take
    rw [if_pos (by omega)]

theorem exact_pure {α : Type} {P : List Byte → Option (α × List Byte)} {x : α} (h : ∀ s, P s = some (x, s)) :
    Exact P [] x where
  ok r := by rw [h]; rfl
  short p _ hl := by simp at hl

theorem exact_bind {α β : Type} {P : List Byte → Option (α × List Byte)} {Q R} {u v : List Byte} {x : α} {y : β}
    (hP : Exact P u x) (hQ : Exact Q v y) (hR : ∀ s s', P s = some (x, s') → R s = Q s')
    (hN : ∀ s, P s = none → R s = none) : Exact R (u ++ v) y where
  ok r := by
    rw [List.append_assoc, hR _ _ (hP.ok (v ++ r)), hQ.ok]
  short p hp hl := by
    by_cases h : p.length < u.length
    · exact hN _ (hP.short p (List.prefix_of_prefix_length_le hp (List.prefix_append u v) (by omega)) h)
    · have hu : u <+: p := List.prefix_of_prefix_length_le (List.prefix_append u v) hp (by omega)
      obtain ⟨q, rfl⟩ := hu
      rw [hR _ _ (hP.ok q)]
      apply hQ.short
      · exact (List.prefix_append_right_inj u).1 hp
      · rw [List.length_append, List.length_append] at hl; omega

theorem ofLe32_le32 {n : Nat} (h : n < 2 ^ 32) : ofLe32 (le32 n) = n := by
  simp [ofLe32, le32, List.range, List.range.loop]
  omega

theorem le32_length (n : Nat) : (le32 n).length = 4 := by simp [le32]

/-- What is read into `blank` from the members of `r`. -/
def merged (fs : List String) (r blank : RowData) : RowData := fun x => if x ∈ fs then r x else blank x

theorem exact_fields {size : String → Nat} {r : RowData} : ∀ {fs : List String} {b : RowData},
    (∀ f ∈ fs, (r f).length = size f) → Exact (readFields size fs b) (fs.flatMap r) (merged fs r b)
  | [], b, _ => by
    have : merged [] r b = b := by funext x; simp [merged]
    rw [this]
    exact exact_pure fun s => rfl
  | f :: fs, b, h => by
    have ih := exact_fields (size := size) (r := r) (fs := fs) (b := fun x => if x = f then r f else b x)
      (fun f hf => h f (List.mem_cons_of_mem _ hf))
    have : merged (f :: fs) r b = merged fs r (fun x => if x = f then r f else b x) := by
      funext x
      simp only [merged, List.mem_cons]
      by_cases hx : x = f
      · subst hx; simp
      · simp [hx]
    rw [this, List.flatMap_cons]
    refine exact_bind (exact_take (h f (List.mem_cons_self ..))) ih ?_ ?_
    · intro s s' hs
      rw [readFields, hs]
    · intro s hs
      rw [readFields, hs]

theorem exact_rows {size : Kind → String → Nat} {b : RowData} {k : Kind} : ∀ {rs : List RowData},
    (∀ r ∈ rs, ∀ f ∈ fieldsOf k, (r f).length = size k f) →
    Exact (readRows size b k rs.length) (rs.flatMap (writeRow k)) (rs.map fun r => merged (fieldsOf k) r b)
  | [], _ => exact_pure fun s => rfl
  | r :: rs, h => by
    rw [List.flatMap_cons]
    have ih := exact_rows (size := size) (b := b) (k := k) (rs := rs) (fun r hr => h r (List.mem_cons_of_mem _ hr))
    have h1 := exact_fields (size := size k) (b := b) (h r (List.mem_cons_self ..))
    -- the rest of the loop, with the first row put in front
    have h2 : Exact (fun s => (readRows size b k rs.length s).map fun p =>
        (merged (fieldsOf k) r b :: p.1, p.2)) (rs.flatMap (writeRow k))
        ((r :: rs).map fun r => merged (fieldsOf k) r b) :=
      { ok := fun t => by simp only [ih.ok t]; rfl
        short := fun p hp hl => by simp only [ih.short p hp hl]; rfl }
    refine exact_bind h1 h2 ?_ ?_
    · intro s s' hs
      simp only [List.length_cons]
      rw [readRows, hs]
      simp only
      cases readRows size b k rs.length s' with
      | none => rfl
      | some p => rfl
    · intro s hs
      simp only [List.length_cons]
      rw [readRows, hs]

theorem exact_tables {size : Kind → String → Nat} {b : RowData} {rows : Kind → List RowData} : ∀ {ks : List Kind},
    (∀ k ∈ ks, ∀ r ∈ rows k, ∀ f ∈ fieldsOf k, (r f).length = size k f) →
    Exact (readTables size b (ks.map fun k => (k, (rows k).length)))
      (ks.flatMap fun k => (rows k).flatMap (writeRow k))
      (ks.map fun k => (k, (rows k).map fun r => merged (fieldsOf k) r b))
  | [], _ => exact_pure fun s => rfl
  | k :: ks, h => by
    rw [List.flatMap_cons]
    have ih := exact_tables (size := size) (b := b) (rows := rows) (ks := ks)
      (fun k hk => h k (List.mem_cons_of_mem _ hk))
    have h1 := exact_rows (size := size) (b := b) (h k (List.mem_cons_self ..))
    have h2 : Exact (fun s => (readTables size b (ks.map fun k => (k, (rows k).length)) s).map fun p =>
        ((k, (rows k).map fun r => merged (fieldsOf k) r b) :: p.1, p.2))
        (ks.flatMap fun k => (rows k).flatMap (writeRow k))
        ((k :: ks).map fun k => (k, (rows k).map fun r => merged (fieldsOf k) r b)) :=
      { ok := fun t => by simp only [ih.ok t]; rfl
        short := fun p hp hl => by simp only [ih.short p hp hl]; rfl }
    refine exact_bind h1 h2 ?_ ?_
    · intro s s' hs
      simp only [List.map_cons]
      rw [readTables, hs]
      simp only
      cases readTables size b (ks.map fun k => (k, (rows k).length)) s' with
      | none => rfl
      | some p => rfl
    · intro s hs
      simp only [List.map_cons]
      rw [readTables, hs]

theorem exact_directory : ∀ {es : List (Nat × Nat)}, (∀ e ∈ es, e.2 < 2 ^ 32) →
    Exact (readDirectory es.length) (es.flatMap fun e => le32 e.1 ++ le32 e.2) (es.map (·.2))
  | [], _ => exact_pure fun s => rfl
  | (o, n) :: es, h => by
    rw [List.flatMap_cons, List.append_assoc]
    have ih := exact_directory (es := es) (fun e he => h e (List.mem_cons_of_mem _ he))
    have hn := h (o, n) (List.mem_cons_self ..)
    have h3 : Exact (fun s => (readDirectory es.length s).map fun p => (n :: p.1, p.2))
        (es.flatMap fun e => le32 e.1 ++ le32 e.2) (((o, n) :: es).map (·.2)) :=
      { ok := fun t => by simp only [ih.ok t]; rfl
        short := fun p hp hl => by simp only [ih.short p hp hl]; rfl }
    have h2 : Exact (fun s => match take 4 s with
        | none => none
        | some (rows, s) =>
          match readDirectory es.length s with
          | none => none
          | some (rest, s) => some (ofLe32 rows :: rest, s))
        (le32 n ++ es.flatMap fun e => le32 e.1 ++ le32 e.2) (((o, n) :: es).map (·.2)) := by
      refine exact_bind (exact_take (le32_length n)) h3 ?_ ?_
      · intro s s' hs
        rw [hs]
        simp only
        rw [ofLe32_le32 hn]
        cases readDirectory es.length s' with
        | none => rfl
        | some p => rfl
      · intro s hs
        rw [hs]
    refine exact_bind (exact_take (le32_length o)) h2 ?_ ?_
    · intro s s' hs
      simp only [List.length_cons]
      rw [readDirectory, hs]
      rfl
    · intro s hs
      simp only [List.length_cons]
      rw [readDirectory, hs]

theorem directory_go {size : Kind → String → Nat} {a : Assembly} : ∀ (ks : List Kind) (off : Nat)
    (acc : List (Nat × Nat)), ((directory.go size a ks off acc).1.map (·.2)) =
      acc.map (·.2) ++ ks.map fun k => (a.rows k).length
  | [], off, acc => by simp [directory.go]
  | k :: ks, off, acc => by
    rw [directory.go, directory_go ks]
    simp

theorem directory_counts (size : Kind → String → Nat) (a : Assembly) :
    (directory size a).1.map (·.2) = kinds.map fun k => (a.rows k).length := by
  unfold directory
  rw [directory_go]; rfl

theorem mem_kinds (k : Kind) : k ∈ kinds := by cases k <;> decide

end Verif.Table
