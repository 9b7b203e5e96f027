import Verif.Proof.Table

/-!
C57: an assembly file keeps every row of every table, and the heap.
-/

namespace Verif.Table

open Verif.Heap (Byte Heap Codec init run)

/-- **C57.** Every kind of row other than a type is written with all its members. -/
theorem members_written (k : Kind) (hk : k ≠ .type) : fieldsOf k = declared k := by
  cases k <;> first | rfl | exact absurd rfl hk

/-- A type is written with all its members but one. -/
theorem type_members_written_partial (m : String) (hm : m ∈ declared .type) (hd : m ≠ "type_defs") :
    m ∈ fieldsOf .type := by
  have : ∀ m ∈ declared .type, m ≠ "type_defs" → m ∈ fieldsOf .type := by decide
  exact this m hm hd

/-- **C57, refuted for the nested typedefs of a type.** The member that holds them is declared, but never written. -/
theorem type_defs_refuted : "type_defs" ∈ declared .type ∧ "type_defs" ∉ fieldsOf .type := by decide

/-- What a user has in hand when an assembly is saved: rows whose members have their declared sizes, fewer than 2^32
rows per table, and a heap filled by any sequence of operations. -/
structure Saveable (size : Kind → String → Nat) (c : Codec) (a : Assembly) : Prop where
  members : ∀ k, ∀ r ∈ a.rows k, ∀ m ∈ declared k, (r m).length = size k m
  counts : ∀ k, (a.rows k).length < 2 ^ 32
  heap : ∃ g h0 ops rs, init g = some h0 ∧ run c h0 ops = some (a.heap, rs)
  limit : a.heap.buf.p - 1 ≤ 64 * 1024 * 1024

theorem fields_sub {k : Kind} {m : String} (h : m ∈ fieldsOf k) : m ∈ declared k := by
  by_cases hk : k = .type
  · subst hk
    have : ∀ m ∈ fieldsOf .type, m ∈ declared .type := by decide
    exact this m h
  · rwa [members_written k hk] at h

/-- The parser of everything before the heap. -/
def readHead (size : Kind → String → Nat) (blank : RowData) (guideSize : Nat) (s : List Byte) :
    Option ((List Byte × List Byte × List (Kind × List RowData)) × List Byte) :=
  match take guideSize s with
  | none => none
  | some (guide, s) =>
    match take 4 s with
    | none => none
    | some (_, s) =>
      match take 4 s with
      | none => none
      | some (heapSize, s) =>
        match readDirectory kinds.length s with
        | none => none
        | some (counts, s) =>
          match readTables size blank (kinds.zip counts) s with
          | none => none
          | some (ts, s) => some ((guide, heapSize, ts), s)

theorem readFile_head (size : Kind → String → Nat) (blank : RowData) (c : Codec) (g : Nat → Byte) (h0 : Heap)
    (guideSize : Nat) (s : List Byte) : readFile size blank c g h0 guideSize s =
      match readHead size blank guideSize s with
      | none => none
      | some ((guide, heapSize, ts), s) =>
        match Heap.load c g (ofLe32 heapSize + 1) h0 (ofLe32 heapSize) s with
        | none => none
        | some h => some (guide, ts, h) := by
  unfold readFile readHead
  cases take guideSize s with
  | none => rfl
  | some p =>
    obtain ⟨p1, p2⟩ := p
    simp only
    cases take 4 p2 with
    | none => rfl
    | some q =>
      obtain ⟨q1, q2⟩ := q
      simp only
      cases take 4 q2 with
      | none => rfl
      | some t =>
        obtain ⟨t1, t2⟩ := t
        simp only
        cases readDirectory kinds.length t2 with
        | none => rfl
        | some u =>
          obtain ⟨u1, u2⟩ := u
          simp only
          cases readTables size blank (kinds.zip u1) u2 with
          | none => rfl
          | some v => rfl

theorem map_post {α β : Type} {P : List Byte → Option (α × List Byte)} {w : List Byte} {x : α} (f : α → β)
    (h : Exact P w x) : Exact (fun s => (P s).map fun p => (f p.1, p.2)) w (f x) where
  ok r := by simp only [h.ok r]; rfl
  short p hp hl := by simp only [h.short p hp hl]; rfl

theorem exact_head {size : Kind → String → Nat} {c : Codec} {a : Assembly} (ha : Saveable size c a) (blank : RowData) :
    Exact (readHead size blank a.guide.length)
      (a.guide ++ (le32 (directory size a).2 ++ (le32 (a.heap.buf.p - 1) ++
        ((directory size a).1.flatMap (fun e => le32 e.1 ++ le32 e.2) ++
          kinds.flatMap (fun k => (a.rows k).flatMap (writeRow k))))))
      (a.guide, le32 (a.heap.buf.p - 1), kinds.map fun k => (k, (a.rows k).map fun r => merged (fieldsOf k) r blank)) := by
  have hlen : (directory size a).1.length = kinds.length := by
    have := congrArg List.length (directory_counts size a)
    simpa using this
  have hdir := exact_directory (es := (directory size a).1) (by
    intro e he
    have : e.2 ∈ (directory size a).1.map (·.2) := List.mem_map_of_mem he
    rw [directory_counts, List.mem_map] at this
    obtain ⟨k, _, hk⟩ := this
    rw [← hk]
    exact ha.counts k)
  rw [hlen, directory_counts] at hdir
  have htab := exact_tables (size := size) (b := blank) (rows := a.rows) (ks := kinds)
    (fun k _ r hr f hf => ha.members k r hr f (fields_sub hf))
  have hzip : kinds.zip (kinds.map fun k => (a.rows k).length) = kinds.map fun k => (k, (a.rows k).length) := by
    rw [List.zip_map_right, ← List.map_id kinds, List.zip_map_left]
    simp [List.zip_eq_zipWith]
  have h5 := map_post (fun ts => (a.guide, le32 (a.heap.buf.p - 1), ts)) htab
  have h4 := exact_bind hdir h5 (R := fun s => match readDirectory kinds.length s with
        | none => none
        | some (counts, s) =>
          match readTables size blank (kinds.zip counts) s with
          | none => none
          | some (ts, s) => some ((a.guide, le32 (a.heap.buf.p - 1), ts), s)) (by
      intro s s' hs
      simp only [hs, hzip]
      cases readTables size blank (kinds.map fun k => (k, (a.rows k).length)) s' with
      | none => rfl
      | some p => rfl) (by intro s hs; simp only [hs])
  have h3 := exact_bind (exact_take (le32_length (a.heap.buf.p - 1))) h4 (R := fun s => match take 4 s with
      | none => none
      | some (heapSize, s) =>
        match readDirectory kinds.length s with
        | none => none
        | some (counts, s) =>
          match readTables size blank (kinds.zip counts) s with
          | none => none
          | some (ts, s) => some ((a.guide, heapSize, ts), s)) (by
      intro s s' hs
      simp only [hs]) (by intro s hs; simp only [hs])
  have h2 := exact_bind (exact_take (le32_length (directory size a).2)) h3 (R := fun s => match take 4 s with
      | none => none
      | some (_, s) => match take 4 s with
        | none => none
        | some (heapSize, s) =>
          match readDirectory kinds.length s with
          | none => none
          | some (counts, s) =>
            match readTables size blank (kinds.zip counts) s with
            | none => none
            | some (ts, s) => some ((a.guide, heapSize, ts), s)) (by
      intro s s' hs
      simp only [hs]) (by intro s hs; simp only [hs])
  exact exact_bind (exact_take (rfl : a.guide.length = a.guide.length)) h2 (by
      intro s s' hs
      simp only [readHead, hs]) (by intro s hs; simp only [readHead, hs])

/-- **C57 (partial).** Saving an assembly succeeds, and loading the file gives the same number of rows in every table,
every member of every row except the nested typedefs of types, and a heap with the same bytes at the same positions.
Missing: the nested typedefs, see `type_defs_refuted`. -/
theorem file_roundtrip_partial {size : Kind → String → Nat} {c : Codec} {a : Assembly} (ha : Saveable size c a)
    (blank : RowData) {g0 g1 : Nat → Byte} {n0 : Heap} (n0e : init g0 = some n0) :
    ∃ file n, ∃ rows : Kind → List RowData, writeFile size a = some file ∧
      readFile size blank c g1 n0 a.guide.length file = some (a.guide, kinds.map fun k => (k, rows k), n) ∧
      (∀ k, (rows k).length = (a.rows k).length) ∧
      (∀ k (i : Nat) r r', (a.rows k)[i]? = some r → (rows k)[i]? = some r' → ∀ m ∈ declared k,
        ¬ (k = .type ∧ m = "type_defs") → r' m = r m) ∧
      n.buf.p = a.heap.buf.p ∧
      (∀ (r : BitVec 32) (len : Nat), r.toNat + len ≤ a.heap.buf.p → n.bytesAt r len = a.heap.bytesAt r len) := by
  obtain ⟨g, h0, ops, rs, hinit, hrun⟩ := ha.heap
  have hw : ∃ f, a.heap.written = some f := by
    obtain ⟨hi0, _⟩ := Heap.mapInv_init (c := c) hinit
    obtain ⟨m, hm, _⟩ := (Heap.run_spec hi0 hrun).1.buf.alloc
    exact ⟨_, by unfold Heap.Heap.written; rw [hm]; rfl⟩
  obtain ⟨f, hf⟩ := hw
  have hlim := ha.limit
  obtain ⟨n, hn, hp, hb⟩ := Heap.heap_saved_loaded (g1 := g1) hinit hrun n0e f [] hf
  have hh := exact_head ha blank
  refine ⟨a.guide ++ (le32 (directory size a).2 ++ (le32 (a.heap.buf.p - 1) ++
        ((directory size a).1.flatMap (fun e => le32 e.1 ++ le32 e.2) ++
          kinds.flatMap (fun k => (a.rows k).flatMap (writeRow k))))) ++ f, n,
    fun k => (a.rows k).map fun r => merged (fieldsOf k) r blank, ?_, ?_, ?_, ?_, hp, hb⟩
  · unfold writeFile
    simp only
    rw [if_neg (by omega), hf]
    simp
  · rw [readFile_head, hh.ok f]
    simp only
    rw [ofLe32_le32 (by omega)]
    rw [List.append_nil] at hn
    rw [hn]
  · intro k; simp
  · intro k i r r' h1 h2 m hm hne
    rw [List.getElem?_map, h1] at h2
    simp only [Option.map_some, Option.some.injEq] at h2
    subst h2
    have : m ∈ fieldsOf k := by
      by_cases hk : k = .type
      · subst hk
        exact type_members_written_partial m hm fun e => hne ⟨rfl, e⟩
      · rwa [members_written k hk]
    simp [merged, this]

/-- **C57, refuted.** The nested typedefs of a type are whatever a blank row holds, whatever they were before. -/
theorem file_type_defs_refuted {size : Kind → String → Nat} {c : Codec} {a : Assembly} (ha : Saveable size c a)
    (blank : RowData) {g1 : Nat → Byte} {n0 : Heap} {file : List Byte} {n : Heap} {guide : List Byte}
    {ts : List (Kind × List RowData)} (hw : writeFile size a = some file)
    (hr : readFile size blank c g1 n0 a.guide.length file = some (guide, ts, n)) :
    ∀ rs r, (Kind.type, rs) ∈ ts → r ∈ rs → r "type_defs" = blank "type_defs" := by
  have hh := exact_head ha blank
  unfold writeFile at hw
  simp only at hw
  have hlim := ha.limit
  rw [if_neg (by omega)] at hw
  cases hf : a.heap.written with
  | none => rw [hf] at hw; cases hw
  | some f =>
    rw [hf] at hw
    simp only [Option.map_some, Option.some.injEq] at hw
    have hfile : file = a.guide ++ (le32 (directory size a).2 ++ (le32 (a.heap.buf.p - 1) ++
        ((directory size a).1.flatMap (fun e => le32 e.1 ++ le32 e.2) ++
          kinds.flatMap (fun k => (a.rows k).flatMap (writeRow k))))) ++ f := by
      rw [← hw]; simp
    rw [readFile_head, hfile, hh.ok f] at hr
    simp only at hr
    cases hl : Heap.load c g1 (ofLe32 (le32 (a.heap.buf.p - 1)) + 1) n0 (ofLe32 (le32 (a.heap.buf.p - 1))) f with
    | none => rw [hl] at hr; cases hr
    | some h =>
      rw [hl] at hr
      cases hr
      intro rs r hm hmem
      rw [List.mem_map] at hm
      obtain ⟨k, _, hk⟩ := hm
      cases hk
      rw [List.mem_map] at hmem
      obtain ⟨r0, _, rfl⟩ := hmem
      simp only [merged]
      rw [if_neg type_defs_refuted.2]

/-- **C57.** No proper prefix of a saved file is accepted: a file cut short anywhere is refused. -/
theorem file_truncated {size : Kind → String → Nat} {c : Codec} {a : Assembly} (ha : Saveable size c a)
    (blank : RowData) {g0 g1 : Nat → Byte} {n0 : Heap} (n0e : init g0 = some n0) {file : List Byte}
    (hw : writeFile size a = some file) (p : List Byte) (hp : p <+: file) (hl : p.length < file.length) :
    readFile size blank c g1 n0 a.guide.length p = none := by
  have hh := exact_head ha blank
  unfold writeFile at hw
  simp only at hw
  have hlim := ha.limit
  rw [if_neg (by omega)] at hw
  cases hf : a.heap.written with
  | none => rw [hf] at hw; cases hw
  | some f =>
    rw [hf] at hw
    simp only [Option.map_some, Option.some.injEq] at hw
    obtain ⟨head, hhead⟩ : ∃ x, x = a.guide ++ (le32 (directory size a).2 ++ (le32 (a.heap.buf.p - 1) ++
        ((directory size a).1.flatMap (fun e => le32 e.1 ++ le32 e.2) ++
          kinds.flatMap (fun k => (a.rows k).flatMap (writeRow k))))) := ⟨_, rfl⟩
    rw [← hhead] at hh
    have hfile : file = head ++ f := by rw [← hw, hhead]; simp
    subst hfile
    rw [readFile_head]
    by_cases h : p.length < head.length
    · rw [hh.short p (List.prefix_of_prefix_length_le hp (List.prefix_append head f) (by omega)) h]
    · obtain ⟨q, rfl⟩ := List.prefix_of_prefix_length_le (List.prefix_append head f) hp (by omega)
      rw [hh.ok q]
      simp only
      have hflen : f.length ≤ a.heap.buf.p - 1 := by
        unfold Heap.Heap.written at hf
        rw [Option.map_eq_some_iff] at hf
        obtain ⟨m, _, rfl⟩ := hf
        rw [List.length_take]
        omega
      rw [ofLe32_le32 (by omega), Heap.heap_truncated n0e _ _ _ (by
        rw [List.length_append, List.length_append] at hl
        omega)]

/-- **The recorded positions are wrong.** The first table is recorded at offset 8, but its rows start after the guide,
the header and the 31 directory entries.  (The reader does not use the offsets.) -/
theorem directory_offset_refuted (size : Kind → String → Nat) (a : Assembly) :
    ∃ n rest, (directory size a).1 = (8, n) :: rest ∧
      (a.guide ++ (le32 (directory size a).2 ++ le32 (a.heap.buf.p - 1)) ++
        (directory size a).1.flatMap (fun (o, n) => le32 o ++ le32 n)).length = a.guide.length + 8 + 8 * 31 := by
  have hgo : ∀ (ks : List Kind) (off : Nat) (acc : List (Nat × Nat)) (e : Nat × Nat), ∃ rest,
      (directory.go size a ks off (e :: acc)).1 = e :: rest := by
    intro ks
    induction ks with
    | nil => intro off acc e; exact ⟨acc, rfl⟩
    | cons k ks ih => intro off acc e; rw [directory.go]; exact ih _ _ _
  obtain ⟨rest, hrest⟩ := hgo kinds.tail (8 + 8 * 0 + rowSize size .assembly * (a.rows .assembly).length) []
    (8 + 8 * 0, (a.rows .assembly).length)
  refine ⟨(a.rows .assembly).length, rest, ?_, ?_⟩
  · unfold directory
    exact hrest
  · have hlen : (directory size a).1.length = 31 := by
      have := congrArg List.length (directory_counts size a)
      rw [List.length_map, List.length_map] at this
      rw [this]; rfl
    have : ∀ es : List (Nat × Nat), (es.flatMap fun (o, n) => le32 o ++ le32 n).length = 8 * es.length := by
      intro es
      induction es with
      | nil => rfl
      | cons e es ih =>
        rw [List.flatMap_cons, List.length_append, ih]
        simp [le32_length]
        omega
    simp only [List.length_append, this, hlen, le32_length]

/-- An assembly that can be saved: one type row and an empty heap. -/
example : ∃ (a : Assembly), Saveable (fun _ _ => 4) Heap.asciiCodec a ∧ (a.rows .type).length = 1 := by
  obtain ⟨h, e, hi, _, hc⟩ := Heap.init_spec (fun _ => 0#8)
  refine ⟨⟨[1#8, 2#8], fun k => if k = .type then [fun _ => [1#8, 0#8, 0#8, 0#8]] else [], h⟩, ⟨?_, ?_, ?_, ?_⟩, rfl⟩
  · intro k r hr m _
    simp only at hr
    split at hr
    · simp only [List.mem_singleton] at hr; subst hr; rfl
    · cases hr
  · intro k
    simp only
    split <;> simp
  · exact ⟨_, h, [], [], e, rfl⟩
  · have := hi.buf.length
    have h1 : h.buf.p = 1 := by
      rw [← this]
      show h.content.length = 1
      rw [hc]; rfl
    simp only [h1]
    omega

end Verif.Table
