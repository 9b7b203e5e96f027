import Verif.Proof.Heap
/-!
C10 — the metadata heap keeps what was stored; C11 — metadata strings are interned; C55 — the heap survives saving
and loading.
-/

namespace Verif.Heap

open Verif.CStr (Ch)

/-- What the C++ library's UTF-8 conversion guarantees: the empty string is the empty byte string, decoding undoes
encoding, and only NUL is encoded with a zero byte. -/
structure CodecOK (c : Codec) : Prop where
  nil : c.encode [] = some []
  roundtrip : ∀ s bs, c.encode s = some bs → c.decode bs = some s
  noNul : ∀ s bs, c.encode s = some bs → 0#32 ∉ s → 0#8 ∉ bs

/-- A codec that meets `CodecOK`: 7-bit characters. -/
def asciiCodec : Codec where
  encode s := if s.all (fun c => decide (c.toNat < 128)) then some (s.map (·.setWidth 8)) else none
  decode bs := some (bs.map (·.setWidth 32))

theorem asciiCodec_ok : CodecOK asciiCodec where
  nil := rfl
  roundtrip s bs h := by
    simp only [asciiCodec] at h ⊢
    split at h
    · rename_i hall
      cases h
      rw [List.map_map]
      congr 1
      conv => rhs; rw [← List.map_id s]
      apply List.map_congr_left
      intro c hc
      have := List.all_eq_true.1 hall c hc
      simp at this
      apply BitVec.eq_of_toNat_eq
      simp
      omega
    · cases h
  noNul s bs h hn := by
    simp only [asciiCodec] at h
    split at h
    · rename_i hall
      cases h
      intro hm
      obtain ⟨c, hc, e⟩ := List.mem_map.1 hm
      have := List.all_eq_true.1 hall c hc
      simp at this
      have e' : (c.setWidth 8).toNat = 0 := by rw [e]; rfl
      simp at e'
      have : c = 0#32 := by
        apply BitVec.eq_of_toNat_eq; simp; omega
      subst this
      exact hn hc
    · cases h

/-- The size the writer accepts: `heap_size = size() - 1` at most 64 MB —
`modules/core/assembly_writer.cpp:1545-1547`, `include/modules/jc.h:16`. -/
def WithinLimit (h : Heap) : Prop := h.buf.p - 1 ≤ 64 * 1024 * 1024

/-- The memory in use at a position. -/
def Heap.bytesAt (h : Heap) (res : BitVec 32) (n : Nat) : List Byte := ((h.at res).getD []).take n

theorem untilNul_append {bs rest : List Byte} (h : 0#8 ∉ bs) : untilNul (bs ++ 0#8 :: rest) = some bs := by
  induction bs with
  | nil => simp [untilNul]
  | cons b bs ih =>
    simp at h
    rw [List.cons_append, untilNul, if_neg (fun e => h.1 e.symm), ih h.2]
    rfl

theorem at_eq {h : Heap} (hi : h.Inv) {r : BitVec 32} {data : List Byte} (hd : data <+: h.content.drop r.toNat) :
    ∃ rest, h.at r = some (data ++ rest) := by
  obtain ⟨m, hm, hl⟩ := hi.buf.alloc
  obtain ⟨t, ht⟩ := hd
  have hc : h.content = m.take h.buf.p := by
    show h.buf.content = _
    unfold Buf.content; rw [hm]; rfl
  refine ⟨t ++ (m.drop h.buf.p).drop (r.toNat - h.content.length), ?_⟩
  unfold Heap.at
  rw [hm, Option.map_some]
  congr 1
  conv => lhs; rw [← List.take_append_drop h.buf.p m]
  rw [List.drop_append, ← hc, ← ht]
  simp

theorem mapInv_init {c : Codec} {g : Nat → Byte} {h : Heap} (h0 : init g = some h) : h.Inv ∧ h.MapInv c := by
  obtain ⟨h', e, hi, hm, _⟩ := init_spec g
  rw [e] at h0
  cases h0
  refine ⟨hi, ⟨?_, ?_⟩⟩
  · intro s r hl; rw [hm] at hl; simp at hl
  · intro s t r hl; rw [hm] at hl; simp at hl

/-- **C10.** A heap that is created and then grows by any sequence of append operations never writes outside its
memory; the only failure is a string the UTF-8 conversion refuses. -/
theorem heap_total {c : Codec} {g : Nat → Byte} {ops : List ((Nat → Byte) × Op)}
    (henc : ∀ o ∈ ops, ∀ s, o.2 = .str s → (c.encode (cstr s)).isSome) :
    ∃ h0 h rs, init g = some h0 ∧ run c h0 ops = some (h, rs) := by
  obtain ⟨h0, e0, hi0, _, _⟩ := init_spec g
  suffices ∀ ops : List ((Nat → Byte) × Op), (∀ o ∈ ops, ∀ s, o.2 = .str s → (c.encode (cstr s)).isSome) →
      ∀ h : Heap, h.Inv → ∃ h' rs, run c h ops = some (h', rs) by
    obtain ⟨h', rs, hr⟩ := this ops henc h0 hi0
    exact ⟨h0, h', rs, e0, hr⟩
  intro ops
  induction ops with
  | nil => intro _ h _; exact ⟨h, [], rfl⟩
  | cons o ops ih =>
    obtain ⟨g, op⟩ := o
    intro henc h hi
    rcases step_spec hi op (c := c) (g := g) with ⟨ht, _⟩ | ⟨h1, r1, e1, hi1, _⟩
    · exfalso
      cases op with
      | str s =>
        have := henc (g, .str s) (by simp) s rfl
        rw [ht.2.2] at this
        cases this
      | block _ => exact ht
      | bytes _ => exact ht
    · obtain ⟨h', rs, hr⟩ := ih (fun o ho => henc o (by simp [ho])) h1 hi1
      exact ⟨h', r1 :: rs, by rw [run, e1]; simp only; rw [hr]⟩

/-- **C10 (strings).** In any history, a string (without NUL characters) is read back unchanged at the position its
append returned — after all later appends and regrowths, and whatever freshly allocated memory contains. -/
theorem heap_keeps_strings {c : Codec} (hc : CodecOK c) {g : Nat → Byte} {ops : List ((Nat → Byte) × Op)} {h0 h : Heap}
    {rs : List (BitVec 32)} (h0e : init g = some h0) (hrun : run c h0 ops = some (h, rs)) (hlim : WithinLimit h)
    {i : Nat} {g' : Nat → Byte} {s : List Ch} {r : BitVec 32} (hop : ops[i]? = some (g', .str s))
    (hres : rs[i]? = some r) (hs : 0#32 ∉ s) : h.readSid c r = some s := by
  obtain ⟨hi0, hm0⟩ := mapInv_init (c := c) h0e
  obtain ⟨hfin, _, hple, _, _, hmf⟩ := run_spec hi0 hrun
  unfold WithinLimit at hlim
  have hm := hmf (by omega) hm0
  obtain ⟨ha, hb, a1, a2, a3, a4, a5, a6, a7, a8⟩ := run_at hi0 hrun hop hres
  have hpl := hfin.buf.length
  obtain ⟨rest, hz⟩ := hfin.zero
  have hpos : 1 ≤ h.buf.p := by
    rw [← hpl]
    show 1 ≤ h.content.length
    rw [hz]; simp
  rcases step_spec a1 (.str s) (c := c) (g := g') with ⟨_, hn⟩ | ⟨h1, r1, e1, _, _, _, _, _, hnil, hstr, _⟩
  · rw [hn] at a2; cases a2
  rw [e1] at a2
  cases a2
  by_cases he : s = []
  · obtain ⟨hr0, _⟩ := hnil s rfl he
    have : [0#8] <+: h.content.drop r.toNat := by rw [hr0, hz]; exact ⟨rest, rfl⟩
    obtain ⟨t, ht⟩ := at_eq hfin this
    unfold Heap.readSid
    rw [if_neg (by rw [hr0]; simp; omega), ht]
    simp [untilNul, he]
    exact hc.roundtrip _ _ hc.nil
  · obtain ⟨hl, _⟩ := hstr s rfl he
    obtain ⟨b1, b2, bs, b3, b4⟩ := hm.stored s r (a6 s r hl)
    have hcs : cstr s = s := cstr_eq hs
    rw [hcs] at b3
    obtain ⟨t, ht⟩ := at_eq hfin b4
    unfold Heap.readSid
    rw [if_neg (by omega), ht]
    simp only [Option.bind_some, List.append_assoc, List.singleton_append]
    rw [untilNul_append (hc.noNul _ _ b3 hs)]
    exact hc.roundtrip _ _ b3

/-- A string with an embedded NUL is not kept: only the part before the NUL is stored. -/
theorem heap_string_nul_refuted :
    ∃ h0 h rs, init (fun _ => 7#8) = some h0 ∧
      run asciiCodec h0 [(fun _ => 7#8, .str [97#32, 0#32, 98#32])] = some (h, rs) ∧
      rs = [1#32] ∧ h.readSid asciiCodec 1#32 = some [97#32] := by
  refine ⟨⟨[], ⟨some [0#8], 1, 1⟩⟩, ⟨[([97#32, 0#32, 98#32], 1#32)], ⟨some [0#8, 97#8, 0#8, 7#8], 3, 4⟩⟩, [1#32],
    ?_, ?_, rfl, ?_⟩
  · obtain ⟨h, e, _⟩ := init_spec (fun _ => 7#8)
    have e1 : growSize 1 1 = 1 := by rw [growSize]; simp
    simp [init, Buf.push, Buf.grow, e1, fresh]
  · have e3 : growSize 1 3 = 4 := by rw [growSize, dif_pos (by decide), growSize, dif_pos (by decide), growSize, dif_neg (by decide)]
    have ec : asciiCodec.encode (cstr [97#32, 0#32, 98#32]) = some [97#8] := by decide
    simp [run, step, ec, Buf.push, Buf.grow, e3, fresh, List.range, List.range.loop]
  · decide

/-- The bytes an operation stored lie at the position it returned, in every later state. -/
theorem stored_at {c : Codec} {g : Nat → Byte} {ops : List ((Nat → Byte) × Op)} {h0 h : Heap}
    {rs : List (BitVec 32)} (h0e : init g = some h0) (hrun : run c h0 ops = some (h, rs)) (hlim : WithinLimit h)
    {i : Nat} {g' : Nat → Byte} {op : Op} {r : BitVec 32} (hop : ops[i]? = some (g', op))
    (hres : rs[i]? = some r) (bs data : List Byte) (hbs : bs ≠ [])
    (hadd : op = .block bs ∧ data = Varint.toVarint (BitVec.ofNat 32 bs.length) ++ bs ∨ op = .bytes bs ∧ data = bs) :
    h.Inv ∧ data <+: h.content.drop r.toNat ∧ bs.length < 2 ^ 28 := by
  obtain ⟨hi0, hm0⟩ := mapInv_init (c := c) h0e
  obtain ⟨hfin, _, hple, _, _, hmf⟩ := run_spec hi0 hrun
  unfold WithinLimit at hlim
  obtain ⟨ha, hb, a1, a2, a3, ⟨e, a4⟩, a5, a6, a7, a8⟩ := run_at hi0 hrun hop hres
  rcases step_spec a1 op (c := c) (g := g') with ⟨_, hn⟩ | ⟨h1, r1, e1, hi1, hc1, hp1, hr1, _⟩
  · rw [hn] at a2; cases a2
  rw [e1] at a2
  cases a2
  have hd : added c ha op = data := by
    rcases hadd with ⟨rfl, rfl⟩ | ⟨rfl, rfl⟩
    · simp [added, hbs]
    · simp [added]
  have hne : data ≠ [] := by
    rcases hadd with ⟨_, rfl⟩ | ⟨_, rfl⟩
    · simp [hbs]
    · exact hbs
  have hlen : bs.length ≤ data.length := by
    rcases hadd with ⟨_, rfl⟩ | ⟨_, rfl⟩ <;> simp
  rw [hd] at hc1 hp1 hr1
  have hpl := a1.buf.length
  have hr := hr1 hne
  have hrn : r.toNat = ha.content.length := by
    show _ = ha.buf.content.length
    rw [hr, BitVec.toNat_ofNat, hpl]
    omega
  refine ⟨hfin, ?_, by omega⟩
  rw [a4, hc1]
  apply prefix_drop_append
  rw [hrn, List.drop_left]
  exact List.prefix_rfl

/-- **C10 (blocks).** In any history, a block is read back unchanged at the position its append returned. -/
theorem heap_keeps_blocks {c : Codec} {g : Nat → Byte} {ops : List ((Nat → Byte) × Op)} {h0 h : Heap}
    {rs : List (BitVec 32)} (h0e : init g = some h0) (hrun : run c h0 ops = some (h, rs)) (hlim : WithinLimit h)
    {i : Nat} {g' : Nat → Byte} {bs : List Byte} {r : BitVec 32} (hop : ops[i]? = some (g', .block bs))
    (hres : rs[i]? = some r) : h.readBlock r = some bs := by
  by_cases hbs : bs = []
  · obtain ⟨hi0, hm0⟩ := mapInv_init (c := c) h0e
    obtain ⟨hfin, _⟩ := run_spec hi0 hrun
    obtain ⟨rest, hz⟩ := hfin.zero
    obtain ⟨ha, hb, a1, a2, _⟩ := run_at hi0 hrun hop hres
    rcases step_spec a1 (.block bs) (c := c) (g := g') with ⟨_, hn⟩ | ⟨h1, r1, e1, _, _, _, _, _, _, _, hnil⟩
    · rw [hn] at a2; cases a2
    rw [e1] at a2
    cases a2
    have hr0 := hnil bs (Or.inl rfl) hbs
    have : [0#8] <+: h.content.drop r.toNat := by rw [hr0, hz]; exact ⟨rest, rfl⟩
    obtain ⟨t, ht⟩ := at_eq hfin this
    unfold Heap.readBlock
    rw [ht]
    simp [Varint.fromVarint, Varint.fromVarintLoop, hbs]
  · obtain ⟨hfin, hd, hlen⟩ := stored_at h0e hrun hlim hop hres bs _ hbs (Or.inl ⟨rfl, rfl⟩)
    obtain ⟨t, ht⟩ := at_eq hfin hd
    have hn : (BitVec.ofNat 32 bs.length).toNat = bs.length := by
      rw [BitVec.toNat_ofNat]; omega
    unfold Heap.readBlock
    rw [ht, Option.bind_some, List.append_assoc,
      Varint.varint_roundtrip_partial (by decide) _ (by rw [hn]; exact hlen)]
    simp only [hn, List.drop_left]
    rw [if_pos (by simp), List.take_left]

/-- **C10 (raw bytes).** In any history, raw bytes stay in place at the position their append returned. -/
theorem heap_keeps_bytes {c : Codec} {g : Nat → Byte} {ops : List ((Nat → Byte) × Op)} {h0 h : Heap}
    {rs : List (BitVec 32)} (h0e : init g = some h0) (hrun : run c h0 ops = some (h, rs)) (hlim : WithinLimit h)
    {i : Nat} {g' : Nat → Byte} {bs : List Byte} {r : BitVec 32} (hop : ops[i]? = some (g', .bytes bs))
    (hres : rs[i]? = some r) : h.bytesAt r bs.length = bs := by
  by_cases hbs : bs = []
  · simp [hbs, Heap.bytesAt]
  · obtain ⟨hfin, hd, hlen⟩ := stored_at h0e hrun hlim hop hres bs _ hbs (Or.inr ⟨rfl, rfl⟩)
    obtain ⟨t, ht⟩ := at_eq hfin hd
    simp [Heap.bytesAt, ht]

/-- **C10 (typed reads, partial).** An entity is read back unchanged exactly when something was appended after it;
otherwise the read throws.  Missing: the last entity of the heap, see `heap_last_entity_refuted`. -/
theorem heap_entity_partial {c : Codec} {g : Nat → Byte} {ops : List ((Nat → Byte) × Op)} {h0 h : Heap}
    {rs : List (BitVec 32)} (h0e : init g = some h0) (hrun : run c h0 ops = some (h, rs)) (hlim : WithinLimit h)
    {i : Nat} {g' : Nat → Byte} {bs : List Byte} {r : BitVec 32} (hop : ops[i]? = some (g', .bytes bs))
    (hres : rs[i]? = some r) (hbs : bs ≠ []) :
    h.readEntity bs.length r = if r.toNat + bs.length < h.buf.p then some bs else none := by
  obtain ⟨hfin, hd, hlen⟩ := stored_at h0e hrun hlim hop hres bs _ hbs (Or.inr ⟨rfl, rfl⟩)
  obtain ⟨t, ht⟩ := at_eq hfin hd
  unfold Heap.readEntity
  by_cases hc : r.toNat + bs.length < h.buf.p
  · rw [if_pos hc, if_neg (by omega), ht]; simp
  · rw [if_neg hc, if_pos (by omega)]

/-- **C10, refuted for typed reads.** Whatever was stored before, the entity appended last cannot be read back: the
bounds check of `read<t>` refuses an entity that ends exactly at the end of the heap. -/
theorem heap_last_entity_refuted {c : Codec} {g g' : Nat → Byte} {ops : List ((Nat → Byte) × Op)} {h0 h1 h : Heap}
    {rs : List (BitVec 32)} {bs : List Byte} {r : BitVec 32} (h0e : init g = some h0)
    (hrun : run c h0 ops = some (h1, rs)) (hstep : step c g' h1 (.bytes bs) = some (h, r)) (hlim : WithinLimit h)
    (hbs : bs ≠ []) : h.readEntity bs.length r = none := by
  obtain ⟨hi0, hm0⟩ := mapInv_init (c := c) h0e
  obtain ⟨hi1, _⟩ := run_spec hi0 hrun
  unfold WithinLimit at hlim
  rcases step_spec hi1 (.bytes bs) (c := c) (g := g') with ⟨_, hn⟩ | ⟨h2, r1, e1, hi2, hc1, hp1, hr1, _⟩
  · rw [hn] at hstep; cases hstep
  rw [e1] at hstep
  cases hstep
  have hr := hr1 (by simpa [added] using hbs)
  simp only [added] at hp1
  unfold Heap.readEntity
  rw [if_pos]
  rw [hr, BitVec.toNat_ofNat]
  omega

/-- **C11.** In any history, two non-empty strings get the same position exactly when they are equal; the empty string
gets the null position, and no other string does. -/
theorem heap_interns {c : Codec} {g : Nat → Byte} {ops : List ((Nat → Byte) × Op)} {h0 h : Heap}
    {rs : List (BitVec 32)} (h0e : init g = some h0) (hrun : run c h0 ops = some (h, rs)) (hlim : WithinLimit h)
    {i j : Nat} {g1 g2 : Nat → Byte} {s t : List Ch} {r q : BitVec 32}
    (hi : ops[i]? = some (g1, .str s)) (hri : rs[i]? = some r)
    (hj : ops[j]? = some (g2, .str t)) (hrj : rs[j]? = some q) :
    (r = q ↔ s = t) ∧ (r = 0#32 ↔ s = []) := by
  obtain ⟨hi0, hm0⟩ := mapInv_init (c := c) h0e
  obtain ⟨hfin, _, hple, _, _, hmf⟩ := run_spec hi0 hrun
  unfold WithinLimit at hlim
  have hm := hmf (by omega) hm0
  -- what an operation returned, seen from the end of the history
  have key : ∀ {i : Nat} {g1 : Nat → Byte} {s : List Ch} {r : BitVec 32}, ops[i]? = some (g1, .str s) →
      rs[i]? = some r → (s = [] ∧ r = 0#32) ∨ (s ≠ [] ∧ h.map.lookup s = some r ∧ r ≠ 0#32) := by
    intro i g1 s r hi hri
    obtain ⟨ha, hb, a1, a2, a3, a4, a5, a6, a7, a8⟩ := run_at hi0 hrun hi hri
    rcases step_spec a1 (.str s) (c := c) (g := g1) with ⟨_, hn⟩ | ⟨h1, r1, e1, _, _, _, _, _, hnil, hstr, _⟩
    · rw [hn] at a2; cases a2
    rw [e1] at a2
    cases a2
    by_cases he : s = []
    · exact Or.inl ⟨he, (hnil s rfl he).1⟩
    · right
      have hl := a6 s r (hstr s rfl he).1
      refine ⟨he, hl, ?_⟩
      have := (hm.stored s r hl).1
      rintro rfl
      simp at this
  rcases key hi hri with ⟨hs, hr⟩ | ⟨hs, hls, hr⟩ <;> rcases key hj hrj with ⟨ht, hq⟩ | ⟨ht, hlt, hq⟩
  · subst hs; subst ht; subst hr; subst hq; simp
  · subst hs; subst hr
    refine ⟨⟨fun e => absurd e.symm hq, fun e => absurd e.symm ht⟩, by simp⟩
  · subst ht; subst hq
    refine ⟨⟨fun e => absurd e hr, fun e => absurd e hs⟩, ⟨fun e => absurd e hr, fun e => absurd e hs⟩⟩
  · refine ⟨⟨?_, ?_⟩, ⟨fun e => absurd e hr, fun e => absurd e hs⟩⟩
    · rintro rfl; exact hm.inj s t r hls hlt
    · rintro rfl; rw [hls] at hlt; cases hlt; rfl

/-- A history meeting the hypotheses of the theorems above: three strings, two of them equal, and a block. -/
example : ∃ h0 h rs, init (fun _ => 0xCD#8) = some h0 ∧
    run asciiCodec h0 [(fun _ => 1#8, .str [97#32, 98#32]), (fun _ => 2#8, .block [7#8]),
      (fun _ => 3#8, .str [99#32]), (fun _ => 4#8, .str [97#32, 98#32])] = some (h, rs) := by
  apply heap_total
  intro o ho s hs
  have henc : ∀ s : List Ch, s.all (fun c => decide (c.toNat < 128)) = true → (asciiCodec.encode (cstr s)).isSome := by
    intro s hs
    have : (cstr s).all (fun c => decide (c.toNat < 128)) = true := by
      rw [List.all_eq_true] at hs ⊢
      intro x hx
      exact hs x ((List.takeWhile_sublist _).mem hx)
    have h2 : (∀ x ∈ cstr s, x.toNat < 128) := by simpa using this
    simpa [asciiCodec] using h2
  simp only [List.mem_cons, List.not_mem_nil, or_false] at ho
  rcases ho with rfl | rfl | rfl | rfl <;> cases hs <;> exact henc _ (by decide)

/-! ## C55 — saving and loading -/

/-- **C55.** Saving a heap and loading it into a fresh heap, with anything after it in the file, reproduces every byte
in use at the same position: every string and block is then read from the loaded heap as from the saved one. -/
theorem heap_saved_loaded {c : Codec} {g g0 g1 : Nat → Byte} {ops : List ((Nat → Byte) × Op)} {h0 h n0 : Heap}
    {rs : List (BitVec 32)} (h0e : init g = some h0) (hrun : run c h0 ops = some (h, rs)) (n0e : init g0 = some n0)
    (file rest : List Byte) (hfile : h.written = some file) :
    ∃ n, load c g1 (h.buf.p - 1 + 1) n0 (h.buf.p - 1) (file ++ rest) = some n ∧
      n.buf.p = h.buf.p ∧
      (∀ r : BitVec 32, ∀ k, r.toNat + k ≤ h.buf.p → n.bytesAt r k = h.bytesAt r k) := by
  obtain ⟨hi0, _⟩ := mapInv_init (c := c) h0e
  obtain ⟨hi, _⟩ := run_spec hi0 hrun
  obtain ⟨n0', e0, ni0, _, nc0⟩ := init_spec g0
  rw [n0e] at e0
  cases e0
  obtain ⟨m, hm, hl⟩ := hi.buf.alloc
  have hfill := hi.buf.fill
  have hc : h.content = m.take h.buf.p := by
    show h.buf.content = _
    unfold Buf.content; rw [hm]; rfl
  obtain ⟨z, hz⟩ := hi.zero
  have hpl := hi.buf.length
  have hpos : 1 ≤ h.buf.p := by
    rw [← hpl]
    show 1 ≤ h.content.length
    rw [hz]; simp
  have hw : file = h.content.drop 1 := by
    unfold Heap.written at hfile
    rw [hm, Option.map_some, Option.some.injEq] at hfile
    rw [← hfile, hc, List.drop_take]
  have hflen : file.length = h.buf.p - 1 := by
    rw [hw, List.length_drop]
    show h.buf.content.length - 1 = _
    rw [hpl]
  obtain ⟨n, e, ni, nc, np⟩ := load_spec (c := c) (g := g1) (h.buf.p - 1 + 1) (h := n0) (total := h.buf.p - 1)
    (stream := file ++ rest) ni0 (by omega) (by rw [List.length_append]; omega)
  have hn0p : n0.buf.p = 1 := by
    have := ni0.buf.length
    rw [← this]
    show n0.content.length = 1
    rw [nc0]; rfl
  have hcontent : n.content = h.content := by
    rw [nc, nc0, ← hflen, List.take_left, hw, hz]
    rfl
  refine ⟨n, e, by omega, ?_⟩
  have bytes : ∀ {x : Heap}, x.Inv → ∀ (r : BitVec 32) (k : Nat), r.toNat + k ≤ x.buf.p →
      x.bytesAt r k = (x.content.drop r.toNat).take k := by
    intro x xi r k hk
    obtain ⟨m, hm, hl⟩ := xi.buf.alloc
    have hc : x.content = m.take x.buf.p := by
      show x.buf.content = _
      unfold Buf.content; rw [hm]; rfl
    unfold Heap.bytesAt Heap.at
    rw [hm, hc, Option.map_some, Option.getD_some, List.drop_take, List.take_take]
    congr 1
    omega
  intro r k hk
  rw [bytes ni r k (by omega), bytes hi r k hk, hcontent]

/-- **C55.** A file that ends before the recorded size of the heap is refused. -/
theorem heap_truncated {c : Codec} {g0 g1 : Nat → Byte} {n0 : Heap} (n0e : init g0 = some n0) (total fuel : Nat)
    (file : List Byte) (hshort : file.length < total) : load c g1 fuel n0 total file = none :=
  load_truncated fuel (mapInv_init (c := c) n0e).1 hshort

/-- Saving and loading a concrete heap: the file holds the two bytes and the terminator after the reserved byte. -/
example : ∃ h0 h rs, init (fun _ => 7#8) = some h0 ∧
    run asciiCodec h0 [(fun _ => 7#8, .str [97#32, 98#32])] = some (h, rs) ∧
    h.written = some [97#8, 98#8, 0#8] := by
  refine ⟨⟨[], ⟨some [0#8], 1, 1⟩⟩, ⟨[([97#32, 98#32], 1#32)], ⟨some [0#8, 97#8, 98#8, 0#8], 4, 4⟩⟩, [1#32],
    ?_, ?_, rfl⟩
  · have e1 : growSize 1 1 = 1 := by rw [growSize]; simp
    simp [init, Buf.push, Buf.grow, e1, fresh]
  · have e3 : growSize 1 4 = 4 := by
      rw [growSize, dif_pos (by decide), growSize, dif_pos (by decide), growSize, dif_neg (by decide)]
    have ec : asciiCodec.encode (cstr [97#32, 98#32]) = some [97#8, 98#8] := by decide
    simp [run, step, ec, Buf.push, Buf.grow, e3, fresh, List.range, List.range.loop]

end Verif.Heap
