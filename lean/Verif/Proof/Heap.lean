import Verif.Model.Heap
import Verif.Props.Varint
/-!
Helper lemmas for `Verif.Props.Heap`: the heap refines an append-only byte string.
-/

namespace Verif.Heap

open Verif.CStr (Ch)

/-- The bytes in use. -/
def Buf.content (b : Buf) : List Byte := (b.buffer.getD []).take b.p

/-- The bytes in use. -/
def Heap.content (h : Heap) : List Byte := h.buf.content

/-- The buffer invariant: memory is allocated, it is `__size` bytes, and the fill mark is inside it. -/
structure Buf.Inv (b : Buf) : Prop where
  alloc : ∃ m, b.buffer = some m ∧ m.length = b.size
  fill : b.p ≤ b.size
  pos : 0 < b.size

theorem Buf.Inv.length {b : Buf} (h : b.Inv) : b.content.length = b.p := by
  obtain ⟨m, hm, hl⟩ := h.alloc
  unfold Buf.content
  rw [hm]
  simp only [Option.getD_some, List.length_take, hl]
  have := h.fill
  omega

theorem growSize_spec {size need : Nat} (h : 0 < size) : need ≤ growSize size need ∧ 0 < growSize size need := by
  fun_induction growSize size need with
  | case1 size hc ih => exact ih (by omega)
  | case2 size hc => omega

theorem fresh_length (g : Nat → Byte) (n : Nat) : (fresh g n).length = n := by simp [fresh]

/-- Appending extends the bytes in use by exactly the new bytes, whatever fresh memory holds. -/
theorem push_spec {b : Buf} (hb : b.Inv) (g : Nat → Byte) (data : List Byte) :
    ∃ b', b.push g data = some b' ∧ b'.Inv ∧ b'.content = b.content ++ data ∧ b'.p = b.p + data.length := by
  obtain ⟨m, hm, hl⟩ := hb.alloc
  have hf := hb.fill
  have hp := hb.pos
  obtain ⟨g1, g2⟩ := growSize_spec (need := b.p + data.length) hp
  unfold Buf.push Buf.grow
  rw [hm]
  by_cases hc : b.p + data.length > b.size
  · simp only [hc, if_true]
    have hlen : (m.take b.p ++ (fresh g (growSize b.size (b.p + data.length))).drop b.p).length =
        growSize b.size (b.p + data.length) := by
      simp only [List.length_append, List.length_take, List.length_drop, fresh_length, hl]
      omega
    rw [if_pos (by rw [hlen]; omega)]
    refine ⟨_, rfl, ⟨⟨_, rfl, ?_⟩, ?_, ?_⟩, ?_, rfl⟩
    · simp only [List.length_append, List.length_take, List.length_drop, fresh_length, hl]
      omega
    · simpa using g1
    · simpa using g2
    · unfold Buf.content
      simp only [hm, Option.getD_some]
      have e1 : (m.take b.p).length = b.p := by simp [hl]; omega
      have e2 : (m.take b.p ++ (fresh g (growSize b.size (b.p + data.length))).drop b.p).take b.p = m.take b.p := by
        rw [List.take_append_of_le_length (by omega), List.take_take, Nat.min_self]
      rw [List.take_append_of_le_length (by rw [e2]; simp [e1]), e2]
      apply List.take_of_length_le
      simp [e1]
  · simp only [hc, if_false]
    rw [if_pos (by omega)]
    refine ⟨_, rfl, ⟨⟨_, rfl, ?_⟩, ?_, hp⟩, ?_, rfl⟩
    · simp only [List.length_append, List.length_take, List.length_drop, hl]
      omega
    · simp only; omega
    · unfold Buf.content
      simp only [hm, Option.getD_some]
      have e1 : (m.take b.p).length = b.p := by simp [hl]; omega
      rw [List.take_append_of_le_length (by simp [e1])]
      apply List.take_of_length_le
      simp [e1]

/-- The heap invariant. -/
structure Heap.Inv (h : Heap) : Prop where
  buf : h.buf.Inv
  zero : ∃ rest, h.content = 0#8 :: rest

/-- What the string table promises, as long as positions fit in 32 bits. -/
structure Heap.MapInv (c : Codec) (h : Heap) : Prop where
  stored : ∀ s r, h.map.lookup s = some r →
    1 ≤ r.toNat ∧ r.toNat < h.buf.p ∧ ∃ bs, c.encode (cstr s) = some bs ∧
      bs ++ [0#8] <+: h.content.drop r.toNat
  inj : ∀ s t r, h.map.lookup s = some r → h.map.lookup t = some r → s = t

theorem init_spec (g : Nat → Byte) : ∃ h, init g = some h ∧ h.Inv ∧ h.map = [] ∧ h.content = [0#8] := by
  have hb : ({ buffer := none, p := 0, size := 1 } : Buf).push g [0#8] =
      some { buffer := some [0#8], p := 1, size := 1 } := by
    have e : growSize 1 1 = 1 := by rw [growSize]; simp
    unfold Buf.push Buf.grow
    simp [e, fresh]
  refine ⟨{ map := [], buf := { buffer := some [0#8], p := 1, size := 1 } }, ?_, ?_, rfl, rfl⟩
  · unfold init; rw [hb]; rfl
  · exact ⟨⟨⟨_, rfl, rfl⟩, by simp, by simp⟩, ⟨[], rfl⟩⟩

/-- The bytes an operation adds. -/
def added (c : Codec) (h : Heap) : Op → List Byte
  | .str sid =>
    if sid = [] then [] else
    match h.map.lookup sid with
    | some _ => []
    | none => (c.encode (cstr sid)).getD [] ++ [0#8]
  | .block bytes => if bytes = [] then [] else Varint.toVarint (BitVec.ofNat 32 bytes.length) ++ bytes
  | .bytes bytes => bytes

/-- The exception `append_string` can raise. -/
def throws (c : Codec) (h : Heap) : Op → Prop
  | .str sid => sid ≠ [] ∧ h.map.lookup sid = none ∧ c.encode (cstr sid) = none
  | _ => False

theorem step_spec {c : Codec} {g : Nat → Byte} {h : Heap} (hi : h.Inv) (op : Op) :
    (throws c h op ∧ step c g h op = none) ∨
    ∃ h' r, step c g h op = some (h', r) ∧ h'.Inv ∧ h'.content = h.content ++ added c h op ∧
      h'.buf.p = h.buf.p + (added c h op).length ∧
      (added c h op ≠ [] → r = BitVec.ofNat 32 h.buf.p) ∧
      ((∀ s, op ≠ .str s) → h'.map = h.map) ∧
      (∀ s, op = .str s → s = [] → r = 0#32 ∧ h'.map = h.map) ∧
      (∀ s, op = .str s → s ≠ [] → h'.map.lookup s = some r ∧
        ((h.map.lookup s = some r ∧ h'.map = h.map) ∨
         (h.map.lookup s = none ∧ h'.map = (s, r) :: h.map ∧ ∃ bs, c.encode (cstr s) = some bs))) ∧
      (∀ bs, (op = .block bs ∨ op = .bytes bs) → bs = [] → r = 0#32) := by
  obtain ⟨rest, hz⟩ := hi.zero
  cases op with
  | str sid =>
    by_cases he : sid = []
    · right
      subst he
      refine ⟨h, 0#32, by simp [step], hi, by simp [added], by simp [added], by simp [added], ?_, ?_, ?_, ?_⟩
      · intro _; rfl
      · intro s hs _; exact ⟨rfl, rfl⟩
      · intro s hs hn; cases hs; exact absurd rfl hn
      · intro bs hb; rcases hb with hb | hb <;> cases hb
    · cases hl : h.map.lookup sid with
      | some r =>
        right
        refine ⟨h, r, by simp [step, he, hl], hi, by simp [added, he, hl], by simp [added, he, hl],
          by simp [added, he, hl], ?_, ?_, ?_, ?_⟩
        · intro _; rfl
        · intro s hs hn; cases hs; exact absurd hn he
        · intro s hs hn; cases hs; exact ⟨hl, Or.inl ⟨hl, rfl⟩⟩
        · intro bs hb; rcases hb with hb | hb <;> cases hb
      | none =>
        cases hen : c.encode (cstr sid) with
        | none =>
          left
          exact ⟨⟨he, hl, hen⟩, by simp [step, he, hl, hen]⟩
        | some s =>
          right
          obtain ⟨b', h1, h2, h3, h4⟩ := push_spec hi.buf g (s ++ [0#8])
          refine ⟨{ map := (sid, BitVec.ofNat 32 h.buf.p) :: h.map, buf := b' }, BitVec.ofNat 32 h.buf.p,
            by simp [step, he, hl, hen, h1], ⟨h2, rest ++ (s ++ [0#8]), ?_⟩, ?_, ?_, ?_, ?_, ?_, ?_, ?_⟩
          · show b'.content = _
            rw [h3]
            show h.content ++ _ = _
            rw [hz]; simp
          · simp only [added, he, hl, hen, if_false]
            exact h3
          · simp only [added, he, hl, hen, if_false]
            exact h4
          · intro _; rfl
          · intro hs; exact absurd rfl (hs sid)
          · intro s' hs hn; cases hs; exact absurd hn he
          · intro s' hs hn
            cases hs
            exact ⟨by simp, Or.inr ⟨hl, rfl, ⟨s, hen⟩⟩⟩
          · intro bs hb; rcases hb with hb | hb <;> cases hb
  | block bytes =>
    right
    by_cases he : bytes = []
    · refine ⟨h, 0#32, by simp [step, he], hi, by simp [added, he], by simp [added, he], by simp [added, he], ?_, ?_, ?_,
        ?_⟩
      · intro _; rfl
      · intro s hs; cases hs
      · intro s hs; cases hs
      · intro bs hb _; rfl
    · obtain ⟨b', h1, h2, h3, h4⟩ := push_spec hi.buf g (Varint.toVarint (BitVec.ofNat 32 bytes.length) ++ bytes)
      refine ⟨{ h with buf := b' }, BitVec.ofNat 32 h.buf.p, by simp [step, he, h1],
        ⟨h2, rest ++ (Varint.toVarint (BitVec.ofNat 32 bytes.length) ++ bytes), ?_⟩, ?_, ?_, ?_, ?_, ?_, ?_, ?_⟩
      · show b'.content = _
        rw [h3]
        show h.content ++ _ = _
        rw [hz]; simp
      · simp only [added, he, if_false]; exact h3
      · simp only [added, he, if_false]; exact h4
      · intro _; rfl
      · intro _; rfl
      · intro s hs; cases hs
      · intro s hs; cases hs
      · intro bs hb hn
        rcases hb with hb | hb
        · cases hb; exact absurd hn he
        · cases hb
  | bytes bytes =>
    right
    by_cases he : bytes = []
    · refine ⟨h, 0#32, by simp [step, he], hi, by simp [added, he], by simp [added, he], by simp [added, he], ?_, ?_, ?_,
        ?_⟩
      · intro _; rfl
      · intro s hs; cases hs
      · intro s hs; cases hs
      · intro bs hb _; rfl
    · obtain ⟨b', h1, h2, h3, h4⟩ := push_spec hi.buf g bytes
      refine ⟨{ h with buf := b' }, BitVec.ofNat 32 h.buf.p, by simp [step, he, h1],
        ⟨h2, rest ++ bytes, ?_⟩, ?_, ?_, ?_, ?_, ?_, ?_, ?_⟩
      · show b'.content = _
        rw [h3]
        show h.content ++ _ = _
        rw [hz]; simp
      · exact h3
      · exact h4
      · intro _; rfl
      · intro _; rfl
      · intro s hs; cases hs
      · intro s hs; cases hs
      · intro bs hb hn
        rcases hb with hb | hb
        · cases hb
        · cases hb; exact absurd hn he

theorem lookup_cons_ne {s t : List Ch} {r : BitVec 32} {m : List (List Ch × BitVec 32)} (h : s ≠ t) :
    List.lookup s ((t, r) :: m) = List.lookup s m := by
  rw [List.lookup_cons]
  have : (s == t) = false := by simpa using h
  rw [this]

theorem prefix_drop_append {a l e : List Byte} {k : Nat} (h : a <+: l.drop k) : a <+: (l ++ e).drop k := by
  obtain ⟨t, ht⟩ := h
  rw [List.drop_append]
  exact ⟨t ++ e.drop (k - l.length), by rw [← List.append_assoc, ht]⟩

/-- The string table stays truthful while positions fit in 32 bits. -/
theorem step_mapInv {c : Codec} {g : Nat → Byte} {h h' : Heap} {op : Op} {r : BitVec 32} (hi : h.Inv)
    (hm : h.MapInv c) (hs : step c g h op = some (h', r)) (hlim : h'.buf.p < 2 ^ 32) : h'.MapInv c := by
  rcases step_spec hi op (c := c) (g := g) with ⟨_, hn⟩ | ⟨h1, r1, e1, hi1, hc1, hp1, hr1, hmap1, hnil1, hstr1, _⟩
  · rw [hn] at hs; cases hs
  rw [e1] at hs
  cases hs
  have keep : ∀ s r, h.map.lookup s = some r → 1 ≤ r.toNat ∧ r.toNat < h'.buf.p ∧
      ∃ bs, c.encode (cstr s) = some bs ∧ bs ++ [0#8] <+: h'.content.drop r.toNat := by
    intro s r hl
    obtain ⟨a1, a2, bs, a3, a4⟩ := hm.stored s r hl
    exact ⟨a1, by omega, bs, a3, by rw [hc1]; exact prefix_drop_append a4⟩
  have same : h'.map = h.map → h'.MapInv c := by
    intro e
    refine ⟨?_, ?_⟩
    · rw [e]; exact keep
    · rw [e]; exact hm.inj
  cases op with
  | block bs => exact same (hmap1 (by intro s h; cases h))
  | bytes bs => exact same (hmap1 (by intro s h; cases h))
  | str s =>
    by_cases he : s = []
    · exact same (hnil1 s rfl he).2
    · obtain ⟨hl, hor⟩ := hstr1 s rfl he
      rcases hor with ⟨_, e⟩ | ⟨hnone, e, bs, hbs⟩
      · exact same e
      · have hadd : added c h (.str s) = bs ++ [0#8] := by simp [added, he, hnone, hbs]
        have hr : r = BitVec.ofNat 32 h.buf.p := hr1 (by rw [hadd]; simp)
        have hpl := hi.buf.length
        rw [hadd] at hc1 hp1
        have hrn : r.toNat = h.buf.p := by
          rw [hr, BitVec.toNat_ofNat]
          simp at hp1
          omega
        have hpos : 1 ≤ h.buf.p := by
          obtain ⟨rest, hz⟩ := hi.zero
          rw [← hpl]
          show 1 ≤ h.content.length
          rw [hz]; simp
        refine ⟨?_, ?_⟩
        · intro t q hq
          by_cases hts : t = s
          · subst hts
            rw [hl] at hq
            cases hq
            refine ⟨by omega, ?_, bs, hbs, ?_⟩
            · simp at hp1; omega
            · rw [hc1, hrn, ← hpl]
              show _ <+: (h.content ++ _).drop h.content.length
              rw [List.drop_left]
              exact List.prefix_rfl
          · rw [e, lookup_cons_ne hts] at hq
            exact keep t q hq
        · intro t u q ht hu
          by_cases hts : t = s <;> by_cases hus : u = s
          · rw [hts, hus]
          · exfalso
            rw [hts, hl] at ht
            rw [e, lookup_cons_ne hus] at hu
            cases ht
            have := (hm.stored u _ hu).2.1
            omega
          · exfalso
            rw [hus, hl] at hu
            rw [e, lookup_cons_ne hts] at ht
            cases hu
            have := (hm.stored t _ ht).2.1
            omega
          · rw [e, lookup_cons_ne hts] at ht
            rw [e, lookup_cons_ne hus] at hu
            exact hm.inj t u q ht hu

/-- An operation never changes an entry of the string table. -/
theorem step_lookup {c : Codec} {g : Nat → Byte} {h h' : Heap} {op : Op} {r : BitVec 32} (hi : h.Inv)
    (hs : step c g h op = some (h', r)) {s : List Ch} {q : BitVec 32} (hl : h.map.lookup s = some q) :
    h'.map.lookup s = some q := by
  rcases step_spec hi op (c := c) (g := g) with ⟨_, hn⟩ | ⟨h1, r1, e1, hi1, hc1, hp1, hr1, hmap1, hnil1, hstr1, _⟩
  · rw [hn] at hs; cases hs
  rw [e1] at hs
  cases hs
  cases op with
  | block bs => rw [hmap1 (by intro s h; cases h)]; exact hl
  | bytes bs => rw [hmap1 (by intro s h; cases h)]; exact hl
  | str t =>
    by_cases he : t = []
    · rw [(hnil1 t rfl he).2]; exact hl
    · obtain ⟨_, hor⟩ := hstr1 t rfl he
      rcases hor with ⟨_, e⟩ | ⟨hnone, e, _⟩
      · rw [e]; exact hl
      · by_cases hst : s = t
        · subst hst; rw [hnone] at hl; cases hl
        · rw [e, lookup_cons_ne hst]; exact hl

theorem step_cases {c : Codec} {g : Nat → Byte} {h h' : Heap} {op : Op} {r : BitVec 32} (hi : h.Inv)
    (hs : step c g h op = some (h', r)) : h'.Inv ∧ h'.content = h.content ++ added c h op ∧
      h'.buf.p = h.buf.p + (added c h op).length := by
  rcases step_spec hi op (c := c) (g := g) with ⟨_, hn⟩ | ⟨h1, r1, e1, hi1, hc1, hp1, _⟩
  · rw [hn] at hs; cases hs
  rw [e1] at hs
  cases hs
  exact ⟨hi1, hc1, hp1⟩

theorem run_spec {c : Codec} : ∀ {ops : List ((Nat → Byte) × Op)} {h h' : Heap} {rs : List (BitVec 32)}, h.Inv →
    run c h ops = some (h', rs) → h'.Inv ∧ (∃ e, h'.content = h.content ++ e) ∧ h.buf.p ≤ h'.buf.p ∧
      rs.length = ops.length ∧
      (∀ s q, h.map.lookup s = some q → h'.map.lookup s = some q) ∧
      (h'.buf.p < 2 ^ 32 → h.MapInv c → h'.MapInv c)
  | [], h, h', rs, hi, hr => by
    simp only [run] at hr
    cases hr
    exact ⟨hi, ⟨[], by simp⟩, Nat.le_refl _, rfl, fun s q h => h, fun _ h => h⟩
  | (g, op) :: ops, h, h', rs, hi, hr => by
    rw [run] at hr
    cases hs : step c g h op with
    | none => rw [hs] at hr; cases hr
    | some p =>
      obtain ⟨h1, r⟩ := p
      rw [hs] at hr
      simp only at hr
      cases hr2 : run c h1 ops with
      | none => rw [hr2] at hr; cases hr
      | some p2 =>
        obtain ⟨h2, rs2⟩ := p2
        rw [hr2] at hr
        cases hr
        obtain ⟨i1, c1, p1⟩ := step_cases hi hs
        obtain ⟨i2, ⟨e, c2⟩, p2, l2, k2, m2⟩ := run_spec i1 hr2
        refine ⟨i2, ⟨added c h op ++ e, by rw [c2, c1]; simp⟩, by omega, by simp [l2], ?_, ?_⟩
        · intro s q hl; exact k2 s q (step_lookup hi hs hl)
        · intro hlim hm
          exact m2 hlim (step_mapInv hi hm hs (by omega))

/-- Splitting a history at an operation. -/
theorem run_at {c : Codec} : ∀ {ops : List ((Nat → Byte) × Op)} {h h' : Heap} {rs : List (BitVec 32)} {i : Nat}
    {g : Nat → Byte} {op : Op} {r : BitVec 32}, h.Inv → run c h ops = some (h', rs) →
    ops[i]? = some (g, op) → rs[i]? = some r →
    ∃ ha hb, ha.Inv ∧ step c g ha op = some (hb, r) ∧ hb.Inv ∧ (∃ e, h'.content = hb.content ++ e) ∧
      hb.buf.p ≤ h'.buf.p ∧ (∀ s q, hb.map.lookup s = some q → h'.map.lookup s = some q) ∧
      h.buf.p ≤ ha.buf.p ∧ (hb.buf.p < 2 ^ 32 → h.MapInv c → ha.MapInv c)
  | [], h, h', rs, i, g, op, r, hi, hr, ho, hrs => by simp at ho
  | (g0, op0) :: ops, h, h', rs, i, g, op, r, hi, hr, ho, hrs => by
    rw [run] at hr
    cases hs : step c g0 h op0 with
    | none => rw [hs] at hr; cases hr
    | some p =>
      obtain ⟨h1, r0⟩ := p
      rw [hs] at hr
      simp only at hr
      cases hr2 : run c h1 ops with
      | none => rw [hr2] at hr; cases hr
      | some p2 =>
        obtain ⟨h2, rs2⟩ := p2
        rw [hr2] at hr
        cases hr
        obtain ⟨i1, c1, p1⟩ := step_cases hi hs
        obtain ⟨i2, e2, p2, l2, k2, m2⟩ := run_spec i1 hr2
        cases i with
        | zero =>
          simp at ho hrs
          obtain ⟨rfl, rfl⟩ := ho
          subst hrs
          exact ⟨h, h1, hi, hs, i1, e2, p2, k2, Nat.le_refl _, fun _ m => m⟩
        | succ i =>
          simp at ho hrs
          obtain ⟨ha, hb, a1, a2, a3, a4, a5, a6, a7, a8⟩ := run_at i1 hr2 ho hrs
          refine ⟨ha, hb, a1, a2, a3, a4, a5, a6, by omega, ?_⟩
          intro hl hm
          have := (step_cases a1 a2).2.2
          exact a8 hl (step_mapInv hi hm hs (by omega))

theorem cstr_eq : ∀ {s : List Ch}, 0#32 ∉ s → cstr s = s
  | [], _ => rfl
  | x :: s, hs => by
    simp only [List.mem_cons, not_or] at hs
    have ih := cstr_eq hs.2
    unfold cstr at *
    rw [List.takeWhile_cons_of_pos (by simpa using fun e : x = 0#32 => hs.1 e.symm), ih]

/-- One chunk after another, loading appends exactly the next `total` bytes of the file. -/
theorem load_spec {c : Codec} {g : Nat → Byte} : ∀ (fuel : Nat) {h : Heap} {total : Nat} {stream : List Byte},
    h.Inv → total < fuel → total ≤ stream.length →
    ∃ h', load c g fuel h total stream = some h' ∧ h'.Inv ∧ h'.content = h.content ++ stream.take total ∧
      h'.buf.p = h.buf.p + total
  | 0, h, total, stream, _, hf, _ => by omega
  | fuel + 1, h, total, stream, hi, hf, hs => by
    rw [load]
    by_cases h0 : total = 0
    · subst h0
      simp only [Nat.min_zero, List.take_zero, List.length_nil]
      rw [if_neg (by omega), if_neg (by simp)]
      exact ⟨h, rfl, hi, by simp, by simp⟩
    · have hlen : (stream.take (min 1024 total)).length = min 1024 total := by
        rw [List.length_take]; omega
      simp only [hlen]
      rw [if_pos (by omega)]
      rcases step_spec hi (.bytes (stream.take (min 1024 total))) (c := c) (g := g) with
        ⟨ht, _⟩ | ⟨h1, r1, e1, hi1, hc1, hp1, _⟩
      · exact ht.elim
      rw [e1]
      simp only [added] at hc1 hp1
      obtain ⟨h2, e2, hi2, hc2, hp2⟩ := load_spec fuel (h := h1) (total := total - min 1024 total)
        (stream := stream.drop (min 1024 total)) hi1 (by omega) (by rw [List.length_drop]; omega)
      refine ⟨h2, e2, hi2, ?_, ?_⟩
      · rw [hc2, hc1, List.append_assoc]
        congr 1
        have : total = min 1024 total + (total - min 1024 total) := by omega
        conv => rhs; rw [this, List.take_add]
      · rw [hp2, hp1, hlen]; omega

/-- A truncated file is refused. -/
theorem load_truncated {c : Codec} {g : Nat → Byte} : ∀ (fuel : Nat) {h : Heap} {total : Nat} {stream : List Byte},
    h.Inv → stream.length < total → load c g fuel h total stream = none
  | 0, _, _, _, _, _ => rfl
  | fuel + 1, h, total, stream, hi, hs => by
    rw [load]
    have hlen : (stream.take (min 1024 total)).length = min 1024 stream.length := by
      rw [List.length_take]; omega
    simp only [hlen]
    by_cases h0 : 0 < min 1024 stream.length
    · rw [if_pos h0]
      rcases step_spec hi (.bytes (stream.take (min 1024 total))) (c := c) (g := g) with
        ⟨ht, _⟩ | ⟨h1, r1, e1, hi1, _⟩
      · exact ht.elim
      rw [e1]
      exact load_truncated fuel hi1 (by rw [List.length_drop]; omega)
    · rw [if_neg h0, if_pos (by omega)]

end Verif.Heap
