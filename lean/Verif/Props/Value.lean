import Verif.Proof.Value
import Verif.Props.Heap

/-!
C56 (constants survive in an assembly), C58 (comparing typed numbers), C59 (negating and reinterpreting them).
-/

namespace Verif.Value

open Verif.Heap (Byte Heap Codec init run WithinLimit)

/-! ## C58 — comparison -/

/-- **C58 (partial).** Two typed integers are compared by the numbers they denote, whatever their types — except when
one is an unsigned 64-bit value and the other a negative number of another type.  Missing: that case, which is wrong,
see `compare_refuted`. -/
theorem compare_partial (fl fe : FloatLess) {a b : TValue} {x y : Int} (ha : a.num = some x) (hb : b.num = some y)
    (hab : a.tag = b.tag ∨ (a.tag = 8 → 0 ≤ y) ∧ (b.tag = 8 → 0 ≤ x)) :
    less fl a b = decide (x < y) ∧ equal fe a b = decide (x = y) := by
  have hfa := num_isFloat ha
  have hfb := num_isFloat hb
  -- a value of type `uint64_t` is not negative
  have h8 : ∀ {a : TValue} {x : Int}, a.num = some x → a.tag = 8 → 0 ≤ x := by
    intro a x h ht
    cases a <;> cases h <;> first | omega | (simp [TValue.tag] at ht; done)
  by_cases ht : a.tag = b.tag
  · refine ⟨less_same ha hb ht, ?_⟩
    unfold equal
    rw [hfa, hfb]
    simp only [Bool.or_self, Bool.false_eq_true, if_false]
    by_cases h : a.tag = 8
    · have e1 := bits_toNat ha (h8 ha h)
      have e2 := bits_toNat hb (h8 hb (ht ▸ h))
      rw [← e1, ← e2, Bool.eq_iff_iff]
      simp [← BitVec.toNat_inj]
      omega
    · have e1 := bits_toInt ha h
      have e2 := bits_toInt hb (ht ▸ h)
      rw [← e1, ← e2, Bool.eq_iff_iff]
      simp [BitVec.toInt_inj]
  · have hab : (a.tag = 8 → 0 ≤ y) ∧ (b.tag = 8 → 0 ≤ x) := by
      rcases hab with h | h
      · exact absurd h ht
      · exact h
    rw [less_general ht]
    unfold equal
    rw [hfa, hfb]
    simp only [Bool.or_self, Bool.false_eq_true, if_false]
    by_cases h : a.tag = 8 ∨ b.tag = 8
    · have hx : 0 ≤ x := by
        rcases h with h | h
        · exact h8 ha h
        · exact hab.2 h
      have hy : 0 ≤ y := by
        rcases h with h | h
        · exact hab.1 h
        · exact h8 hb h
      have e1 := bits_toNat ha hx
      have e2 := bits_toNat hb hy
      rw [if_pos (by simpa using h), ← e1, ← e2]
      constructor
      · simp [BitVec.ult_eq_decide]
      · rw [Bool.eq_iff_iff]; simp [← BitVec.toNat_inj]; omega
    · have h1 : a.tag ≠ 8 := fun e => h (Or.inl e)
      have h2 : b.tag ≠ 8 := fun e => h (Or.inr e)
      have e1 := bits_toInt ha h1
      have e2 := bits_toInt hb h2
      rw [if_neg (by simpa using h), ← e1, ← e2]
      constructor
      · simp [BitVec.slt_eq_decide]
      · rw [Bool.eq_iff_iff]; simp [BitVec.toInt_inj]

/-- A concrete case: a `uint64` and a `bool`. -/
example : less (fun _ _ => false) (.bool true) (.uint64 5) = true := by decide

/-- **C58, refuted.** Comparing an unsigned 64-bit number with a negative number treats the negative number as a huge
one: 5 is reported smaller than -1, and 2^64 - 1 equal to -1. -/
theorem compare_refuted (fl fe : FloatLess) :
    less fl (.uint64 5) (.int32 (-1)) = true ∧ (TValue.uint64 5).num = some 5 ∧ (TValue.int32 (-1)).num = some (-1) ∧
    equal fe (.uint64 (-1)) (.int32 (-1)) = true := by
  refine ⟨rfl, rfl, by decide, rfl⟩

/-- **C58, refuted.** The comparison is not an order: -1 < 0, 0 < 5 and 5 < -1 all hold for suitable types.  It is used
as the order of a `std::map`. -/
theorem compare_cycle_refuted (fl : FloatLess) :
    less fl (.int32 (-1)) (.int32 0) = true ∧ less fl (.int32 0) (.uint64 5) = true ∧
    less fl (.uint64 5) (.int32 (-1)) = true := ⟨rfl, rfl, rfl⟩

/-! ## C59 — negation and reinterpretation -/

/-- **C59 (partial).** Negating a typed integer gives a value denoting the negated number, for every value except the
least one of a 32- or 64-bit signed type (undefined behaviour) and the non-zero ones of the unsigned 32- and 64-bit
types.  Missing: those, which the code negates modulo 2^32 and 2^64, see `negate_refuted`. -/
theorem negate_partial {v : TValue} {x : Int} (hv : v.num = some x)
    (hmin : v ≠ .int32 0x80000000#32 ∧ v ≠ .char 0x80000000#32 ∧ v ≠ .int64 0x8000000000000000#64)
    (hun : v.tag = 6 ∨ v.tag = 8 → x = 0) : ∃ w, negate v = some w ∧ w.num = some (-x) := by
  have neg32 : ∀ u : BitVec 32, u ≠ 0x80000000#32 → (-u).toInt = -u.toInt := by
    intro u hu
    rw [BitVec.toInt_neg_of_ne_intMin (show u ≠ BitVec.intMin 32 from hu)]
  cases v <;> cases hv
  case int8 v =>
    refine ⟨_, rfl, ?_⟩
    have : (v.signExtend 32).toInt = v.toInt := BitVec.toInt_signExtend_of_le (by decide)
    have h1 := BitVec.toInt_lt (x := v); have h2 := BitVec.le_toInt (x := v)
    simp only [TValue.num]
    rw [neg32 _ (by intro e; rw [e] at this; simp at this; omega), this]
  case int16 v =>
    refine ⟨_, rfl, ?_⟩
    have : (v.signExtend 32).toInt = v.toInt := BitVec.toInt_signExtend_of_le (by decide)
    have h1 := BitVec.toInt_lt (x := v); have h2 := BitVec.le_toInt (x := v)
    simp only [TValue.num]
    rw [neg32 _ (by intro e; rw [e] at this; simp at this; omega), this]
  case uint8 v =>
    refine ⟨_, rfl, ?_⟩
    have hl := v.isLt
    have hn : (v.setWidth 32).toNat = v.toNat := by rw [BitVec.toNat_setWidth]; omega
    have : (v.setWidth 32).toInt = v.toNat := by rw [BitVec.toInt_eq_toNat_of_lt (by omega), hn]
    simp only [TValue.num]
    rw [neg32 _ (by intro e; rw [e] at hn; simp at hn; omega), this]
  case uint16 v =>
    refine ⟨_, rfl, ?_⟩
    have hl := v.isLt
    have hn : (v.setWidth 32).toNat = v.toNat := by rw [BitVec.toNat_setWidth]; omega
    have : (v.setWidth 32).toInt = v.toNat := by rw [BitVec.toInt_eq_toNat_of_lt (by omega), hn]
    simp only [TValue.num]
    rw [neg32 _ (by intro e; rw [e] at hn; simp at hn; omega), this]
  case int32 v =>
    have : v ≠ 0x80000000#32 := fun e => hmin.1 (by rw [e])
    refine ⟨.int32 (-v), by simp [negate, this], ?_⟩
    simp only [TValue.num]
    rw [neg32 v this]
  case char v =>
    have : v ≠ 0x80000000#32 := fun e => hmin.2.1 (by rw [e])
    refine ⟨.int32 (-v), by simp [negate, this], ?_⟩
    simp only [TValue.num]
    rw [neg32 v this]
  case int64 v =>
    have : v ≠ 0x8000000000000000#64 := fun e => hmin.2.2 (by rw [e])
    refine ⟨.int64 (-v), by simp [negate, this], ?_⟩
    simp only [TValue.num]
    rw [BitVec.toInt_neg_of_ne_intMin (show v ≠ BitVec.intMin 64 from this)]
  case uint32 v =>
    have h0 := hun (Or.inl rfl)
    have : v = 0#32 := by apply BitVec.eq_of_toNat_eq; simpa using h0
    subst this
    exact ⟨_, rfl, rfl⟩
  case uint64 v =>
    have h0 := hun (Or.inr rfl)
    have : v = 0#64 := by apply BitVec.eq_of_toNat_eq; simpa using h0
    subst this
    exact ⟨_, rfl, rfl⟩
  case bool v =>
    cases v <;> exact ⟨_, rfl, rfl⟩

example : negate (.uint8 200) = some (.int32 (-200)) := by decide

/-- **C59, refuted.** Minus one, of an unsigned 32-bit one, is 4294967295. -/
theorem negate_refuted : (TValue.uint32 1).num = some 1 ∧ negate (.uint32 1) = some (.uint32 4294967295) ∧
    (TValue.uint32 4294967295).num = some 4294967295 := ⟨rfl, by decide, rfl⟩

/-- **C59.** Reinterpreting a signed integer as unsigned and back is the identity, and so is the converse. -/
theorem reinterpret_inverse (v : TValue) :
    (v.tag = 1 ∨ v.tag = 3 ∨ v.tag = 5 ∨ v.tag = 7 → toSigned (toUnsigned v) = v) ∧
    (v.tag = 2 ∨ v.tag = 4 ∨ v.tag = 6 ∨ v.tag = 8 → toUnsigned (toSigned v) = v) := by
  refine ⟨?_, ?_⟩
  · cases v <;> first | exact fun _ => rfl | (simp [TValue.tag]; done)
  · cases v <;> first | exact fun _ => rfl | (simp [TValue.tag]; done)

/-- **C59.** Reinterpreting changes the number only by a multiple of `256`, and a non-negative number not at all when it
is made unsigned. -/
theorem reinterpret_value (v : TValue) :
    ∀ x, v.num = some x → ∃ y z k l : Int, (toUnsigned v).num = some y ∧ (toSigned v).num = some z ∧
      y = x + 256 * k ∧ z = x + 256 * l ∧ ((0 ≤ x ∨ v.tag = 12 ∨ v.tag = 13) → y = x) := by
  intro x hx
  have sgn : ∀ {w : Nat} (v : BitVec w), 8 ≤ w → ∃ k : Int, (v.toNat : Int) = v.toInt + 256 * k ∧ (0 ≤ v.toInt → (v.toNat : Int) = v.toInt) := by
    intro w v hw
    have e : (2 : Int) ^ w = 256 * 2 ^ (w - 8) := by
      rw [show (256 : Int) = 2 ^ 8 by decide, ← Int.pow_add, show 8 + (w - 8) = w by omega]
    rw [BitVec.toInt_eq_toNat_cond]
    have hl := v.isLt
    split
    · exact ⟨0, by omega, fun _ => rfl⟩
    · refine ⟨2 ^ (w - 8), ?_, ?_⟩
      · push_cast; rw [e]; omega
      · intro h
        have : ((2 ^ w : Nat) : Int) = (2:Int)^w := by push_cast; rfl
        omega
  cases v <;> cases hx
  case int8 v => obtain ⟨k, hk, h0⟩ := sgn v (by decide); exact ⟨_, _, k, 0, rfl, rfl, hk, by omega, fun h => h0 (by simpa [TValue.tag] using h)⟩
  case int16 v => obtain ⟨k, hk, h0⟩ := sgn v (by decide); exact ⟨_, _, k, 0, rfl, rfl, hk, by omega, fun h => h0 (by simpa [TValue.tag] using h)⟩
  case int32 v => obtain ⟨k, hk, h0⟩ := sgn v (by decide); exact ⟨_, _, k, 0, rfl, rfl, hk, by omega, fun h => h0 (by simpa [TValue.tag] using h)⟩
  case int64 v => obtain ⟨k, hk, h0⟩ := sgn v (by decide); exact ⟨_, _, k, 0, rfl, rfl, hk, by omega, fun h => h0 (by simpa [TValue.tag] using h)⟩
  case uint8 v => obtain ⟨k, hk, _⟩ := sgn v (by decide); exact ⟨_, _, 0, -k, rfl, rfl, by omega, by omega, fun _ => rfl⟩
  case uint16 v => obtain ⟨k, hk, _⟩ := sgn v (by decide); exact ⟨_, _, 0, -k, rfl, rfl, by omega, by omega, fun _ => rfl⟩
  case uint32 v => obtain ⟨k, hk, _⟩ := sgn v (by decide); exact ⟨_, _, 0, -k, rfl, rfl, by omega, by omega, fun _ => rfl⟩
  case uint64 v => obtain ⟨k, hk, _⟩ := sgn v (by decide); exact ⟨_, _, 0, -k, rfl, rfl, by omega, by omega, fun _ => rfl⟩
  case bool v => exact ⟨_, _, 0, 0, rfl, rfl, by omega, by omega, fun _ => rfl⟩
  case char v => exact ⟨_, _, 0, 0, rfl, rfl, by omega, by omega, fun _ => rfl⟩

/-! ## C56 — constants -/

/-- **C56 (partial).** A constant of at most 32 bits, stored in a row, is read back with the same type and value from
that row, whatever is in the heap by then. -/
theorem constant_narrow_partial (c : Codec) (g : Nat → Byte) (h : Heap) {v : TValue} (hv : v.wide = none)
    (hl : v ≠ .ldouble) : ∃ r, commitNumber c g h v = some (r, h) ∧ ∀ h2, readConst h2 r = some v := by
  cases v <;> first | cases hv | skip
  case ldouble => exact absurd rfl hl
  case bool v => refine ⟨_, rfl, fun h2 => ?_⟩; cases v <;> rfl
  all_goals
    rename_i v
    refine ⟨_, rfl, fun h2 => ?_⟩
    simp [readConst, Row.zero, TValue.tag]

/-- **C56 (partial).** A 64-bit constant whose upper half is stored in the row (it lies in 0..0xFFFF or in
0xFFFF0000..0xFFFFFFFF) is read back unchanged exactly when its lowest 16 bits are zero. -/
theorem constant_wide_partial (c : Codec) (g : Nat → Byte) (h : Heap) {v : TValue} {x : BitVec 64}
    (hv : v.wide = some x) (hin : x.toNat / 2 ^ 32 ≤ 0xFFFF ∨ 0xFFFF0000 ≤ x.toNat / 2 ^ 32) :
    ∃ r, commitNumber c g h v = some (r, h) ∧ ∀ h2, (readConst h2 r = some v ↔ x.toNat % 2 ^ 16 = 0) := by
  have hi : inlined x := by unfold inlined; omega
  obtain ⟨r', e, ht, hr⟩ := assign64_inline (c := c) (g := g) (h := h) (v := x)
    (r := { Row.zero with ctype := (1#8 <<< 5) ||| v.tag }) ⟨rfl, rfl⟩ hi
  refine ⟨r', ?_, fun h2 => ?_⟩
  · cases v <;> cases hv <;> exact e
  · obtain ⟨w, hw, hiff⟩ := hr h2
    cases v <;> cases hv
    case refine_2.int64 => rw [readConst_wide.1 (by rw [ht]; simp [TValue.tag]), hw]; simpa using hiff
    case refine_2.uint64 => rw [readConst_wide.2.1 (by rw [ht]; simp [TValue.tag]), hw]; simpa using hiff
    case refine_2.double => rw [readConst_wide.2.2 (by rw [ht]; simp [TValue.tag]), hw]; simpa using hiff

/-- **C56, refuted.** No 64-bit constant from 1 to 65535 survives. -/
theorem constant_wide_refuted (c : Codec) (g : Nat → Byte) (h : Heap) {x : BitVec 64} (h1 : 1 ≤ x.toNat)
    (h2 : x.toNat ≤ 65535) : ∃ r, commitNumber c g h (.int64 x) = some (r, h) ∧ ∀ h2, readConst h2 r ≠ some (.int64 x) := by
  obtain ⟨r, e, hr⟩ := constant_wide_partial c g h (v := .int64 x) rfl (by omega)
  refine ⟨r, e, fun h2 => ?_⟩
  rw [Ne, hr h2]
  omega

/-- For instance 1 is read back as 0x0001000000000001. -/
example (c : Codec) (g : Nat → Byte) (h : Heap) : ∃ r, commitNumber c g h (.int64 1) = some (r, h) ∧
    readConst h r = some (.int64 0x0001000000000001#64) := ⟨_, rfl, rfl⟩

theorem run_append {c : Codec} : ∀ {a b : List ((Nat → Byte) × Heap.Op)} {h h1 h2 : Heap} {r1 r2 : List (BitVec 32)},
    run c h a = some (h1, r1) → run c h1 b = some (h2, r2) → run c h (a ++ b) = some (h2, r1 ++ r2)
  | [], b, h, h1, h2, r1, r2, e1, e2 => by cases e1; exact e2
  | (g, op) :: a, b, h, h1, h2, r1, r2, e1, e2 => by
    simp only [run, List.cons_append] at e1 ⊢
    cases hs : Heap.step c g h op with
    | none => rw [hs] at e1; cases e1
    | some p =>
      obtain ⟨h', r⟩ := p
      rw [hs] at e1
      simp only at e1 ⊢
      cases hr : run c h' a with
      | none => rw [hr] at e1; cases e1
      | some q =>
        obtain ⟨h'', rs⟩ := q
        rw [hr] at e1
        cases e1
        rw [run_append hr e2]
        rfl

/-- **C56 (partial).** A 64-bit constant whose upper half is not stored in the row goes to the heap; it is read back
unchanged exactly when something else is put on the heap after it, and otherwise reading it throws. -/
theorem constant_extern_partial {c : Codec} {g0 g : Nat → Byte} {ops ops2 : List ((Nat → Byte) × Heap.Op)}
    {h0 h h1 h2 : Heap} {rs rs2 : List (BitVec 32)} {v : TValue} {x : BitVec 64} {r : Row}
    (h0e : init g0 = some h0) (hrun : run c h0 ops = some (h, rs)) (hv : v.wide = some x)
    (hout : 0xFFFF < x.toNat / 2 ^ 32 ∧ x.toNat / 2 ^ 32 < 0xFFFF0000)
    (hcommit : commitNumber c g h v = some (r, h1)) (hrun2 : run c h1 ops2 = some (h2, rs2)) (hlim : WithinLimit h2) :
    readConst h2 r = if h1.buf.p < h2.buf.p then some v else none := by
  have hi : ¬ inlined x := by unfold inlined; omega
  -- the row and the heap operation
  have hc : ∃ t, Heap.step c g h (.bytes (le64 x)) = some (h1, r.data2) ∧ r.extern = true ∧
      r.ctype = (1#8 <<< 5) ||| v.tag ∧ t = v.tag := by
    cases v <;> cases hv
    all_goals
      simp only [commitNumber] at hcommit
      rw [assign64_extern hi] at hcommit
      cases hs : Heap.step c g h (.bytes (le64 x)) with
      | none => rw [hs] at hcommit; cases hcommit
      | some p =>
        rw [hs] at hcommit
        cases hcommit
        exact ⟨_, rfl, rfl, rfl, rfl⟩
  obtain ⟨_, hs, hext, hct, _⟩ := hc
  have hr1 : run c h [(g, .bytes (le64 x))] = some (h1, [r.data2]) := by
    simp [run, hs]
  have hr := run_append (run_append hrun hr1) hrun2
  have hlen : rs.length = ops.length := by
    obtain ⟨hi0, _⟩ := Heap.mapInv_init (c := c) h0e
    exact (Heap.run_spec hi0 hrun).2.2.2.1
  have hop : (ops ++ [(g, Heap.Op.bytes (le64 x))] ++ ops2)[ops.length]? = some (g, .bytes (le64 x)) := by
    rw [List.append_assoc, List.getElem?_append_right (Nat.le_refl _)]; simp
  have hres : (rs ++ [r.data2] ++ rs2)[ops.length]? = some r.data2 := by
    rw [← hlen, List.append_assoc, List.getElem?_append_right (Nat.le_refl _)]; simp
  have hne : le64 x ≠ [] := by intro e; have := le64_length x; rw [e] at this; cases this
  have key := Heap.heap_entity_partial h0e hr hlim hop hres hne
  rw [le64_length] at key
  -- where the value lies
  have hpos : r.data2.toNat + 8 = h1.buf.p := by
    obtain ⟨hi0, _⟩ := Heap.mapInv_init (c := c) h0e
    have hih := (Heap.run_spec hi0 hrun).1
    rcases Heap.step_spec hih (.bytes (le64 x)) (c := c) (g := g) with ⟨_, hn⟩ | ⟨h', r', e1, hi1, _, hp1, hr1, _⟩
    · rw [hn] at hs; cases hs
    rw [e1] at hs
    cases hs
    have hr' := hr1 (by simpa [Heap.added] using hne)
    simp only [Heap.added, le64_length] at hp1
    have hple := (Heap.run_spec hi1 hrun2).2.2.1
    unfold WithinLimit at hlim
    rw [hr', BitVec.toNat_ofNat]
    omega
  have hread : read64 h2 r = if h1.buf.p < h2.buf.p then some x else none := by
    unfold read64
    rw [hext, key, hpos]
    simp only [Bool.not_true, Bool.false_eq_true, if_false]
    split
    · simp [ofLe64_le64]
    · rfl
  cases v <;> cases hv
  case int64 => rw [readConst_wide.1 (by rw [hct]; simp [TValue.tag]), hread]; split <;> rfl
  case uint64 => rw [readConst_wide.2.1 (by rw [hct]; simp [TValue.tag]), hread]; split <;> rfl
  case double => rw [readConst_wide.2.2 (by rw [hct]; simp [TValue.tag]), hread]; split <;> rfl

/-- A constant that goes to the heap. -/
example : 0xFFFF < (0x0102030405060708#64).toNat / 2 ^ 32 ∧ (0x0102030405060708#64).toNat / 2 ^ 32 < 0xFFFF0000 := by
  decide

/-- **C56, refuted.** Constants of different types that compare equal share one row: after the `int` 1 has been
committed, the `long` 1 gets its row and is read back as an `int`. -/
theorem constant_type_refuted (c : Codec) (fl : FloatLess) (g : Nat → Byte) (h : Heap) :
    ∃ p r, Pool.commits c fl ⟨[], [], h⟩ [(g, .int32 1), (g, .int64 1)] = some (p, [0, 0]) ∧
      p.rows[0]? = some r ∧ ∀ h2, readConst h2 r = some (.int32 1) := ⟨_, _, rfl, rfl, fun _ => rfl⟩

/-- The invariant of the pool: every entry of the map has a row from which its key is read back. -/
def Pool.Ok (p : Pool) : Prop :=
  ∀ e ∈ p.map, e.1.wide = none ∧ e.1.num.isSome ∧ ∃ r, p.rows[e.2]? = some r ∧ ∀ h2, readConst h2 r = some e.1

theorem commit_ok {c : Codec} {fl : FloatLess} {g : Nat → Byte} {p : Pool} (hp : p.Ok) {v : TValue}
    (hv : v.wide = none) (hn : v.num.isSome) : ∃ p' i w, p.commit c fl g v = some (p', i) ∧ p'.Ok ∧
      (∃ e, p'.rows = p.rows ++ e) ∧ (∀ e, e ∈ p'.map → e ∈ p.map ∨ e = (v, i)) ∧ (w, i) ∈ p'.map ∧
      (w = v ∨ (less fl w v = false ∧ less fl v w = false)) := by
  unfold Pool.commit
  cases hf : p.find fl v with
  | some i =>
    unfold Pool.find at hf
    rw [Option.map_eq_some_iff] at hf
    obtain ⟨e, he, rfl⟩ := hf
    have hm := List.mem_of_find?_eq_some he
    have hq := List.find?_some he
    simp only [Bool.and_eq_true, Bool.not_eq_true'] at hq
    exact ⟨p, e.2, e.1, rfl, hp, ⟨[], by simp⟩, fun e h => Or.inl h, hm, Or.inr hq⟩
  | none =>
    obtain ⟨r, hc, hr⟩ := constant_narrow_partial c g p.heap hv (by rintro rfl; cases hn)
    rw [hc]
    refine ⟨_, _, v, rfl, ?_, ⟨[r], rfl⟩, ?_, List.mem_cons_self .., Or.inl rfl⟩
    · intro e he
      rcases List.mem_cons.1 he with rfl | he
      · exact ⟨hv, hn, r, by simp, hr⟩
      · obtain ⟨h1, h2, r', h3, h4⟩ := hp e he
        refine ⟨h1, h2, r', ?_, h4⟩
        have := (List.getElem?_eq_some_iff.1 h3).1
        rw [List.getElem?_append_left this, h3]
    · intro e he
      rcases List.mem_cons.1 he with rfl | he
      · exact Or.inr rfl
      · exact Or.inl he

/-- **C56 (partial).** For any sequence of integer, character and boolean constants of at most 32 bits, every constant
is read back from the row it was given, once all have been committed, as a value that compares equal to it. When all
have the same type it is the very same constant, and two constants share a row only if they are equal.  Missing:
64-bit constants, and the type of constants of different types that compare equal (`constant_type_refuted`). -/
theorem constants_kept_partial {c : Codec} {fl : FloatLess} : ∀ {vs : List ((Nat → Byte) × TValue)} {p : Pool},
    p.Ok → (∀ e ∈ vs, e.2.wide = none ∧ e.2.num.isSome) →
    ∃ p' is, Pool.commits c fl p vs = some (p', is) ∧ p'.Ok ∧ (∃ e, p'.rows = p.rows ++ e) ∧ is.length = vs.length ∧
      ∀ (k : Nat) g v i, vs[k]? = some (g, v) → is[k]? = some i →
        ∃ r w, p'.rows[i]? = some r ∧ (∀ h2, readConst h2 r = some w) ∧ w.num = v.num ∧ (w.tag = v.tag → w = v)
  | [], p, hp, _ => ⟨p, [], rfl, hp, ⟨[], by simp⟩, rfl, by simp⟩
  | (g, v) :: vs, p, hp, hvs => by
    obtain ⟨hv, hn⟩ := hvs (g, v) (List.mem_cons_self ..)
    obtain ⟨p1, i1, w, e1, hp1, ⟨x1, hx1⟩, hm1, hw, hwv⟩ := commit_ok (c := c) (fl := fl) (g := g) hp hv hn
    obtain ⟨p2, is, e2, hp2, ⟨x2, hx2⟩, hl, hall⟩ := constants_kept_partial (c := c) (fl := fl) (vs := vs) hp1
      (fun e he => hvs e (List.mem_cons_of_mem _ he))
    refine ⟨p2, i1 :: is, ?_, hp2, ⟨x1 ++ x2, by rw [hx2, hx1, List.append_assoc]⟩, by simp [hl], ?_⟩
    · simp [Pool.commits, e1, e2]
    · intro k g' v' i hk hi
      cases k with
      | succ k => exact hall k g' v' i (by simpa using hk) (by simpa using hi)
      | zero =>
        simp only [List.getElem?_cons_zero, Option.some.injEq, Prod.mk.injEq] at hk hi
        obtain ⟨rfl, rfl⟩ := hk
        subst hi
        obtain ⟨hww, hwn, r, hr, hrd⟩ := hp1 (w, i1) hw
        simp only at hww hwn hr hrd
        have hr2 : p2.rows[i1]? = some r := by
          rw [hx2, List.getElem?_append_left (List.getElem?_eq_some_iff.1 hr).1, hr]
        refine ⟨r, w, hr2, hrd, ?_⟩
        rcases hwv with rfl | ⟨hl1, hl2⟩
        · exact ⟨rfl, fun _ => rfl⟩
        obtain ⟨x, hx⟩ := Option.isSome_iff_exists.1 hwn
        obtain ⟨y, hy⟩ := Option.isSome_iff_exists.1 hn
        have n8 : ∀ {a : TValue}, a.wide = none → a.tag ≠ 8 := by
          intro a ha
          cases a <;> first | (simp [TValue.tag]; done) | cases ha
        have c1 := (compare_partial fl fl hx hy (Or.inr ⟨fun h => absurd h (n8 hww), fun h => absurd h (n8 hv)⟩)).1
        have c2 := (compare_partial fl fl hy hx (Or.inr ⟨fun h => absurd h (n8 hv), fun h => absurd h (n8 hww)⟩)).1
        rw [hl1] at c1
        rw [hl2] at c2
        have hxy : x = y := by
          have a1 := of_decide_eq_false c1.symm
          have a2 := of_decide_eq_false c2.symm
          omega
        subst hxy
        refine ⟨by rw [hx, hy], fun ht => ?_⟩
        have hi : ∀ {n : Nat} {a b : BitVec n}, a.toInt = b.toInt → a = b := BitVec.eq_of_toInt_eq
        have hnn : ∀ {n : Nat} {a b : BitVec n}, (a.toNat : Int) = b.toNat → a = b := fun h =>
          BitVec.eq_of_toNat_eq (by omega)
        cases w <;> cases hx <;> cases v <;> simp [TValue.tag] at ht <;>
          simp only [TValue.num, Option.some.injEq] at hy <;>
          first
            | (rw [hi hy])
            | (rw [hnn hy])
            | (rename_i a b; cases a <;> cases b <;> simp at hy <;> rfl)

/-- The empty pool satisfies the invariant, and there are such sequences. -/
example (h : Heap) : Pool.Ok ⟨[], [], h⟩ ∧ ∀ e ∈ [((fun _ => 0#8 : Nat → Byte), TValue.int32 7), ((fun _ => 1#8), TValue.char 97#32)],
    e.2.wide = none ∧ e.2.num.isSome := by
  refine ⟨?_, ?_⟩
  · intro e he
    simp at he
  intro e he
  simp only [List.mem_cons, List.not_mem_nil, or_false] at he
  rcases he with rfl | rfl <;> exact ⟨rfl, rfl⟩

end Verif.Value
